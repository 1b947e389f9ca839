import Verif.Model.Heap
import Verif.Model.Parser

/-!
# What parsing does to memory

The functions of include/parser/parser_impl.hpp once more, with the heap of Model/Heap.lean. A value that has been read owns cells; the local variables of the functions own values; leaving a
function, by `return` or by an exception, destroys its local variables. What bytes are consumed is as in Model/Parser.lean, whose functions are used where no memory is involved.

* Every allocation may fail, by throwing `std::bad_alloc`; nothing in parser_impl.hpp catches it. Allocations are numbered as in Model/Heap.lean. Where the standard lets a container allocate or
  not (a text, the buffer of a vector), there is one number.
* `std::string`, the buffer of the vector `result` (parse_array, 192) and the nodes of the map `result` (parse_object, 249) are freed by their destructors. They are not cells; the values in them are.
* Moving a `value` does not throw and leaves nothing behind that owns a cell (value_impl.hpp:86). So `emplace_back` (211) either takes the value or throws and leaves the vector as it was,
  and `emplace` (281) destroys what it does not insert.
-/

set_option autoImplicit false

namespace Meojson.Mem

/-- How a function of the parser ends: with a result and a new position; with an invalid value or `nullopt`; with `std::bad_alloc`. -/
inductive PRes (α : Type) where
  | ok (h : Heap) (a : α) (rest : Bytes)
  | fail (h : Heap)
  | oom (h : Heap)
  | ub
  | timeout

/-- The values among the local variables are destroyed, and `invalid_value()` or `nullopt` is returned. -/
def leave {α : Type} (own : List HVal) (h : Heap) : PRes α :=
  match destroyList (destroyVal h.fuel) h own with
  | some h => .fail h
  | none => .ub

/-- They are destroyed because of an exception. -/
def raise {α : Type} (own : List HVal) (h : Heap) : PRes α :=
  match destroyList (destroyVal h.fuel) h own with
  | some h => .oom h
  | none => .ub

/-- A step that needs no memory, and then `k`. -/
def still {α β : Type} (own : List HVal) (h : Heap) (r : Res α) (k : α → Bytes → PRes β) : PRes β :=
  match r with
  | .ok a s => k a s
  | .fail => leave own h
  | .ub => .ub
  | .timeout => .timeout

/-- A step that allocates, and then `k`. -/
def alloc {β : Type} (oom : Addr → Bool) (own : List HVal) (h : Heap) (k : Heap → PRes β) : PRes β :=
  if oom h.next then raise own h.bump else k h.bump

/-- A call, and then `k`. -/
def during {α β : Type} (own : List HVal) (r : PRes α) (k : Heap → α → Bytes → PRes β) : PRes β :=
  match r with
  | .ok h a s => k h a s
  | .fail h => leave own h
  | .oom h => raise own h
  | .ub => .ub
  | .timeout => .timeout

/-- A new cell: `return array(std::move(result));`, 227, with the constructor of `value`, value_impl.hpp:184-188; `return object(std::move(result));`, 300, with 196-200. -/
def box (oom : Addr → Bool) (h : Heap) (t : VType) (c : Cell) (p : Option Addr → Raw) (rest : Bytes) : PRes HVal :=
  if oom h.next then raise c.children h.bump else .ok (h.bump.set h.next (some c)) ⟨t, p (some h.next)⟩ rest

mutual

/-- `parse_value`, parser_impl.hpp:48-78. A boolean (107, 117) and a number (160) make a text after reading; a string (163-171) while reading. -/
def valueH (oom : Addr → Bool) (cfg : Cfg) : Nat → Heap → Bytes → PRes HVal
  | 0, _, _ => .timeout
  | _ + 1, _, [] => .ub
  | n + 1, h, c :: s =>
    if c = 0x6e then still [] h (parseNull (c :: s)) fun v s => .ok (build h v).1 (build h v).2 s
    else if c = 0x74 ∨ c = 0x66 then still [] h (parseBoolean (c :: s)) fun v s => alloc oom [] h fun h => .ok (build h v).1 (build h v).2 s
    else if c = 0x2d ∨ isDigit c then still [] h (parseNumber (c :: s)) fun v s => alloc oom [] h fun h => .ok (build h v).1 (build h v).2 s
    else if c = 0x22 then alloc oom [] h fun h => still [] h (parseString cfg.accel (c :: s)) fun v s => .ok (build h v).1 (build h v).2 s
    else if c = 0x5b then arrayH oom cfg n h (c :: s)
    else if c = 0x7b then objectH oom cfg n h (c :: s)
    else .fail h

/-- `parse_array`, parser_impl.hpp:173-228. -/
def arrayH (oom : Addr → Bool) (cfg : Cfg) : Nat → Heap → Bytes → PRes HVal
  | 0, _, _ => .timeout
  | _ + 1, _, [] => .ub
  | n + 1, h, c :: s =>
    if c ≠ 0x5b then .fail h
    else
      still [] h (skipWhitespace cfg.jsonc s) fun more cur =>
      if more = false then .fail h
      else match cur with
        | [] => .ub
        | d :: cur' =>
          if d = 0x5d then box oom h .array (.arr []) .arr cur'
          else
            during [] (arrayLoopH oom cfg n h [] (d :: cur')) fun h result cur =>
            still result h (skipWhitespace cfg.jsonc cur) fun more cur =>
            if more = false then leave result h
            else match cur with
              | [] => .ub
              | d :: cur' => if d = 0x5d then box oom h .array (.arr result) .arr cur' else leave result h

/-- The loop of `parse_array`, parser_impl.hpp:193-218; `result` and then `val` are the local variables. -/
def arrayLoopH (oom : Addr → Bool) (cfg : Cfg) : Nat → Heap → List HVal → Bytes → PRes (List HVal)
  | 0, _, _, _ => .timeout
  | n + 1, h, result, cur =>
    still result h (skipWhitespace cfg.jsonc cur) fun more cur =>
    if more = false then leave result h
    else match cur with
      | [] => .ub
      | c :: s =>
        if cfg.jsonc = true ∧ c = 0x5d then .ok h result (c :: s)
        else
          during result (valueH oom cfg n h (c :: s)) fun h val cur =>
          still (val :: result) h (skipWhitespace cfg.jsonc cur) fun more cur =>
          if more = false then leave (val :: result) h
          else
            alloc oom (val :: result) h fun h =>
            match cur with
            | [] => .ub
            | c :: s =>
              if c = 0x2c then arrayLoopH oom cfg n h (result ++ [val]) s
              else .ok h (result ++ [val]) (c :: s)

/-- `parse_object`, parser_impl.hpp:230-301. -/
def objectH (oom : Addr → Bool) (cfg : Cfg) : Nat → Heap → Bytes → PRes HVal
  | 0, _, _ => .timeout
  | _ + 1, _, [] => .ub
  | n + 1, h, c :: s =>
    if c ≠ 0x7b then .fail h
    else
      still [] h (skipWhitespace cfg.jsonc s) fun more cur =>
      if more = false then .fail h
      else match cur with
        | [] => .ub
        | d :: cur' =>
          if d = 0x7d then box oom h .object (.obj []) .obj cur'
          else
            during [] (objectLoopH oom cfg n h [] (d :: cur')) fun h result cur =>
            still (result.map (·.2)) h (skipWhitespace cfg.jsonc cur) fun more cur =>
            if more = false then leave (result.map (·.2)) h
            else match cur with
              | [] => .ub
              | d :: cur' => if d = 0x7d then box oom h .object (.obj result) .obj cur' else leave (result.map (·.2)) h

/-- The loop of `parse_object`, parser_impl.hpp:250-291. Reading a key allocates only after its quote (305-312). A key that is there already (282-284): the node that was made for it, with the value, is destroyed. -/
def objectLoopH (oom : Addr → Bool) (cfg : Cfg) : Nat → Heap → List (Bytes × HVal) → Bytes → PRes (List (Bytes × HVal))
  | 0, _, _, _ => .timeout
  | n + 1, h, result, cur =>
    let own := result.map (·.2)
    still own h (skipWhitespace cfg.jsonc cur) fun more cur =>
    if more = false then leave own h
    else match cur with
      | [] => .ub
      | c :: s =>
        if cfg.jsonc = true ∧ c = 0x7d then .ok h result (c :: s)
        else if c ≠ 0x22 then leave own h
        else
          alloc oom own h fun h =>
          still own h (parseStdstring cfg.accel (c :: s)) fun key cur =>
          still own h (skipWhitespace cfg.jsonc cur) fun more cur =>
          if more = false then leave own h
          else match cur with
            | [] => .ub
            | c :: s =>
              if c ≠ 0x3a then leave own h
              else
                still own h (skipWhitespace cfg.jsonc s) fun more cur =>
                if more = false then leave own h
                else
                  during own (valueH oom cfg n h cur) fun h val cur =>
                  still (val :: own) h (skipWhitespace cfg.jsonc cur) fun more cur =>
                  if more = false then leave (val :: own) h
                  else
                    alloc oom (val :: own) h fun h =>
                    let e := RawObject.emplace key val result
                    if e.2 = false then leave (val :: own) h
                    else match cur with
                      | [] => .ub
                      | c :: s =>
                        if c = 0x2c then objectLoopH oom cfg n h e.1 s
                        else .ok h e.1 (c :: s)

end

/-- `parser::parse()`, parser_impl.hpp:17-46. -/
def parseRunH (oom : Addr → Bool) (cfg : Cfg) (fuel : Nat) (h : Heap) (s : Bytes) : PRes HVal :=
  still [] h (skipWhitespace cfg.jsonc s) fun more cur =>
  if more = false then .fail h
  else match cur with
    | [] => .ub
    | c :: cur' =>
      during [] (if c = 0x5b then arrayH oom cfg fuel h (c :: cur') else if c = 0x7b then objectH oom cfg fuel h (c :: cur') else .fail h) fun h result cur =>
      still [result] h (skipWhitespace cfg.jsonc cur) fun more cur =>
      if more then leave [result] h else .ok h result cur

/-- `json::parse` (`cfg.jsonc` false) and `json::parsec`, parser_impl.hpp:599-603, 646-650. -/
def parserH (oom : Addr → Bool) (cfg : Cfg) (h : Heap) (s : Bytes) : PRes HVal := parseRunH oom cfg (parseFuel s) h s

end Meojson.Mem
