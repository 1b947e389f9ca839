import Verif.Model.Parser

/-!
# The parser with the work of the containers

Model/Cost.lean counts the calls and loop passes of the parser and leaves out what happens inside `std::string`, `std::vector` and `std::map`. Here it is the other way round. `work` counts, as an upper
bound, the bytes that are copied into texts or carried over to a larger buffer, the values that are moved, and the bytes of keys that are compared. `asked` is the memory that is asked for, added
up over the whole parse whether or not it has been given back; what is in use at any moment is no more than this.

* A text that is appended may first be copied to a temporary string, as libstdc++ does for iterators that are not pointers.
* Moving a `std::string`, a `value` or a container takes a bounded amount of work and is counted as one. It may not throw (value_impl.hpp:86), so a vector moves its values to a larger buffer
  instead of copying them.
* Destroying what was read when the parse fails is not counted; see C75.
* What needs no container is as in Model/Parser.lean, whose functions are used.
-/

set_option autoImplicit false

namespace Meojson

/-- What the containers of the standard library cost. -/
structure Lib where
  /-- The capacity of an empty `std::string`. -/
  small : Nat
  /-- The new capacity of a string with this capacity that is to hold so many bytes. -/
  growText : Nat → Nat → Nat
  /-- The new capacity of a vector with this capacity that is to hold so many elements. -/
  growElems : Nat → Nat → Nat
  /-- How many keys `std::map::emplace` compares with the new one in a map of this size. -/
  probes : Nat → Nat
  /-- `sizeof(value)`. -/
  value : Nat
  /-- The size of a node of the map, with key and value. -/
  node : Nat
  /-- `sizeof(array)` and `sizeof(object)`, whichever is larger: a value holds them by `std::unique_ptr`. -/
  box : Nat

/-- An outcome with what it took. -/
structure Spent (α : Type) where
  res : Res α
  work : Nat
  asked : Nat

namespace Spent
variable {α β : Type}
/-- What involves no container. -/
def free (r : Res α) : Spent α := ⟨r, 0, 0⟩
def bind (r : Spent α) (f : α → Bytes → Spent β) : Spent β :=
  match r.res with
  | .ok a s => ⟨(f a s).res, r.work + (f a s).work, r.asked + (f a s).asked⟩
  | .fail => ⟨.fail, r.work, r.asked⟩
  | .ub => ⟨.ub, r.work, r.asked⟩
  | .timeout => ⟨.timeout, r.work, r.asked⟩
/-- Some work and memory, and then `r`. -/
def pay (work asked : Nat) (r : Spent α) : Spent α := ⟨r.res, work + r.work, asked + r.asked⟩
end Spent

/-- A buffer of this capacity that holds `size` and is to take `m` more: its capacity afterwards. -/
def room (grow : Nat → Nat → Nat) (cap size m : Nat) : Nat := if size + m ≤ cap then cap else grow cap (size + m)
/-- What is carried over to a larger buffer. -/
def carried (cap size m : Nat) : Nat := if size + m ≤ cap then 0 else size
/-- The size of the larger buffer, if there is to be one. -/
def larger (grow : Nat → Nat → Nat) (cap size m : Nat) : Nat := if size + m ≤ cap then 0 else grow cap (size + m)

/-- A string after bytes have been added: capacity, work, memory. -/
structure Grown where
  cap : Nat
  work : Nat
  asked : Nat

/-- `append` of `m` bytes, with a temporary; a buffer has a byte more than its capacity. -/
def Lib.append (L : Lib) (cap size m : Nat) : Grown :=
  ⟨room L.growText cap size m, 2 * m + carried cap size m, 2 * m + (if size + m ≤ cap then 0 else larger L.growText cap size m + 1)⟩
/-- `push_back` so many times. -/
def Lib.pushes (L : Lib) : Nat → Nat → Nat → Grown
  | 0, cap, _ => ⟨cap, 0, 0⟩
  | k + 1, cap, size =>
    let g := L.append cap size 1
    let r := L.pushes k g.cap (size + 1)
    ⟨r.cap, g.work + r.work, g.asked + r.asked⟩

/-- The loop of `parse_stdstring`, parser_impl.hpp:317-391; `cap` is the capacity of `result`. -/
def stringLoopE (L : Lib) (accel : Option Traits) : Nat → Nat → Bytes → Bytes → UInt16 → Bytes → Spent Bytes
  | 0, _, _, _, _, _ => .free .timeout
  | _ + 1, _, _, _, _, [] => .free .fail
  | n + 1, cap, result, beg, pairHigh, c₀ :: s₀ =>
    (Spent.free (accelStep accel (c₀ :: s₀))).bind fun more cur =>
    if more = false then .free .fail
    else match cur with
      | [] => .free .ub
      | c :: s =>
        if c = 0x09 ∨ c = 0x0d ∨ c = 0x0a then .free .fail
        else if c = 0x5c then
          let g := L.append cap result.length (between beg (c :: s)).length
          let result := result ++ between beg (c :: s)
          Spent.pay g.work g.asked <| match s with
          | [] => .free .fail
          | d :: s' =>
            if pairHigh ≠ 0 ∧ d ≠ 0x75 then .free .fail
            else if d = 0x75 then
              (Spent.free (skipUnicodeEscape pairHigh s')).bind fun r s'' =>
                let q := L.pushes r.2.length g.cap result.length
                Spent.pay q.work q.asked (stringLoopE L accel n q.cap (result ++ r.2) s'' r.1 s'')
            else match simpleEscape d with
              | none => .free .fail
              | some e =>
                let q := L.pushes 1 g.cap result.length
                Spent.pay q.work q.asked (stringLoopE L accel n q.cap (result ++ [e]) s' pairHigh s')
        else if c = 0x22 then
          if pairHigh ≠ 0 then .free .fail
          else
            let g := L.append cap result.length (between beg (c :: s)).length
            Spent.pay (g.work + 1) g.asked (.free (.ok (result ++ between beg (c :: s)) s))
        else
          if pairHigh ≠ 0 then .free .fail
          else if c < 0x20 then .free .fail
          else stringLoopE L accel n cap result beg pairHigh s

/-- `parse_stdstring`, 303-392. -/
def parseStdstringE (L : Lib) (accel : Option Traits) : Bytes → Spent Bytes
  | [] => .free .ub
  | c :: s => if c = 0x22 then stringLoopE L accel (s.length + 1) L.small [] s 0 s else .free .fail

/-- `parse_string`, 163-171. -/
def parseStringE (L : Lib) (accel : Option Traits) (s : Bytes) : Spent Value :=
  (parseStdstringE L accel s).bind fun str s' => Spent.pay 1 0 (.free (.ok (.str .string str) s'))

/-- The text in a number or boolean, made from two iterators (160) or a literal (107, 117). -/
def madeText (r : Res Value) : Spent Value :=
  match r with
  | .ok (.str t text) s => ⟨.ok (.str t text) s, text.length + 1, text.length + 1⟩
  | r => .free r

mutual

/-- `parse_value`, 48-78. -/
def parseValueE (L : Lib) (cfg : Cfg) : Nat → Bytes → Spent Value
  | 0, _ => .free .timeout
  | _ + 1, [] => .free .ub
  | n + 1, c :: s =>
    if c = 0x6e then .free (parseNull (c :: s))
    else if c = 0x74 ∨ c = 0x66 then madeText (parseBoolean (c :: s))
    else if c = 0x2d ∨ isDigit c then madeText (parseNumber (c :: s))
    else if c = 0x22 then parseStringE L cfg.accel (c :: s)
    else if c = 0x5b then parseArrayE L cfg n (c :: s)
    else if c = 0x7b then parseObjectE L cfg n (c :: s)
    else .free .fail

/-- `parse_array`, 173-228. -/
def parseArrayE (L : Lib) (cfg : Cfg) : Nat → Bytes → Spent Value
  | 0, _ => .free .timeout
  | _ + 1, [] => .free .ub
  | n + 1, c :: s =>
    if c ≠ 0x5b then .free .fail
    else
      (Spent.free (skipWhitespace cfg.jsonc s)).bind fun more cur =>
      if more = false then .free .fail
      else match cur with
        | [] => .free .ub
        | d :: cur' =>
          if d = 0x5d then Spent.pay 1 L.box (.free (.ok (.ofArray []) cur'))
          else
            (arrayLoopE L cfg n 0 [] (d :: cur')).bind fun result cur =>
            (Spent.free (skipWhitespace cfg.jsonc cur)).bind fun more cur =>
            if more = false then .free .fail
            else match cur with
              | [] => .free .ub
              | d :: cur' => if d = 0x5d then Spent.pay 1 L.box (.free (.ok (.ofArray result) cur')) else .free .fail

/-- The loop, 193-218; `cap` is the capacity of the vector. -/
def arrayLoopE (L : Lib) (cfg : Cfg) : Nat → Nat → List Value → Bytes → Spent (List Value)
  | 0, _, _, _ => .free .timeout
  | n + 1, cap, result, cur =>
    (Spent.free (skipWhitespace cfg.jsonc cur)).bind fun more cur =>
    if more = false then .free .fail
    else match cur with
      | [] => .free .ub
      | c :: s =>
        if cfg.jsonc = true ∧ c = 0x5d then .free (.ok result (c :: s))
        else
          (parseValueE L cfg n (c :: s)).bind fun val cur =>
          (Spent.free (skipWhitespace cfg.jsonc cur)).bind fun more cur =>
          if more = false then .free .fail
          else match cur with
            | [] => .free .ub
            | c :: s =>
              Spent.pay (1 + carried cap result.length 1) (L.value * larger L.growElems cap result.length 1) <|
              if c = 0x2c then arrayLoopE L cfg n (room L.growElems cap result.length 1) (result ++ [val]) s
              else .free (.ok (result ++ [val]) (c :: s))

/-- `parse_object`, 230-301. -/
def parseObjectE (L : Lib) (cfg : Cfg) : Nat → Bytes → Spent Value
  | 0, _ => .free .timeout
  | _ + 1, [] => .free .ub
  | n + 1, c :: s =>
    if c ≠ 0x7b then .free .fail
    else
      (Spent.free (skipWhitespace cfg.jsonc s)).bind fun more cur =>
      if more = false then .free .fail
      else match cur with
        | [] => .free .ub
        | d :: cur' =>
          if d = 0x7d then Spent.pay 1 L.box (.free (.ok (.ofObject []) cur'))
          else
            (objectLoopE L cfg n [] (d :: cur')).bind fun result cur =>
            (Spent.free (skipWhitespace cfg.jsonc cur)).bind fun more cur =>
            if more = false then .free .fail
            else match cur with
              | [] => .free .ub
              | d :: cur' => if d = 0x7d then Spent.pay 1 L.box (.free (.ok (.ofObject result) cur')) else .free .fail

/-- The loop, 250-291. A comparison reads at most all bytes of the new key and one more; the node is made first, with key and value moved into it. -/
def objectLoopE (L : Lib) (cfg : Cfg) : Nat → List (Bytes × Value) → Bytes → Spent (List (Bytes × Value))
  | 0, _, _ => .free .timeout
  | n + 1, result, cur =>
    (Spent.free (skipWhitespace cfg.jsonc cur)).bind fun more cur =>
    if more = false then .free .fail
    else match cur with
      | [] => .free .ub
      | c :: s =>
        if cfg.jsonc = true ∧ c = 0x7d then .free (.ok result (c :: s))
        else
          (parseStdstringE L cfg.accel (c :: s)).bind fun key cur =>
          (Spent.free (skipWhitespace cfg.jsonc cur)).bind fun more cur =>
          if more = false then .free .fail
          else match cur with
            | [] => .free .ub
            | c :: s =>
              if c ≠ 0x3a then .free .fail
              else
                (Spent.free (skipWhitespace cfg.jsonc s)).bind fun more cur =>
                if more = false then .free .fail
                else
                  (parseValueE L cfg n cur).bind fun val cur =>
                  (Spent.free (skipWhitespace cfg.jsonc cur)).bind fun more cur =>
                  if more = false then .free .fail
                  else
                    let e := RawObject.emplace key val result
                    Spent.pay (2 + L.probes result.length * (key.length + 1)) L.node <|
                    if e.2 = false then .free .fail
                    else match cur with
                      | [] => .free .ub
                      | c :: s =>
                        if c = 0x2c then objectLoopE L cfg n e.1 s
                        else .free (.ok e.1 (c :: s))

end

/-- `parser::parse()`, 17-46. -/
def parseRunE (L : Lib) (cfg : Cfg) (fuel : Nat) (s : Bytes) : Spent Value :=
  (Spent.free (skipWhitespace cfg.jsonc s)).bind fun more cur =>
  if more = false then .free .fail
  else match cur with
    | [] => .free .ub
    | c :: cur' =>
      (if c = 0x5b then parseArrayE L cfg fuel (c :: cur')
       else if c = 0x7b then parseObjectE L cfg fuel (c :: cur')
       else .free .fail).bind fun result cur =>
      (Spent.free (skipWhitespace cfg.jsonc cur)).bind fun more cur =>
      if more then .free .fail else Spent.pay 1 0 (.free (.ok result cur))

end Meojson
