import Verif.Model.Mutate

/-!
# Values as objects in memory

Model/Mutate.lean treats a `json::value` as a tree. Here a value owns its array or object through a `std::unique_ptr` (include/common/value.hpp:29-30, 46), the
array or object lies on a heap, and references to parts of a value are locations, so that arguments may be parts of the value they are assigned to. Deep copies, the
order of the statements of an assignment, moves, destruction and failing allocations are explicit.

* The heap object of a `json::array` together with the buffer of its `std::vector` is one cell; that of a `json::object` with the nodes of its `std::map` is one
  cell. Library operations on them (`insert_or_assign`, `erase`, `emplace_back`, ...) have the effect the standard gives them.
* An address is used once. Reading through a dangling or null pointer, freeing twice and unbounded recursion are `ub`.
* Constructing a value from literals (`init`, `assign`) does not fail; copies and conversions may. Move assignment from the temporary of `assign` has the effect of
  `replace`: nothing that owns memory is left in the temporary.
-/

set_option autoImplicit false

namespace Meojson
namespace Mem

/-- Addresses are numbers. -/
macro "Addr" : term => `(Nat)

/-- `value::var_t`, value.hpp:46: `std::variant<std::string, std::unique_ptr<array>, std::unique_ptr<object>>`; `none` is a null pointer. -/
inductive Raw where
  | text (s : Bytes)
  | arr (p : Option Addr)
  | obj (p : Option Addr)
deriving DecidableEq, Repr

/-- The members of a `json::value`, value.hpp:671-672. -/
structure HVal where
  ty : VType
  raw : Raw
deriving DecidableEq, Repr

/-- A `json::array` with its elements or a `json::object` with its nodes. -/
inductive Cell where
  | arr (vs : List HVal)
  | obj (ms : List (Bytes × HVal))
deriving DecidableEq, Repr

/-- The values stored in a cell. -/
def Cell.children : Cell → List HVal
  | .arr vs => vs
  | .obj ms => ms.map (·.2)

/-- The heap: the cell at each address (`none`: never allocated, or freed), and the next unused address. -/
structure Heap where
  cell : Addr → Option Cell
  next : Addr

namespace Heap
def set (h : Heap) (a : Addr) (c : Option Cell) : Heap := ⟨fun b => if b = a then c else h.cell b, h.next⟩
def bump (h : Heap) : Heap := ⟨h.cell, h.next + 1⟩
end Heap

/-- The outcome of a copy: done, out of memory (with the heap after unwinding), or undefined. -/
inductive Copy (α : Type) where
  | ok (h : Heap) (a : α)
  | oom (h : Heap)
  | ub

/-! ### Destruction -/

/-- Destroying a sequence of values, each by `f`. -/
def destroyList (f : Heap → HVal → Option Heap) : Heap → List HVal → Option Heap
  | h, [] => some h
  | h, v :: vs => (f h v).bind fun h => destroyList f h vs

/-- `~value()`, value_impl.hpp:206: the pointers delete what they own. `none` is undefined behaviour. The number bounds the depth. -/
def destroyVal : Nat → Heap → HVal → Option Heap
  | 0, _, _ => none
  | n + 1, h, v =>
    match v.raw with
    | .text _ | .arr none | .obj none => some h
    | .arr (some a) =>
      match h.cell a with
      | some (.arr vs) => (destroyList (destroyVal n) h vs).bind fun h => some (h.set a none)
      | _ => none
    | .obj (some a) =>
      match h.cell a with
      | some (.obj ms) => (destroyList (destroyVal n) h (ms.map (·.2))).bind fun h => some (h.set a none)
      | _ => none

/-- A bound on the nesting of what is on the heap. -/
def Heap.fuel (h : Heap) : Nat := h.next + 1

/-! ### Deep copies -/

/-- Copy construction of a sequence, each element by `f`. When one throws, those already made are destroyed. -/
def copyList (f : Heap → HVal → Copy HVal) : Heap → List HVal → Copy (List HVal)
  | h, [] => .ok h []
  | h, v :: vs =>
    match f h v with
    | .oom h => .oom h
    | .ub => .ub
    | .ok h v' =>
      match copyList f h vs with
      | .ok h vs' => .ok h (v' :: vs')
      | .ub => .ub
      | .oom h =>
        match destroyVal h.fuel h v' with
        | some h => .oom h
        | none => .ub

/-- `value(const value&)`, value_impl.hpp:80-84, with `deep_copy`, 1103-1120, `array(const array&)`, array_impl.hpp:23, and `object(const object&)`,
object_impl.hpp:25. `oom a` says that the allocation numbered `a` fails; a text may or may not need one. -/
def copyVal (oom : Addr → Bool) : Nat → Heap → HVal → Copy HVal
  | 0, _, _ => .ub
  | n + 1, h, v =>
    match v.raw with
    | .text _ => if oom h.next then .oom h.bump else .ok h.bump v
    | .arr none | .obj none => .ub
    | .arr (some a) =>
      match h.cell a with
      | some (.arr vs) =>
        if oom h.next then .oom h.bump
        else
          match copyList (copyVal oom n) h.bump vs with
          | .ok h' vs' => .ok (h'.set h.next (some (.arr vs'))) ⟨v.ty, .arr (some h.next)⟩
          | .oom h' => .oom h'
          | .ub => .ub
      | _ => .ub
    | .obj (some a) =>
      match h.cell a with
      | some (.obj ms) =>
        if oom h.next then .oom h.bump
        else
          match copyList (copyVal oom n) h.bump (ms.map (·.2)) with
          | .ok h' vs' => .ok (h'.set h.next (some (.obj ((ms.map (·.1)).zip vs')))) ⟨v.ty, .obj (some h.next)⟩
          | .oom h' => .oom h'
          | .ub => .ub
      | _ => .ub

/-! ### Programs -/

/-- Variables and heap. -/
structure State where
  heap : Heap
  var : Nat → Option HVal

def State.init : State := ⟨⟨fun _ => none, 0⟩, fun _ => none⟩

/-- Where a `json::value` lives: a variable, or slot `i` of the cell at `a`. -/
inductive Loc where
  | var (x : Nat)
  | child (a : Addr) (i : Nat)
deriving DecidableEq, Repr

def Cell.setChild (i : Nat) (v : HVal) : Cell → Cell
  | .arr vs => .arr (vs.set i v)
  | .obj ms => .obj (ms.modify i fun m => (m.1, v))

def State.read (st : State) : Loc → Option HVal
  | .var x => st.var x
  | .child a i => (st.heap.cell a).bind fun c => c.children[i]?

def State.write (st : State) (l : Loc) (v : HVal) : State :=
  match l with
  | .var x => ⟨st.heap, fun y => if y = x then some v else st.var y⟩
  | .child a i => ⟨st.heap.set a ((st.heap.cell a).map (·.setChild i v)), st.var⟩

def State.withHeap (st : State) (h : Heap) : State := ⟨h, st.var⟩

/-- One step of a path. -/
inductive Sel where
  | key (k : Bytes)
  | pos (i : Nat)
deriving DecidableEq, Repr

/-- An expression `x[s1][s2]...` that names an existing value. -/
structure Place where
  x : Nat
  path : List Sel
deriving DecidableEq, Repr

/-- The slot of a key in a `std::map`, as `find` finds it. -/
def keyIndex (k : Bytes) : List (Bytes × HVal) → Option Nat
  | [] => none
  | (k', _) :: ms => if bytesLt k k' then none else if bytesLt k' k then (keyIndex k ms).map (· + 1) else some 0

/-- The part of a value that a step names. -/
def State.part (st : State) (v : HVal) : Sel → Option Loc
  | .pos i =>
    match v with
    | ⟨.array, .arr (some a)⟩ =>
      match st.heap.cell a with
      | some (.arr vs) => if i < vs.length then some (.child a i) else none
      | _ => none
    | _ => none
  | .key k =>
    match v with
    | ⟨.object, .obj (some a)⟩ =>
      match st.heap.cell a with
      | some (.obj ms) => (keyIndex k ms).map (.child a)
      | _ => none
    | _ => none

def State.locate (st : State) : Loc → List Sel → Option Loc
  | l, [] => some l
  | l, s :: path => (st.read l).bind fun v => (st.part v s).bind fun l => st.locate l path

/-- The location an expression denotes. -/
def State.resolve (st : State) (p : Place) : Option Loc := (st.read (.var p.x)).bind fun _ => st.locate (.var p.x) p.path

/-- Whether a value can be looked at: a null pointer cannot (`as_array() const` and `as_object() const`, value_impl.hpp:622-638, and in case of a type error
`value_info()`, 373-405, follow the pointer). -/
def State.sees (st : State) (v : HVal) : Bool :=
  match v.raw with
  | .text _ => true
  | .arr (some a) | .obj (some a) => (st.heap.cell a).isSome
  | _ => false

/-- Evaluating an expression `l[s1][s2]...` follows a null pointer. -/
def State.lost (st : State) : Loc → List Sel → Bool
  | _, [] => false
  | l, s :: path =>
    match st.read l with
    | none => true
    | some v =>
      match st.part v s with
      | some l' => st.lost l' path
      | none => !st.sees v

/-- How a statement ends. -/
inductive Fin where
  | done (st : State)
  | thrown (st : State)
  | ub

def Fin.bind (f : Fin) (k : State → Fin) : Fin :=
  match f with
  | .done st => k st
  | .thrown st => .thrown st
  | .ub => .ub

/-- Storing a value whose previous payload is then destroyed. -/
def replace (st : State) (d : Loc) (v : HVal) : Fin :=
  match st.read d with
  | none => .ub
  | some old =>
    match destroyVal st.heap.fuel (st.write d v).heap old with
    | some h => .done ((st.write d v).withHeap h)
    | none => .ub

/-- Copying the value at `s` and going on with the copy. -/
def copyFrom (oom : Addr → Bool) (st : State) (s : Loc) (k : State → HVal → Fin) : Fin :=
  match st.read s with
  | none => .ub
  | some v =>
    match copyVal oom st.heap.fuel st.heap v with
    | .ok h v' => k (st.withHeap h) v'
    | .oom h => .thrown (st.withHeap h)
    | .ub => .ub

/-- `operator=(const value&)`, value_impl.hpp:846-852: the tag first, then the deep copy, then the payload. -/
def copyAssign (oom : Addr → Bool) (st : State) (d s : Loc) : Fin :=
  match st.read d, st.read s with
  | some dv, some sv =>
    copyFrom oom (st.write d ⟨sv.ty, dv.raw⟩) s fun st v => replace st d ⟨sv.ty, v.raw⟩
  | _, _ => .ub

/-- What moving from a value leaves: the tag, and a null pointer or some text. -/
def HVal.movedFrom (junk : Bytes) (v : HVal) : HVal :=
  match v.raw with
  | .text _ => ⟨v.ty, .text junk⟩
  | .arr _ => ⟨v.ty, .arr none⟩
  | .obj _ => ⟨v.ty, .obj none⟩

/-- The same alternative of the variant. -/
def Raw.same : Raw → Raw → Bool
  | .text _, .text _ | .arr _, .arr _ | .obj _, .obj _ => true
  | _, _ => false

/-- `operator=(value&&)`, value_impl.hpp:854 (defaulted): `_type` is copied, then the variant is move-assigned. With equal alternatives that is the move assignment of
`std::string` (source unspecified, and so is the target of a self-move) or of `std::unique_ptr` (`reset(u.release())`); otherwise `emplace`, which destroys
the old payload before it looks at the source. -/
def moveAssign (junk : Bytes) (st : State) (d s : Loc) : Fin :=
  match st.read d, st.read s with
  | some dv, some sv =>
    let st := st.write d ⟨sv.ty, dv.raw⟩
    if dv.raw.same sv.raw then
      match sv.raw with
      | .text _ => .done ((st.write d sv).write s (sv.movedFrom junk))
      | _ => replace (st.write s (sv.movedFrom junk)) d sv
    else
      match destroyVal st.heap.fuel st.heap dv with
      | none => .ub
      | some h =>
        let st := st.withHeap h
        match st.read s with
        | none => .ub
        | some _ => .done ((st.write d sv).write s (sv.movedFrom junk))
  | _, _ => .ub

/-- `empty()`, value_impl.hpp:213-227; `none` is undefined (or `std::terminate`). -/
def State.blank (st : State) (v : HVal) : Option Bool :=
  match v.ty with
  | .null => some true
  | .string => match v.raw with | .text s => some s.isEmpty | _ => none
  | .array => match v.raw with
    | .arr (some a) => match st.heap.cell a with | some (.arr vs) => some vs.isEmpty | _ => none
    | _ => none
  | .object => match v.raw with
    | .obj (some a) => match st.heap.cell a with | some (.obj ms) => some ms.isEmpty | _ => none
    | _ => none
  | _ => some false

/-- The non-const `as_array()`, value_impl.hpp:640-652, going on with the address of the array. -/
def asArray (oom : Addr → Bool) (st : State) (p : Loc) (k : State → Addr → Fin) : Fin :=
  match st.read p with
  | none => .ub
  | some v =>
    match st.blank v with
    | none => .ub
    | some true =>
      let st := st.write p ⟨.array, v.raw⟩
      let a := st.heap.next
      if oom a then .thrown (st.withHeap st.heap.bump)
      else (replace (st.withHeap (st.heap.bump.set a (some (.arr [])))) p ⟨.array, .arr (some a)⟩).bind fun st => k st a
    | some false =>
      if v.ty = .array then
        match v.raw with
        | .arr (some a) => k st a
        | .arr none => .ub
        | _ => .thrown st
      else .thrown st

/-- The non-const `as_object()`, value_impl.hpp:654-666. -/
def asObject (oom : Addr → Bool) (st : State) (p : Loc) (k : State → Addr → Fin) : Fin :=
  match st.read p with
  | none => .ub
  | some v =>
    match st.blank v with
    | none => .ub
    | some true =>
      let st := st.write p ⟨.object, v.raw⟩
      let a := st.heap.next
      if oom a then .thrown (st.withHeap st.heap.bump)
      else (replace (st.withHeap (st.heap.bump.set a (some (.obj [])))) p ⟨.object, .obj (some a)⟩).bind fun st => k st a
    | some false =>
      if v.ty = .object then
        match v.raw with
        | .obj (some a) => k st a
        | .obj none => .ub
        | _ => .thrown st
      else .thrown st

mutual
/-- A value made from literals. -/
def build : Heap → Value → Heap × HVal
  | h, .str ty s => (h, ⟨ty, .text s⟩)
  | h, .arrNull ty => (h, ⟨ty, .arr none⟩)
  | h, .objNull ty => (h, ⟨ty, .obj none⟩)
  | h, .arr ty vs => let r := buildAll h vs; (r.1.bump.set r.1.next (some (.arr r.2)), ⟨ty, .arr (some r.1.next)⟩)
  | h, .obj ty ms => let r := buildMembers h ms; (r.1.bump.set r.1.next (some (.obj r.2)), ⟨ty, .obj (some r.1.next)⟩)
def buildAll : Heap → List Value → Heap × List HVal
  | h, [] => (h, [])
  | h, v :: vs => let r := build h v; let s := buildAll r.1 vs; (s.1, r.2 :: s.2)
def buildMembers : Heap → List (Bytes × Value) → Heap × List (Bytes × HVal)
  | h, [] => (h, [])
  | h, (k, v) :: ms => let r := build h v; let s := buildMembers r.1 ms; (s.1, (k, r.2) :: s.2)
end

/-- A statement. Places are evaluated first. `junk` is the text a moved-from string is left with. -/
inductive Op where
  /-- `value x = <literal>;` -/
  | init (x : Nat) (v : Value)
  /-- `value x = s;` -/
  | copyInit (x : Nat) (s : Place)
  /-- `value x = std::move(s);` -/
  | moveInit (x : Nat) (s : Place) (junk : Bytes)
  /-- `d = s;` -/
  | copyAssign (d s : Place)
  /-- `d = <literal>;`, in particular `d.clear();`, value_impl.hpp:757-760 -/
  | assign (d : Place) (v : Value)
  /-- `d = std::move(s);` -/
  | moveAssign (d s : Place) (junk : Bytes)
  /-- `p[k];` -/
  | index (p : Place) (k : Bytes)
  /-- `p.emplace(s);` -/
  | emplaceBack (p s : Place)
  /-- `p.emplace(k, s);` -/
  | emplaceKey (p : Place) (k : Bytes) (s : Place)
  /-- `p.erase(i);` -/
  | erasePos (p : Place) (i : Nat)
  /-- `p.erase(k);` -/
  | eraseKey (p : Place) (k : Bytes)
  /-- `p += std::as_const(s).as_array();` -/
  | append (p s : Place)
  /-- `p |= std::as_const(s).as_object();` -/
  | merge (p s : Place)
  /-- `p.as_array();` -/
  | asArray (p : Place)
  /-- `p.as_object();` -/
  | asObject (p : Place)
  /-- `p.emplace(std::move(s));` -/
  | emplaceBackMove (p s : Place) (junk : Bytes)
  /-- `p.emplace(k, std::move(s));` -/
  | emplaceKeyMove (p : Place) (k : Bytes) (s : Place) (junk : Bytes)
  /-- `p += std::move(x);`, where `x` is the `json::array` in the value `s` (`p += std::move(s.as_array());` is this after `asArray s`); `junk i` is left of the
  text of element `i` -/
  | appendMove (p s : Place) (junk : Nat → Bytes)
  /-- `p |= std::move(x);`, where `x` is the `json::object` in the value `s`; `junk k` is left of the text of member `k` -/
  | mergeMove (p s : Place) (junk : Bytes → Bytes)
  /-- The end of the lifetime of `x`. -/
  | drop (x : Nat)

/-- `insert_or_assign(k, s)` on the object at `a`, as in `object::emplace`, object_impl.hpp:108-113. -/
def insertOrAssign (oom : Addr → Bool) (st : State) (a : Addr) (k : Bytes) (s : Loc) : Fin :=
  match st.heap.cell a with
  | some (.obj ms) =>
    match keyIndex k ms with
    | some i => Mem.copyAssign oom st (.child a i) s
    | none =>
      copyFrom oom st s fun st v =>
        match st.heap.cell a with
        | some (.obj ms) => .done (st.withHeap (st.heap.set a (some (.obj (RawObject.emplace k v ms).1))))
        | _ => .ub
  | _ => .ub

/-- `_object_data[k]` on the object at `a`, object_impl.hpp:276-284: a null value for a new key. -/
def mapIndex (oom : Addr → Bool) (st : State) (a : Addr) (k : Bytes) : Fin :=
  match st.heap.cell a with
  | some (.obj ms) =>
    match keyIndex k ms with
    | some _ => .done st
    | none =>
      if oom st.heap.next then .thrown (st.withHeap st.heap.bump)
      else .done (st.withHeap (st.heap.bump.set a (some (.obj (RawObject.emplace k ⟨.null, .text []⟩ ms).1))))
  | _ => .ub

/-- `as_array() const`, value_impl.hpp:622-629, going on with the address of the array. -/
def constArray (st : State) (s : Loc) (k : Addr → Fin) : Fin :=
  match st.read s with
  | none => .ub
  | some v =>
    if v.ty = .array then
      match v.raw with
      | .arr (some b) => k b
      | .arr none => .ub
      | _ => .thrown st
    else if st.sees v then .thrown st else .ub

/-- `as_object() const`, value_impl.hpp:631-638. -/
def constObject (st : State) (s : Loc) (k : Addr → Fin) : Fin :=
  match st.read s with
  | none => .ub
  | some v =>
    if v.ty = .object then
      match v.raw with
      | .obj (some b) => k b
      | .obj none => .ub
      | _ => .thrown st
    else if st.sees v then .thrown st else .ub

/-- `append_array`, array_impl.hpp:9-13: appends copies of the elements of the array at `b` to the array at `a`. `insert` demands that they are not the same. That
`reserve` fails is not told apart from failing to copy the first element. -/
def appendArray (oom : Addr → Bool) (st : State) (a b : Addr) : Fin :=
  if a = b then .ub
  else
    match st.heap.cell a, st.heap.cell b with
    | some (.arr vs), some (.arr ws) =>
      match copyList (copyVal oom st.heap.fuel) st.heap ws with
      | .ok h ws' => .done (st.withHeap (h.set a (some (.arr (vs ++ ws')))))
      | .oom h => .thrown (st.withHeap h)
      | .ub => .ub
    | _, _ => .ub

/-- The loop of `merge_object`, object_impl.hpp:9-14, over the object at `b`, with the keys that are still to come. The keys of that object do not change in the loop,
but it may be destroyed. -/
def mergeKeys (oom : Addr → Bool) (a b : Addr) : State → List Bytes → Fin
  | st, [] => if (st.heap.cell b).isSome then .done st else .ub
  | st, k :: ks =>
    match st.heap.cell b with
    | some (.obj ms) =>
      match keyIndex k ms with
      | some i => (insertOrAssign oom st a k (.child b i)).bind fun st => mergeKeys oom a b st ks
      | none => .ub
    | _ => .ub

/-- Moving a value out of `s` (`value(value&&)`, value_impl.hpp:86, defaulted) and going on with it. -/
def takeFrom (junk : Bytes) (st : State) (s : Loc) (k : State → HVal → Fin) : Fin :=
  match st.read s with
  | none => .ub
  | some v => k (st.write s (v.movedFrom junk)) v

/-- A container gets room for more: a larger buffer, or a node. The values in it are moved to a larger buffer, since their move constructor is `noexcept`
(value.hpp:51). -/
def grow (oom : Addr → Bool) (st : State) (k : State → Fin) : Fin :=
  if oom st.heap.next then .thrown (st.withHeap st.heap.bump) else k (st.withHeap st.heap.bump)

/-- `emplace_back(std::move(s))` on the array at `a`, as in `array::emplace_back`, array_impl.hpp:177-188 (`push_back` is the same). -/
def pushMove (oom : Addr → Bool) (junk : Bytes) (st : State) (a : Addr) (s : Loc) : Fin :=
  grow oom st fun st =>
  takeFrom junk st s fun st v =>
  match st.heap.cell a with
  | some (.arr vs) => .done (st.withHeap (st.heap.set a (some (.arr (vs ++ [v])))))
  | _ => .ub

/-- `insert_or_assign(k, std::move(s))` on the object at `a`, as in `object::emplace`, object_impl.hpp:108-113. A new node is allocated, and the key copied to it,
before the value is moved. -/
def insertOrAssignMove (oom : Addr → Bool) (junk : Bytes) (st : State) (a : Addr) (k : Bytes) (s : Loc) : Fin :=
  match st.heap.cell a with
  | some (.obj ms) =>
    match keyIndex k ms with
    | some i => moveAssign junk st (.child a i) s
    | none =>
      grow oom st fun st =>
      takeFrom junk st s fun st v =>
      match st.heap.cell a with
      | some (.obj ms) => .done (st.withHeap (st.heap.set a (some (.obj (RawObject.emplace k v ms).1))))
      | _ => .ub
  | _ => .ub

/-- `append_array_move`, array_impl.hpp:15-19: moves the elements of the array at `b` to the end of the array at `a`. `insert` demands that they are not the same. -/
def appendArrayMove (oom : Addr → Bool) (junk : Nat → Bytes) (st : State) (a b : Addr) : Fin :=
  if a = b then .ub
  else
    match st.heap.cell a, st.heap.cell b with
    | some (.arr vs), some (.arr ws) =>
      grow oom st fun st =>
      .done (st.withHeap ((st.heap.set b (some (.arr (ws.mapIdx fun i w => w.movedFrom (junk i))))).set a (some (.arr (vs ++ ws)))))
    | _, _ => .ub

/-- The loop of `merge_object_move`, object_impl.hpp:16-21, over the object at `b`, with the keys that are still to come. -/
def mergeKeysMove (oom : Addr → Bool) (junk : Bytes → Bytes) (a b : Addr) : State → List Bytes → Fin
  | st, [] => if (st.heap.cell b).isSome then .done st else .ub
  | st, k :: ks =>
    match st.heap.cell b with
    | some (.obj ms) =>
      match keyIndex k ms with
      | some i => (insertOrAssignMove oom (junk k) st a k (.child b i)).bind fun st => mergeKeysMove oom junk a b st ks
      | none => .ub
    | _ => .ub

/-- Destroying a value that was taken out of its cell. -/
def dispose (st : State) (v : HVal) : Fin :=
  match destroyVal st.heap.fuel st.heap v with
  | some h => .done (st.withHeap h)
  | none => .ub

/-- A statement one of whose places does not exist: `at` throws before anything happens, unless a null pointer was followed. -/
def State.missing (st : State) (ps : List Place) : Fin :=
  if ps.any fun p => (st.read (.var p.x)).isNone || st.lost (.var p.x) p.path then .ub else .thrown st

/-- One statement. -/
def step (oom : Addr → Bool) (st : State) : Op → Fin
  | .init x v =>
    match st.var x with
    | some _ => .thrown st
    | none => let r := build st.heap v; .done ((st.withHeap r.1).write (.var x) r.2)
  | .copyInit x s =>
    match st.var x, st.resolve s with
    | none, some s => copyFrom oom st s fun st v => .done (st.write (.var x) v)
    | none, none => st.missing [s]
    | some _, _ => .thrown st
  | .moveInit x s junk =>
    match st.var x, st.resolve s with
    | none, some s =>
      match st.read s with
      | some sv => .done ((st.write s (sv.movedFrom junk)).write (.var x) sv)
      | none => .ub
    | none, none => st.missing [s]
    | some _, _ => .thrown st
  | .copyAssign d s =>
    match st.resolve d, st.resolve s with
    | some d, some s => Mem.copyAssign oom st d s
    | _, _ => st.missing [d, s]
  | .assign d v =>
    match st.resolve d with
    | some d => let r := build st.heap v; replace (st.withHeap r.1) d r.2
    | none => st.missing [d]
  | .moveAssign d s junk =>
    match st.resolve d, st.resolve s with
    | some d, some s => Mem.moveAssign junk st d s
    | _, _ => st.missing [d, s]
  | .index p k =>
    match st.resolve p with
    | some p => asObject oom st p fun st _ => asObject oom st p fun st a => mapIndex oom st a k
    | none => st.missing [p]
  | .emplaceBack p s =>
    match st.resolve p, st.resolve s with
    | some p, some s =>
      asArray oom st p fun st a =>
      copyFrom oom st s fun st v =>
      match st.heap.cell a with
      | some (.arr vs) => .done (st.withHeap (st.heap.set a (some (.arr (vs ++ [v])))))
      | _ => .ub
    | _, _ => st.missing [p, s]
  | .emplaceKey p k s =>
    match st.resolve p, st.resolve s with
    | some p, some s => asObject oom st p fun st a => insertOrAssign oom st a k s
    | _, _ => st.missing [p, s]
  | .erasePos p i =>
    match st.resolve p with
    | some p =>
      asArray oom st p fun st a =>
      match st.heap.cell a with
      | some (.arr vs) =>
        match vs[i]? with
        | some v => dispose (st.withHeap (st.heap.set a (some (.arr (vs.eraseIdx i))))) v
        | none => .done st
      | _ => .ub
    | none => st.missing [p]
  | .eraseKey p k =>
    match st.resolve p with
    | some p =>
      asObject oom st p fun st a =>
      match st.heap.cell a with
      | some (.obj ms) =>
        match RawObject.find k ms with
        | some v => dispose (st.withHeap (st.heap.set a (some (.obj (RawObject.erase k ms).1)))) v
        | none => .done st
      | _ => .ub
    | none => st.missing [p]
  | .append p s =>
    match st.resolve p, st.resolve s with
    | some p, some s => constArray st s fun b => asArray oom st p fun st a => appendArray oom st a b
    | _, _ => st.missing [p, s]
  | .merge p s =>
    match st.resolve p, st.resolve s with
    | some p, some s =>
      constObject st s fun b =>
      asObject oom st p fun st a =>
      match st.heap.cell b with
      | some (.obj ms) => mergeKeys oom a b st (ms.map (·.1))
      | _ => .ub
    | _, _ => st.missing [p, s]
  | .asArray p =>
    match st.resolve p with
    | some p => Mem.asArray oom st p fun st _ => .done st
    | none => st.missing [p]
  | .asObject p =>
    match st.resolve p with
    | some p => Mem.asObject oom st p fun st _ => .done st
    | none => st.missing [p]
  | .emplaceBackMove p s junk =>
    match st.resolve p, st.resolve s with
    | some p, some s => Mem.asArray oom st p fun st a => pushMove oom junk st a s
    | _, _ => st.missing [p, s]
  | .emplaceKeyMove p k s junk =>
    match st.resolve p, st.resolve s with
    | some p, some s => Mem.asObject oom st p fun st a => insertOrAssignMove oom junk st a k s
    | _, _ => st.missing [p, s]
  | .appendMove p s junk =>
    match st.resolve p, st.resolve s with
    | some p, some s => constArray st s fun b => Mem.asArray oom st p fun st a => appendArrayMove oom junk st a b
    | _, _ => st.missing [p, s]
  | .mergeMove p s junk =>
    match st.resolve p, st.resolve s with
    | some p, some s =>
      constObject st s fun b =>
      Mem.asObject oom st p fun st a =>
      match st.heap.cell b with
      | some (.obj ms) => mergeKeysMove oom junk a b st (ms.map (·.1))
      | _ => .ub
    | _, _ => st.missing [p, s]
  | .drop x =>
    match st.var x with
    | some v => dispose ⟨st.heap, fun y => if y = x then none else st.var y⟩ v
    | none => .thrown st

/-- A history of statements. Every statement has its own `try` block. -/
def run (oom : Addr → Bool) (st : State) : List Op → Fin
  | [] => .done st
  | op :: ops =>
    match step oom st op with
    | .done st | .thrown st => run oom st ops
    | .ub => .ub

/-- A program: a statement in a `try` block, what follows it, and what follows it when it throws. -/
inductive Prog where
  | stop
  | stmt (op : Op) (next caught : Prog)

def exec (oom : Addr → Bool) (st : State) : Prog → Fin
  | .stop => .done st
  | .stmt op next caught =>
    match step oom st op with
    | .done st => exec oom st next
    | .thrown st => exec oom st caught
    | .ub => .ub

/-! ### What can be observed -/

def allSome {α β : Type} (f : α → Option β) : List α → Option (List β)
  | [] => some []
  | x :: xs => (f x).bind fun y => (allSome f xs).bind fun ys => some (y :: ys)

/-- The tree that a reader of the value sees; `none` if reading it is undefined. Null pointers are part of the tree: reading them is undefined, having them is not. -/
def reify (h : Heap) : Nat → HVal → Option Value
  | 0, _ => none
  | n + 1, v =>
    match v.raw with
    | .text s => some (.str v.ty s)
    | .arr none => some (.arrNull v.ty)
    | .obj none => some (.objNull v.ty)
    | .arr (some a) =>
      match h.cell a with
      | some (.arr vs) => (allSome (reify h n) vs).map (.arr v.ty)
      | _ => none
    | .obj (some a) =>
      match h.cell a with
      | some (.obj ms) => (allSome (fun m => (reify h n m.2).map fun v => (m.1, v)) ms).map (.obj v.ty)
      | _ => none

/-- The value of a variable. -/
def State.value (st : State) (x : Nat) : Option Value := (st.var x).bind (reify st.heap st.heap.fuel)

end Mem
end Meojson
