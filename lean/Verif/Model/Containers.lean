import Verif.Model.Mutate

/-!
# `json::object` and `json::array` as classes, and histories of calls on them

include/common/object_impl.hpp:24-119, 230-284; include/common/array_impl.hpp:22-37, 135-193, 291-304, 366-412.
The state of a `json::object` is its `std::map`, that of a `json::array` its `std::vector`.
-/

set_option autoImplicit false

namespace Meojson

/-- The `std::map` behind a `json::object`, in iteration order. -/
abbrev ObjectData := List (Bytes × Value)

namespace ObjectData

/-- `object(std::initializer_list)`, object_impl.hpp:31-34: the range constructor of `std::map` inserts, so the first of equal keys stays. -/
def ofInit : List (Bytes × Value) → ObjectData → ObjectData
  | [], m => m
  | (k, v) :: l, m => ofInit l (RawObject.emplace k v m).1

/-- `object::contains`/`exists`, object_impl.hpp:64-82. -/
def contains (m : ObjectData) (k : Bytes) : Bool := (RawObject.find k m).isSome
/-- `object::empty`, 69-72. -/
def empty (m : ObjectData) : Bool := m.isEmpty
/-- `object::size`, 74-77. -/
def size (m : ObjectData) : Nat := m.length
/-- `object::at`, 84-87. -/
def getAt (m : ObjectData) (k : Bytes) : Out Value := match RawObject.find k m with | some v => .ok v | none => .throw .outOfRange
/-- `object::find_value`, 240-244. -/
def findValue (m : ObjectData) (k : Bytes) : Option Value := RawObject.find k m
/-- `object::emplace`/`insert`, 108-119: `insert_or_assign`; the flag is `.second`. -/
def emplace (m : ObjectData) (k : Bytes) (v : Value) : ObjectData × Bool := (RawObject.insertOrAssign k v m, (RawObject.find k m).isNone)
/-- `object::operator[]`, 276-284: the referred value as it is when the call returns. -/
def index (m : ObjectData) (k : Bytes) : ObjectData × Value := Value.mapIndex k m
/-- `obj[k] = v`. -/
def indexAssign (m : ObjectData) (k : Bytes) (v : Value) : ObjectData := RawObject.insertOrAssign k v (m.index k).1
/-- `object::erase(key)`, 94-97. -/
def erase (m : ObjectData) (k : Bytes) : ObjectData × Bool := RawObject.erase k m

end ObjectData

/-- A call that changes an object. -/
inductive ObjCall where
  | emplace (k : Bytes) (v : Value)
  | index (k : Bytes)
  | indexAssign (k : Bytes) (v : Value)
  | erase (k : Bytes)
  | clear
  | orAssign (other : List (Bytes × Value))

/-- What a call returns. -/
inductive Answer where
  | unit
  | flag (b : Bool)
  | ref (v : Value)
deriving DecidableEq

/-- One call. -/
def ObjCall.run (m : ObjectData) : ObjCall → ObjectData × Answer
  | .emplace k v => ((m.emplace k v).1, .flag (m.emplace k v).2)
  | .index k => ((m.index k).1, .ref (m.index k).2)
  | .indexAssign k v => (m.indexAssign k v, .unit)
  | .erase k => ((m.erase k).1, .flag (m.erase k).2)
  | .clear => ([], .unit)
  | .orAssign o => (Value.mergeObject m (ObjectData.ofInit o []), .unit)

/-- A sequence of calls: the final object and the answers in order. -/
def ObjCall.runAll (m : ObjectData) : List ObjCall → ObjectData × List Answer
  | [] => (m, [])
  | c :: cs => let r := c.run m; let rest := runAll r.1 cs; (rest.1, r.2 :: rest.2)

/-- The `std::vector` behind a `json::array`. -/
abbrev ArrayData := List Value

namespace ArrayData
/-- `array(size_t)`, array_impl.hpp:34-37: that many null values. -/
def ofSize (n : Nat) : ArrayData := List.replicate n .null
/-- `array::contains`/`exists`, 145-153. -/
def contains (a : ArrayData) (i : Nat) : Bool := decide (i < a.length)
/-- `array::size`, 140-143. -/
def size (a : ArrayData) : Nat := a.length
/-- `array::at`, 190-193. -/
def getAt (a : ArrayData) (i : Nat) : Out Value := match a[i]? with | some v => .ok v | none => .throw .outOfRange
/-- `array::find_value`, 301-304. -/
def findValue (a : ArrayData) (i : Nat) : Option Value := if a.contains i then a[i]? else none
/-- `array::operator[]`, 366-374. -/
def index (a : ArrayData) (i : Nat) : Out Value := match a[i]? with | some v => .ok v | none => .ub
/-- `array::emplace_back`/`push_back`, 177-188. -/
def emplaceBack (a : ArrayData) (v : Value) : ArrayData := a ++ [v]
/-- `array::erase(pos)`, 160-166, with `erase(iterator)`, 168-175. -/
def erase (a : ArrayData) (i : Nat) : ArrayData × Bool := Value.eraseElem i a
/-- `a[i] = v`; out of range is undefined, which the history does not allow. -/
def indexAssign (a : ArrayData) (i : Nat) (v : Value) : ArrayData := a.set i v
end ArrayData

/-- A call that changes an array. `erase` by iterator `begin() + i` is `erase i` with `i` at most the size. -/
inductive ArrCall where
  | emplaceBack (v : Value)
  | indexAssign (i : Nat) (v : Value)
  | erase (i : Nat)
  | clear
  | plusAssign (other : List Value)

def ArrCall.run (a : ArrayData) : ArrCall → ArrayData × Answer
  | .emplaceBack v => (a.emplaceBack v, .ref v)
  | .indexAssign i v => (a.indexAssign i v, .unit)
  | .erase i => ((a.erase i).1, .flag (a.erase i).2)
  | .clear => ([], .unit)
  | .plusAssign o => (Value.appendArray a o, .unit)

def ArrCall.runAll (a : ArrayData) : List ArrCall → ArrayData × List Answer
  | [] => (a, [])
  | c :: cs => let r := c.run a; let rest := runAll r.1 cs; (rest.1, r.2 :: rest.2)

end Meojson
