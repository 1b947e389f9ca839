import Verif.Model.Access

/-!
# Mutating member functions, on one value

include/common/value_impl.hpp:417-425, 640-666, 741-760, 980-1093; array_impl.hpp:9-19, 155-188, 366-412; object_impl.hpp:9-21, 89-119, 276-322.

A mutator returns the value it leaves behind together with its outcome, because a call that throws may have changed the value first. Arguments are separate
objects here; Model/Heap.lean treats arguments that are parts of the value.
-/

set_option autoImplicit false

namespace Meojson
namespace Value

/-- What a call leaves behind and how it ended. -/
abbrev Mut (α : Type) := Value × Out α

/-- The non-const `as_array()`, 640-652: an empty value becomes an empty array first. The result is the vector of the array referred to. -/
def asArrayM (v : Value) : Mut (List Value) :=
  match v.empty with
  | .ok true => (.arr .array [], .ok [])
  | .ok false => (v, v.asArray)
  | .throw e => (v, .throw e)
  | .ub => (v, .ub)

/-- The non-const `as_object()`, 654-666. -/
def asObjectM (v : Value) : Mut (List (Bytes × Value)) :=
  match v.empty with
  | .ok true => (.obj .object [], .ok [])
  | .ok false => (v, v.asObject)
  | .throw e => (v, .throw e)
  | .ub => (v, .ub)

/-- A change of the vector behind `as_array()`. -/
def onArray {α : Type} (v : Value) (f : List Value → List Value × Out α) : Mut α :=
  match v.asArrayM with
  | (w, .ok vs) => let r := f vs; (.arr w.type r.1, r.2)
  | (w, .throw e) => (w, .throw e)
  | (w, .ub) => (w, .ub)

/-- A change of the map behind `as_object()`. -/
def onObject {α : Type} (v : Value) (f : List (Bytes × Value) → List (Bytes × Value) × Out α) : Mut α :=
  match v.asObjectM with
  | (w, .ok ms) => let r := f ms; (.obj w.type r.1, r.2)
  | (w, .throw e) => (w, .throw e)
  | (w, .ub) => (w, .ub)

/-- `array::erase(pos)`, array_impl.hpp:160-175. -/
def eraseElem (i : Nat) (vs : List Value) : List Value × Bool := if i ≥ vs.length then (vs, false) else (vs.eraseIdx i, true)

/-- `value::erase(pos)`, 417-420. -/
def erasePos (i : Nat) (v : Value) : Mut Bool := v.onArray fun vs => let r := eraseElem i vs; (r.1, .ok r.2)

/-- `value::erase(key)`, 422-425, with object_impl.hpp:94-97. -/
def eraseKey (k : Bytes) (v : Value) : Mut Bool := v.onObject fun ms => let r := RawObject.erase k ms; (r.1, .ok r.2)

/-- `value::emplace(val)`, 749-751, with array_impl.hpp:177-188. -/
def emplaceBack (v : Value) (x : Value) : Mut Unit := v.onArray fun vs => (vs ++ [x], .ok ())

/-- `value::emplace(key, val)`, 752-754, with object_impl.hpp:108-119 (`insert_or_assign`). -/
def emplaceKey (v : Value) (k : Bytes) (x : Value) : Mut Unit := v.onObject fun ms => (RawObject.insertOrAssign k x ms, .ok ())

/-- `operator[](pos)`, 980-985. The result is a reference to the element; out of range is undefined. -/
def indexPos (i : Nat) (v : Value) : Mut Value :=
  v.onArray fun vs => (vs, match vs[i]? with | some x => .ok x | none => .ub)

/-- `std::map::operator[]`: the value of the key, inserting a default-constructed value (null) if the key is absent. -/
def mapIndex (k : Bytes) (ms : List (Bytes × Value)) : List (Bytes × Value) × Value :=
  let e := RawObject.emplace k .null ms
  (e.1, (RawObject.find k e.1).getD .null)

/-- `operator[](key)`, 987-1005, with object_impl.hpp:276-284. -/
def indexKey (k : Bytes) (v : Value) : Mut Value :=
  match v.empty with
  | .ok true => onObject (.obj .object []) fun ms => let r := mapIndex k ms; (r.1, .ok r.2)
  | .ok false => v.onObject fun ms => let r := mapIndex k ms; (r.1, .ok r.2)
  | .throw e => (v, .throw e)
  | .ub => (v, .ub)

/-- `clear()`, 757-760: `*this = value()`. -/
def clear (_ : Value) : Value := .null

/-- `append_array`, array_impl.hpp:9-13. -/
def appendArray (dst src : List Value) : List Value := dst ++ src

/-- `merge_object`, object_impl.hpp:9-14. -/
def mergeObject (dst : List (Bytes × Value)) : List (Bytes × Value) → List (Bytes × Value)
  | [] => dst
  | (k, x) :: src => mergeObject (RawObject.insertOrAssign k x dst) src

/-- `operator+=(const array&)`, 1083-1087, with array_impl.hpp:402-406. -/
def plusAssign (xs : List Value) (v : Value) : Mut Unit := v.onArray fun vs => (appendArray vs xs, .ok ())

/-- `operator|=(const object&)`, 1039-1043, with object_impl.hpp:312-316. -/
def orAssign (ns : List (Bytes × Value)) (v : Value) : Mut Unit := v.onObject fun ms => (mergeObject ms ns, .ok ())

/-- `operator+(const array&) const&`, 1051-1057, with array_impl.hpp:376-381. -/
def plus (xs : List Value) (v : Value) : Out Value := v.asArray.bind fun vs => .ok (.arr .array (appendArray vs xs))

/-- `operator|(const object&) const&`, 1007-1013, with object_impl.hpp:286-291. -/
def or (ns : List (Bytes × Value)) (v : Value) : Out Value := v.asObject.bind fun ms => .ok (.obj .object (mergeObject ms ns))

/-- `operator+(const array&) &&`, 1067-1073, with array_impl.hpp:390-394: the vector of `*this` is moved out, which leaves it empty. -/
def plusMove (xs : List Value) (v : Value) : Mut Value := v.onArray fun vs => ([], .ok (.arr .array (appendArray vs xs)))

/-- `operator|(const object&) &&`, 1023-1029, with object_impl.hpp:300-304. A moved-from `std::map` is unspecified by the standard and empty in practice; the
model says empty. -/
def orMove (ns : List (Bytes × Value)) (v : Value) : Mut Value := v.onObject fun ms => ([], .ok (.obj .object (mergeObject ms ns)))

end Value
end Meojson
