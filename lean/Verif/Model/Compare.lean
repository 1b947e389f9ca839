import Verif.Model.Value

/-!
# `operator==`

include/common/value_impl.hpp:856-881, array_impl.hpp:414-417, object_impl.hpp:324-327. `std::vector` and `std::map` compare sizes first, then the
elements in order, stopping at the first difference.
-/

namespace Meojson

namespace Value

/-- `_raw_data == rhs._raw_data` for a scalar tag (865-868). `std::variant` compares the index, then the alternative. Pointers compare by address:
two different values never own the same object, and two null pointers are equal. (A value with a pointer under a scalar tag compared with
itself, where the addresses agree, is left out.) -/
def rawEq : Value → Value → Bool
  | .str _ s, .str _ s' => s = s'
  | .arrNull _, .arrNull _ => true
  | .objNull _, .objNull _ => true
  | _, _ => false

mutual

/-- `value::operator==`, value_impl.hpp:856-876. `as_array() const` and `as_object() const` (622-638) throw `std::bad_variant_access` if the payload is
another alternative; a null pointer is dereferenced. -/
def eq : Value → Value → Out Bool
  | .str ty s, w =>
    if ty ≠ w.type then .ok false
    else match ty with
      | .null => .ok true
      | .boolean | .number | .string => .ok (rawEq (.str ty s) w)
      | .array | .object => .throw .badVariant
      | .invalid => .throw .json
  | .arr ty vs, w =>
    if ty ≠ w.type then .ok false
    else match ty with
      | .null => .ok true
      | .boolean | .number | .string => .ok (rawEq (.arr ty vs) w)
      | .array => match w with
        | .arr _ ws => if vs.length ≠ ws.length then .ok false else eqElems vs ws
        | .arrNull _ => .ub
        | _ => .throw .badVariant
      | .object => .throw .badVariant
      | .invalid => .throw .json
  | .arrNull ty, w =>
    if ty ≠ w.type then .ok false
    else match ty with
      | .null => .ok true
      | .boolean | .number | .string => .ok (rawEq (.arrNull ty) w)
      | .array => .ub
      | .object => .throw .badVariant
      | .invalid => .throw .json
  | .obj ty ms, w =>
    if ty ≠ w.type then .ok false
    else match ty with
      | .null => .ok true
      | .boolean | .number | .string => .ok (rawEq (.obj ty ms) w)
      | .object => match w with
        | .obj _ ns => if ms.length ≠ ns.length then .ok false else eqMembers ms ns
        | .objNull _ => .ub
        | _ => .throw .badVariant
      | .array => .throw .badVariant
      | .invalid => .throw .json
  | .objNull ty, w =>
    if ty ≠ w.type then .ok false
    else match ty with
      | .null => .ok true
      | .boolean | .number | .string => .ok (rawEq (.objNull ty) w)
      | .object => .ub
      | .array => .throw .badVariant
      | .invalid => .throw .json

/-- `std::equal` over the elements of two arrays of the same size. -/
def eqElems : List Value → List Value → Out Bool
  | [], _ => .ok true
  | _ :: _, [] => .ok true
  | v :: vs, w :: ws => (eq v w).bind fun b => if b then eqElems vs ws else .ok false

/-- `std::equal` over the nodes of two maps of the same size: `std::pair` compares the key, then the value. -/
def eqMembers : List (Bytes × Value) → List (Bytes × Value) → Out Bool
  | [], _ => .ok true
  | _ :: _, [] => .ok true
  | (k, v) :: ms, (k', w) :: ns =>
    if k ≠ k' then .ok false else (eq v w).bind fun b => if b then eqMembers ms ns else .ok false

end

/-- `value::operator!=`, value_impl.hpp:878-881. -/
def ne (v w : Value) : Out Bool := (v.eq w).bind fun b => .ok (!b)

end Value
end Meojson
