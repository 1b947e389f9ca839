import Verif.Model.Value

/-!
# The memory in which a value lives
-/

set_option autoImplicit false

namespace Meojson.Spec

/-- The sizes of the library's objects. -/
structure Sizes where
  /-- The longest text that a `std::string` keeps in itself. -/
  small : Nat
  value : Nat
  node : Nat
  box : Nat

/-- The buffer of a string. -/
def Sizes.text (z : Sizes) (s : Bytes) : Nat := if s.length ≤ z.small then 0 else s.length + 1

mutual
/-- What a value has on the heap at least: buffers of texts with their zero bytes, arrays and objects, buffers of vectors, nodes of maps. -/
def footprint (z : Sizes) : Value → Nat
  | .str _ s => z.text s
  | .arr _ vs => z.box + z.value * vs.length + footprintAll z vs
  | .obj _ ms => z.box + footprintMembers z ms
  | .arrNull _ | .objNull _ => 0
def footprintAll (z : Sizes) : List Value → Nat
  | [] => 0
  | v :: vs => footprint z v + footprintAll z vs
def footprintMembers (z : Sizes) : List (Bytes × Value) → Nat
  | [] => 0
  | (k, v) :: ms => z.node + z.text k + footprint z v + footprintMembers z ms
end

end Meojson.Spec
