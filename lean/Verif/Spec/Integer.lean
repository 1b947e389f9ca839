import Verif.Spec.Grammar

/-! # Specification: JSON numbers that are integer literals -/

set_option autoImplicit false

namespace Meojson.Spec

/-- The number a run of decimal digits denotes. -/
def decimal (t : Text) : Nat := t.foldl (fun a c => 10 * a + (c.toNat - 48)) 0

/-- `[ minus ] int` with no fraction and no exponent, and the integer it denotes. -/
def IntLit (t : Text) (n : Int) : Prop :=
  (IntPart t ∧ n = decimal t) ∨ ∃ ds, t = 0x2d :: ds ∧ IntPart ds ∧ n = -(decimal ds : Int)

end Meojson.Spec
