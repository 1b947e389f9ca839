import Verif.Model.Float
import Verif.Spec.Integer
import Mathlib.Algebra.Order.Field.Power
import Mathlib.Data.Rat.Cast.Order

/-!
# Specification: the number a JSON number denotes, and the nearest floating-point number
-/

set_option autoImplicit false

namespace Meojson
namespace Spec

/-- `[ frac ]` and its digits -/
def FracDigits (t ds : Text) : Prop := (t = [] ∧ ds = []) ∨ (Digits ds ∧ t = 0x2e :: ds)

/-- `[ exp ]` and the exponent it denotes -/
def ExpValue (t : Text) (x : Int) : Prop :=
  (t = [] ∧ x = 0) ∨ ∃ e sign ds, (e = 0x65 ∨ e = 0x45) ∧ Digits ds ∧ t = e :: (sign ++ ds) ∧
    (((sign = [] ∨ sign = [0x2b]) ∧ x = decimal ds) ∨ (sign = [0x2d] ∧ x = -(decimal ds : Int)))

/-- The JSON number `t` denotes `q`, or `-q` if it has a minus sign (`neg`). -/
def Denotes (t : Text) (neg : Bool) (q : ℚ) : Prop :=
  ∃ i f ds e x, IntPart i ∧ FracDigits f ds ∧ ExpValue e x ∧ t = (if neg then [0x2d] else []) ++ i ++ f ++ e ∧
    q = decimal (i ++ ds) * (10 : ℚ) ^ (x - ds.length)

end Spec

/-- `± q` -/
def signed (neg : Bool) (q : ℚ) : ℚ := if neg then -q else q

namespace Fl

def Finite : Fl → Prop
  | .fin .. => True
  | _ => False

/-- The sign bit -/
def neg : Fl → Bool
  | .fin n _ _ => n
  | .inf n => n
  | .nan n => n

/-- The number a finite value stands for -/
def val : Fl → ℚ
  | .fin n m e => signed n (m * (2 : ℚ) ^ e)
  | _ => 0

/-- The last bit of the mantissa is zero. -/
def Even : Fl → Prop
  | .fin _ m _ => m % 2 = 0
  | _ => True

end Fl

namespace FloatFmt

/-- No finite value of the format is nearer to `q` than `y`, and if another is as near, `y` is even. -/
def Nearest (f : FloatFmt) (y : Fl) (q : ℚ) : Prop :=
  f.Has y ∧ y.Finite ∧ ∀ z : Fl, f.Has z → z.Finite → |y.val - q| ≤ |z.val - q| ∧ (|y.val - q| = |z.val - q| → z.val ≠ y.val → y.Even)

/-- Everything from half a unit above the greatest value on -/
def Overflows (f : FloatFmt) (q : ℚ) : Prop := ((2 : ℚ) ^ f.prec - 1 / 2) * 2 ^ f.emax ≤ q

/-- Less than the least normal value even after rounding to `prec` bits (by more than a quarter of the last place), and not a value of the format -/
def Underflows (f : FloatFmt) (q : ℚ) : Prop := q < ((2 : ℚ) ^ f.prec - 1 / 2) * 2 ^ (f.emin - 1) ∧ ∀ z : Fl, f.Has z → z.Finite → z.val ≠ q

end FloatFmt

end Meojson
