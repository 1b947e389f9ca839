import Verif.Model.Integer

/-!
# Floating-point values

The values of a binary floating-point type of the machine. How they are printed and read is in `Model/FloatText.lean`; the conversions between C++ values and
`json::value` (`Model/Convert.lean`) take the two functions as parameters.
-/

set_option autoImplicit false

namespace Meojson

/-- A binary floating-point format: the numbers `m * 2^e` with `m < 2^prec` and `emin ≤ e ≤ emax`, with a sign, and infinities and NaNs. -/
structure FloatFmt where
  prec : Nat
  emin : Int
  emax : Int
deriving DecidableEq, Repr

/-- `float`, IEEE 754 binary32. -/
def FloatFmt.single : FloatFmt := ⟨24, -149, 104⟩
/-- `double`, IEEE 754 binary64. -/
def FloatFmt.double : FloatFmt := ⟨53, -1074, 971⟩
/-- `long double` on x86-64. -/
def FloatFmt.extended : FloatFmt := ⟨64, -16445, 16320⟩

/-- A floating-point value: `± m * 2^e`, an infinity, or a NaN. -/
inductive Fl where
  | fin (neg : Bool) (m : Nat) (e : Int)
  | inf (neg : Bool)
  | nan (neg : Bool)
deriving DecidableEq, Repr

/-- The values of a format, each finite one in its one normalised form: the mantissa has `prec` bits unless the exponent is the least. -/
def FloatFmt.Has (f : FloatFmt) : Fl → Prop
  | .fin _ m e => m < 2 ^ f.prec ∧ f.emin ≤ e ∧ e ≤ f.emax ∧ (2 ^ (f.prec - 1) ≤ m ∨ e = f.emin)
  | .inf _ | .nan _ => True

end Meojson
