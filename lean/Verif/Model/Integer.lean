import Verif.Model.Parser

/-!
# Integers: `std::to_string` and `std::from_chars`

`value::value(int)` and its siblings (include/common/value_impl.hpp:94-128) store `_utils::to_basic_string(num)` (utils.hpp:476-491), which for an
integer is `std::to_string` in every build. `try_parse_integer` (value_impl.hpp:9-17) reads with `std::from_chars`. The two library functions are modelled
by what the standard says of them.
-/

set_option autoImplicit false

namespace Meojson

/-- A standard integer type of `bits` bits. `int` is `⟨true, 32⟩`; `long` is `⟨true, 64⟩` or `⟨true, 32⟩`, depending on the platform. -/
structure IntTy where
  signed : Bool
  bits : Nat
deriving DecidableEq, Repr

namespace IntTy
/-- `std::numeric_limits<T>::min()` -/
def min (T : IntTy) : Int := if T.signed then -(2 ^ (T.bits - 1) : Nat) else 0
/-- `std::numeric_limits<T>::max()` -/
def max (T : IntTy) : Int := if T.signed then (2 ^ (T.bits - 1) : Nat) - 1 else (2 ^ T.bits : Nat) - 1
/-- The values of the type. -/
def Has (T : IntTy) (n : Int) : Prop := T.min ≤ n ∧ n ≤ T.max
instance (T : IntTy) (n : Int) : Decidable (T.Has n) := by unfold Has; infer_instance
end IntTy

/-- Decimal digits of `n`, most significant first, without leading zeros; `fuel > n` suffices. -/
def natTextF : Nat → Nat → Bytes
  | 0, _ => []
  | fuel + 1, n => if n < 10 then [UInt8.ofNat (48 + n)] else natTextF fuel (n / 10) ++ [UInt8.ofNat (48 + n % 10)]

/-- `std::to_string` of a natural number. -/
def natText (n : Nat) : Bytes := natTextF (n + 1) n

/-- `std::to_string` of an integer (the conversions `%d`, `%u`, `%ld`, ... of `printf`). -/
def intText (n : Int) : Bytes := if n < 0 then 0x2d :: natText n.natAbs else natText n.natAbs

/-- `value::value(int)`, `value(unsigned)`, ..., value_impl.hpp:94-128. -/
def Value.ofInt (n : Int) : Value := .str .number (intText n)

/-- The longest prefix of digits and the number it denotes, continuing from `acc`. -/
def scanDigits (acc : Nat) : Bytes → Nat × Bytes
  | [] => (acc, [])
  | c :: s => if isDigit c then scanDigits (10 * acc + (c.toNat - 48)) s else (acc, c :: s)

def applySign (neg : Bool) (n : Nat) : Int := if neg then -(n : Int) else n

/-- The digits of `from_chars`, after the sign: at least one, and the result in range. -/
def fromCharsDigits (T : IntTy) (neg : Bool) (s : Bytes) : Option (Int × Bytes) :=
  if (s.head?.map isDigit) = some true then
    let r := scanDigits 0 s
    if T.Has (applySign neg r.1) then some (applySign neg r.1, r.2) else none
  else none

/-- `std::from_chars(first, last, result)` for an integer type, base 10: no white space, no plus sign, a minus sign only for a signed type. `none` when
`ec` is set (no digits, or out of range), otherwise the value and what follows `ptr`. -/
def fromChars (T : IntTy) (s : Bytes) : Option (Int × Bytes) :=
  if T.signed && s.head? == some 0x2d then fromCharsDigits T true s.tail else fromCharsDigits T false s

/-- `_value_impl_detail::try_parse_integer`, value_impl.hpp:9-17. -/
def tryParseInteger (T : IntTy) (s : Bytes) : Option Int :=
  (fromChars T s).bind fun r => if r.2 = [] then some r.1 else none

end Meojson
