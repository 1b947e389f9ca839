import Verif.Model.Convert

/-!
# Floating-point numbers as text: `std::to_string`, `operator<<`, `std::stod`

`value::value(float)`, `value(double)`, `value(long double)` (include/common/value_impl.hpp:130-146) store `_utils::to_basic_string(num)` (utils.hpp:476-491):
`std::to_string`, or, if `MEOJSON_KEEP_FLOATING_PRECISION` is defined, what `operator<<` writes with `max_digits10` significant digits. `parse_floating` and
`can_parse_floating` (value_impl.hpp:30-75) read with `std::stof`, `stod`, `stold`. The library functions are modelled by what the C and C++ standards (before C++26)
say of them, with the choices of glibc and libstdc++ where the standards leave any: exact conversion with rounding to nearest, ties to even; `nan`, `-nan`, `inf`;
`ERANGE` (an exception) on overflow, and on underflow if the result is inexact. A C locale is represented by its decimal point; for `operator<<` the global C++ locale
is taken to be the classic one. Hexadecimal numbers and `nan(...)`, which `stod` also reads, are left out: the parser never stores them.
-/

set_option autoImplicit false

namespace Meojson

/-! ### Fractions of natural numbers -/

/-- `q * b^k` -/
def scale (b : Nat) (k : Int) (q : Nat × Nat) : Nat × Nat := if 0 ≤ k then (q.1 * b ^ k.toNat, q.2) else (q.1, q.2 * b ^ (-k).toNat)

/-- The nearest integer, the even one of two. -/
def roundQ (q : Nat × Nat) : Nat :=
  let n := q.1 / q.2
  let r := q.1 % q.2
  if 2 * r < q.2 then n else if q.2 < 2 * r then n + 1 else n + n % 2

/-- The greatest `k` with `b^k ≤ n`; `fuel ≥ n` suffices. -/
def natLogF (b : Nat) : Nat → Nat → Nat
  | 0, _ => 0
  | fuel + 1, n => if n < b then 0 else natLogF b fuel (n / b) + 1

/-- The greatest `k` with `b^k ≤ q`, for positive `q` -/
def floorLog (b : Nat) (q : Nat × Nat) : Int :=
  let g : Int := (natLogF b q.1 q.1 : Int) - natLogF b q.2 q.2
  let p := scale b (-g) q
  if p.2 ≤ p.1 then g else g - 1

/-- The magnitude `m * 2^e` -/
def magnitude (m : Nat) (e : Int) : Nat × Nat := scale 2 e (m, 1)

/-! ### Writing -/

/-- `%0*d`: exactly `w` digits -/
def padText : Nat → Nat → Bytes
  | 0, _ => []
  | w + 1, n => padText w (n / 10) ++ [UInt8.ofNat (48 + n % 10)]

def signText (neg : Bool) : Bytes := if neg then [0x2d] else []

/-- `printf("%f", x)`, with six digits after the decimal point `point` -/
def printFixed (point : Bytes) : Fl → Bytes
  | .fin neg m e =>
    let n := roundQ (scale 10 6 (magnitude m e))
    signText neg ++ natText (n / 10 ^ 6) ++ point ++ padText 6 (n % 10 ^ 6)
  | .inf neg => signText neg ++ [0x69, 0x6e, 0x66]
  | .nan neg => signText neg ++ [0x6e, 0x61, 0x6e]

def stripZeros (s : Bytes) : Bytes := (s.reverse.dropWhile (· == 0x30)).reverse

/-- A decimal point and the digits after it, without trailing zeros; nothing if no digit is left. -/
def fraction (point s : Bytes) : Bytes := if stripZeros s = [] then [] else point ++ stripZeros s

/-- The exponent in `%e`: a sign and at least two digits -/
def exponentText (x : Int) : Bytes :=
  0x65 :: (if x < 0 then 0x2d else 0x2b) :: (if x.natAbs < 10 then 0x30 :: natText x.natAbs else natText x.natAbs)

/-- The `p` significant digits of a positive number, and its decimal exponent -/
def significant (p : Nat) (q : Nat × Nat) : Nat × Int :=
  let x := floorLog 10 q
  let n := roundQ (scale 10 (p - 1 - x) q)
  if n = 10 ^ p then (10 ^ (p - 1), x + 1) else (n, x)

/-- `printf("%.*g", p, x)` -/
def printGeneral (p : Nat) (point : Bytes) : Fl → Bytes
  | .fin neg 0 _ => signText neg ++ [0x30]
  | .fin neg m e =>
    let r := significant p (magnitude m e)
    let ds := padText p r.1
    signText neg ++
    (if -4 ≤ r.2 ∧ r.2 < p then
      if 0 ≤ r.2 then ds.take (r.2.toNat + 1) ++ fraction point (ds.drop (r.2.toNat + 1))
      else [0x30] ++ fraction point (List.replicate ((-r.2).toNat - 1) 0x30 ++ ds)
    else ds.take 1 ++ fraction point (ds.drop 1) ++ exponentText r.2)
  | .inf neg => signText neg ++ [0x69, 0x6e, 0x66]
  | .nan neg => signText neg ++ [0x6e, 0x61, 0x6e]

/-- `std::numeric_limits<T>::max_digits10`: 9, 17 and 21 for the three formats -/
def FloatFmt.maxDigits (f : FloatFmt) : Nat := 2 + f.prec * 30103 / 100000

/-! ### Reading -/

/-- The value of the format nearest to `± q`, as `strtod` computes it; `none` if it sets `errno` to `ERANGE`. -/
def roundFloat (f : FloatFmt) (neg : Bool) (q : Nat × Nat) : Option Fl :=
  if q.1 = 0 then some (.fin neg 0 f.emin)
  else
    let e₀ : Int := floorLog 2 q - (f.prec - 1)
    let e : Int := if e₀ < f.emin then f.emin else e₀
    let p := scale 2 (-e) q
    let m := roundQ p
    let inexact : Bool := p.1 % p.2 ≠ 0
    /- below the normal numbers even after rounding to `prec` bits -/
    let tiny : Bool := e₀ < f.emin ∧ ¬ (e₀ = f.emin - 1 ∧ roundQ (scale 2 (-e₀) q) = 2 ^ f.prec)
    let r : Nat × Int := if m = 2 ^ f.prec then (2 ^ (f.prec - 1), e + 1) else (m, e)
    if f.emax < r.2 then none
    else if tiny && inexact then none
    else some (.fin neg r.1 r.2)

/-- `isspace` in the C locale -/
def isSpace (c : UInt8) : Bool := c == 0x20 || (0x09 ≤ c && c ≤ 0x0d)

/-- An optional sign: whether it is a minus, and what follows -/
def readSign : Bytes → Bool × Bytes
  | [] => (false, [])
  | c :: s => if c = 0x2d then (true, s) else if c = 0x2b then (false, s) else (false, c :: s)

/-- The exponent of a decimal number, up to the end of the text -/
def readExponent : Bytes → Option Int
  | [] => some 0
  | c :: s =>
    if c = 0x65 ∨ c = 0x45 then
      let r := readSign s
      if r.2 ≠ [] ∧ r.2.all isDigit then some (applySign r.1 (scanDigits 0 r.2).1) else none
    else none

/-- An unsigned decimal number that is the whole text: its digits and the power of ten they are multiplied with -/
def readDecimal (point s : Bytes) : Option (Nat × Int) :=
  let i := s.takeWhile isDigit
  let s := s.dropWhile isDigit
  let r : Bytes × Bytes := if point.isPrefixOf s then
      let s := s.drop point.length
      (s.takeWhile isDigit, s.dropWhile isDigit)
    else ([], s)
  if i ++ r.1 = [] then none
  else (readExponent r.2).map fun x => ((scanDigits 0 (i ++ r.1)).1, x - r.1.length)

/-- `std::stof`, `stod`, `stold` on a text that is to be read as a whole; `none` if they throw or stop early. -/
def readFloat (f : FloatFmt) (point s : Bytes) : Option Fl :=
  let r := readSign (s.dropWhile isSpace)
  let word := r.2.map lowerByte
  if word = [0x69, 0x6e, 0x66] ∨ word = [0x69, 0x6e, 0x66, 0x69, 0x6e, 0x69, 0x74, 0x79] then some (.inf r.1)
  else if word = [0x6e, 0x61, 0x6e] then some (.nan r.1)
  else (readDecimal point r.2).bind fun d => roundFloat f r.1 (scale 10 d.2 (d.1, 1))

/-- The conversions of the machine in a locale with the given decimal point; `keep` tells whether `MEOJSON_KEEP_FLOATING_PRECISION` is defined. -/
def floats (keep : Bool) (point : Bytes) : Floats where
  print f x := if keep then printGeneral f.maxDigits [0x2e] x else printFixed point x
  read f s := readFloat f point s

end Meojson
