import Verif.Proofs.FloatTrip
import Verif.Props.Convert
import Verif.Props.Integers

/-!
# Numbers as JSON numbers (C43; floating-point form of C28)

`floats keep point` is the machine: `keep` tells whether `MEOJSON_KEEP_FLOATING_PRECISION` is defined, `point` is the decimal point of the C locale.
-/

set_option autoImplicit false

namespace Meojson
open Spec

/-- `float`, `double`, `long double` -/
def FloatFmt.Machine (f : FloatFmt) : Prop := f = .single ∨ f = .double ∨ f = .extended

theorem FloatFmt.Machine.wide {f : FloatFmt} (h : f.Machine) : f.Wide := by
  rcases h with rfl | rfl | rfl <;> exact ⟨by decide, by decide, by decide⟩

theorem FloatFmt.Machine.digits {f : FloatFmt} (h : f.Machine) : 2 ^ f.prec < 10 ^ (f.maxDigits - 1) := by
  rcases h with rfl | rfl | rfl <;> decide

/-- Normal: the mantissa has all its bits. -/
def FloatFmt.Normal (f : FloatFmt) : Fl → Prop
  | .fin _ m _ => 2 ^ (f.prec - 1) ≤ m
  | _ => False

/-- The same number of digits as in `<limits>` -/
example : FloatFmt.single.maxDigits = 9 ∧ FloatFmt.double.maxDigits = 17 ∧ FloatFmt.extended.maxDigits = 21 := by decide
/-- `FLT_MAX`, `DBL_MIN`, and the least positive `double` -/
example : FloatFmt.single.Has (.fin false (2 ^ 24 - 1) 104) ∧ FloatFmt.double.Has (.fin false (2 ^ 52) (-1074)) ∧ FloatFmt.double.Has (.fin false 1 (-1074)) :=
  ⟨by unfold FloatFmt.Has; decide, by unfold FloatFmt.Has; decide, by unfold FloatFmt.Has; decide⟩

namespace Samples
/-- 1.5, 0.1 (the nearest double), 10^-7 (the nearest double), the least positive double, the greatest double -/
def oneHalf : Fl := .fin false (3 * 2 ^ 51) (-52)
def tenth : Fl := .fin false 7205759403792794 (-56)
def small : Fl := .fin false 7555786372591432 (-76)
def least : Fl := .fin false 1 (-1074)
def greatest : Fl := .fin false (2 ^ 53 - 1) 971

example : printFixed [0x2e] oneHalf = ascii "1.500000" ∧ printFixed [0x2e] tenth = ascii "0.100000" ∧ printFixed [0x2e] small = ascii "0.000000" := by decide +kernel
example : printGeneral 17 [0x2e] oneHalf = ascii "1.5" ∧ printGeneral 17 [0x2e] tenth = ascii "0.10000000000000001" ∧
    printGeneral 17 [0x2e] small = ascii "9.9999999999999995e-08" ∧ printGeneral 17 [0x2e] least = ascii "4.9406564584124654e-324" ∧
    printGeneral 17 [0x2e] greatest = ascii "1.7976931348623157e+308" := by decide +kernel
example : printGeneral 17 [0x2e] (.fin true 0 (-1074)) = ascii "-0" ∧ printGeneral 17 [0x2e] (.fin false (5 ^ 17 * 2 ^ 13) 4) = ascii "1e+17" ∧
    printGeneral 17 [0x2e] (.fin false (5 ^ 16 * 2 ^ 15) 1) = ascii "10000000000000000" ∧ printGeneral 17 [0x2e] (.fin true 7378697629483821 (-66)) = ascii "-0.0001" := by
  decide +kernel
example : readFloat .double [0x2e] (ascii "0.1") = some tenth ∧ readFloat .double [0x2e] (ascii "1E-7") = some small ∧
    readFloat .double [0x2e] (ascii "1.7976931348623158e308") = some greatest ∧ readFloat .double [0x2e] (ascii "1.7976931348623159e308") = none ∧
    readFloat .double [0x2e] (ascii "1e-310") = none ∧ readFloat .double [0x2e] (ascii "0e999999") = some (.fin false 0 (-1074)) := by decide +kernel
end Samples

/-! ## Reading -/

/-- `as<T>()` on any JSON number, of any length, in a locale with a decimal point: the value of `T` nearest to the number, with its sign, the even one of two, and no other
value is a nearest one; or, exactly if the number is beyond the greatest value by half a unit, or below the normal values and not a value, `json::exception`.
`is<T>()` tells which. -/
theorem C43_read (keep : Bool) (f : FloatFmt) (hf : f.Machine) (t : Text) (neg : Bool) (q : ℚ) (h : Denotes t neg q) :
    (¬ f.Overflows q ∧ ¬ f.Underflows q ∧ ∃ y, (Value.str .number t).asFloat (floats keep [0x2e]) f = .ok y ∧ (Value.str .number t).isFloat (floats keep [0x2e]) f = .ok true ∧
      y.neg = neg ∧ f.Nearest y (signed neg q) ∧ ∀ z, f.Nearest z (signed neg q) → z.neg = neg → z = y) ∨
    ((f.Overflows q ∨ f.Underflows q) ∧ (Value.str .number t).asFloat (floats keep [0x2e]) f = .throw .json ∧
      (Value.str .number t).isFloat (floats keep [0x2e]) f = .ok false) := by
  have e1 : (Value.str .number t).asFloat (floats keep [0x2e]) f = match readFloat f [0x2e] t with | some x => .ok x | none => .throw .json := rfl
  have e2 : (Value.str .number t).isFloat (floats keep [0x2e]) f = .ok (readFloat f [0x2e] t).isSome := rfl
  rw [e1, e2]
  rcases readFloat_spec hf.wide.prec hf.wide.range h with ⟨y, h1, h2, h3, h4, h5, h6⟩ | ⟨h1, h2⟩
  · refine .inl ⟨h5, h6, y, by rw [h1], by rw [h1]; rfl, h2, h3, fun z hz hn => ?_⟩
    exact fl_unique (by have := hf.wide.prec; omega) hz.1 h3.1 hz.2.1 h3.2.1 (hn.trans h2.symm) (h4 z hz)
  · exact .inr ⟨h2, by rw [h1], by rw [h1]; rfl⟩

/-- The limits `FLT_MIN`, `FLT_MAX`, `DBL_MIN`, `DBL_MAX`, `LDBL_MIN` and `LDBL_MAX` as `<cfloat>` spells them are read as the least normal and the greatest number of their
format, and what is further out by the last digit is refused. -/
theorem C43_limits (keep : Bool) (f : FloatFmt) (lo hi below above : String)
    (h : (f, lo, hi, below, above) ∈ [(FloatFmt.single, "1.17549435e-38", "3.40282347e+38", "1.17549431e-38", "3.40282357e+38"),
      (.double, "2.2250738585072014e-308", "1.7976931348623157e+308", "2.2250738585072011e-308", "1.7976931348623159e+308"),
      (.extended, "3.36210314311209350626e-4932", "1.18973149535723176502e+4932", "3.36210314311209350609e-4932", "1.18973149535723176509e+4932")]) :
    (Value.str .number (ascii lo)).asFloat (floats keep [0x2e]) f = .ok (.fin false (2 ^ (f.prec - 1)) f.emin) ∧
    (Value.str .number (ascii hi)).asFloat (floats keep [0x2e]) f = .ok (.fin false (2 ^ f.prec - 1) f.emax) ∧
    (Value.str .number (ascii below)).asFloat (floats keep [0x2e]) f = .throw .json ∧
    (Value.str .number (ascii above)).asFloat (floats keep [0x2e]) f = .throw .json := by
  simp only [List.mem_cons, Prod.mk.injEq, List.not_mem_nil, or_false] at h
  rcases h with ⟨rfl, rfl, rfl, rfl, rfl⟩ | ⟨rfl, rfl, rfl, rfl, rfl⟩ | ⟨rfl, rfl, rfl, rfl, rfl⟩ <;> cases keep <;> decide +kernel

/-- Every JSON number denotes something, so the theorem applies to every number the parser stores. -/
theorem C43_denotes (t : Text) : Number t ↔ ∃ neg q, Denotes t neg q := ⟨number_denotes, fun ⟨_, _, h⟩ => denotes_number h⟩

example : Denotes (ascii "-12.50e1") true 125 :=
  ⟨ascii "12", ascii ".50", ascii "50", ascii "e1", 1, .inr ⟨⟨by decide, by unfold Digit; decide⟩, by decide⟩, .inr ⟨⟨by decide, by unfold Digit; decide⟩, rfl⟩,
    .inr ⟨0x65, [], ascii "1", .inl rfl, ⟨by decide, by unfold Digit; decide⟩, rfl, .inl ⟨.inl rfl, by decide⟩⟩, by decide, by
      rw [show decimal (ascii "12" ++ ascii "50") = 1250 by decide, show (ascii "50").length = 2 by decide]; norm_num⟩

/-! ## Writing and reading back, default build -/

/-- An integer: the text is an integer literal for it, and an integer type that has it reads it back. -/
theorem C43_integer (n : Int) :
    ∃ text, Value.ofInt n = .str .number text ∧ Number text ∧ IntLit text n ∧ ∀ T : IntTy, T.Has n → (Value.ofInt n).asInt T = .ok n := by
  obtain ⟨text, h1, h2, h3, h4⟩ := C20_integer_roundtrip n
  exact ⟨text, h1, h2, h3, fun T hT => ((h4 T).1 hT).1⟩

/-- A finite floating-point number, in a locale with a decimal point: the text is a JSON number, within half a millionth of the number and with its sign, and reading it
as the same type always succeeds, with the value nearest to what the text says. The parameter `c` is the value category of the argument. -/
theorem C43_fixed_partial (f : FloatFmt) (hf : f.Machine) (x : Fl) (hx : f.Has x) (hfin : x.Finite) (c : Cat) :
    ∃ text q y, (Ty.float f).store (floats false [0x2e]) c (.flt x) = .ok (.str .number text, .flt x) ∧ Number text ∧ Denotes text x.neg q ∧
      |signed x.neg q - x.val| ≤ 1 / 2 / 10 ^ 6 ∧
      (Value.str .number text).asFloat (floats false [0x2e]) f = .ok y ∧ (Value.str .number text).isFloat (floats false [0x2e]) f = .ok true ∧
      y.neg = x.neg ∧ f.Nearest y (signed x.neg q) := by
  obtain ⟨n, m, e, rfl, _⟩ := has_finite hx hfin
  have hd := denotes_fixed n m e
  have hr := fixed_range hf.wide hx
  rcases C43_read false f hf _ _ _ hd with ⟨_, _, y, h1, h2, h3, h4, _⟩ | ⟨h | h, _⟩
  · refine ⟨_, _, y, rfl, denotes_number hd, hd, ?_, h1, h2, h3, h4⟩
    show |signed n _ - signed n _| ≤ _
    rw [signed_abs]
    exact fixed_error m e
  · exact absurd h hr.1
  · exact absurd h hr.2

example : FloatFmt.double.Machine ∧ FloatFmt.double.Has Samples.greatest ∧ Samples.greatest.Finite := ⟨.inr (.inl rfl), by unfold FloatFmt.Has Samples.greatest; decide, trivial⟩

/-- Decimals with at most six places survive: if `x` is the value nearest to `k / 10^6` and its last bit is worth at most `2^-20` (for `double`: `|x| < 2^33`), the text
denotes `k / 10^6` and is read back as `x`. -/
theorem C43_decimal (f : FloatFmt) (hf : f.Machine) (n : Bool) (m : Nat) (e : Int) (k : Nat) (hx : f.Nearest (.fin n m e) (signed n ((k : ℚ) / 10 ^ 6))) (he : e ≤ -20) :
    ∃ text, (Ty.float f).store (floats false [0x2e]) .rv (.flt (.fin n m e)) = .ok (.str .number text, .flt (.fin n m e)) ∧ Denotes text n ((k : ℚ) / 10 ^ 6) ∧
      (Value.str .number text).asFloat (floats false [0x2e]) f = .ok (.fin n m e) := by
  have hmax := hf.wide.emax
  have h1 := nearest_half (by have := hf.wide.prec; omega) (by positivity) (by omega) hx
  have h2 : (2 : ℚ) ^ e ≤ 2 ^ (-20 : Int) := zpow_le_zpow_right₀ (by norm_num) he
  have h4 := fixed_exact (lt_of_le_of_lt (h1.trans (div_le_div_of_nonneg_right h2 (by norm_num))) (by norm_num))
  have hd := denotes_fixed n m e
  have hr := fixed_range hf.wide hx.1
  rw [h4] at hd hr
  refine ⟨_, rfl, hd, ?_⟩
  have := readFloat_nearest hf.wide.prec hf.wide.range hd hx rfl hr.1 hr.2
  show (match readFloat f [0x2e] (printFixed [0x2e] (.fin n m e)) with | some x => Out.ok x | none => .throw .json) = _
  rw [this]

/-- 0.1 is such a value. -/
example : FloatFmt.double.Nearest Samples.tenth (signed false ((100000 : Nat) / 10 ^ 6 : ℚ)) := by
  have hd : Denotes (ascii "0.1") false ((100000 : Nat) / 10 ^ 6 : ℚ) :=
    ⟨ascii "0", ascii ".1", ascii "1", [], 0, .inl rfl, .inr ⟨⟨by decide, by unfold Digit; decide⟩, rfl⟩, .inl ⟨rfl, rfl⟩, by decide, by
      rw [show decimal (ascii "0" ++ ascii "1") = 1 by decide, show (ascii "1").length = 1 by decide]; norm_num⟩
  rcases readFloat_spec (f := .double) (by decide) (by decide) hd with ⟨y, h1, _, h3, _⟩ | ⟨h1, _⟩
  · rw [show readFloat .double [0x2e] (ascii "0.1") = some Samples.tenth by decide +kernel] at h1
    cases h1
    exact h3
  · rw [show readFloat .double [0x2e] (ascii "0.1") = some Samples.tenth by decide +kernel] at h1
    cases h1

/-- Numbers that are a whole number of millionths, among them all integers, are printed exactly and read back. -/
theorem C43_exact (f : FloatFmt) (hf : f.Machine) (x : Fl) (hx : f.Has x) (hfin : x.Finite) (k : Nat) (hk : x.val = signed x.neg ((k : ℚ) / 10 ^ 6)) :
    ∃ text, (Ty.float f).store (floats false [0x2e]) .rv (.flt x) = .ok (.str .number text, .flt x) ∧ Denotes text x.neg ((k : ℚ) / 10 ^ 6) ∧
      (Value.str .number text).asFloat (floats false [0x2e]) f = .ok x := by
  obtain ⟨n, m, e, rfl, _⟩ := has_finite hx hfin
  have hk' : (m : ℚ) * 2 ^ e = (k : ℚ) / 10 ^ 6 := by
    have := congrArg (signed n) hk
    simp only [Fl.val, Fl.neg] at this
    rwa [signed_signed, signed_signed] at this
  have h4 := fixed_exact (m := m) (e := e) (k := k) (by rw [hk']; norm_num)
  have hd := denotes_fixed n m e
  have hr := fixed_range hf.wide hx
  rw [h4] at hd hr
  refine ⟨_, rfl, hd, ?_⟩
  have hnear : f.Nearest (.fin n m e) (signed n ((k : ℚ) / 10 ^ 6)) := by
    refine ⟨hx, trivial, fun z _ _ => ?_⟩
    simp only [Fl.val]
    rw [hk', sub_self, abs_zero]
    exact ⟨abs_nonneg _, fun h hne => absurd (sub_eq_zero.1 (abs_eq_zero.1 h.symm)) hne⟩
  have := readFloat_nearest hf.wide.prec hf.wide.range hd hnear rfl hr.1 hr.2
  show (match readFloat f [0x2e] (printFixed [0x2e] (.fin n m e)) with | some x => Out.ok x | none => .throw .json) = _
  rw [this]

example : Samples.oneHalf.val = signed Samples.oneHalf.neg ((1500000 : Nat) / 10 ^ 6 : ℚ) := by
  show signed false (((3 * 2 ^ 51 : Nat) : ℚ) * 2 ^ (-52 : Int)) = signed false _
  norm_num

/-- The printed number is another one in general: `10^-7` becomes 0. -/
theorem C43_lossy : Samples.small.val ≠ 0 ∧ ∃ text, (Ty.float .double).store (floats false [0x2e]) .rv (.flt Samples.small) = .ok (.str .number text, .flt Samples.small) ∧
    (Value.str .number text).asFloat (floats false [0x2e]) .double = .ok (.fin false 0 (-1074)) := by
  refine ⟨?_, _, rfl, by decide +kernel⟩
  show signed false _ ≠ 0
  simp only [signed, Bool.false_eq_true, if_false]
  positivity

/-! ## The build that keeps the precision -/

/-- With `MEOJSON_KEEP_FLOATING_PRECISION`, in a locale with a decimal point: every normal value, and zero with its sign, is printed as a JSON number and read back as
itself; a subnormal value is printed as a JSON number within one part in `2 * 10^(digits - 1)`. -/
theorem C43_keep (f : FloatFmt) (hf : f.Machine) (x : Fl) (hx : f.Has x) (hfin : x.Finite) (c : Cat) :
    ∃ text q, (Ty.float f).store (floats true [0x2e]) c (.flt x) = .ok (.str .number text, .flt x) ∧ Number text ∧ Denotes text x.neg q ∧
      |signed x.neg q - x.val| * (2 * 10 ^ (f.maxDigits - 1)) ≤ |x.val| ∧
      ((f.Normal x ∨ x.val = 0) → (Value.str .number text).asFloat (floats true [0x2e]) f = .ok x) := by
  obtain ⟨n, m, e, rfl, hlt, hmin, hmax, hn⟩ := has_finite hx hfin
  have e1 : ∀ t, (Value.str .number t).asFloat (floats true [0x2e]) f = match readFloat f [0x2e] t with | some x => .ok x | none => .throw .json := fun _ => rfl
  have hval : |(Fl.fin n m e).val| = m * 2 ^ e := by
    have : (0 : ℚ) ≤ m * 2 ^ e := mul_nonneg (by positivity) (two_zpow_pos e).le
    simp only [Fl.val]
    cases n <;> simp only [signed, Bool.false_eq_true, if_false, if_true, abs_neg, abs_of_nonneg this]
  rcases Nat.eq_zero_or_pos m with rfl | hm
  · have hd : Denotes (printGeneral f.maxDigits [0x2e] (.fin n 0 e)) n 0 :=
      ⟨[0x30], [], [], [], 0, .inl rfl, .inl ⟨rfl, rfl⟩, .inl ⟨rfl, rfl⟩, by cases n <;> rfl, by
        rw [show decimal ([0x30] ++ []) = 0 by decide]; norm_num⟩
    refine ⟨_, 0, rfl, denotes_number hd, hd, by simp [Fl.val, Fl.neg, signed], fun _ => ?_⟩
    have hee : e = f.emin := by
      rcases hn with h | h
      · have := Nat.pow_pos (n := f.prec - 1) (by norm_num : 0 < 2); omega
      · exact h
    rw [e1]
    show (match readFloat f [0x2e] (printGeneral f.maxDigits [0x2e] (.fin n 0 e)) with | some x => Out.ok x | none => .throw .json) = _
    rw [general_zero, hee]
  · have hP1 : 1 ≤ f.maxDigits := by unfold FloatFmt.maxDigits; omega
    have hd := denotes_general hP1 n hm e
    obtain ⟨_, _, herr⟩ := significant_spec hP1 (q := magnitude m e) (scale_pos' (by norm_num) hm) (magnitude_pos m e)
    rw [qv_magnitude] at herr
    refine ⟨_, _, rfl, denotes_number hd, hd, ?_, fun h => ?_⟩
    · rw [hval]
      show |signed n _ - signed n _| * _ ≤ _
      rw [signed_abs]
      exact herr
    · have hnorm : 2 ^ (f.prec - 1) ≤ m := by
        rcases h with h | h
        · exact h
        · have h0 : |(Fl.fin n m e).val| = 0 := by rw [h, abs_zero]
          rw [hval] at h0
          have : (0 : ℚ) < m * 2 ^ e := mul_pos (by exact_mod_cast hm) (two_zpow_pos e)
          exact absurd h0 this.ne'
      have := general_roundtrip hf.wide.prec hf.digits hx hnorm
      show (match readFloat f [0x2e] (printGeneral f.maxDigits [0x2e] (.fin n m e)) with | some x => Out.ok x | none => .throw .json) = _
      rw [this]

example : FloatFmt.double.Normal Samples.small ∧ FloatFmt.double.Has Samples.small ∧ ¬ FloatFmt.double.Normal Samples.least := by
  refine ⟨?_, ?_, ?_⟩
  · unfold FloatFmt.Normal Samples.small; decide
  · unfold FloatFmt.Has Samples.small; decide
  · unfold FloatFmt.Normal Samples.least; decide

/-- A subnormal value is printed, but cannot be read back: `std::stod` reports the underflow and `as<double>()` throws. -/
theorem C43_keep_refuted : ¬ ∀ (x : Fl), FloatFmt.double.Has x → x.Finite →
    ∀ v y, (Ty.float .double).store (floats true [0x2e]) .rv (.flt x) = .ok (v, y) → ∃ z, v.asFloat (floats true [0x2e]) .double = .ok z := by
  intro h
  obtain ⟨z, hz⟩ := h Samples.least (by unfold FloatFmt.Has Samples.least; decide) trivial _ _ rfl
  revert hz
  rw [show (Value.str .number ((floats true [0x2e]).print .double Samples.least)).asFloat (floats true [0x2e]) .double = .throw .json by decide +kernel]
  intro hz
  cases hz

/-! ## Other locales, and values that are not finite -/

/-- C43 as stated, in every locale: `point` is any text that a locale may use. -/
def C43Claim : Prop := ∀ (f : FloatFmt) (x : Fl), f.Machine → f.Has x → x.Finite → ∀ (point : Bytes) v y,
  (Ty.float f).store (floats false point) .rv (.flt x) = .ok (v, y) → ∃ text, v = .str .number text ∧ Number text

/-- In a locale with a decimal comma the text of 1.5 is no JSON number. -/
theorem C43_refuted : ¬ C43Claim := by
  intro h
  obtain ⟨text, h1, h2⟩ := h .double Samples.oneHalf (.inr (.inl rfl)) (by unfold FloatFmt.Has Samples.oneHalf; decide) trivial [0x2c] _ _ rfl
  injection h1 with _ h1
  rw [show (floats false [0x2c]).print .double Samples.oneHalf = ascii "1,500000" by decide +kernel] at h1
  subst h1
  obtain ⟨neg, q, i, fr, ds, e, x, hi, hf, he, ht, _⟩ := (C43_denotes _).1 h2
  have hc : (0x2c : UInt8) ∈ ascii "1,500000" := by decide
  rw [ht] at hc
  have nd : ∀ {t : Text}, Digits t → (0x2c : UInt8) ∉ t := fun h hm => absurd (h.2 _ hm) (by unfold Digit; decide)
  simp only [List.mem_append] at hc
  rcases hc with ((hc | hc) | hc) | hc
  · cases neg <;> simp at hc
  · exact nd hi.digits hc
  · rcases hf with ⟨rfl, _⟩ | ⟨hd', rfl⟩
    · simp at hc
    · simp at hc; exact nd hd' hc
  · rcases he with ⟨rfl, _⟩ | ⟨c, sign, ds', h1, h2, rfl, h3⟩
    · simp at hc
    · simp only [List.mem_cons, List.mem_append] at hc
      rcases hc with hc | hc | hc
      · rcases h1 with rfl | rfl <;> simp at hc
      · rcases h3 with ⟨rfl | rfl, _⟩ | ⟨rfl, _⟩ <;> simp at hc
      · exact nd h2 hc

/-- Worse, in an array it becomes two numbers. -/
theorem C43_refuted_silently : ∃ v y, (Ty.float .double).store (floats false [0x2c]) .rv (.flt Samples.oneHalf) = .ok (v, y) ∧
    (Value.arr .array [v]).dumps = .ok (ascii "[1,500000]") ∧ ∀ a : Accel, parse a.traits (ascii "[1,500000]") = some (.arr .array [.ofInt 1, .ofInt 500000]) :=
  ⟨_, _, rfl, by decide +kernel, fun a => by cases a <;> decide +kernel +revert⟩

/-- Nor is a number with a decimal point readable there, whether parsed or written by the build that keeps the precision. -/
theorem C43_refuted_reading (keep : Bool) : Number (ascii "1.5") ∧ (Value.str .number (ascii "1.5")).asFloat (floats keep [0x2c]) .double = .throw .json ∧
    (floats true [0x2c]).print .double Samples.oneHalf = ascii "1.5" := by
  refine ⟨⟨[], ascii "1", ascii ".5", [], .inl rfl, .inr ⟨⟨by decide, by unfold Digit; decide⟩, by decide⟩, .inr ⟨ascii "5", ⟨by decide, by unfold Digit; decide⟩, rfl⟩, .inl rfl, rfl⟩, ?_, ?_⟩
  · cases keep <;> decide +kernel
  · decide +kernel

/-- Infinities and NaNs are written as bare words, which are no JSON numbers; written in an array, they cannot be parsed. -/
theorem C43_not_finite : ∀ x ∈ [Fl.inf false, .inf true, .nan false, .nan true], ∀ keep : Bool, ∃ s,
    (Value.arr .array [.str .number ((floats keep [0x2e]).print .double x)]).dumps = .ok s ∧ ∀ a : Accel, parse a.traits s = none := by
  intro x hx keep
  simp only [List.mem_cons, List.not_mem_nil, or_false] at hx
  rcases hx with rfl | rfl | rfl | rfl <;> cases keep
  · exact ⟨ascii "[inf]", by decide +kernel, fun a => by cases a <;> decide +kernel +revert⟩
  · exact ⟨ascii "[inf]", by decide +kernel, fun a => by cases a <;> decide +kernel +revert⟩
  · exact ⟨ascii "[-inf]", by decide +kernel, fun a => by cases a <;> decide +kernel +revert⟩
  · exact ⟨ascii "[-inf]", by decide +kernel, fun a => by cases a <;> decide +kernel +revert⟩
  · exact ⟨ascii "[nan]", by decide +kernel, fun a => by cases a <;> decide +kernel +revert⟩
  · exact ⟨ascii "[nan]", by decide +kernel, fun a => by cases a <;> decide +kernel +revert⟩
  · exact ⟨ascii "[-nan]", by decide +kernel, fun a => by cases a <;> decide +kernel +revert⟩
  · exact ⟨ascii "[-nan]", by decide +kernel, fun a => by cases a <;> decide +kernel +revert⟩

/-- Without a parse in between they come back, in every locale: `json::value(x).as<double>()` is `x`. -/
theorem C43_not_finite_back (keep : Bool) (point : Bytes) (f : FloatFmt) : ∀ x ∈ [Fl.inf false, .inf true, .nan false, .nan true],
    (Value.str .number ((floats keep point).print f x)).asFloat (floats keep point) f = .ok x ∧
    (Value.str .number ((floats keep point).print f x)).isFloat (floats keep point) f = .ok true := by
  intro x hx
  simp only [List.mem_cons, List.not_mem_nil, or_false] at hx
  rcases hx with rfl | rfl | rfl | rfl <;> cases keep <;> exact ⟨rfl, rfl⟩

-- `std::stod` also takes the long word, in capitals too, and leading white space.
example : readFloat .double [0x2e] (ascii " -INFINITY") = some (.inf true) ∧ readFloat .double [0x2e] (ascii "+NaN") = some (.nan false) ∧
    readFloat .double [0x2e] (ascii "infinit") = none := by decide +kernel

/-! ## C28 for floating-point types -/

/-- What `C28_roundtrip_partial` asks of a floating-point number, in a locale with a decimal point: with the precision kept, normal values and zeros have it; in the
default build those that are a whole number of millionths. -/
theorem C28_float (f : FloatFmt) (hf : f.Machine) (x : Fl) (hx : f.Has x) (hfin : x.Finite) :
    ((f.Normal x ∨ x.val = 0) → (Ty.float f).Lossless (floats true [0x2e]) (.flt x) ∧ (Ty.float f).Printable (floats true [0x2e]) (.flt x)) ∧
    ((∃ k : Nat, x.val = signed x.neg ((k : ℚ) / 10 ^ 6)) → (Ty.float f).Lossless (floats false [0x2e]) (.flt x) ∧ (Ty.float f).Printable (floats false [0x2e]) (.flt x)) := by
  have back : ∀ keep, (Value.str .number ((floats keep [0x2e]).print f x)).asFloat (floats keep [0x2e]) f = .ok x →
      (Ty.float f).Lossless (floats keep [0x2e]) (.flt x) := by
    intro keep h
    have e1 : (Value.str .number ((floats keep [0x2e]).print f x)).asFloat (floats keep [0x2e]) f =
      match (floats keep [0x2e]).read f ((floats keep [0x2e]).print f x) with | some x => .ok x | none => .throw .json := rfl
    rw [e1] at h
    show (floats keep [0x2e]).read f ((floats keep [0x2e]).print f x) = some x
    split at h
    · rename_i heq; cases h; exact heq
    · cases h
  constructor
  · intro h
    obtain ⟨text, q, h1, h2, h3, h4, h5⟩ := C43_keep f hf x hx hfin .rv
    simp only [Ty.store, Out.ok.injEq, Prod.mk.injEq, Value.str.injEq, true_and, and_true] at h1
    subst h1
    exact ⟨back true (h5 h), h2⟩
  · rintro ⟨k, hk⟩
    obtain ⟨text, h1, h2, h3⟩ := C43_exact f hf x hx hfin k hk
    simp only [Ty.store, Out.ok.injEq, Prod.mk.injEq, Value.str.injEq, true_and, and_true] at h1
    subst h1
    exact ⟨back false h3, denotes_number h2⟩

end Meojson
