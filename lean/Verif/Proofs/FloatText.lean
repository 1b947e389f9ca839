import Verif.Proofs.FloatRound
import Verif.Proofs.Integer

/-! # Proofs: floating-point numbers as text -/

set_option autoImplicit false

namespace Meojson
open Spec

/-! ### Digits -/

theorem decimal_from (a : Nat) (t : Text) : t.foldl (fun a c => 10 * a + (c.toNat - 48)) a = a * 10 ^ t.length + decimal t := by
  induction t generalizing a with
  | nil => simp [decimal]
  | cons c t ih =>
    unfold decimal
    simp only [List.foldl_cons, List.length_cons]
    rw [ih, ih (10 * 0 + (c.toNat - 48)), Nat.pow_succ]
    ring

theorem decimal_append (a b : Text) : decimal (a ++ b) = decimal a * 10 ^ b.length + decimal b := by
  rw [← decimal_from (decimal a) b]
  unfold decimal
  rw [List.foldl_append]

theorem decimal_zeros (n : Nat) : decimal (List.replicate n 0x30) = 0 := by
  induction n with
  | zero => rfl
  | succ n ih =>
    rw [List.replicate_succ', decimal_append, ih]
    simp [decimal]

theorem padText_spec (w n : Nat) : (padText w n).length = w ∧ (∀ c ∈ padText w n, Digit c) ∧ decimal (padText w n) = n % 10 ^ w := by
  induction w generalizing n with
  | zero => simp [padText, decimal, Nat.mod_one]
  | succ w ih =>
    obtain ⟨h1, h2, h3⟩ := ih (n / 10)
    obtain ⟨d1, d2⟩ := digit_ofNat (Nat.mod_lt n (by norm_num : 10 > 0))
    unfold padText
    refine ⟨by simp [h1], ?_, ?_⟩
    · intro c hc
      rcases List.mem_append.1 hc with h | h
      · exact h2 c h
      · rw [List.mem_singleton] at h; rw [h]; exact d1
    · rw [decimal_append, h3]
      have : decimal [UInt8.ofNat (48 + n % 10)] = n % 10 := by unfold decimal; simp only [List.foldl_cons, List.foldl_nil, d2]; omega
      rw [this, Nat.pow_succ, Nat.mul_comm (10 ^ w) 10, Nat.mod_mul]
      simp
      ring

theorem takeWhile_digits {ds r : Bytes} (hd : ∀ c ∈ ds, Digit c) (hr : ∀ c ∈ r.head?, ¬ Digit c) :
    (ds ++ r).takeWhile isDigit = ds ∧ (ds ++ r).dropWhile isDigit = r := by
  induction ds with
  | nil =>
    cases r with
    | nil => simp
    | cons c r =>
      have : isDigit c = false := by rw [← Bool.not_eq_true, isDigit_iff]; exact hr c rfl
      simp [this]
  | cons c ds ih =>
    have : isDigit c = true := (isDigit_iff c).2 (hd c (by simp))
    have ih := ih fun c hc => hd c (by simp [hc])
    simp [this, ih.1, ih.2]

theorem all_digits {ds : Bytes} (hd : ∀ c ∈ ds, Digit c) : ds.all isDigit = true := by
  rw [List.all_eq_true]
  intro c hc
  exact (isDigit_iff c).2 (hd c hc)

theorem scanDigits_decimal {ds : Bytes} (hd : ∀ c ∈ ds, Digit c) : (scanDigits 0 ds).1 = decimal ds := by rw [scanDigits_digits hd]; rfl

/-! ### Reading a JSON number -/

theorem readExponent_value {t : Text} {x : Int} (h : ExpValue t x) : readExponent t = some x := by
  rcases h with ⟨rfl, rfl⟩ | ⟨e, sign, ds, he, hd, rfl, hs⟩
  · rfl
  · have h0 : ∀ c ∈ ds.head?, Digit c := fun c hc => hd.2 c (List.mem_of_mem_head? hc)
    have hm : ∀ c ∈ ds.head?, c ≠ 0x2d ∧ c ≠ 0x2b := fun c hc => by
      have := digit_toNat (h0 c hc)
      constructor <;> rintro rfl <;> simp at this
    have all := all_digits hd.2
    have hne := hd.1
    have hsc := scanDigits_decimal hd.2
    unfold readExponent
    simp only [if_pos he]
    rcases hs with ⟨rfl | rfl, rfl⟩ | ⟨rfl, rfl⟩
    · obtain ⟨c, ds, rfl⟩ : ∃ c r, ds = c :: r := by cases ds with
        | nil => exact absurd rfl hne
        | cons c r => exact ⟨c, r, rfl⟩
      obtain ⟨m1, m2⟩ := hm c rfl
      have : readSign ([] ++ c :: ds) = (false, c :: ds) := by simp [readSign, m1, m2]
      rw [this]
      simp only [ne_eq, reduceCtorEq, not_false_eq_true, all, and_self, if_true, hsc, applySign, Bool.false_eq_true, if_false]
    · simp only [readSign, List.cons_append, List.nil_append, (by decide : ¬ (0x2b : UInt8) = 0x2d), ne_eq, hne, not_false_eq_true, all, and_self, if_true, hsc, applySign, Bool.false_eq_true, if_false]
    · simp only [readSign, List.cons_append, List.nil_append, ne_eq, hne, not_false_eq_true, all, and_self, if_true, hsc, applySign]

theorem exp_head {t : Text} {x : Int} (h : ExpValue t x) : ∀ c ∈ t.head?, ¬ Digit c ∧ c ≠ 0x2e := by
  rcases h with ⟨rfl, rfl⟩ | ⟨e, sign, ds, he, hd, rfl, hs⟩
  · simp
  · intro c hc
    simp at hc
    subst hc
    rcases he with rfl | rfl <;> exact ⟨by unfold Digit; decide, by decide⟩

theorem readDecimal_value {i f ds e : Text} {x : Int} (hi : Digits i) (hf : FracDigits f ds) (he : ExpValue e x) :
    readDecimal [0x2e] (i ++ f ++ e) = some (decimal (i ++ ds), x - ds.length) := by
  have hx := readExponent_value he
  have heh := exp_head he
  unfold readDecimal
  rcases hf with ⟨rfl, rfl⟩ | ⟨hd, rfl⟩
  · obtain ⟨t1, t2⟩ := takeWhile_digits (r := e) hi.2 fun c hc => (heh c hc).1
    have hp : ([0x2e] : Bytes).isPrefixOf e = false := by
      cases e with
      | nil => rfl
      | cons c e =>
        have := (heh c rfl).2
        simp [List.isPrefixOf, Ne.symm this]
    simp only [List.append_nil, t1, t2, hp, Bool.false_eq_true, if_false, if_neg hi.1, hx, Option.map_some, scanDigits_decimal hi.2, List.length_nil]
  · obtain ⟨t1, t2⟩ := takeWhile_digits (r := 0x2e :: ds ++ e) hi.2 fun c hc => by
      simp at hc; subst hc; unfold Digit; decide
    obtain ⟨t3, t4⟩ := takeWhile_digits (r := e) hd.2 fun c hc => (heh c hc).1
    have hall : ∀ c ∈ i ++ ds, Digit c := by
      intro c hc
      rcases List.mem_append.1 hc with h | h
      · exact hi.2 c h
      · exact hd.2 c h
    have hne : i ++ ds ≠ [] := by simp [hi.1]
    rw [List.append_assoc]
    simp only [t1, t2]
    have hp : ([0x2e] : Bytes).isPrefixOf (0x2e :: (ds ++ e)) = true := by simp [List.isPrefixOf]
    simp only [hp, if_true, List.length_cons, List.length_nil, Nat.zero_add, List.cons_append, List.drop_succ_cons, List.drop_zero, t3, t4, if_neg hne, hx,
      Option.map_some, scanDigits_decimal hall]

/-- Any JSON number is read as the nearest value. -/
theorem readFloat_denotes (f : FloatFmt) {t : Text} {neg : Bool} {q : ℚ} (h : Denotes t neg q) :
    ∃ d : Nat × Nat, readFloat f [0x2e] t = roundFloat f neg d ∧ 0 < d.2 ∧ qv d = q := by
  obtain ⟨i, fr, ds, e, x, hi, hf, he, rfl, rfl⟩ := h
  refine ⟨scale 10 (x - ds.length) (decimal (i ++ ds), 1), ?_, scale_pos (by norm_num) (by norm_num), ?_⟩
  · have hdec := readDecimal_value hi.digits hf he
    obtain ⟨c, r, hc⟩ : ∃ c r, i ++ fr ++ e = c :: r ∧ Digit c := by
      have := hi.digits
      cases i with
      | nil => exact absurd rfl this.1
      | cons c r => exact ⟨c, r ++ fr ++ e, by simp, this.2 c (by simp)⟩
    obtain ⟨hc, hdig⟩ := hc
    have hn := digit_toNat hdig
    have hsp : isSpace c = false := by
      unfold isSpace
      rw [Bool.or_eq_false_iff, Bool.and_eq_false_iff]
      refine ⟨?_, .inr ?_⟩
      · simp; rintro rfl; simp at hn
      · simp [UInt8.le_iff_toNat_le]; omega
    have hl : lowerByte c = c := by
      unfold lowerByte
      rw [if_neg]
      simp [UInt8.le_iff_toNat_le]; omega
    have hi' : c ≠ 0x69 := by rintro rfl; simp at hn
    have hn' : c ≠ 0x6e := by rintro rfl; simp at hn
    have hm' : c ≠ 0x2d := by rintro rfl; simp at hn
    have hp' : c ≠ 0x2b := by rintro rfl; simp at hn
    unfold readFloat
    have hassoc : (if neg = true then [0x2d] else []) ++ i ++ fr ++ e = (if neg = true then [0x2d] else []) ++ (c :: r) := by rw [← hc]; simp
    rw [hassoc]
    rw [hc] at hdec
    cases neg
    · simp only [Bool.false_eq_true, if_false, List.nil_append, List.dropWhile_cons, hsp]
      have hmatch : readSign (c :: r) = (false, c :: r) := by simp [readSign, hm', hp']
      rw [hmatch]
      simp only [List.map_cons, hl, List.cons.injEq, hi', hn', false_and, or_self, if_false, hdec, Option.bind_some]
    · have : isSpace 0x2d = false := by decide
      simp only [readSign, if_true, List.cons_append, List.nil_append, List.dropWhile_cons, this, Bool.false_eq_true, if_false, List.map_cons, hl, List.cons.injEq, hi', hn',
        false_and, or_self, hdec, Option.bind_some]
  · rw [qv_scale (by norm_num)]
    simp [qv]

/-- A JSON number denotes a number. -/
theorem denotes_number {t : Text} {neg : Bool} {q : ℚ} (h : Denotes t neg q) : Number t := by
  obtain ⟨i, fr, ds, e, x, hi, hf, he, rfl, _⟩ := h
  refine ⟨if neg then [0x2d] else [], i, fr, e, by cases neg <;> simp, hi, ?_, ?_, rfl⟩
  · rcases hf with ⟨rfl, _⟩ | ⟨h, rfl⟩
    · exact .inl rfl
    · exact .inr ⟨ds, h, rfl⟩
  · rcases he with ⟨rfl, _⟩ | ⟨c, sign, ds', h1, h2, rfl, h3⟩
    · exact .inl rfl
    · refine .inr ⟨c, sign, ds', h1, ?_, h2, rfl⟩
      rcases h3 with ⟨h | h, _⟩ | ⟨h, _⟩
      · exact .inl h
      · exact .inr (.inl h)
      · exact .inr (.inr h)

theorem number_denotes {t : Text} (h : Number t) : ∃ neg q, Denotes t neg q := by
  obtain ⟨sign, i, fr, e, hs, hi, hf, he, rfl⟩ := h
  obtain ⟨ds, hf⟩ : ∃ ds, FracDigits fr ds := by
    rcases hf with rfl | ⟨ds, h, rfl⟩
    · exact ⟨[], .inl ⟨rfl, rfl⟩⟩
    · exact ⟨ds, .inr ⟨h, rfl⟩⟩
  obtain ⟨x, he⟩ : ∃ x, ExpValue e x := by
    rcases he with rfl | ⟨c, sign, ds', h1, h2, h3, rfl⟩
    · exact ⟨0, .inl ⟨rfl, rfl⟩⟩
    · rcases h2 with h | h | h
      · exact ⟨_, .inr ⟨c, sign, ds', h1, h3, rfl, .inl ⟨.inl h, rfl⟩⟩⟩
      · exact ⟨_, .inr ⟨c, sign, ds', h1, h3, rfl, .inl ⟨.inr h, rfl⟩⟩⟩
      · exact ⟨_, .inr ⟨c, sign, ds', h1, h3, rfl, .inr ⟨h, rfl⟩⟩⟩
  rcases hs with rfl | rfl
  · exact ⟨false, _, i, fr, ds, e, x, hi, hf, he, rfl, rfl⟩
  · exact ⟨true, _, i, fr, ds, e, x, hi, hf, he, rfl, rfl⟩

/-! ### Fixed notation -/

theorem denotes_fixed (neg : Bool) (m : Nat) (e : Int) :
    Denotes (printFixed [0x2e] (.fin neg m e)) neg ((roundQ (scale 10 6 (magnitude m e)) : ℚ) / 10 ^ 6) := by
  set n := roundQ (scale 10 6 (magnitude m e)) with hn
  obtain ⟨h1, h2⟩ := natText_intPart (n / 10 ^ 6)
  obtain ⟨p1, p2, p3⟩ := padText_spec 6 (n % 10 ^ 6)
  refine ⟨natText (n / 10 ^ 6), 0x2e :: padText 6 (n % 10 ^ 6), padText 6 (n % 10 ^ 6), [], 0, h1, .inr ⟨⟨?_, p2⟩, rfl⟩, .inl ⟨rfl, rfl⟩, ?_, ?_⟩
  · intro h; rw [h] at p1; simp at p1
  · unfold printFixed
    simp only [← hn, signText, List.append_assoc, List.append_nil, List.cons_append, List.nil_append]
  · rw [decimal_append, h2, p1, p3, Nat.mod_mod, Nat.div_add_mod']
    norm_num
    ring

/-! ### General notation -/

theorem significant_spec {p : Nat} (hp : 1 ≤ p) {q : Nat × Nat} (h1 : 0 < q.1) (h2 : 0 < q.2) :
    10 ^ (p - 1) ≤ (significant p q).1 ∧ (significant p q).1 < 10 ^ p ∧
    |((significant p q).1 : ℚ) * 10 ^ ((significant p q).2 - (p - 1)) - qv q| * (2 * 10 ^ (p - 1)) ≤ qv q := by
  obtain ⟨l1, l2⟩ := floorLog_spec (b := 10) (by norm_num) h1 h2
  push_cast at l1 l2
  unfold significant
  simp only
  set x := floorLog 10 q
  have hs := scale_pos (k := (p : Int) - 1 - x) (by norm_num : 0 < 10) h2
  have hv := qv_scale (by norm_num : 0 < 10) ((p : Int) - 1 - x) q
  push_cast at hv
  set t := scale 10 ((p : Int) - 1 - x) q
  have hpos : ∀ k : Int, (0 : ℚ) < 10 ^ k := fun k => zpow_pos (by norm_num) k
  have ht : qv q = qv t * 10 ^ (x - ((p : Int) - 1)) := by
    rw [hv, mul_assoc, ← zpow_add₀ (by norm_num)]; simp
  have hlow : 10 ^ (p - 1) ≤ roundQ t := by
    apply le_roundQ hs
    rw [hv]
    push_cast
    calc (10 : ℚ) ^ (p - 1) = 10 ^ x * 10 ^ ((p : Int) - 1 - x) := by
          rw [← zpow_natCast, ← zpow_add₀ (by norm_num)]; congr 1; omega
      _ ≤ qv q * 10 ^ ((p : Int) - 1 - x) := mul_le_mul_of_nonneg_right l1 (hpos _).le
  have hup : roundQ t ≤ 10 ^ p := by
    apply roundQ_le hs
    rw [hv]
    push_cast
    calc qv q * (10 : ℚ) ^ ((p : Int) - 1 - x) ≤ 10 ^ (x + 1) * 10 ^ ((p : Int) - 1 - x) := mul_le_mul_of_nonneg_right l2.le (hpos _).le
      _ = 10 ^ p := by rw [← zpow_natCast, ← zpow_add₀ (by norm_num)]; congr 1; omega
  have herr : |(roundQ t : ℚ) * 10 ^ (x - ((p : Int) - 1)) - qv q| * (2 * 10 ^ (p - 1)) ≤ qv q := by
    have h := (roundQ_half hs).1
    rw [ht, ← sub_mul, abs_mul, abs_of_pos (hpos _), ← ht]
    calc |(roundQ t : ℚ) - qv t| * 10 ^ (x - ((p : Int) - 1)) * (2 * 10 ^ (p - 1)) ≤ 1 / 2 * 10 ^ (x - ((p : Int) - 1)) * (2 * 10 ^ (p - 1)) :=
          mul_le_mul_of_nonneg_right (mul_le_mul_of_nonneg_right h (hpos _).le) (by positivity)
      _ = 10 ^ (x - ((p : Int) - 1)) * 10 ^ (p - 1) := by ring
      _ = 10 ^ x := by rw [← zpow_natCast, ← zpow_add₀ (by norm_num)]; congr 1; omega
      _ ≤ qv q := l1
  split
  · rename_i h
    refine ⟨Nat.le_refl _, Nat.pow_lt_pow_right (by norm_num) (by omega), ?_⟩
    rw [h] at herr
    have : ((10 ^ (p - 1) : Nat) : ℚ) * 10 ^ (x + 1 - ((p : Int) - 1)) = ((10 ^ p : Nat) : ℚ) * 10 ^ (x - ((p : Int) - 1)) := by
      push_cast
      rw [← zpow_natCast, ← zpow_natCast, ← zpow_add₀ (by norm_num), ← zpow_add₀ (by norm_num)]
      congr 1
      omega
    simp only
    rw [this]
    exact herr
  · exact ⟨hlow, by simp only; omega, herr⟩

theorem decimal_lt {t : Text} (h : ∀ c ∈ t, Digit c) : decimal t < 10 ^ t.length := by
  induction t with
  | nil => simp [decimal]
  | cons c t ih =>
    have ih := ih fun c hc => h c (by simp [hc])
    have hc := digit_toNat (h c (by simp))
    rw [show c :: t = [c] ++ t from rfl, decimal_append]
    have : decimal [c] ≤ 9 := by unfold decimal; simp only [List.foldl_cons, List.foldl_nil]; omega
    have := Nat.mul_le_mul_right (10 ^ t.length) this
    simp only [List.length_append, List.length_cons, List.length_nil]
    rw [show 0 + 1 + t.length = t.length + 1 by omega, Nat.pow_succ]
    omega

/-- A number with exactly `w` digits has no leading zero. -/
theorem padText_head {w n : Nat} (hw : 1 ≤ w) (h1 : 10 ^ (w - 1) ≤ n) (h2 : n < 10 ^ w) : ∃ c r, padText w n = c :: r ∧ Digit c ∧ c ≠ 0x30 := by
  obtain ⟨p1, p2, p3⟩ := padText_spec w n
  cases hp : padText w n with
  | nil => rw [hp] at p1; simp at p1; omega
  | cons c r =>
    rw [hp] at p1 p2 p3
    refine ⟨c, r, rfl, p2 c (by simp), ?_⟩
    rintro rfl
    rw [Nat.mod_eq_of_lt h2, show (0x30 : UInt8) :: r = [0x30] ++ r from rfl, decimal_append] at p3
    have hz : decimal [0x30] = 0 := rfl
    rw [hz] at p3
    have := decimal_lt fun c hc => p2 c (List.mem_cons_of_mem _ hc)
    have hr : r.length = w - 1 := by simp at p1; omega
    rw [hr] at this
    omega

theorem stripZeros_spec (s : Bytes) : ∃ k, s = stripZeros s ++ List.replicate k 0x30 := by
  unfold stripZeros
  refine ⟨(s.reverse.takeWhile (· == 0x30)).length, ?_⟩
  have h : s.reverse.takeWhile (· == 0x30) = List.replicate (s.reverse.takeWhile (· == 0x30)).length 0x30 := by
    rw [List.eq_replicate_iff]
    refine ⟨rfl, fun c hc => ?_⟩
    have := List.all_takeWhile (p := fun c : UInt8 => c == 0x30) (l := s.reverse)
    rw [List.all_eq_true] at this
    simpa using this c hc
  have := congrArg List.reverse (List.takeWhile_append_dropWhile (p := fun c : UInt8 => c == 0x30) (l := s.reverse))
  rw [List.reverse_reverse, List.reverse_append] at this
  conv at this => lhs; rhs; rw [h, List.reverse_replicate]
  exact this.symm

theorem signText_eq (neg : Bool) : signText neg = if neg then [0x2d] else [] := rfl

/-- A text put together from digits, a fraction without trailing zeros and an exponent -/
theorem denotes_parts {i s e : Text} {x : Int} (neg : Bool) (hi : IntPart i) (hs : ∀ c ∈ s, Digit c) (he : ExpValue e x) :
    Denotes (signText neg ++ (i ++ fraction [0x2e] s ++ e)) neg (decimal (i ++ s) * (10 : ℚ) ^ (x - s.length)) := by
  obtain ⟨k, hk⟩ := stripZeros_spec s
  have hds : ∀ c ∈ stripZeros s, Digit c := fun c hc => hs c (by rw [hk]; exact List.mem_append_left _ hc)
  refine ⟨i, fraction [0x2e] s, stripZeros s, e, x, hi, ?_, he, by rw [signText_eq]; simp only [List.append_assoc], ?_⟩
  · unfold fraction
    split
    · rename_i h; exact .inl ⟨rfl, h⟩
    · rename_i h; exact .inr ⟨⟨h, hds⟩, rfl⟩
  · generalize stripZeros s = t at hk
    subst hk
    rw [← List.append_assoc, decimal_append, decimal_zeros]
    simp only [List.length_append, List.length_replicate]
    push_cast
    rw [add_zero, mul_assoc, ← zpow_natCast, ← zpow_add₀ (by norm_num)]
    congr 2
    omega

theorem exponentText_value (x : Int) : ExpValue (exponentText x) x := by
  obtain ⟨h1, h2⟩ := natText_intPart x.natAbs
  have hd := h1.digits
  have key : ∃ ds, Digits ds ∧ decimal ds = x.natAbs ∧ (if x.natAbs < 10 then 0x30 :: natText x.natAbs else natText x.natAbs) = ds := by
    split
    · refine ⟨_, ⟨by simp, ?_⟩, ?_, rfl⟩
      · intro c hc
        rcases List.mem_cons.1 hc with rfl | h
        · unfold Digit; decide
        · exact hd.2 c h
      · rw [show (0x30 : UInt8) :: natText x.natAbs = [0x30] ++ natText x.natAbs from rfl, decimal_append, h2]
        have : decimal [0x30] = 0 := rfl
        rw [this]; omega
    · exact ⟨_, hd, h2, rfl⟩
  obtain ⟨ds, k1, k2, k3⟩ := key
  unfold exponentText
  rw [k3]
  by_cases hx : x < 0
  · exact .inr ⟨0x65, [0x2d], ds, .inl rfl, k1, by simp [hx], .inr ⟨rfl, by omega⟩⟩
  · exact .inr ⟨0x65, [0x2b], ds, .inl rfl, k1, by simp [hx], .inl ⟨.inr rfl, by omega⟩⟩

theorem denotes_general {p : Nat} (hp : 1 ≤ p) (neg : Bool) {m : Nat} (hm : 0 < m) (e : Int) :
    Denotes (printGeneral p [0x2e] (.fin neg m e)) neg
      (((significant p (magnitude m e)).1 : ℚ) * 10 ^ ((significant p (magnitude m e)).2 - (p - 1))) := by
  obtain ⟨s1, s2, _⟩ := significant_spec hp (q := magnitude m e) (scale_pos' (by norm_num) hm) (magnitude_pos m e)
  have hu : printGeneral p [0x2e] (.fin neg m e) =
    (let r := significant p (magnitude m e)
    let ds := padText p r.1
    signText neg ++
    (if -4 ≤ r.2 ∧ r.2 < p then
      if 0 ≤ r.2 then ds.take (r.2.toNat + 1) ++ fraction [0x2e] (ds.drop (r.2.toNat + 1))
      else [0x30] ++ fraction [0x2e] (List.replicate ((-r.2).toNat - 1) 0x30 ++ ds)
    else ds.take 1 ++ fraction [0x2e] (ds.drop 1) ++ exponentText r.2)) := by
    cases m with
    | zero => omega
    | succ m => rfl
  rw [hu]
  generalize significant p (magnitude m e) = r at s1 s2
  obtain ⟨n, x⟩ := r
  simp only at s1 s2 ⊢
  obtain ⟨p1, p2, p3⟩ := padText_spec p n
  obtain ⟨c, t, h1, h2, h3⟩ := padText_head hp s1 s2
  rw [Nat.mod_eq_of_lt s2] at p3
  set ds := padText p n
  have htake : ∀ k, IntPart (ds.take (k + 1)) := by
    intro k
    rw [h1, List.take_succ_cons]
    right
    refine ⟨⟨by simp, fun d hd => ?_⟩, by simp [h3]⟩
    apply p2 d
    rw [h1]
    rcases List.mem_cons.1 hd with rfl | h
    · simp
    · exact List.mem_cons_of_mem _ (List.mem_of_mem_take h)
  have hdrop : ∀ k, ∀ d ∈ ds.drop k, Digit d := fun k d hd => p2 d (List.mem_of_mem_drop hd)
  split
  · rename_i hx
    split
    · rename_i h0
      have := denotes_parts neg (htake x.toNat) (hdrop (x.toNat + 1)) (.inl ⟨rfl, rfl⟩ : ExpValue [] 0)
      rw [List.take_append_drop, p3, List.append_nil] at this
      convert this using 3
      rw [List.length_drop, p1]
      omega
    · rename_i h0
      have hall : ∀ d ∈ List.replicate ((-x).toNat - 1) 0x30 ++ ds, Digit d := by
        intro d hd
        rcases List.mem_append.1 hd with h | h
        · rw [List.mem_replicate] at h; rw [h.2]; unfold Digit; decide
        · exact p2 d h
      have := denotes_parts neg (.inl rfl : IntPart [0x30]) hall (.inl ⟨rfl, rfl⟩ : ExpValue [] 0)
      have hd : decimal ([0x30] ++ (List.replicate ((-x).toNat - 1) 0x30 ++ ds)) = n := by
        rw [decimal_append, decimal_append, decimal_zeros, p3]
        have : decimal [0x30] = 0 := rfl
        rw [this]; omega
      rw [hd, List.append_nil] at this
      convert this using 3
      rw [List.length_append, List.length_replicate, p1]
      omega
  · have := denotes_parts neg (htake 0) (hdrop 1) (exponentText_value x)
    rw [Nat.zero_add, List.take_append_drop, p3] at this
    convert this using 3
    rw [List.length_drop, p1]
    omega

end Meojson
