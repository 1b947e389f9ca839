import Verif.Model.FloatText
import Verif.Spec.Float
import Mathlib.Tactic.Linarith
import Mathlib.Tactic.Positivity
import Mathlib.Tactic.FieldSimp
import Mathlib.Tactic.Ring
import Mathlib.Tactic.NormNum

/-! # Proofs: rounding to a floating-point format -/

set_option autoImplicit false

namespace Meojson
open Spec

/-- The fraction as a rational number -/
def qv (q : Nat × Nat) : ℚ := (q.1 : ℚ) / q.2

theorem zpow_toNat {b : ℚ} {k : Int} (h : 0 ≤ k) : b ^ k.toNat = b ^ k := by
  obtain ⟨n, rfl⟩ := Int.eq_ofNat_of_zero_le h
  simp

theorem scale_pos {b : Nat} (hb : 0 < b) {k : Int} {q : Nat × Nat} (hq : 0 < q.2) : 0 < (scale b k q).2 := by
  unfold scale
  split
  · exact hq
  · exact Nat.mul_pos hq (Nat.pow_pos hb)

theorem scale_pos' {b : Nat} (hb : 0 < b) {k : Int} {q : Nat × Nat} (hq : 0 < q.1) : 0 < (scale b k q).1 := by
  unfold scale
  split
  · exact Nat.mul_pos hq (Nat.pow_pos hb)
  · exact hq

theorem qv_scale {b : Nat} (hb : 0 < b) (k : Int) (q : Nat × Nat) : qv (scale b k q) = qv q * (b : ℚ) ^ k := by
  have hb' : (b : ℚ) ≠ 0 := by positivity
  unfold scale qv
  split
  · rename_i h
    push_cast
    rw [zpow_toNat h]
    ring
  · rename_i h
    have h : 0 ≤ -k := by omega
    push_cast
    rw [zpow_toNat h, zpow_neg]
    field_simp

theorem qv_nonneg (q : Nat × Nat) : 0 ≤ qv q := by unfold qv; positivity

theorem qv_magnitude (m : Nat) (e : Int) : qv (magnitude m e) = m * (2 : ℚ) ^ e := by
  unfold magnitude
  rw [qv_scale (by norm_num)]
  simp [qv]

theorem magnitude_pos (m : Nat) (e : Int) : 0 < (magnitude m e).2 := scale_pos (by norm_num) (by norm_num)

/-! ### Rounding to an integer -/

theorem roundQ_half {q : Nat × Nat} (hq : 0 < q.2) :
    |(roundQ q : ℚ) - qv q| ≤ 1 / 2 ∧ (|(roundQ q : ℚ) - qv q| = 1 / 2 → roundQ q % 2 = 0) ∧ (q.1 % q.2 = 0 → (roundQ q : ℚ) = qv q) := by
  obtain ⟨n, d⟩ := q
  simp only at hq
  have hd : (0 : ℚ) < d := by exact_mod_cast hq
  have hdiv : (n : ℚ) = d * (n / d : Nat) + (n % d : Nat) := by exact_mod_cast (Nat.div_add_mod n d).symm
  have hlt : ((n % d : Nat) : ℚ) < d := by exact_mod_cast Nat.mod_lt n hq
  have hqv : qv (n, d) = (n / d : Nat) + (n % d : Nat) / (d : ℚ) := by
    unfold qv
    simp only
    rw [hdiv]
    field_simp
  have hr0 : (0 : ℚ) ≤ (n % d : Nat) / (d : ℚ) := by positivity
  rw [hqv]
  unfold roundQ
  simp only
  set a := n / d
  set r := n % d
  by_cases h1 : 2 * r < d
  · have h1' : (r : ℚ) / d < 1 / 2 := by
      rw [div_lt_div_iff₀ hd (by norm_num)]
      have : ((2 * r : Nat) : ℚ) < d := by exact_mod_cast h1
      push_cast at this; linarith
    have e : ((a : ℚ) - (a + r / d)) = -(r / d) := by ring
    rw [if_pos h1, e, abs_neg, abs_of_nonneg hr0]
    exact ⟨by linarith, fun h => by linarith, fun h => by rw [h]; simp⟩
  · rw [if_neg h1]
    by_cases h2 : d < 2 * r
    · have h2' : (1 : ℚ) / 2 < r / d := by
        rw [div_lt_div_iff₀ (by norm_num) hd]
        have : (d : ℚ) < ((2 * r : Nat) : ℚ) := by exact_mod_cast h2
        push_cast at this; linarith
      have h3 : (r : ℚ) / d < 1 := by rw [div_lt_one hd]; exact hlt
      have e : (((a + 1 : Nat) : ℚ) - (a + r / d)) = 1 - r / d := by push_cast; ring
      rw [if_pos h2, e, abs_of_nonneg (by linarith)]
      exact ⟨by linarith, fun h => by linarith, fun h => by omega⟩
    · have h3 : 2 * r = d := by omega
      have h3' : (r : ℚ) / d = 1 / 2 := by
        rw [div_eq_div_iff hd.ne' (by norm_num)]
        have : ((2 * r : Nat) : ℚ) = d := by exact_mod_cast h3
        push_cast at this; linarith
      rw [if_neg h2, h3']
      refine ⟨?_, fun _ => by omega, fun h => by omega⟩
      rcases Nat.mod_two_eq_zero_or_one a with h | h <;> rw [h] <;> push_cast
      · rw [show (a : ℚ) + 0 - (a + 1 / 2) = -(1 / 2) by ring, abs_neg, abs_of_pos (by norm_num)]
      · rw [show (a : ℚ) + 1 - (a + 1 / 2) = 1 / 2 by ring, abs_of_pos (by norm_num)]

theorem roundQ_best {q : Nat × Nat} (hq : 0 < q.2) (k : Int) :
    |(roundQ q : ℚ) - qv q| ≤ |(k : ℚ) - qv q| ∧ (|(roundQ q : ℚ) - qv q| = |(k : ℚ) - qv q| → k ≠ roundQ q → roundQ q % 2 = 0 ∧ k % 2 = 1) := by
  obtain ⟨h1, h2, _⟩ := roundQ_half hq
  by_cases hk : k = roundQ q
  · subst hk; exact ⟨by simp, fun _ h => absurd rfl h⟩
  · have hdist : (1 : ℚ) ≤ |(k : ℚ) - roundQ q| := by
      have : (1 : Int) ≤ |k - (roundQ q : Int)| := Int.one_le_abs (by omega)
      exact_mod_cast this
    have htri : |(k : ℚ) - roundQ q| ≤ |(k : ℚ) - qv q| + |(roundQ q : ℚ) - qv q| := by
      have := abs_sub_le (k : ℚ) (qv q) (roundQ q)
      rwa [abs_sub_comm (qv q) (roundQ q : ℚ)] at this
    refine ⟨by linarith, fun h _ => ?_⟩
    have he := h2 (by linarith)
    have hle : |(k : ℚ) - roundQ q| ≤ 1 := by linarith
    have hle' : |k - (roundQ q : Int)| ≤ 1 := by exact_mod_cast hle
    rw [abs_le] at hle'
    exact ⟨he, by omega⟩

/-- Rounding is monotone with respect to integers. -/
theorem le_roundQ {q : Nat × Nat} (hq : 0 < q.2) {k : Nat} (h : (k : ℚ) ≤ qv q) : k ≤ roundQ q := by
  by_contra hc
  have h1 := (roundQ_half hq).1
  have h2 : ((roundQ q : ℚ)) + 1 ≤ k := by exact_mod_cast Nat.succ_le_of_lt (Nat.lt_of_not_le hc)
  rw [abs_le] at h1
  linarith

theorem roundQ_le {q : Nat × Nat} (hq : 0 < q.2) {k : Nat} (h : qv q ≤ k) : roundQ q ≤ k := by
  by_contra hc
  have h1 := (roundQ_half hq).1
  have h2 : (k : ℚ) + 1 ≤ roundQ q := by exact_mod_cast Nat.succ_le_of_lt (Nat.lt_of_not_le hc)
  rw [abs_le] at h1
  linarith

theorem roundQ_int {q : Nat × Nat} (hq : 0 < q.2) {k : Nat} (h : qv q = k) : roundQ q = k :=
  Nat.le_antisymm (roundQ_le hq h.le) (le_roundQ hq h.ge)

theorem exact_iff {q : Nat × Nat} (hq : 0 < q.2) : q.1 % q.2 = 0 ↔ ∃ k : Nat, qv q = k := by
  constructor
  · intro h; exact ⟨roundQ q, ((roundQ_half hq).2.2 h).symm⟩
  · rintro ⟨k, h⟩
    have hd : (q.2 : ℚ) ≠ 0 := by positivity
    unfold qv at h
    rw [div_eq_iff hd] at h
    have : q.1 = k * q.2 := by exact_mod_cast h
    rw [this, Nat.mul_mod_left]

/-! ### Logarithms -/

theorem natLogF_spec {b : Nat} (hb : 2 ≤ b) {fuel n : Nat} (hn : 0 < n) (hf : n ≤ fuel) : b ^ natLogF b fuel n ≤ n ∧ n < b ^ (natLogF b fuel n + 1) := by
  induction fuel generalizing n with
  | zero => omega
  | succ fuel ih =>
    unfold natLogF
    split
    · simp; omega
    · rename_i h
      have h1 : 0 < n / b := Nat.div_pos (by omega) (by omega)
      have h2 : n / b < n := Nat.div_lt_self hn (by omega)
      obtain ⟨h3, h4⟩ := ih h1 (by omega)
      constructor
      · rw [Nat.pow_succ]
        exact (Nat.le_div_iff_mul_le (by omega)).1 h3
      · rw [Nat.pow_succ]
        exact (Nat.div_lt_iff_lt_mul (by omega)).1 h4

theorem floorLog_spec {b : Nat} (hb : 2 ≤ b) {q : Nat × Nat} (h1 : 0 < q.1) (h2 : 0 < q.2) :
    (b : ℚ) ^ floorLog b q ≤ qv q ∧ qv q < (b : ℚ) ^ (floorLog b q + 1) := by
  have hb0 : (0 : ℚ) < b := by exact_mod_cast (by omega : 0 < b)
  have hb1 : (1 : ℚ) < b := by exact_mod_cast (by omega : 1 < b)
  obtain ⟨a1, a2⟩ := natLogF_spec hb h1 (Nat.le_refl _)
  obtain ⟨c1, c2⟩ := natLogF_spec hb h2 (Nat.le_refl _)
  unfold floorLog
  simp only
  set g : Int := (natLogF b q.1 q.1 : Int) - natLogF b q.2 q.2 with hg
  have hd : (0 : ℚ) < q.2 := by exact_mod_cast h2
  have hup : qv q < (b : ℚ) ^ (g + 1) := by
    unfold qv
    rw [div_lt_iff₀ hd]
    have e : (b : ℚ) ^ (g + 1) * (b : ℚ) ^ natLogF b q.2 q.2 = (b : ℚ) ^ (natLogF b q.1 q.1 + 1) := by
      rw [← zpow_natCast, ← zpow_natCast, ← zpow_add₀ hb0.ne']
      congr 1
      omega
    calc (q.1 : ℚ) < (b : ℚ) ^ (natLogF b q.1 q.1 + 1) := by exact_mod_cast a2
      _ = (b : ℚ) ^ (g + 1) * (b : ℚ) ^ natLogF b q.2 q.2 := e.symm
      _ ≤ (b : ℚ) ^ (g + 1) * q.2 := by
        apply mul_le_mul_of_nonneg_left _ (zpow_nonneg hb0.le _)
        exact_mod_cast c1
  have hlow : (b : ℚ) ^ (g - 1) ≤ qv q := by
    unfold qv
    rw [le_div_iff₀ hd]
    have e : (b : ℚ) ^ (g - 1) * (b : ℚ) ^ (natLogF b q.2 q.2 + 1) = (b : ℚ) ^ (natLogF b q.1 q.1) := by
      rw [← zpow_natCast, ← zpow_natCast, ← zpow_add₀ hb0.ne']
      congr 1
      omega
    calc (b : ℚ) ^ (g - 1) * q.2 ≤ (b : ℚ) ^ (g - 1) * (b : ℚ) ^ (natLogF b q.2 q.2 + 1) := by
          apply mul_le_mul_of_nonneg_left _ (zpow_nonneg hb0.le _)
          exact_mod_cast c2.le
      _ = (b : ℚ) ^ (natLogF b q.1 q.1) := e
      _ ≤ q.1 := by exact_mod_cast a1
  have hp := scale_pos (k := -g) (by omega : 0 < b) h2
  have hiff : (scale b (-g) q).2 ≤ (scale b (-g) q).1 ↔ (b : ℚ) ^ g ≤ qv q := by
    have hqv := qv_scale (by omega : 0 < b) (-g) q
    have hpq : (0 : ℚ) < (scale b (-g) q).2 := by exact_mod_cast hp
    rw [zpow_neg, ← div_eq_mul_inv] at hqv
    have hbg : (0 : ℚ) < (b : ℚ) ^ g := zpow_pos hb0 _
    rw [← one_le_div₀ hbg, ← hqv]
    unfold qv
    rw [one_le_div₀ hpq]
    exact_mod_cast Iff.rfl
  split
  · rename_i h
    exact ⟨hiff.1 h, hup⟩
  · rename_i h
    refine ⟨hlow, ?_⟩
    rw [sub_add_cancel]
    exact not_le.1 fun hc => h (hiff.2 hc)

/-! ### Rounding to a format -/

theorem signed_abs (neg : Bool) (a b : ℚ) : |signed neg a - signed neg b| = |a - b| := by
  cases neg
  · rfl
  · simp only [signed, if_true]; rw [abs_sub_comm]; congr 1; ring

theorem signed_signed (neg : Bool) (a : ℚ) : signed neg (signed neg a) = a := by cases neg <;> simp [signed]

/-- A finite value of a format -/
theorem has_finite {f : FloatFmt} {z : Fl} (hz : f.Has z) (hf : z.Finite) :
    ∃ neg m e, z = .fin neg m e ∧ m < 2 ^ f.prec ∧ f.emin ≤ e ∧ e ≤ f.emax ∧ (2 ^ (f.prec - 1) ≤ m ∨ e = f.emin) := by
  cases z with
  | fin neg m e => exact ⟨neg, m, e, rfl, hz⟩
  | inf _ => exact hf.elim
  | nan _ => exact hf.elim

/-- What `roundFloat` computes before it looks at the range -/
structure Rounded (f : FloatFmt) (q : Nat × Nat) (e : Int) (m : Nat) : Prop where
  lower : f.emin ≤ e
  small : qv q * (2 : ℚ) ^ (-e) < 2 ^ f.prec
  large : e = f.emin ∨ (2 : ℚ) ^ (f.prec - 1) ≤ qv q * (2 : ℚ) ^ (-e)
  mant : m = roundQ (scale 2 (-e) q)

theorem two_zpow_pos (e : Int) : (0 : ℚ) < 2 ^ e := zpow_pos (by norm_num) e

theorem Rounded.value {f : FloatFmt} {q : Nat × Nat} {e : Int} {m : Nat} (hq : 0 < q.2) (h : Rounded f q e m) :
    m ≤ 2 ^ f.prec ∧ (2 ^ (f.prec - 1) ≤ m ∨ e = f.emin) := by
  have hs := scale_pos (k := -e) (by norm_num : 0 < 2) hq
  have hv := qv_scale (by norm_num : 0 < 2) (-e) q
  push_cast at hv
  rw [h.mant]
  refine ⟨roundQ_le hs ?_, ?_⟩
  · rw [hv]; push_cast; exact h.small.le
  · rcases h.large with h' | h'
    · exact .inr h'
    · left
      apply le_roundQ hs
      rw [hv]; push_cast; exact h'

/-- The rounded number is nearest among the values of the format. -/
theorem Rounded.best {f : FloatFmt} (hp : 1 ≤ f.prec) {q : Nat × Nat} {e : Int} {m : Nat} (hq : 0 < q.2) (h : Rounded f q e m) (neg : Bool) (m' : Nat) (e' : Int)
    (h1 : m' < 2 ^ f.prec) (h2 : f.emin ≤ e') :
    |(m : ℚ) * 2 ^ e - qv q| ≤ |signed neg (m' * 2 ^ e') - qv q| ∧
    (|(m : ℚ) * 2 ^ e - qv q| = |signed neg (m' * 2 ^ e') - qv q| → signed neg (m' * 2 ^ e') ≠ (m : ℚ) * 2 ^ e → m % 2 = 0 ∧ m' % 2 = 1) := by
  have hs := scale_pos (k := -e) (by norm_num : 0 < 2) hq
  have hv := qv_scale (by norm_num : 0 < 2) (-e) q
  push_cast at hv
  have hu := two_zpow_pos e
  have ht : qv q = qv (scale 2 (-e) q) * 2 ^ e := by
    rw [hv, mul_assoc, ← zpow_add₀ (by norm_num)]; simp
  set t := qv (scale 2 (-e) q) with htdef
  have hd : ∀ k : ℚ, |k * 2 ^ e - qv q| = |k - t| * 2 ^ e := by
    intro k
    rw [ht, ← sub_mul, abs_mul, abs_of_pos hu]
  by_cases he : e ≤ e'
  · -- a multiple of the unit
    obtain ⟨n, hn⟩ := Int.eq_ofNat_of_zero_le (sub_nonneg.2 he)
    have hk : ∃ k : Int, signed neg (m' * (2 : ℚ) ^ e') = (k : ℚ) * 2 ^ e ∧ (k % 2 = 1 → m' % 2 = 1) := by
      have hodd : (m' * 2 ^ n) % 2 = 1 → m' % 2 = 1 := fun h => by
        rcases Nat.mod_two_eq_zero_or_one m' with h' | h'
        · rw [Nat.mul_mod, h'] at h; simp at h
        · exact h'
      have hcast : ((m' * 2 ^ n : Nat) : Int) = (m' : Int) * 2 ^ n := by push_cast; rfl
      have : (2 : ℚ) ^ e' = 2 ^ n * 2 ^ e := by
        rw [← zpow_natCast, ← zpow_add₀ (by norm_num)]
        congr 1
        omega
      cases neg
      · exact ⟨m' * 2 ^ n, by simp only [signed, Bool.false_eq_true, if_false]; rw [this]; push_cast; ring, fun h => hodd (by omega)⟩
      · exact ⟨-(m' * 2 ^ n), by simp only [signed, if_true]; rw [this]; push_cast; ring, fun h => hodd (by omega)⟩
    obtain ⟨k, hk, hkodd⟩ := hk
    obtain ⟨b1, b2⟩ := roundQ_best hs k
    rw [← h.mant, ← htdef] at b1 b2
    rw [hk, hd, hd]
    refine ⟨mul_le_mul_of_nonneg_right b1 hu.le, fun heq hne => ?_⟩
    have := b2 (mul_right_cancel₀ hu.ne' heq) (by
      rintro rfl
      exact hne (by push_cast; rfl))
    exact ⟨this.1, hkodd this.2⟩
  · -- a smaller exponent: too small
    have hmin : e ≠ f.emin := by omega
    have hl := h.large.resolve_left hmin
    rw [← hv] at hl
    have hz : |signed neg ((m' : ℚ) * 2 ^ e')| < 2 ^ (f.prec - 1) * 2 ^ e := by
      have e1 : |signed neg ((m' : ℚ) * 2 ^ e')| = m' * 2 ^ e' := by
        have : (0 : ℚ) ≤ m' * 2 ^ e' := mul_nonneg (by positivity) (two_zpow_pos e').le
        cases neg <;> simp only [signed, Bool.false_eq_true, if_false, if_true, abs_neg, abs_of_nonneg this]
      rw [e1]
      have e2 : (2 : ℚ) ^ e' ≤ 2 ^ (e - 1) := zpow_le_zpow_right₀ (by norm_num) (by omega)
      have e3 : (m' : ℚ) < 2 ^ f.prec := by exact_mod_cast h1
      have e4 : (2 : ℚ) ^ f.prec = 2 ^ (f.prec - 1) * 2 := by rw [← pow_succ]; congr 1; omega
      have e5 : (2 : ℚ) ^ e = 2 ^ (e - 1) * 2 := by
        rw [show e = (e - 1) + 1 by omega, zpow_add₀ (by norm_num)]; simp
      calc (m' : ℚ) * 2 ^ e' < 2 ^ f.prec * 2 ^ e' := mul_lt_mul_of_pos_right e3 (two_zpow_pos e')
        _ ≤ 2 ^ f.prec * 2 ^ (e - 1) := mul_le_mul_of_nonneg_left e2 (by positivity)
        _ = 2 ^ (f.prec - 1) * 2 ^ e := by rw [e4, e5]; ring
    have hlt : |(m : ℚ) * 2 ^ e - qv q| < |signed neg ((m' : ℚ) * 2 ^ e') - qv q| := by
      obtain ⟨b1, _⟩ := roundQ_best hs (2 ^ (f.prec - 1) : Int)
      rw [← h.mant, ← htdef] at b1
      push_cast at b1
      rw [hd]
      have c1 : |(2 : ℚ) ^ (f.prec - 1) - t| = t - 2 ^ (f.prec - 1) := by rw [abs_sub_comm, abs_of_nonneg (by linarith)]
      rw [c1] at b1
      have c2 : |(m : ℚ) - t| * 2 ^ e ≤ (t - 2 ^ (f.prec - 1)) * 2 ^ e := mul_le_mul_of_nonneg_right b1 hu.le
      have c3 := le_abs_self (signed neg ((m' : ℚ) * 2 ^ e'))
      have c4 := neg_abs_le (signed neg ((m' : ℚ) * 2 ^ e') - qv q)
      have c5 : qv q - |signed neg ((m' : ℚ) * 2 ^ e')| ≤ |signed neg ((m' : ℚ) * 2 ^ e') - qv q| := by linarith
      have c6 : (t - 2 ^ (f.prec - 1)) * 2 ^ e = qv q - 2 ^ (f.prec - 1) * 2 ^ e := by rw [ht]; ring
      linarith
    exact ⟨hlt.le, fun heq => absurd heq hlt.ne⟩

theorem signed_xor (neg n : Bool) (a : ℚ) : signed neg (signed n a) = signed (neg ^^ n) a := by cases neg <;> cases n <;> simp [signed]

/-- A rounded number with a sign is nearest to the number with that sign. -/
theorem Rounded.nearest {f : FloatFmt} (hp : 2 ≤ f.prec) {q : Nat × Nat} {e : Int} {m : Nat} (hq : 0 < q.2) (h : Rounded f q e m) (neg : Bool)
    {r : Nat × Int} (hr : r = if m = 2 ^ f.prec then (2 ^ (f.prec - 1), e + 1) else (m, e)) (hmax : r.2 ≤ f.emax) :
    f.Nearest (.fin neg r.1 r.2) (signed neg (qv q)) ∧ ∀ z, f.Nearest z (signed neg (qv q)) → z.val = (Fl.fin neg r.1 r.2).val := by
  obtain ⟨hm, hn⟩ := h.value hq
  have hlow := h.lower
  have hpow : 2 ^ f.prec = 2 ^ (f.prec - 1) * 2 := by rw [← Nat.pow_succ]; congr 1; omega
  have hval : (r.1 : ℚ) * 2 ^ r.2 = m * 2 ^ e := by
    rw [hr]
    split
    · rename_i hm'
      rw [hm', hpow, zpow_add₀ (by norm_num)]; push_cast; ring
    · rfl
  have hhas : f.Has (.fin neg r.1 r.2) := by
    show r.1 < 2 ^ f.prec ∧ f.emin ≤ r.2 ∧ r.2 ≤ f.emax ∧ (2 ^ (f.prec - 1) ≤ r.1 ∨ r.2 = f.emin)
    refine ⟨?_, ?_, hmax, ?_⟩ <;> rw [hr] <;> split
    · have := Nat.pow_pos (n := f.prec - 1) (by norm_num : 0 < 2)
      simp only; omega
    · simp only; omega
    · simp only; omega
    · exact hlow
    · exact .inl (Nat.le_refl _)
    · exact hn
  have e1 : |(Fl.fin neg r.1 r.2).val - signed neg (qv q)| = |(m : ℚ) * 2 ^ e - qv q| := by
    simp only [Fl.val]
    rw [hval, signed_abs]
  have all : ∀ z : Fl, f.Has z → z.Finite → |(Fl.fin neg r.1 r.2).val - signed neg (qv q)| ≤ |z.val - signed neg (qv q)| ∧
      (|(Fl.fin neg r.1 r.2).val - signed neg (qv q)| = |z.val - signed neg (qv q)| → z.val ≠ (Fl.fin neg r.1 r.2).val → r.1 % 2 = 0 ∧ ¬ z.Even) := by
    intro z hz hf
    obtain ⟨n, m', e', rfl, h1, h2, h3, h4⟩ := has_finite hz hf
    have hb := h.best (by omega) hq (neg ^^ n) m' e' h1 h2
    have e2 : |(Fl.fin n m' e').val - signed neg (qv q)| = |signed (neg ^^ n) (m' * 2 ^ e') - qv q| := by
      simp only [Fl.val]
      rw [← signed_xor, ← signed_abs neg (signed neg _), signed_signed]
    rw [e1, e2]
    refine ⟨hb.1, fun heq hne => ?_⟩
    obtain ⟨hodd, hodd'⟩ := hb.2 heq (by
      intro hc
      apply hne
      simp only [Fl.val]
      rw [hval, ← hc, signed_xor]
      simp)
    refine ⟨?_, by simp only [Fl.Even]; omega⟩
    rw [hr]
    split
    · have : f.prec - 1 = (f.prec - 2) + 1 := by omega
      simp only
      rw [this, Nat.pow_succ]
      omega
    · exact hodd
  refine ⟨⟨hhas, trivial, fun z hz hf => ⟨(all z hz hf).1, fun h1 h2 => ((all z hz hf).2 h1 h2).1⟩⟩, fun z hz => ?_⟩
  obtain ⟨z1, z2, z3⟩ := hz
  by_contra hc
  have h1 := (all z z1 z2).1
  have h2 := z3 _ hhas trivial
  have h3 := le_antisymm h1 h2.1
  exact ((all z z1 z2).2 h3 hc).2 (h2.2 h3.symm (Ne.symm hc))

/-- `strtod` on `± q`: the nearest value, the only one, unless it overflows or underflows. -/
theorem roundFloat_spec {f : FloatFmt} (hp : 2 ≤ f.prec) (hr : f.emin ≤ f.emax) (neg : Bool) {q : Nat × Nat} (hq : 0 < q.2) :
    (∃ y, roundFloat f neg q = some y ∧ y.neg = neg ∧ f.Nearest y (signed neg (qv q)) ∧ (∀ z, f.Nearest z (signed neg (qv q)) → z.val = y.val) ∧
      ¬ f.Overflows (qv q) ∧ ¬ f.Underflows (qv q)) ∨
    (roundFloat f neg q = none ∧ (f.Overflows (qv q) ∨ f.Underflows (qv q))) := by
  have hpq : (1 : ℚ) ≤ 2 ^ f.prec := one_le_pow₀ (by norm_num)
  unfold roundFloat
  by_cases h0 : q.1 = 0
  · left
    rw [if_pos h0]
    have hz : qv q = 0 := by unfold qv; rw [h0]; simp
    have hhas : f.Has (.fin neg 0 f.emin) := ⟨Nat.pow_pos (by norm_num), Int.le_refl _, hr, .inr rfl⟩
    have hval : (Fl.fin neg 0 f.emin).val = 0 := by simp [Fl.val, signed]
    have hsz : signed neg (0 : ℚ) = 0 := by simp [signed]
    refine ⟨_, rfl, rfl, ⟨hhas, trivial, fun z _ _ => ⟨?_, fun _ _ => rfl⟩⟩, fun z hz' => ?_, ?_, ?_⟩
    · rw [hz, hval, hsz]; simp
    · have := (hz'.2.2 _ hhas trivial).1
      rw [hz, hval, hsz] at this
      simp at this
      rw [this, hval]
    · unfold FloatFmt.Overflows
      rw [hz, not_le]
      exact mul_pos (by linarith) (two_zpow_pos _)
    · rintro ⟨_, h⟩
      exact h _ hhas trivial (by rw [hval, hz])
  · rw [if_neg h0]
    obtain ⟨l1, l2⟩ := floorLog_spec (b := 2) (Nat.le_refl _) (Nat.pos_of_ne_zero h0) hq
    push_cast at l1 l2
    simp only
    set L := floorLog 2 q
    set e₀ : Int := L - (f.prec - 1) with he₀
    set e : Int := if e₀ < f.emin then f.emin else e₀ with he
    set m := roundQ (scale 2 (-e) q) with hm
    have hround : Rounded f q e m := by
      refine ⟨by rw [he]; split <;> omega, ?_, ?_, rfl⟩
      · have hle : e₀ ≤ e := by rw [he]; split <;> omega
        calc qv q * (2 : ℚ) ^ (-e) < 2 ^ (L + 1) * 2 ^ (-e) := mul_lt_mul_of_pos_right l2 (two_zpow_pos _)
          _ = 2 ^ (L + 1 - e) := by rw [← zpow_add₀ (by norm_num)]; rfl
          _ ≤ 2 ^ (f.prec : Int) := zpow_le_zpow_right₀ (by norm_num) (by omega)
          _ = 2 ^ f.prec := zpow_natCast _ _
      · by_cases hc : e₀ < f.emin
        · left; rw [he, if_pos hc]
        · right
          rw [he, if_neg hc]
          calc (2 : ℚ) ^ (f.prec - 1) = 2 ^ ((f.prec - 1 : Nat) : Int) := (zpow_natCast _ _).symm
            _ = 2 ^ L * 2 ^ (-e₀) := by rw [← zpow_add₀ (by norm_num)]; congr 1; omega
            _ ≤ qv q * 2 ^ (-e₀) := mul_le_mul_of_nonneg_right l1 (two_zpow_pos _).le
    have hs := scale_pos (k := -e) (by norm_num : 0 < 2) hq
    have hv := qv_scale (by norm_num : 0 < 2) (-e) q
    push_cast at hv
    have ht : qv q = qv (scale 2 (-e) q) * 2 ^ e := by
      rw [hv, mul_assoc, ← zpow_add₀ (by norm_num)]; simp
    have hq0 : 0 < qv q := lt_of_lt_of_le (two_zpow_pos L) l1
    have e4 : (2 : ℚ) ^ f.prec = 2 ^ (f.prec - 1) * 2 := by rw [← pow_succ]; congr 1; omega
    have step : ∀ k : Int, (2 : ℚ) ^ (k + 1) = 2 ^ k * 2 := fun k => by rw [zpow_add₀ (by norm_num)]; simp
    generalize hrd : (if m = 2 ^ f.prec then (2 ^ (f.prec - 1), e + 1) else (m, e) : Nat × Int) = r
    by_cases hover : f.emax < r.2
    · right
      refine ⟨if_pos hover, .inl ?_⟩
      unfold FloatFmt.Overflows
      by_cases hm' : m = 2 ^ f.prec
      · rw [if_pos hm'] at hrd
        have hle : f.emax ≤ e := by rw [← hrd] at hover; simp only at hover; omega
        have hh := (roundQ_half hs).1
        rw [← hm, hm', abs_le] at hh
        push_cast at hh
        have h1 : (2 : ℚ) ^ f.prec - 1 / 2 ≤ qv (scale 2 (-e) q) := by linarith [hh.2]
        calc ((2 : ℚ) ^ f.prec - 1 / 2) * 2 ^ f.emax ≤ (2 ^ f.prec - 1 / 2) * 2 ^ e :=
              mul_le_mul_of_nonneg_left (zpow_le_zpow_right₀ (by norm_num) hle) (by linarith)
          _ ≤ qv (scale 2 (-e) q) * 2 ^ e := mul_le_mul_of_nonneg_right h1 (two_zpow_pos e).le
          _ = qv q := ht.symm
      · rw [if_neg hm'] at hrd
        have hlt : f.emax < e := by rw [← hrd] at hover; exact hover
        have hl := hround.large.resolve_left (by omega)
        rw [← hv] at hl
        calc ((2 : ℚ) ^ f.prec - 1 / 2) * 2 ^ f.emax ≤ 2 ^ f.prec * 2 ^ f.emax :=
              mul_le_mul_of_nonneg_right (by linarith) (two_zpow_pos _).le
          _ = 2 ^ (f.prec - 1) * 2 ^ (f.emax + 1) := by rw [e4, step]; ring
          _ ≤ 2 ^ (f.prec - 1) * 2 ^ e := mul_le_mul_of_nonneg_left (zpow_le_zpow_right₀ (by norm_num) (by omega)) (by positivity)
          _ ≤ qv (scale 2 (-e) q) * 2 ^ e := mul_le_mul_of_nonneg_right hl (two_zpow_pos e).le
          _ = qv q := ht.symm
    · rw [if_neg hover]
      obtain ⟨near, uniq⟩ := hround.nearest hp hq neg hrd.symm (by omega)
      split
      · rename_i hti
        right
        refine ⟨rfl, .inr ?_⟩
        simp only [Bool.and_eq_true, decide_eq_true_eq] at hti
        obtain ⟨⟨hlt, htiny⟩, hin⟩ := hti
        have hee : e = f.emin := by rw [he, if_pos hlt]
        refine ⟨?_, fun z hz hf hc => hin ?_⟩
        · by_cases hq1 : e₀ = f.emin - 1
          · have hne : roundQ (scale 2 (-e₀) q) ≠ 2 ^ f.prec := fun h => htiny ⟨hq1, h⟩
            have hs' := scale_pos (k := -e₀) (by norm_num : 0 < 2) hq
            have hv' := qv_scale (by norm_num : 0 < 2) (-e₀) q
            push_cast at hv'
            have ht' : qv q = qv (scale 2 (-e₀) q) * 2 ^ e₀ := by
              rw [hv', mul_assoc, ← zpow_add₀ (by norm_num)]; simp
            have hb := roundQ_best hs' (2 ^ f.prec : Int)
            have hsm : qv (scale 2 (-e₀) q) < 2 ^ f.prec := by
              rw [hv']
              calc qv q * (2 : ℚ) ^ (-e₀) < 2 ^ (L + 1) * 2 ^ (-e₀) := mul_lt_mul_of_pos_right l2 (two_zpow_pos _)
                _ = 2 ^ (f.prec : Int) := by rw [← zpow_add₀ (by norm_num)]; congr 1; omega
                _ = 2 ^ f.prec := zpow_natCast _ _
            rw [ht', ← hq1]
            apply mul_lt_mul_of_pos_right _ (two_zpow_pos _)
            by_contra hc
            rw [not_lt] at hc
            have h1 : |((2 ^ f.prec : Int) : ℚ) - qv (scale 2 (-e₀) q)| ≤ 1 / 2 := by
              push_cast
              rw [abs_of_nonneg (by linarith)]
              linarith
            have hle : roundQ (scale 2 (-e₀) q) ≤ 2 ^ f.prec := roundQ_le hs' (by push_cast; exact hsm.le)
            have hlt' : roundQ (scale 2 (-e₀) q) + 1 ≤ 2 ^ f.prec := by omega
            have hlt'' : (roundQ (scale 2 (-e₀) q) : ℚ) + 1 ≤ 2 ^ f.prec := by exact_mod_cast hlt'
            have h2 := (roundQ_half hs').1
            have h3 : |(roundQ (scale 2 (-e₀) q) : ℚ) - qv (scale 2 (-e₀) q)| = |((2 ^ f.prec : Int) : ℚ) - qv (scale 2 (-e₀) q)| := by
              rw [abs_le] at h2
              push_cast
              rw [abs_of_nonneg (by linarith : (0 : ℚ) ≤ 2 ^ f.prec - qv (scale 2 (-e₀) q))]
              rw [abs_of_nonpos (by linarith)]
              linarith
            have h4 := (hb.2 h3 (by intro h; apply hne; exact_mod_cast h.symm)).2
            have : (2 ^ f.prec : Int) = 2 ^ (f.prec - 1) * 2 := by rw [← pow_succ]; congr 1; omega
            omega
          · have hle : L + 1 ≤ f.emin - 1 + f.prec - 1 := by omega
            calc qv q < 2 ^ (L + 1) := l2
              _ ≤ 2 ^ (f.emin - 1 + f.prec - 1) := zpow_le_zpow_right₀ (by norm_num) hle
              _ = 2 ^ (f.prec - 1) * 2 ^ (f.emin - 1) := by
                rw [← zpow_natCast, ← zpow_add₀ (by norm_num)]
                congr 1
                omega
              _ ≤ (2 ^ f.prec - 1 / 2) * 2 ^ (f.emin - 1) := by
                apply mul_le_mul_of_nonneg_right _ (two_zpow_pos _).le
                rw [e4] at hpq ⊢
                linarith
        · obtain ⟨n, m', e', rfl, h1, h2, h3, h4⟩ := has_finite hz hf
          rw [exact_iff hs, hv, ← hc]
          obtain ⟨k, hk⟩ := Int.eq_ofNat_of_zero_le (sub_nonneg.2 h2)
          refine ⟨m' * 2 ^ k, ?_⟩
          have hn : n = false := by
            cases n
            · rfl
            · exfalso
              rw [← hc] at hq0
              simp only [Fl.val, signed, if_true] at hq0
              have : (0 : ℚ) ≤ m' * 2 ^ e' := mul_nonneg (by positivity) (two_zpow_pos e').le
              linarith
          subst hn
          simp only [Fl.val, signed, Bool.false_eq_true, if_false]
          rw [mul_assoc, ← zpow_add₀ (by norm_num)]
          push_cast
          congr 1
          rw [← zpow_natCast]
          congr 1
          omega
      · rename_i hti
        left
        refine ⟨_, rfl, rfl, near, uniq, ?_, ?_⟩
        · unfold FloatFmt.Overflows
          intro hc
          by_cases hle : e ≤ f.emax - 1
          · have h1 : qv q < 2 ^ f.prec * 2 ^ e := by
              rw [ht]
              apply mul_lt_mul_of_pos_right _ (two_zpow_pos _)
              rw [hv]; exact hround.small
            have h2 : (2 : ℚ) ^ f.prec * 2 ^ e ≤ 2 ^ f.prec * 2 ^ (f.emax - 1) :=
              mul_le_mul_of_nonneg_left (zpow_le_zpow_right₀ (by norm_num) hle) (by linarith)
            have h3 := step (f.emax - 1)
            rw [sub_add_cancel] at h3
            rw [h3] at hc
            have h4 := two_zpow_pos (f.emax - 1)
            have h5 : (2 : ℚ) ^ f.prec * 2 ^ (f.emax - 1) ≤ (2 ^ f.prec - 1 / 2) * (2 ^ (f.emax - 1) * 2) := by
              have : (2 ^ f.prec - 1 / 2) * ((2 : ℚ) ^ (f.emax - 1) * 2) = 2 ^ f.prec * 2 ^ (f.emax - 1) + (2 ^ f.prec - 1) * 2 ^ (f.emax - 1) := by ring
              rw [this]
              have : (0 : ℚ) ≤ (2 ^ f.prec - 1) * 2 ^ (f.emax - 1) := mul_nonneg (by linarith) h4.le
              linarith
            linarith
          · by_cases hm' : m = 2 ^ f.prec
            · rw [if_pos hm'] at hrd
              rw [← hrd] at hover
              simp only at hover
              omega
            · rw [if_neg hm'] at hrd
              rw [← hrd] at hover
              simp only at hover
              have hee : e = f.emax := by omega
              rw [ht, ← hee] at hc
              have hc := le_of_mul_le_mul_right hc (two_zpow_pos _)
              have hml := (hround.value hq).1
              have hlt' : (m : ℚ) + 1 ≤ 2 ^ f.prec := by exact_mod_cast (by omega : m + 1 ≤ 2 ^ f.prec)
              have hh := roundQ_half hs
              rw [← hm] at hh
              have h2 := hh.1
              rw [abs_le] at h2
              have h3 : |(m : ℚ) - qv (scale 2 (-e) q)| = 1 / 2 := by
                rw [abs_of_nonpos (by linarith)]
                linarith
              have h4 := hh.2.1 h3
              have h5 : (m : ℚ) + 1 = 2 ^ f.prec := by linarith
              have h6 : m + 1 = 2 ^ f.prec := by exact_mod_cast h5
              have : 2 ^ f.prec = 2 ^ (f.prec - 1) * 2 := by rw [← pow_succ]; congr 1; omega
              omega
        · rintro ⟨hsmall, hnot⟩
          apply hti
          rw [Bool.and_eq_true, decide_eq_true_eq, decide_eq_true_eq]
          refine ⟨⟨?_, ?_⟩, ?_⟩
          · by_contra hc
            have h1 : (2 : ℚ) ^ (f.emin + f.prec - 1) ≤ qv q := le_trans (zpow_le_zpow_right₀ (by norm_num) (by omega)) l1
            have h2 : (2 : ℚ) ^ (f.emin + f.prec - 1) = 2 ^ f.prec * 2 ^ (f.emin - 1) := by
              rw [← zpow_natCast, ← zpow_add₀ (by norm_num)]
              congr 1
              omega
            have h3 := two_zpow_pos (f.emin - 1)
            linarith
          · rintro ⟨hq1, hmm⟩
            have hs' := scale_pos (k := -e₀) (by norm_num : 0 < 2) hq
            have hv' := qv_scale (by norm_num : 0 < 2) (-e₀) q
            push_cast at hv'
            have ht' : qv q = qv (scale 2 (-e₀) q) * 2 ^ e₀ := by
              rw [hv', mul_assoc, ← zpow_add₀ (by norm_num)]; simp
            have hh := (roundQ_half hs').1
            rw [hmm, abs_le] at hh
            push_cast at hh
            rw [ht', ← hq1] at hsmall
            have := lt_of_mul_lt_mul_right hsmall (two_zpow_pos e₀).le
            linarith [hh.2]
          · intro hex
            have h1 := (roundQ_half hs).2.2 hex
            have hval : (r.1 : ℚ) * 2 ^ r.2 = m * 2 ^ e := by
              rw [← hrd]
              split
              · rename_i hm'
                have : (2 : Nat) ^ f.prec = 2 ^ (f.prec - 1) * 2 := by rw [← pow_succ]; congr 1; omega
                rw [hm', this, zpow_add₀ (by norm_num)]; push_cast; ring
              · rfl
            refine hnot (.fin false r.1 r.2) near.1 trivial ?_
            simp only [Fl.val, signed, Bool.false_eq_true, if_false]
            rw [hval, ht, ← h1, ← hm]

/-- Each finite value of a format has one representation. -/
theorem has_unique {f : FloatFmt} {n : Bool} {m m' : Nat} {e e' : Int} (h : f.Has (.fin n m e)) (h' : f.Has (.fin n m' e')) (hp : 1 ≤ f.prec)
    (heq : (m : ℚ) * 2 ^ e = m' * 2 ^ e') : m = m' ∧ e = e' := by
  have key : ∀ {m m' : Nat} {e e' : Int}, f.Has (.fin n m e) → f.Has (.fin n m' e') → (m : ℚ) * 2 ^ e = m' * 2 ^ e' → ¬ e < e' := by
    intro m m' e e' h h' heq hlt
    obtain ⟨a1, a2, a3, a4⟩ := h
    obtain ⟨b1, b2, b3, b4⟩ := h'
    obtain ⟨k, hk⟩ := Int.eq_ofNat_of_zero_le (sub_nonneg.2 hlt.le)
    have hpow : (2 : ℚ) ^ e' = 2 ^ k * 2 ^ e := by
      rw [← zpow_natCast, ← zpow_add₀ (by norm_num)]
      congr 1
      omega
    rw [hpow, ← mul_assoc] at heq
    have := mul_right_cancel₀ (two_zpow_pos e).ne' heq
    have hn : m = m' * 2 ^ k := by exact_mod_cast this
    have hb := b4.resolve_right (by omega)
    have h2 : 2 ^ f.prec = 2 ^ (f.prec - 1) * 2 := by rw [← Nat.pow_succ]; congr 1; omega
    have h3 : 2 ≤ 2 ^ k := by
      calc 2 = 2 ^ 1 := rfl
        _ ≤ 2 ^ k := Nat.pow_le_pow_right (by norm_num) (by omega)
    have : 2 ^ (f.prec - 1) * 2 ≤ m' * 2 ^ k := Nat.mul_le_mul hb h3
    omega
  have h1 := key h h' heq
  have h2 := key h' h heq.symm
  have he : e = e' := by omega
  subst he
  exact ⟨by exact_mod_cast mul_right_cancel₀ (two_zpow_pos e).ne' heq, rfl⟩

/-- The nearest value of a number that is one is that value. -/
theorem nearest_exact {f : FloatFmt} (hp : 1 ≤ f.prec) {n : Bool} {m : Nat} {e : Int} {y : Fl} (hx : f.Has (.fin n m e)) (hy : y.neg = n)
    (h : f.Nearest y (signed n (m * 2 ^ e))) : y = .fin n m e := by
  obtain ⟨h1, h2, h3⟩ := h
  obtain ⟨n', m', e', rfl, hh⟩ := has_finite h1 h2
  cases hy
  have := (h3 (.fin n' m e) hx trivial).1
  simp only [Fl.neg, Fl.val, sub_self, abs_zero, abs_nonpos_iff, sub_eq_zero] at this
  have hv : (m' : ℚ) * 2 ^ e' = m * 2 ^ e := by
    have := congrArg (signed n') this
    rwa [signed_signed, signed_signed] at this
  obtain ⟨rfl, rfl⟩ := has_unique h1 hx hp hv
  rfl

end Meojson
