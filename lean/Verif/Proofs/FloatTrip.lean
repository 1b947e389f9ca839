import Verif.Proofs.FloatText

/-! # Proofs: reading back what was written -/

set_option autoImplicit false

namespace Meojson
open Spec

theorem readFloat_spec {f : FloatFmt} (hp : 2 ≤ f.prec) (hr : f.emin ≤ f.emax) {t : Text} {neg : Bool} {q : ℚ} (h : Denotes t neg q) :
    (∃ y, readFloat f [0x2e] t = some y ∧ y.neg = neg ∧ f.Nearest y (signed neg q) ∧ (∀ z, f.Nearest z (signed neg q) → z.val = y.val) ∧
      ¬ f.Overflows q ∧ ¬ f.Underflows q) ∨
    (readFloat f [0x2e] t = none ∧ (f.Overflows q ∨ f.Underflows q)) := by
  obtain ⟨d, h1, h2, rfl⟩ := readFloat_denotes f h
  rw [h1]
  exact roundFloat_spec hp hr neg h2

/-- Finite values with the same sign bit and the same value are the same. -/
theorem fl_unique {f : FloatFmt} (hp : 1 ≤ f.prec) {x y : Fl} (hx : f.Has x) (hy : f.Has y) (fx : x.Finite) (fy : y.Finite) (hn : x.neg = y.neg) (hv : x.val = y.val) :
    x = y := by
  obtain ⟨n, m, e, rfl, _⟩ := has_finite hx fx
  obtain ⟨n', m', e', rfl, _⟩ := has_finite hy fy
  cases hn
  have := congrArg (signed n) hv
  simp only [Fl.val] at this
  rw [signed_signed, signed_signed] at this
  obtain ⟨rfl, rfl⟩ := has_unique hx hy hp this
  rfl

theorem readFloat_nearest {f : FloatFmt} (hp : 2 ≤ f.prec) (hr : f.emin ≤ f.emax) {t : Text} {neg : Bool} {q : ℚ} (h : Denotes t neg q) {x : Fl}
    (hx : f.Nearest x (signed neg q)) (hn : x.neg = neg) (ho : ¬ f.Overflows q) (hu : ¬ f.Underflows q) : readFloat f [0x2e] t = some x := by
  rcases readFloat_spec hp hr h with ⟨y, h1, h2, h3, h4, _⟩ | ⟨_, h1 | h1⟩
  · rw [h1, fl_unique (by omega) hx.1 h3.1 hx.2.1 h3.2.1 (hn.trans h2.symm) (h4 x hx)]
  · exact absurd h1 ho
  · exact absurd h1 hu

/-! ### Fixed notation -/

theorem fixed_error (m : Nat) (e : Int) : |(roundQ (scale 10 6 (magnitude m e)) : ℚ) / 10 ^ 6 - m * 2 ^ e| ≤ 1 / 2 / 10 ^ 6 := by
  have h := (roundQ_half (scale_pos (k := 6) (by norm_num : 0 < 10) (magnitude_pos m e))).1
  have hv := qv_scale (by norm_num : 0 < 10) 6 (magnitude m e)
  rw [hv, qv_magnitude] at h
  push_cast at h
  have h10 : (0 : ℚ) < 10 ^ 6 := by norm_num
  have e1 : (roundQ (scale 10 6 (magnitude m e)) : ℚ) / 10 ^ 6 - m * 2 ^ e = (roundQ (scale 10 6 (magnitude m e)) - m * 2 ^ e * 10 ^ 6) / 10 ^ 6 := by
    field_simp
  rw [e1, abs_div, abs_of_pos h10]
  exact div_le_div_of_nonneg_right h h10.le

/-- The format reaches beyond 2 and below a millionth, as every real one does. -/
structure FloatFmt.Wide (f : FloatFmt) : Prop where
  prec : 2 ≤ f.prec
  emax : 1 ≤ f.emax
  emin : f.emin + f.prec ≤ -19

theorem FloatFmt.Wide.range {f : FloatFmt} (h : f.Wide) : f.emin ≤ f.emax := by have := h.emax; have := h.emin; omega

theorem has_le {f : FloatFmt} {n : Bool} {m : Nat} {e : Int} (h : f.Has (.fin n m e)) : (m : ℚ) * 2 ^ e ≤ (2 ^ f.prec - 1) * 2 ^ f.emax := by
  obtain ⟨h1, h2, h3, h4⟩ := h
  have h5 : (m : ℚ) + 1 ≤ 2 ^ f.prec := by exact_mod_cast h1
  have h6 : (0 : ℚ) ≤ m := by positivity
  calc (m : ℚ) * 2 ^ e ≤ m * 2 ^ f.emax := mul_le_mul_of_nonneg_left (zpow_le_zpow_right₀ (by norm_num) h3) h6
    _ ≤ _ := mul_le_mul_of_nonneg_right (by linarith) (two_zpow_pos _).le

theorem fixed_range {f : FloatFmt} (hf : f.Wide) {n : Bool} {m : Nat} {e : Int} (h : f.Has (.fin n m e)) :
    ¬ f.Overflows ((roundQ (scale 10 6 (magnitude m e)) : ℚ) / 10 ^ 6) ∧ ¬ f.Underflows ((roundQ (scale 10 6 (magnitude m e)) : ℚ) / 10 ^ 6) := by
  have herr := fixed_error m e
  have hpq : (2 : ℚ) ^ 2 ≤ 2 ^ f.prec := pow_le_pow_right₀ (by norm_num) hf.prec
  have hle := has_le h
  have hmax := two_zpow_pos f.emax
  constructor
  · unfold FloatFmt.Overflows
    rw [not_le]
    by_cases he : 0 ≤ e
    · have hv := qv_scale (by norm_num : 0 < 10) 6 (magnitude m e)
      rw [qv_magnitude] at hv
      have hk : qv (scale 10 6 (magnitude m e)) = ((m * 2 ^ e.toNat * 10 ^ 6 : Nat) : ℚ) := by
        rw [hv]; push_cast; rw [zpow_toNat he]
      have hrd := roundQ_int (scale_pos (k := 6) (by norm_num : 0 < 10) (magnitude_pos m e)) hk
      rw [hrd]
      push_cast
      rw [zpow_toNat he, mul_div_assoc, show (1000000 : ℚ) / 10 ^ 6 = 1 by norm_num, mul_one]
      have : ((2 : ℚ) ^ f.prec - 1) * 2 ^ f.emax < (2 ^ f.prec - 1 / 2) * 2 ^ f.emax := mul_lt_mul_of_pos_right (by linarith) hmax
      linarith
    · have h1 : (m : ℚ) * 2 ^ e ≤ 2 ^ f.prec * 1 := by
        apply mul_le_mul _ _ (two_zpow_pos e).le (by positivity)
        · exact_mod_cast h.1.le
        · calc (2 : ℚ) ^ e ≤ 2 ^ (0 : Int) := zpow_le_zpow_right₀ (by norm_num) (by omega)
            _ = 1 := by simp
      have h2 : (2 : ℚ) ≤ 2 ^ f.emax := by
        calc (2 : ℚ) = 2 ^ (1 : Int) := by norm_num
          _ ≤ 2 ^ f.emax := zpow_le_zpow_right₀ (by norm_num) hf.emax
      have h3 : ((2 : ℚ) ^ f.prec - 1 / 2) * 2 ≤ (2 ^ f.prec - 1 / 2) * 2 ^ f.emax := mul_le_mul_of_nonneg_left h2 (by linarith)
      have h4 := (abs_le.1 herr).2
      norm_num at h4
      norm_num at hpq
      linarith
  · rintro ⟨h1, h2⟩
    by_cases h0 : roundQ (scale 10 6 (magnitude m e)) = 0
    · refine h2 (.fin false 0 f.emin) ⟨Nat.pow_pos (by norm_num), Int.le_refl _, hf.range, .inr rfl⟩ trivial ?_
      rw [h0]
      simp [Fl.val, signed]
    · have h3 : (1 : ℚ) ≤ roundQ (scale 10 6 (magnitude m e)) := by exact_mod_cast Nat.pos_of_ne_zero h0
      have h4 : (1 : ℚ) / 10 ^ 6 ≤ (roundQ (scale 10 6 (magnitude m e)) : ℚ) / 10 ^ 6 := div_le_div_of_nonneg_right h3 (by norm_num)
      have h5 : ((2 : ℚ) ^ f.prec - 1 / 2) * 2 ^ (f.emin - 1) ≤ 2 ^ (-20 : Int) := by
        calc ((2 : ℚ) ^ f.prec - 1 / 2) * 2 ^ (f.emin - 1) ≤ 2 ^ f.prec * 2 ^ (f.emin - 1) :=
              mul_le_mul_of_nonneg_right (by linarith) (two_zpow_pos _).le
          _ = 2 ^ ((f.prec : Int) + (f.emin - 1)) := by rw [← zpow_natCast, ← zpow_add₀ (by norm_num)]
          _ ≤ 2 ^ (-20 : Int) := zpow_le_zpow_right₀ (by norm_num) (by have := hf.emin; omega)
      have h6 : (2 : ℚ) ^ (-20 : Int) < 1 / 10 ^ 6 := by norm_num
      linarith

/-- The nearest value is at most half a unit in the last place away. -/
theorem nearest_half {f : FloatFmt} (hp : 1 ≤ f.prec) {n : Bool} {m : Nat} {e : Int} {q : ℚ} (hq : 0 ≤ q) (he : e + 1 ≤ f.emax)
    (h : f.Nearest (.fin n m e) (signed n q)) : |(m : ℚ) * 2 ^ e - q| ≤ 2 ^ e / 2 := by
  obtain ⟨⟨h1, h2, h3, h4⟩, -, hz⟩ := h
  have hu := two_zpow_pos e
  have hpow : 2 ^ f.prec = 2 ^ (f.prec - 1) * 2 := by rw [← Nat.pow_succ]; congr 1; omega
  have e5 : (2 : ℚ) ^ e = 2 ^ (e - 1) * 2 := by
    rw [show e = (e - 1) + 1 by omega, zpow_add₀ (by norm_num)]; simp
  have e6 : (2 : ℚ) ^ (e + 1) = 2 ^ e * 2 := by rw [zpow_add₀ (by norm_num)]; simp
  have near : ∀ {m' : Nat} {e' : Int}, f.Has (.fin n m' e') → |(m : ℚ) * 2 ^ e - q| ≤ |(m' : ℚ) * 2 ^ e' - q| := by
    intro m' e' hh
    have := (hz _ hh trivial).1
    simp only [Fl.val] at this
    rwa [signed_abs, signed_abs] at this
  rcases le_total ((m : ℚ) * 2 ^ e) q with hle | hle
  · -- the next value above
    have hup : |(m : ℚ) * 2 ^ e - q| ≤ |(m : ℚ) * 2 ^ e + 2 ^ e - q| := by
      by_cases hc : m + 1 < 2 ^ f.prec
      · have hh : f.Has (.fin n (m + 1) e) := ⟨hc, h2, h3, by omega⟩
        have := near hh
        push_cast at this
        rwa [add_mul, one_mul] at this
      · have hm : m + 1 = 2 ^ (f.prec - 1) * 2 := by omega
        have hh : f.Has (.fin n (2 ^ (f.prec - 1)) (e + 1)) := by
          refine ⟨?_, by omega, he, .inl (Nat.le_refl _)⟩
          have := Nat.pow_pos (n := f.prec - 1) (by norm_num : 0 < 2)
          omega
        have := near hh
        have hm' : (m : ℚ) + 1 = 2 ^ (f.prec - 1) * 2 := by exact_mod_cast hm
        have e7 : ((2 ^ (f.prec - 1) : Nat) : ℚ) * 2 ^ (e + 1) = (m : ℚ) * 2 ^ e + 2 ^ e := by
          push_cast
          rw [e6]
          calc (2 : ℚ) ^ (f.prec - 1) * (2 ^ e * 2) = (2 ^ (f.prec - 1) * 2) * 2 ^ e := by ring
            _ = _ := by rw [← hm']; ring
        rwa [e7] at this
    rw [abs_of_nonpos (by linarith)] at hup ⊢
    rcases le_total ((m : ℚ) * 2 ^ e + 2 ^ e) q with hc | hc
    · rw [abs_of_nonpos (by linarith)] at hup
      linarith
    · rw [abs_of_nonneg (by linarith)] at hup
      linarith
  · -- the next value below
    have hdown : m = 0 ∨ ∃ d : ℚ, 0 < d ∧ d ≤ 2 ^ e ∧ |(m : ℚ) * 2 ^ e - q| ≤ |(m : ℚ) * 2 ^ e - d - q| := by
      by_cases h0 : m = 0
      · exact .inl h0
      · right
        by_cases hc : 2 ^ (f.prec - 1) ≤ m - 1 ∨ e = f.emin
        · have hh : f.Has (.fin n (m - 1) e) := ⟨by omega, h2, h3, hc⟩
          have := near hh
          have hcast : ((m - 1 : Nat) : ℚ) = m - 1 := by rw [Nat.cast_sub (by omega)]; simp
          rw [hcast, sub_mul, one_mul] at this
          exact ⟨_, hu, le_refl _, this⟩
        · have hm : m = 2 ^ (f.prec - 1) := by omega
          have hh : f.Has (.fin n (2 ^ f.prec - 1) (e - 1)) := by
            have := Nat.pow_pos (n := f.prec - 1) (by norm_num : 0 < 2)
            exact ⟨by omega, by omega, by omega, .inl (by omega)⟩
          have := near hh
          have hcast : ((2 ^ f.prec - 1 : Nat) : ℚ) = m * 2 - 1 := by
            rw [Nat.cast_sub (Nat.pow_pos (by norm_num)), hpow, hm]; push_cast; ring
          have e7 : ((2 ^ f.prec - 1 : Nat) : ℚ) * 2 ^ (e - 1) = m * 2 ^ e - 2 ^ (e - 1) := by rw [hcast, e5]; ring
          rw [e7] at this
          have hw := two_zpow_pos (e - 1)
          exact ⟨_, hw, by linarith, this⟩
    rcases hdown with rfl | ⟨d, hd0, hd, hdown⟩
    · have : q = 0 := by simp at hle; linarith
      rw [this]
      simp
      linarith
    · rw [abs_of_nonneg (by linarith)] at hdown ⊢
      rcases le_total q ((m : ℚ) * 2 ^ e - d) with hc | hc
      · rw [abs_of_nonneg (by linarith)] at hdown
        linarith
      · rw [abs_of_nonpos (by linarith)] at hdown
        linarith

theorem near_eq {n k : Nat} {x : ℚ} (h1 : |(n : ℚ) / 10 ^ 6 - x| ≤ 1 / 2 / 10 ^ 6)
    (h : |x - (k : ℚ) / 10 ^ 6| < 1 / 2 / 10 ^ 6) : n = k := by
  have h2 : |(n : ℚ) / 10 ^ 6 - (k : ℚ) / 10 ^ 6| < 1 / 10 ^ 6 := by
    have := abs_sub_le ((n : ℚ) / 10 ^ 6) x ((k : ℚ) / 10 ^ 6)
    have e1 : (1 : ℚ) / 10 ^ 6 = 1 / 2 / 10 ^ 6 + 1 / 2 / 10 ^ 6 := by norm_num
    linarith
  rw [← sub_div, abs_div, abs_of_pos (by norm_num : (0 : ℚ) < 10 ^ 6),
    div_lt_div_iff_of_pos_right (by norm_num)] at h2
  have h3 : |((n : Int) - (k : Int))| < 1 := by exact_mod_cast h2
  rw [Int.abs_lt_one_iff] at h3
  omega

/-- A value within less than half a millionth of a number of millionths is printed as
that number. -/
theorem fixed_exact {m : Nat} {e : Int} {k : Nat}
    (h : |(m : ℚ) * 2 ^ e - (k : ℚ) / 10 ^ 6| < 1 / 2 / 10 ^ 6) :
    roundQ (scale 10 6 (magnitude m e)) = k :=
  near_eq (n := roundQ (scale 10 6 (magnitude m e))) (x := (m : ℚ) * 2 ^ e) (fixed_error m e) h

/-! ### General notation -/

/-- The distance from a normal value to any other value -/
theorem spacing {f : FloatFmt} (hp : 1 ≤ f.prec) {n : Bool} {m : Nat} {e : Int} (hm : 2 ^ (f.prec - 1) ≤ m) {z : Fl} (hz : f.Has z) (fz : z.Finite)
    (hne : z.val ≠ (Fl.fin n m e).val) :
    (2 : ℚ) ^ e ≤ |z.val - (Fl.fin n m e).val| ∨ (m = 2 ^ (f.prec - 1) ∧ (2 : ℚ) ^ (e - 1) ≤ |z.val - (Fl.fin n m e).val|) := by
  obtain ⟨n', m', e', rfl, h1, h2, h3, h4⟩ := has_finite hz fz
  have hu := two_zpow_pos e
  have habs : |(Fl.fin n' m' e').val - (Fl.fin n m e).val| = |signed (n ^^ n') (m' * 2 ^ e') - m * 2 ^ e| := by
    simp only [Fl.val]
    rw [← signed_xor, ← signed_abs n (signed n _), signed_signed]
  have hne' : signed (n ^^ n') ((m' : ℚ) * 2 ^ e') ≠ m * 2 ^ e := by
    intro hc
    apply hne
    simp only [Fl.val]
    rw [← hc, signed_xor]
    simp
  rw [habs]
  generalize (n ^^ n') = s at hne' ⊢
  by_cases he : e ≤ e'
  · left
    obtain ⟨k, hk⟩ := Int.eq_ofNat_of_zero_le (sub_nonneg.2 he)
    have hpow : (2 : ℚ) ^ e' = 2 ^ k * 2 ^ e := by
      rw [← zpow_natCast, ← zpow_add₀ (by norm_num)]
      congr 1
      omega
    obtain ⟨j, hj⟩ : ∃ j : Int, signed s ((m' : ℚ) * 2 ^ e') = (j : ℚ) * 2 ^ e := by
      cases s
      · exact ⟨m' * 2 ^ k, by simp only [signed, Bool.false_eq_true, if_false]; rw [hpow]; push_cast; ring⟩
      · exact ⟨-(m' * 2 ^ k), by simp only [signed, if_true]; rw [hpow]; push_cast; ring⟩
    rw [hj] at hne' ⊢
    rw [← sub_mul, abs_mul, abs_of_pos hu]
    have hjm : j ≠ m := by rintro rfl; exact hne' (by push_cast; rfl)
    have : 1 ≤ |j - m| := Int.one_le_abs (sub_ne_zero.2 hjm)
    have : (1 : ℚ) ≤ |(j : ℚ) - m| := by exact_mod_cast this
    calc (2 : ℚ) ^ e = 1 * 2 ^ e := by ring
      _ ≤ _ := mul_le_mul_of_nonneg_right this hu.le
  · have e1 : |signed s ((m' : ℚ) * 2 ^ e')| = m' * 2 ^ e' := by
      have : (0 : ℚ) ≤ m' * 2 ^ e' := mul_nonneg (by positivity) (two_zpow_pos e').le
      cases s <;> simp only [signed, Bool.false_eq_true, if_false, if_true, abs_neg, abs_of_nonneg this]
    have e2 : (2 : ℚ) ^ e' ≤ 2 ^ (e - 1) := zpow_le_zpow_right₀ (by norm_num) (by omega)
    have e3 : (m' : ℚ) + 1 ≤ 2 ^ f.prec := by exact_mod_cast h1
    have e4 : (2 : ℚ) ^ f.prec = 2 ^ (f.prec - 1) * 2 := by rw [← pow_succ]; congr 1; omega
    have e5 : (2 : ℚ) ^ e = 2 ^ (e - 1) * 2 := by
      rw [show e = (e - 1) + 1 by omega, zpow_add₀ (by norm_num)]; simp
    have hw := two_zpow_pos (e - 1)
    have e6 : (m' : ℚ) * 2 ^ e' ≤ (2 ^ f.prec - 1) * 2 ^ (e - 1) := by
      calc (m' : ℚ) * 2 ^ e' ≤ m' * 2 ^ (e - 1) := mul_le_mul_of_nonneg_left e2 (by positivity)
        _ ≤ _ := mul_le_mul_of_nonneg_right (by linarith) hw.le
    have e7 : (m : ℚ) * 2 ^ e - m' * 2 ^ e' ≤ |signed s ((m' : ℚ) * 2 ^ e') - m * 2 ^ e| := by
      have := le_abs_self (signed s ((m' : ℚ) * 2 ^ e'))
      have := neg_abs_le (signed s ((m' : ℚ) * 2 ^ e') - m * 2 ^ e)
      linarith
    rcases Nat.lt_or_ge (2 ^ (f.prec - 1)) m with hlt | hge
    · left
      have e8 : (2 : ℚ) ^ (f.prec - 1) + 1 ≤ m := by exact_mod_cast hlt
      have e9 : ((2 : ℚ) ^ (f.prec - 1) + 1) * 2 ^ e ≤ m * 2 ^ e := mul_le_mul_of_nonneg_right e8 hu.le
      rw [e4] at e6
      rw [e5] at e9 ⊢
      rw [e5] at e7
      have : (2 : ℚ) ^ (e - 1) * 2 ≤ ((2 : ℚ) ^ (f.prec - 1) + 1) * (2 ^ (e - 1) * 2) - (2 ^ (f.prec - 1) * 2 - 1) * 2 ^ (e - 1) := by
        have : ((2 : ℚ) ^ (f.prec - 1) + 1) * (2 ^ (e - 1) * 2) - (2 ^ (f.prec - 1) * 2 - 1) * 2 ^ (e - 1) = 3 * 2 ^ (e - 1) := by ring
        linarith
      linarith
    · right
      have hme : m = 2 ^ (f.prec - 1) := by omega
      refine ⟨hme, ?_⟩
      have e8 : (m : ℚ) = 2 ^ (f.prec - 1) := by exact_mod_cast hme
      rw [e4] at e6
      have : (m : ℚ) * 2 ^ e - (2 ^ (f.prec - 1) * 2 - 1) * 2 ^ (e - 1) = 2 ^ (e - 1) := by rw [e8, e5]; ring
      linarith

/-- A normal value is the nearest one to any number within `1 / (2 * 10^(p-1))` of it, relatively, where `10^(p-1)` is greater than the number of mantissas. -/
theorem near_normal {f : FloatFmt} (hp : 1 ≤ f.prec) {P : Nat} (hP : 2 ^ f.prec < 10 ^ (P - 1)) {n : Bool} {m : Nat} {e : Int} (hx : f.Has (.fin n m e)) (hm : 2 ^ (f.prec - 1) ≤ m)
    {q : ℚ} (hq : |q - m * 2 ^ e| * (2 * 10 ^ (P - 1)) ≤ m * 2 ^ e) :
    f.Nearest (.fin n m e) (signed n q) ∧ ¬ f.Overflows q ∧ ¬ f.Underflows q := by
  have hu := two_zpow_pos e
  have hm0 : 0 < m := Nat.lt_of_lt_of_le (Nat.pow_pos (by norm_num)) hm
  have hm0' : (0 : ℚ) < m := by exact_mod_cast hm0
  have ha : (0 : ℚ) < m * 2 ^ e := mul_pos hm0' hu
  have h10 : (2 : ℚ) ^ f.prec < 10 ^ (P - 1) := by exact_mod_cast hP
  have hpp : (0 : ℚ) < 2 ^ f.prec := by positivity
  have hnn := abs_nonneg (q - (m : ℚ) * 2 ^ e)
  have e4 : (2 : ℚ) ^ f.prec = 2 ^ (f.prec - 1) * 2 := by rw [← pow_succ]; congr 1; omega
  have e5 : (2 : ℚ) ^ e = 2 ^ (e - 1) * 2 := by
    rw [show e = (e - 1) + 1 by omega, zpow_add₀ (by norm_num)]; simp
  have hw := two_zpow_pos (e - 1)
  -- the error, compared with the spacing
  have herr : |q - m * 2 ^ e| * (2 * 2 ^ f.prec) < m * 2 ^ e := by
    rcases hnn.eq_or_lt with h | h
    · rw [← h, zero_mul]; exact ha
    · calc |q - m * 2 ^ e| * (2 * 2 ^ f.prec) < |q - m * 2 ^ e| * (2 * 10 ^ (P - 1)) := mul_lt_mul_of_pos_left (by linarith) h
        _ ≤ _ := hq
  have hmlt : (m : ℚ) ≤ 2 ^ f.prec := by exact_mod_cast hx.1.le
  have hhalf : |q - m * 2 ^ e| < 2 ^ e / 2 := by
    have h1 : (m : ℚ) * 2 ^ e ≤ 2 ^ f.prec * 2 ^ e := mul_le_mul_of_nonneg_right hmlt hu.le
    have h2 : |q - m * 2 ^ e| * (2 * 2 ^ f.prec) < 2 ^ e / 2 * (2 * 2 ^ f.prec) := by
      have : (2 : ℚ) ^ e / 2 * (2 * 2 ^ f.prec) = 2 ^ f.prec * 2 ^ e := by ring
      linarith
    exact lt_of_mul_lt_mul_right h2 (by positivity)
  have hquart : m = 2 ^ (f.prec - 1) → |q - m * 2 ^ e| < 2 ^ (e - 1) / 2 := by
    intro hme
    have h1 : (m : ℚ) = 2 ^ (f.prec - 1) := by exact_mod_cast hme
    have h2 : |q - m * 2 ^ e| * (2 * 2 ^ f.prec) < 2 ^ (e - 1) / 2 * (2 * 2 ^ f.prec) := by
      have : (2 : ℚ) ^ (e - 1) / 2 * (2 * 2 ^ f.prec) = m * 2 ^ e := by rw [h1, e4, e5]; ring
      linarith
    exact lt_of_mul_lt_mul_right h2 (by positivity)
  have hsa : |(Fl.fin n m e).val - signed n q| = |q - m * 2 ^ e| := by
    simp only [Fl.val]
    rw [signed_abs, abs_sub_comm]
  have hstrict : ∀ z : Fl, f.Has z → z.Finite → z.val ≠ (Fl.fin n m e).val → |(Fl.fin n m e).val - signed n q| < |z.val - signed n q| := by
    intro z hz fz hne
    have htri : |z.val - (Fl.fin n m e).val| ≤ |z.val - signed n q| + |(Fl.fin n m e).val - signed n q| := by
      rw [abs_sub_comm (Fl.fin n m e).val]
      exact abs_sub_le _ _ _
    rcases spacing hp hm hz fz hne with h | ⟨hme, h⟩
    · rw [hsa] at htri ⊢
      linarith
    · have := hquart hme
      rw [hsa] at htri ⊢
      linarith
  refine ⟨⟨hx, trivial, fun z hz fz => ?_⟩, ?_, ?_⟩
  · by_cases hne : z.val = (Fl.fin n m e).val
    · rw [hne]
      exact ⟨le_refl _, fun _ h => absurd rfl h⟩
    · have := hstrict z hz fz hne
      exact ⟨this.le, fun h => absurd h this.ne⟩
  · unfold FloatFmt.Overflows
    rw [not_le]
    have h1 := has_le hx
    have h2 : (2 : ℚ) ^ e ≤ 2 ^ f.emax := zpow_le_zpow_right₀ (by norm_num) hx.2.2.1
    have h3 := le_abs_self (q - (m : ℚ) * 2 ^ e)
    have : ((2 : ℚ) ^ f.prec - 1 / 2) * 2 ^ f.emax = (2 ^ f.prec - 1) * 2 ^ f.emax + 2 ^ f.emax / 2 := by ring
    linarith
  · rintro ⟨h1, -⟩
    obtain ⟨_, hlow, _⟩ := hx
    have h2 := neg_abs_le (q - (m : ℚ) * 2 ^ e)
    have hs := two_zpow_pos (f.emin - 1)
    have h3 : (2 : ℚ) ^ (f.emin - 1) ≤ 2 ^ (e - 1) := zpow_le_zpow_right₀ (by norm_num) (by omega)
    have h6 : ((2 : ℚ) ^ f.prec - 1 / 2) * 2 ^ (f.emin - 1) ≤ (2 ^ f.prec - 1 / 2) * 2 ^ (e - 1) := by
      apply mul_le_mul_of_nonneg_left h3
      have : (1 : ℚ) ≤ 2 ^ f.prec := one_le_pow₀ (by norm_num)
      linarith
    rcases Nat.lt_or_ge (2 ^ (f.prec - 1)) m with hlt | hge
    · have e8 : (2 : ℚ) ^ (f.prec - 1) + 1 ≤ m := by exact_mod_cast hlt
      have e9 : ((2 : ℚ) ^ (f.prec - 1) + 1) * 2 ^ e ≤ m * 2 ^ e := mul_le_mul_of_nonneg_right e8 hu.le
      have e10 : ((2 : ℚ) ^ (f.prec - 1) + 1) * 2 ^ e - 2 ^ e / 2 = (2 ^ f.prec + 1) * 2 ^ (e - 1) := by rw [e4, e5]; ring
      have e11 : ((2 : ℚ) ^ f.prec - 1 / 2) * 2 ^ (e - 1) < (2 ^ f.prec + 1) * 2 ^ (e - 1) := mul_lt_mul_of_pos_right (by linarith) hw
      linarith
    · have hme : m = 2 ^ (f.prec - 1) := by omega
      have h7 := hquart hme
      have e8 : (m : ℚ) = 2 ^ (f.prec - 1) := by exact_mod_cast hme
      have e10 : (m : ℚ) * 2 ^ e - 2 ^ (e - 1) / 2 = (2 ^ f.prec - 1 / 2) * 2 ^ (e - 1) := by rw [e8, e4, e5]; ring
      linarith

/-- With enough digits, every normal value is read back. -/
theorem general_roundtrip {f : FloatFmt} (hp : 2 ≤ f.prec) {P : Nat} (hP : 2 ^ f.prec < 10 ^ (P - 1)) {n : Bool} {m : Nat} {e : Int} (hx : f.Has (.fin n m e))
    (hm : 2 ^ (f.prec - 1) ≤ m) : readFloat f [0x2e] (printGeneral P [0x2e] (.fin n m e)) = some (.fin n m e) := by
  have hm0 : 0 < m := Nat.lt_of_lt_of_le (Nat.pow_pos (by norm_num)) hm
  have hP1 : 1 ≤ P := by
    rcases Nat.eq_zero_or_pos P with rfl | h
    · have := Nat.pow_pos (n := f.prec) (by norm_num : 0 < 2)
      simp at hP
    · exact h
  have hden := denotes_general hP1 n hm0 e
  obtain ⟨_, _, herr⟩ := significant_spec hP1 (q := magnitude m e) (scale_pos' (by norm_num) hm0) (magnitude_pos m e)
  rw [qv_magnitude] at herr
  obtain ⟨h1, h2, h3⟩ := near_normal (by omega) hP hx hm herr
  have hr : f.emin ≤ f.emax := by have := hx.2; omega
  exact readFloat_nearest hp hr hden h1 rfl h2 h3

theorem general_zero (f : FloatFmt) (P : Nat) (n : Bool) (e : Int) : readFloat f [0x2e] (printGeneral P [0x2e] (.fin n 0 e)) = some (.fin n 0 f.emin) := by
  cases n <;> rfl

end Meojson
