import Verif.Proofs.FloatTrip

/-!
# Proofs: a floating-point number printed, read and printed again

The second text is the first.
-/

set_option autoImplicit false

namespace Meojson
open Spec

/-- Two natural numbers as near to `w` as rounding to the even one allows are equal. -/
theorem even_unique {k k' : Nat} {w : ℚ} (h : |(k : ℚ) - w| ≤ 1 / 2) (h' : |(k' : ℚ) - w| ≤ 1 / 2) (he : |(k : ℚ) - w| = 1 / 2 → k % 2 = 0)
    (he' : |(k' : ℚ) - w| = 1 / 2 → k' % 2 = 0) : k' = k := by
  have h1 := abs_sub_le (k' : ℚ) w k
  rw [abs_sub_comm w] at h1
  have h2 : |((k' : Int) - (k : Int))| ≤ 1 := by
    have : |(k' : ℚ) - k| ≤ 1 := by linarith
    exact_mod_cast this
  rw [abs_le] at h2
  by_contra hne
  have h3 : |(k' : ℚ) - k| = 1 := by
    have : |((k' : Int) - (k : Int))| = 1 := by
      rcases (show (k' : Int) - k = 1 ∨ (k' : Int) - k = -1 by omega) with h | h <;> rw [h] <;> rfl
    exact_mod_cast this
  have h4 := he (by linarith)
  have h5 := he' (by linarith)
  omega

/-- A value at least as near to the printed number as the one that was printed is printed alike. -/
theorem fixed_again {m m' : Nat} {e e' : Int}
    (h : |(m' : ℚ) * 2 ^ e' - (roundQ (scale 10 6 (magnitude m e)) : ℚ) / 10 ^ 6| ≤ |(m : ℚ) * 2 ^ e - (roundQ (scale 10 6 (magnitude m e)) : ℚ) / 10 ^ 6|) :
    roundQ (scale 10 6 (magnitude m' e')) = roundQ (scale 10 6 (magnitude m e)) := by
  obtain ⟨a1, a2, -⟩ := roundQ_half (scale_pos (k := 6) (by norm_num : 0 < 10) (magnitude_pos m e))
  obtain ⟨b1, b2, -⟩ := roundQ_half (scale_pos (k := 6) (by norm_num : 0 < 10) (magnitude_pos m' e'))
  have ha := qv_scale (by norm_num : 0 < 10) 6 (magnitude m e)
  have hb := qv_scale (by norm_num : 0 < 10) 6 (magnitude m' e')
  rw [qv_magnitude] at ha hb
  rw [ha] at a1 a2
  rw [hb] at b1 b2
  generalize roundQ (scale 10 6 (magnitude m e)) = k at *
  generalize roundQ (scale 10 6 (magnitude m' e')) = k' at *
  push_cast at a1 a2 b1 b2
  have key : ∀ x : ℚ, |x - (k : ℚ) / 10 ^ 6| * 10 ^ 6 = |(k : ℚ) - x * 1000000| := by
    intro x
    have h10 : (0 : ℚ) < 10 ^ 6 := by norm_num
    rw [abs_sub_comm, ← abs_of_pos h10, ← abs_mul, abs_of_pos h10]
    congr 1
    field_simp
    ring
  have h1 := mul_le_mul_of_nonneg_right h (by norm_num : (0 : ℚ) ≤ 10 ^ 6)
  rw [key, key] at h1
  exact even_unique (h1.trans a1) b1 (fun h => a2 (le_antisymm a1 (h ▸ h1))) b2

theorem fixed_steady {f : FloatFmt} (hf : f.Wide) {n : Bool} {m : Nat} {e : Int} (hx : f.Has (.fin n m e)) {y : Fl}
    (h : readFloat f [0x2e] (printFixed [0x2e] (.fin n m e)) = some y) : printFixed [0x2e] y = printFixed [0x2e] (.fin n m e) := by
  have hd := denotes_fixed n m e
  rcases readFloat_spec hf.prec hf.range hd with ⟨z, hz, hn, hnear, _⟩ | ⟨h', _⟩
  · rw [h] at hz
    cases hz
    obtain ⟨n', m', e', rfl, _⟩ := has_finite hnear.1 hnear.2.1
    cases hn
    have := (hnear.2.2 (.fin n' m e) hx trivial).1
    simp only [Fl.val, Fl.neg, signed_abs] at this
    simp only [printFixed, Fl.neg, fixed_again this]
  · rw [h] at h'
    cases h'

/-- The magnitude of a value is a multiple of the least positive one. -/
theorem has_multiple {f : FloatFmt} {n : Bool} {m : Nat} {e : Int} (h : f.Has (.fin n m e)) : ∃ k : Nat, (m : ℚ) * 2 ^ e = k * 2 ^ f.emin := by
  obtain ⟨_, hlow, _⟩ := h
  refine ⟨m * 2 ^ (e - f.emin).toNat, ?_⟩
  push_cast
  rw [zpow_toNat (by omega), mul_assoc, ← zpow_add₀ (by norm_num)]
  congr 2
  omega

/-- With enough digits, what is read is what was printed, unless reading throws. -/
theorem general_steady {f : FloatFmt} (hf : f.Wide) {P : Nat} (hP : 2 ^ f.prec < 10 ^ (P - 1)) {n : Bool} {m : Nat} {e : Int} (hx : f.Has (.fin n m e)) {y : Fl}
    (h : readFloat f [0x2e] (printGeneral P [0x2e] (.fin n m e)) = some y) : y = .fin n m e := by
  have hp := hf.prec
  rcases Nat.lt_or_ge m (2 ^ (f.prec - 1)) with hm | hm
  · obtain ⟨hlt, hmin, hmax, hn⟩ := hx
    have he : e = f.emin := by omega
    subst he
    rcases Nat.eq_zero_or_pos m with rfl | hm0
    · rw [general_zero] at h
      exact (Option.some.inj h).symm
    have hP1 : 1 ≤ P := by
      rcases Nat.eq_zero_or_pos P with rfl | h
      · have := Nat.pow_pos (n := f.prec) (by norm_num : 0 < 2)
        simp at hP
      · exact h
    have hden := denotes_general hP1 n hm0 f.emin
    obtain ⟨_, _, herr⟩ := significant_spec hP1 (q := magnitude m f.emin) (scale_pos' (by norm_num) hm0) (magnitude_pos m f.emin)
    rw [qv_magnitude] at herr
    rcases readFloat_spec hp hf.range hden with ⟨z, hz, hn, hnear, _⟩ | ⟨h', _⟩
    · rw [h] at hz
      cases hz
      obtain ⟨n', m', e', rfl, _⟩ := has_finite hnear.1 hnear.2.1
      cases hn
      have h1 := (hnear.2.2 (.fin n' m f.emin) ⟨hlt, hmin, hmax, .inr rfl⟩ trivial).1
      simp only [Fl.val, Fl.neg, signed_abs] at h1
      obtain ⟨k, hk⟩ := has_multiple hnear.1
      refine fl_unique (by omega) hnear.1 ⟨hlt, hmin, hmax, .inr rfl⟩ trivial trivial rfl ?_
      simp only [Fl.val]
      congr 1
      rw [hk] at h1 ⊢
      have hu := two_zpow_pos f.emin
      generalize ((significant P (magnitude m f.emin)).1 : ℚ) * 10 ^ ((significant P (magnitude m f.emin)).2 - (P - 1)) = q at *
      have h2 := abs_sub_le ((k : ℚ) * 2 ^ f.emin) q (m * 2 ^ f.emin)
      rw [abs_sub_comm ((m : ℚ) * _) q] at h1
      have h10 : (0 : ℚ) < 10 ^ (P - 1) := by positivity
      have h3 : (m : ℚ) < 10 ^ (P - 1) := by exact_mod_cast hlt.trans hP
      have h4 : |q - m * 2 ^ f.emin| * 2 < 2 ^ f.emin := by
        by_contra hc
        rw [not_lt] at hc
        have a1 : (2 : ℚ) ^ f.emin * 10 ^ (P - 1) ≤ |q - m * 2 ^ f.emin| * 2 * 10 ^ (P - 1) := mul_le_mul_of_nonneg_right hc h10.le
        have a2 : (m : ℚ) * 2 ^ f.emin < 10 ^ (P - 1) * 2 ^ f.emin := mul_lt_mul_of_pos_right h3 hu
        linarith
      have h5 : |((k : ℚ) - m) * 2 ^ f.emin| < 2 ^ f.emin := by
        rw [sub_mul]
        linarith
      rw [abs_mul, abs_of_pos hu] at h5
      have h6 : |(k : ℚ) - m| < 1 := by
        by_contra hc
        rw [not_lt] at hc
        have := mul_le_mul_of_nonneg_right hc hu.le
        linarith
      have h7 : |((k : Int) - (m : Int))| < 1 := by exact_mod_cast h6
      rw [Int.abs_lt_one_iff] at h7
      have : k = m := by omega
      rw [this]
    · rw [h] at h'
      cases h'
  · rw [general_roundtrip hp hP hx hm] at h
    exact (Option.some.inj h).symm

end Meojson
