import Verif.Model.Parser
import Verif.Spec.Grammar

/-! Lemmas about hexadecimal digits and the UTF-8 encoder. -/

namespace Meojson
open Spec

theorem or_shift (k x m : Nat) (h : x < 2 ^ k) : x ||| (m * 2 ^ k) = x + m * 2 ^ k := by
  have := Nat.shiftLeft_add_eq_or_of_lt h m
  rw [Nat.shiftLeft_eq] at this
  rw [Nat.or_comm, ← this, Nat.add_comm]

theorem and_mask (k x : Nat) : x &&& (2 ^ k - 1) = x % 2 ^ k := Nat.and_two_pow_sub_one_eq_mod x k

theorem or80 (x : Nat) : (x &&& 0x3F) ||| 0x80 = x % 64 + 128 := by
  have h1 := and_mask 6 x
  have h2 := or_shift 6 (x % 64) 2 (Nat.mod_lt _ (by decide))
  simp at h1 h2
  rw [h1, h2]

theorem orC0 (x : Nat) : (x &&& 0x1F) ||| 0xC0 = x % 32 + 192 := by
  have h1 := and_mask 5 x
  have h2 := or_shift 5 (x % 32) 6 (Nat.mod_lt _ (by decide))
  simp at h1 h2
  rw [h1, h2]

theorem orE0 (x : Nat) : (x &&& 0x0F) ||| 0xE0 = x % 16 + 224 := by
  have h1 := and_mask 4 x
  have h2 := or_shift 4 (x % 16) 14 (Nat.mod_lt _ (by decide))
  simp at h1 h2
  rw [h1, h2]

theorem orF0 (x : Nat) : (x &&& 0x07) ||| 0xF0 = x % 8 + 240 := by
  have h1 := and_mask 3 x
  have h2 := or_shift 3 (x % 8) 30 (Nat.mod_lt _ (by decide))
  simp at h1 h2
  rw [h1, h2]

theorem utf8Bytes_eq (e : UInt32) (hv : e.toNat.isValidChar) : utf8Bytes e = utf8 e.toNat := by
  have hc : (Char.ofNat e.toNat).val.toNat = e.toNat := by
    simp [Char.ofNat, hv, Char.ofNatAux]
  unfold utf8Bytes utf8 String.utf8EncodeChar
  simp only [hc, UInt32.le_iff_toNat_le]
  have e1 : (0x7F : UInt32).toNat = 0x7f := rfl
  have e2 : (0x7FF : UInt32).toNat = 0x7ff := rfl
  have e3 : (0xFFFF : UInt32).toNat = 0xffff := rfl
  rw [e1, e2, e3]
  have key : ∀ (a : UInt32) (b : Nat), a.toNat % 256 = b % 256 → a.toUInt8 = UInt8.ofNat b := by
    intro a b h
    apply UInt8.toNat_inj.1
    simpa using h
  split
  · congr 1
  · split
    · congr 1
      · apply key; simp [UInt32.toNat_or, UInt32.toNat_and, UInt32.toNat_shiftRight, orC0, Nat.shiftRight_eq_div_pow]
      · congr 1
        apply key; simp [UInt32.toNat_or, UInt32.toNat_and, or80]
    · split
      · congr 1
        · apply key; simp [UInt32.toNat_or, UInt32.toNat_and, UInt32.toNat_shiftRight, orE0, Nat.shiftRight_eq_div_pow]
        · congr 1
          · apply key; simp [UInt32.toNat_or, UInt32.toNat_and, UInt32.toNat_shiftRight, or80, Nat.shiftRight_eq_div_pow]
          · congr 1
            apply key; simp [UInt32.toNat_or, UInt32.toNat_and, or80]
      · congr 1
        · apply key; simp [UInt32.toNat_or, UInt32.toNat_and, UInt32.toNat_shiftRight, orF0, Nat.shiftRight_eq_div_pow]
        · congr 1
          · apply key; simp [UInt32.toNat_or, UInt32.toNat_and, UInt32.toNat_shiftRight, or80, Nat.shiftRight_eq_div_pow]
          · congr 1
            · apply key; simp [UInt32.toNat_or, UInt32.toNat_and, UInt32.toNat_shiftRight, or80, Nat.shiftRight_eq_div_pow]
            · congr 1
              apply key; simp [UInt32.toNat_or, UInt32.toNat_and, or80]

theorem hexVal_lt {c : UInt8} {d : Nat} (h : hexVal c = some d) : d < 16 := by
  unfold hexVal at h
  grind

/-- One digit: the code's step and the specification agree. -/
theorem hexStep_spec (cp : UInt16) (c : UInt8) (hcp : cp.toNat < 4096) :
    match hexVal c with
    | none => hexStep cp c = none
    | some d => ∃ cp', hexStep cp c = some cp' ∧ cp'.toNat = cp.toNat * 16 + d := by
  have key : ∀ (x : UInt8), x.toNat < 16 → ((cp <<< 4) ||| x.toUInt16).toNat = cp.toNat * 16 + x.toNat := by
    intro x hx
    have h4 : cp.toNat <<< 4 % 65536 = cp.toNat <<< 4 := by
      rw [Nat.shiftLeft_eq]; apply Nat.mod_eq_of_lt; omega
    have := Nat.shiftLeft_add_eq_or_of_lt (i := 4) (b := x.toNat) (by simpa using hx) cp.toNat
    simp [UInt16.toNat_or, UInt16.toNat_shiftLeft, h4]
    rw [← this, Nat.shiftLeft_eq]
  have hlt := c.toNat_lt
  unfold hexVal hexStep isXDigit isDigit
  simp only [UInt8.le_iff_toNat_le]
  simp only [show (0x30 : UInt8).toNat = 48 from rfl, show (0x39 : UInt8).toNat = 57 from rfl,
    show (0x61 : UInt8).toNat = 97 from rfl, show (0x66 : UInt8).toNat = 102 from rfl,
    show (0x41 : UInt8).toNat = 65 from rfl, show (0x46 : UInt8).toNat = 70 from rfl]
  by_cases h1 : 48 ≤ c.toNat ∧ c.toNat ≤ 57
  · have hx : (c - 0x30).toNat = c.toNat - 48 := by
      rw [UInt8.toNat_sub_of_le]; rfl
      rw [UInt8.le_iff_toNat_le]; exact h1.1
    simp only [h1, and_self, if_true, decide_true, Bool.and_self, Bool.true_or, not_true_eq_false, if_false]
    exact ⟨_, rfl, by rw [key _ (by omega), hx]⟩
  · by_cases h2 : 97 ≤ c.toNat ∧ c.toNat ≤ 102
    · have hx : (c - 0x61 + 10).toNat = c.toNat - 97 + 10 := by
        rw [UInt8.toNat_add, UInt8.toNat_sub_of_le]
        · simp; omega
        · rw [UInt8.le_iff_toNat_le]; exact h2.1
      have h1' : (decide (48 ≤ c.toNat) && decide (c.toNat ≤ 57)) = false := by simp; omega
      simp only [h1, h1', h2, and_self, if_true, decide_true, Bool.and_self, Bool.false_or, Bool.true_or, not_true_eq_false, if_false]
      exact ⟨_, rfl, by rw [key _ (by omega), hx]⟩
    · by_cases h3 : 65 ≤ c.toNat ∧ c.toNat ≤ 70
      · have hx : (c - 0x41 + 10).toNat = c.toNat - 65 + 10 := by
          rw [UInt8.toNat_add, UInt8.toNat_sub_of_le]
          · simp; omega
          · rw [UInt8.le_iff_toNat_le]; exact h3.1
        have h1' : (decide (48 ≤ c.toNat) && decide (c.toNat ≤ 57)) = false := by simp; omega
        have h2' : (decide (97 ≤ c.toNat) && decide (c.toNat ≤ 102)) = false := by simp; omega
        simp only [h1, h1', h2, h2', h3, and_self, if_true, decide_true, Bool.and_self, Bool.false_or, not_true_eq_false, if_false]
        exact ⟨_, rfl, by rw [key _ (by omega), hx]⟩
      · have h1' : (decide (48 ≤ c.toNat) && decide (c.toNat ≤ 57)) = false := by simp; omega
        have h2' : (decide (97 ≤ c.toNat) && decide (c.toNat ≤ 102)) = false := by simp; omega
        have h3' : (decide (65 ≤ c.toNat) && decide (c.toNat ≤ 70)) = false := by simp; omega
        simp only [h1, h1', h2, h2', h3, h3', if_false, Bool.false_or, Bool.false_eq_true, not_false_eq_true, if_true]

theorem hexLoop_complete {h : Bytes} {u : Nat} (hx : Hex4 h u) (s : Bytes) :
    u < 65536 ∧ hexLoop 4 0 (h ++ s) = .ok (UInt16.ofNat u) s := by
  obtain ⟨a, b, c, d, x, y, z, w, rfl, ha, hb, hc, hd, rfl⟩ := hx
  have lx := hexVal_lt ha
  have ly := hexVal_lt hb
  have lz := hexVal_lt hc
  have lw := hexVal_lt hd
  have s1 := hexStep_spec 0 a (by decide)
  rw [ha] at s1
  obtain ⟨c1, e1, v1⟩ := s1
  simp at v1
  have s2 := hexStep_spec c1 b (by omega)
  rw [hb] at s2
  obtain ⟨c2, e2, v2⟩ := s2
  have s3 := hexStep_spec c2 c (by omega)
  rw [hc] at s3
  obtain ⟨c3, e3, v3⟩ := s3
  have s4 := hexStep_spec c3 d (by omega)
  rw [hd] at s4
  obtain ⟨c4, e4, v4⟩ := s4
  refine ⟨by omega, ?_⟩
  simp only [List.cons_append, List.nil_append, hexLoop, e1, e2, e3, e4]
  congr 1
  apply UInt16.toNat_inj.1
  rw [UInt16.toNat_ofNat']
  omega

theorem hexLoop_sound {s rest : Bytes} {cp : UInt16} (h : hexLoop 4 0 s = .ok cp rest) :
    ∃ t, s = t ++ rest ∧ Hex4 t cp.toNat := by
  have step : ∀ (n : Nat) (c0 : UInt16) (s : Bytes), c0.toNat < 4096 → hexLoop (n+1) c0 s = .ok cp rest →
      ∃ a d c' s', s = a :: s' ∧ hexVal a = some d ∧ c'.toNat = c0.toNat * 16 + d ∧ hexLoop n c' s' = .ok cp rest := by
    intro n c0 s hlt hh
    cases s with
    | nil => simp [hexLoop] at hh
    | cons a s' =>
      have sp := hexStep_spec c0 a hlt
      cases hv : hexVal a with
      | none => rw [hv] at sp; simp only at sp; simp [hexLoop, sp] at hh
      | some d =>
        rw [hv] at sp
        obtain ⟨c', e, v⟩ := sp
        simp only [hexLoop, e] at hh
        exact ⟨a, d, c', s', rfl, hv, v, hh⟩
  obtain ⟨a, x, c1, s1, rfl, ha, v1, h⟩ := step 3 0 s (by decide) h
  have lx := hexVal_lt ha
  simp at v1
  obtain ⟨b, y, c2, s2, rfl, hb, v2, h⟩ := step 2 c1 _ (by omega) h
  have ly := hexVal_lt hb
  obtain ⟨c, z, c3, s3, rfl, hc, v3, h⟩ := step 1 c2 _ (by omega) h
  have lz := hexVal_lt hc
  obtain ⟨d, w, c4, s4, rfl, hd, v4, h⟩ := step 0 c3 _ (by omega) h
  have lw := hexVal_lt hd
  simp only [hexLoop, Res.ok.injEq] at h
  obtain ⟨rfl, rfl⟩ := h
  exact ⟨[a, b, c, d], rfl, a, b, c, d, x, y, z, w, rfl, ha, hb, hc, hd, by omega⟩

theorem isValidChar_of {n : Nat} (h1 : n ≤ 0x10FFFF) (h2 : ¬ (0xD800 ≤ n ∧ n ≤ 0xDFFF)) : n.isValidChar := by
  unfold Nat.isValidChar; omega

theorem surrogate_cp (hi lo : UInt16) (h1 : 0xD800 ≤ hi.toNat) (h2 : hi.toNat ≤ 0xDBFF) (h3 : 0xDC00 ≤ lo.toNat)
    (h4 : lo.toNat ≤ 0xDFFF) :
    ((((hi.toUInt32 - 0xD800) <<< 10) ||| (lo.toUInt32 - 0xDC00)) + 0x10000).toNat
      = pairCp hi.toNat lo.toNat := by
  unfold pairCp
  have a1 : (hi.toUInt32 - 0xD800).toNat = hi.toNat - 0xD800 := by
    rw [UInt32.toNat_sub_of_le]; simp
    rw [UInt32.le_iff_toNat_le]; simpa using h1
  have a2 : (lo.toUInt32 - 0xDC00).toNat = lo.toNat - 0xDC00 := by
    rw [UInt32.toNat_sub_of_le]; simp
    rw [UInt32.le_iff_toNat_le]; simpa using h3
  have h5 : (hi.toNat - 0xD800) <<< 10 % 4294967296 = (hi.toNat - 0xD800) <<< 10 := by
    rw [Nat.shiftLeft_eq]; apply Nat.mod_eq_of_lt; omega
  have h6 := Nat.shiftLeft_add_eq_or_of_lt (i := 10) (b := lo.toNat - 0xDC00) (by omega) (hi.toNat - 0xD800)
  rw [UInt32.toNat_add, UInt32.toNat_or, UInt32.toNat_shiftLeft, a1, a2]
  simp only [show (10 : UInt32).toNat % 32 = 10 from rfl, show (0x10000 : UInt32).toNat = 0x10000 from rfl]
  simp only [show (2 : Nat) ^ 32 = 4294967296 from rfl]
  rw [h5, ← h6, Nat.shiftLeft_eq]
  omega

end Meojson
