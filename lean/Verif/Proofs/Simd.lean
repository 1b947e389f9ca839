import Verif.Proofs.Swar

/-! The vector packed-bytes traits, lane by lane, and the contract of all traits. -/

namespace Meojson
open Spec

/-- Lane of the scan register. -/
def lane (b : UInt8) : UInt8 := if Unescaped b then 0 else 0xff

theorem lane_cases (b : UInt8) : lane b = 0 ∨ lane b = 0xff := by unfold lane; split <;> simp

theorem lanes_flags (bs : Bytes) : Flags (bs.map lane) bs := by
  refine ⟨by simp, ?_, ?_⟩
  · intro i b hi hb
    exact ⟨lane b, by simp [hi], by simp [lane, hb]⟩
  · intro h f hf
    obtain ⟨b, hb, rfl⟩ := List.mem_map.1 hf
    simp [lane, h b hb]

theorem zipWith_replicate {f : UInt8 → UInt8 → UInt8} (bs : Bytes) (n : UInt8) :
    List.zipWith f bs (List.replicate bs.length n) = bs.map (f · n) := by
  induction bs with
  | nil => rfl
  | cons b bs ih => simp [List.replicate_succ, ih]

theorem zipWith_map_map {f : UInt8 → UInt8 → UInt8} (g h : UInt8 → UInt8) (bs : Bytes) :
    List.zipWith f (bs.map g) (bs.map h) = bs.map fun b => f (g b) (h b) := by
  induction bs with
  | nil => rfl
  | cons b bs ih => simp [ih]

theorem sse_lane (b : UInt8) :
    ((~~~ (if (if b < 32 then (32 : UInt8) else b) = b then (0xff : UInt8) else 0) &&& 0xff)
      ||| (if b = 0x22 then 0xff else 0)) ||| (if b = 0x5c then 0xff else 0) = lane b := by
  revert b
  apply uint8_forall
  decide +kernel

theorem neon_lane (b : UInt8) :
    ((if b < 32 then (0xff : UInt8) else 0) ||| (if b = 0x22 then 0xff else 0)) ||| (if b = 0x5c then 0xff else 0)
      = lane b := by
  revert b
  apply uint8_forall
  decide +kernel

theorem simd_less (bs : Bytes) (n : UInt8) : Simd.less bs.length bs n =
    bs.map fun b => ~~~ (if (if b < n then n else b) = b then (0xff : UInt8) else 0) &&& 0xff := by
  unfold Simd.less
  simp only [Simd.set1, Simd.maxU8, Simd.cmpeq, Simd.andnot, zipWith_replicate]
  have h := zipWith_map_map (f := fun x y => if x = y then 0xff else 0) (fun b => if b < n then n else b) id bs
  rw [List.map_id] at h
  rw [h]
  have h2 := zipWith_replicate (f := fun x y => ~~~x &&& y)
    (bs.map fun b => if (if b < n then n else b) = id b then (0xff : UInt8) else 0) 0xff
  rw [List.length_map] at h2
  rw [h2, List.map_map]
  rfl

theorem simd_equal (bs : Bytes) (n : UInt8) : Simd.cmpeq bs (Simd.set1 bs.length n) =
    bs.map fun b => if b = n then 0xff else 0 := by
  simp only [Simd.cmpeq, Simd.set1, zipWith_replicate]

theorem simd_scan (bs : Bytes) :
    Simd.or (Simd.or (Simd.less bs.length bs 32) (Simd.cmpeq bs (Simd.set1 bs.length 0x22)))
      (Simd.cmpeq bs (Simd.set1 bs.length 0x5c)) = bs.map lane := by
  rw [simd_less, simd_equal, simd_equal]
  simp only [Simd.or, zipWith_map_map]
  exact List.map_congr_left fun b _ => sse_lane b

theorem neon_scan (bs : Bytes) :
    Simd.or (Simd.or (Neon.clt bs (Simd.set1 bs.length 32)) (Simd.cmpeq bs (Simd.set1 bs.length 0x22)))
      (Simd.cmpeq bs (Simd.set1 bs.length 0x5c)) = bs.map lane := by
  rw [simd_equal, simd_equal]
  simp only [Neon.clt, Simd.set1, Simd.or, zipWith_replicate, zipWith_map_map]
  exact List.map_congr_left fun b _ => neon_lane b

theorem sse_scan (s : Bool) (bs : Bytes) (h : bs.length = 16) : (traitSse s).scan bs = bs.map lane := by
  rw [← simd_scan, h]; rfl
theorem avx2_scan (bs : Bytes) (h : bs.length = 32) : traitAvx2.scan bs = bs.map lane := by
  rw [← simd_scan, h]; rfl
theorem traitNeon_scan (bs : Bytes) (h : bs.length = 16) : traitNeon.scan bs = bs.map lane := by
  rw [← neon_scan, h]; rfl

/-! ### Zero tests -/

theorem testz_iff (x : Bytes) : Simd.testz x = true ↔ ∀ f ∈ x, f = 0 := by
  simp [Simd.testz]

theorem maxv_aux (x : Bytes) (m : UInt8) :
    x.foldl (fun m x => if m < x then x else m) m = 0 ↔ m = 0 ∧ ∀ f ∈ x, f = 0 := by
  induction x generalizing m with
  | nil => simp
  | cons a x ih =>
    simp only [List.foldl_cons, ih, List.mem_cons, forall_eq_or_imp]
    by_cases h : m < a
    · rw [if_pos h]
      constructor
      · rintro ⟨rfl, _⟩; simp at h
      · rintro ⟨rfl, rfl, _⟩; simp at h
    · rw [if_neg h]
      constructor
      · rintro ⟨rfl, h2⟩
        have ha : a = 0 := by
          apply UInt8.le_antisymm
          · exact UInt8.not_lt.1 h
          · simp
        exact ⟨rfl, ha, h2⟩
      · rintro ⟨h1, _, h2⟩; exact ⟨h1, h2⟩

theorem maxv_iff (x : Bytes) : (Neon.maxv x == 0) = true ↔ ∀ f ∈ x, f = 0 := by
  rw [beq_iff_eq]; unfold Neon.maxv; rw [maxv_aux]; simp

theorem movemask_lt (x : Bytes) : Simd.movemask x < 2 ^ x.length := by
  induction x with
  | nil => simp [Simd.movemask]
  | cons a x ih => simp only [Simd.movemask, List.length_cons, Nat.pow_succ]; split <;> omega

theorem movemask_all (x : Bytes) : Simd.movemask x + 1 = 2 ^ x.length ↔ ∀ a ∈ x, a.toNat.testBit 7 = true := by
  induction x with
  | nil => simp [Simd.movemask]
  | cons a x ih =>
    have := movemask_lt x
    simp only [Simd.movemask, List.length_cons, Nat.pow_succ, List.mem_cons, forall_eq_or_imp, ← ih]
    split
    · rename_i h; simp only [h, true_and]; omega
    · rename_i h; simp only [h]; simp; omega

theorem zeroLane_top (a : UInt8) : (if a = 0 then (0xff : UInt8) else 0).toNat.testBit 7 = true ↔ a = 0 := by
  split
  · rename_i h; simp only [h, iff_true]; decide
  · rename_i h; simp [h]

theorem movemask_zero (x : Bytes) : Simd.movemask (Simd.cmpeq x (Simd.set1 x.length 0)) + 1 = 2 ^ x.length ↔
    ∀ a ∈ x, a = 0 := by
  have h := movemask_all (Simd.cmpeq x (Simd.set1 x.length 0))
  rw [simd_equal] at h ⊢
  rw [List.length_map] at h
  rw [h]
  simp only [List.mem_map, forall_exists_index, and_imp, forall_apply_eq_imp_iff₂, zeroLane_top]

/-! ### Index of the first nonzero lane -/

theorem countrZero_eq (w x m : Nat) (hm : m < w) (h0 : ∀ i, i < m → x.testBit i = false) (h1 : x.testBit m = true) :
    countrZero w x = m := by
  induction w generalizing x m with
  | zero => omega
  | succ w ih =>
    unfold countrZero
    cases m with
    | zero => rw [if_pos h1]
    | succ m =>
      rw [if_neg (by simp [h0 0 (by omega)]), ih (x / 2) m (by omega)]
      · omega
      · intro i hi; have := h0 (i + 1) (by omega); rwa [Nat.testBit_succ] at this
      · rwa [Nat.testBit_succ] at h1

theorem countrOne32_eq (x : UInt32) (m : Nat) (hm : m < 32) (h0 : ∀ i, i < m → x.toNat.testBit i = true)
    (h1 : x.toNat.testBit m = false) : countrOne32 x = m := by
  unfold countrOne32
  have hlt : x.toNat < 2 ^ 32 := x.toNat_lt
  have e : (~~~x).toNat = 2 ^ 32 - (x.toNat + 1) := by
    rw [UInt32.toNat_not]; simp only [UInt32.size]; omega
  rw [e]
  apply countrZero_eq _ _ _ hm
  · intro i hi
    rw [Nat.testBit_two_pow_sub_succ hlt]; simp [h0 i hi]
  · rw [Nat.testBit_two_pow_sub_succ hlt]; simp [h1, hm]

theorem countrOne64_eq (x : UInt64) (m : Nat) (hm : m < 64) (h0 : ∀ i, i < m → x.toNat.testBit i = true)
    (h1 : x.toNat.testBit m = false) : countrOne64 x = m := by
  unfold countrOne64
  have hlt : x.toNat < 2 ^ 64 := x.toNat_lt
  have e : (~~~x).toNat = 2 ^ 64 - (x.toNat + 1) := by
    rw [UInt64.toNat_not]; simp only [UInt64.size]; omega
  rw [e]
  apply countrZero_eq _ _ _ hm
  · intro i hi
    rw [Nat.testBit_two_pow_sub_succ hlt]; simp [h0 i hi]
  · rw [Nat.testBit_two_pow_sub_succ hlt]; simp [h1, hm]

theorem movemask_testBit (x : Bytes) (i : Nat) (a : UInt8) (h : x[i]? = some a) :
    (Simd.movemask x).testBit i = a.toNat.testBit 7 := by
  induction x generalizing i with
  | nil => simp at h
  | cons b x ih =>
    cases i with
    | zero =>
      simp at h; subst h
      simp only [Simd.movemask, Nat.testBit_zero]
      split <;> simp_all <;> omega
    | succ i =>
      simp at h
      rw [Nat.testBit_succ, ← ih i h]
      congr 1
      simp only [Simd.movemask]
      split <;> omega

theorem first_nonzero {fs : Bytes} (h : ∃ f ∈ fs, f ≠ 0) :
    ∃ a, fs[(fs.takeWhile (· == 0)).length]? = some a ∧ a ≠ 0 := by
  induction fs with
  | nil => simp at h
  | cons b fs ih =>
    by_cases hb : b = 0
    · subst hb
      have h' : ∃ f ∈ fs, f ≠ 0 := by simpa using h
      simpa using ih h'
    · have hbeq : (b == 0) = false := by simpa using hb
      exact ⟨b, by simp [hbeq], hb⟩

theorem movemask_index (x : Bytes) (h : ∃ f ∈ x, f ≠ 0) :
    (∀ i, i < (x.takeWhile (· == 0)).length →
      (Simd.movemask (Simd.cmpeq x (Simd.set1 x.length 0))).testBit i = true) ∧
    (Simd.movemask (Simd.cmpeq x (Simd.set1 x.length 0))).testBit (x.takeWhile (· == 0)).length = false := by
  rw [simd_equal]
  constructor
  · intro i hi
    rw [movemask_testBit _ i 0xff]
    · decide
    · simp [takeWhile_getElem? hi]
  · obtain ⟨a, ha, hne⟩ := first_nonzero h
    rw [movemask_testBit _ _ 0]
    · decide
    · simp [ha, hne]

/-- Nibble `i` of the narrowed comparison is all ones or all zeros. -/
theorem shrn4_testBit : ∀ (x : Bytes) (i r : Nat) (a : UInt8), (∀ y ∈ x, y = 0 ∨ y = 0xff) → 2 ∣ x.length → r < 4 →
    x[i]? = some a → (leVal (Neon.shrn4 x)).testBit (4 * i + r) = decide (a = 0xff)
  | [], i, r, a, _, _, _, h => by simp at h
  | [_], i, r, a, _, h2, _, _ => by simp at h2
  | lo :: hi :: x, i, r, a, hall, hev, hr, h => by
    have key : ∀ r, r < 4 → (lo = 0 ∨ lo = 0xff) → (hi = 0 ∨ hi = 0xff) →
        (UInt8.ofNat ((lo.toNat + 256 * hi.toNat) / 16)).toNat.testBit r = decide (lo = 0xff) ∧
        (UInt8.ofNat ((lo.toNat + 256 * hi.toNat) / 16)).toNat.testBit (4 + r) = decide (hi = 0xff) := by
      rintro r hr (rfl | rfl) (rfl | rfl) <;> revert r <;> decide
    obtain ⟨k1, k2⟩ := key r hr (hall lo (by simp)) (hall hi (by simp))
    simp only [Neon.shrn4, leVal]
    rw [nat_step_testBit (UInt8.toNat_lt _)]
    match i, h with
    | 0, h =>
      simp at h; subst h
      rw [if_pos (by omega), ← k1]; congr 1; omega
    | 1, h =>
      simp at h; subst h
      rw [if_pos (by omega), ← k2]
    | i + 2, h =>
      simp at h
      rw [if_neg (by omega), ← shrn4_testBit x i r a (fun y hy => hall y (by simp [hy])) (by simp at hev; omega) hr h]
      congr 1; omega

theorem shrn4_length : ∀ x : Bytes, 2 ∣ x.length → 2 * (Neon.shrn4 x).length = x.length
  | [], _ => rfl
  | [_], h => by simp at h
  | lo :: hi :: x, h => by
    have := shrn4_length x (by simp at h; omega)
    simp only [Neon.shrn4, List.length_cons]; omega

theorem sse_index (s : Bool) (x : Bytes) (hx : x.length = 16) (h : ∃ f ∈ x, f ≠ 0) :
    (traitSse s).firstNonzeroByte x = (x.takeWhile (· == 0)).length := by
  have hlt := takeWhile_length_lt h
  obtain ⟨h1, h2⟩ := movemask_index x h
  have hm := movemask_lt (Simd.cmpeq x (Simd.set1 x.length 0))
  have hl : (Simd.cmpeq x (Simd.set1 x.length 0)).length = 16 := by rw [simd_equal]; simpa using hx
  rw [hl] at hm
  show countrOne32 (UInt16.ofNat (Simd.movemask (Simd.cmpeq x (Simd.set1 16 0)))).toUInt32 = _
  rw [hx] at hm h1 h2
  have e : (UInt16.ofNat (Simd.movemask (Simd.cmpeq x (Simd.set1 16 0)))).toUInt32.toNat =
      Simd.movemask (Simd.cmpeq x (Simd.set1 16 0)) := by
    rw [UInt16.toNat_toUInt32, UInt16.toNat_ofNat_of_lt' (by simpa [UInt16.size] using hm)]
  apply countrOne32_eq _ _ (by omega)
  · rw [e]; exact h1
  · rw [e]; exact h2

theorem avx2_index (x : Bytes) (hx : x.length = 32) (h : ∃ f ∈ x, f ≠ 0) :
    traitAvx2.firstNonzeroByte x = (x.takeWhile (· == 0)).length := by
  have hlt := takeWhile_length_lt h
  obtain ⟨h1, h2⟩ := movemask_index x h
  have hm := movemask_lt (Simd.cmpeq x (Simd.set1 x.length 0))
  have hl : (Simd.cmpeq x (Simd.set1 x.length 0)).length = 32 := by rw [simd_equal]; simpa using hx
  rw [hl] at hm
  show countrOne32 (UInt32.ofNat (Simd.movemask (Simd.cmpeq x (Simd.set1 32 0)))) = _
  rw [hx] at hm h1 h2
  have e : (UInt32.ofNat (Simd.movemask (Simd.cmpeq x (Simd.set1 32 0)))).toNat =
      Simd.movemask (Simd.cmpeq x (Simd.set1 32 0)) := by
    rw [UInt32.toNat_ofNat_of_lt' (by simpa [UInt32.size] using hm)]
  apply countrOne32_eq _ _ (by omega)
  · rw [e]; exact h1
  · rw [e]; exact h2

theorem neon_index (x : Bytes) (hx : x.length = 16) (h : ∃ f ∈ x, f ≠ 0) :
    traitNeon.firstNonzeroByte x = (x.takeWhile (· == 0)).length := by
  have hlt := takeWhile_length_lt h
  show countrOne64 (UInt64.ofNat (leVal (Neon.shrn4 (Simd.cmpeq x (Simd.set1 16 0))))) / 4 = _
  have hc : Simd.cmpeq x (Simd.set1 16 0) = x.map fun b => if b = 0 then 0xff else 0 := by
    rw [← hx, simd_equal]
  rw [hc]
  generalize hy : (x.map fun b => if b = 0 then (0xff : UInt8) else 0) = y
  have hyl : y.length = 16 := by rw [← hy]; simpa using hx
  have hall : ∀ z ∈ y, z = 0 ∨ z = 0xff := by
    intro z hz; rw [← hy] at hz
    obtain ⟨b, _, rfl⟩ := List.mem_map.1 hz
    split <;> simp
  have hb := leVal_lt (Neon.shrn4 y)
  have hsl := shrn4_length y (by rw [hyl]; decide)
  have hsl8 : (Neon.shrn4 y).length = 8 := by omega
  rw [hsl8] at hb
  have e : (UInt64.ofNat (leVal (Neon.shrn4 y))).toNat = leVal (Neon.shrn4 y) := by
    rw [UInt64.toNat_ofNat_of_lt' (by simpa [UInt64.size] using hb)]
  have : countrOne64 (UInt64.ofNat (leVal (Neon.shrn4 y))) = 4 * (x.takeWhile (· == 0)).length := by
    apply countrOne64_eq _ _ (by omega)
    · intro i hi
      rw [e]
      have h4 : i = 4 * (i / 4) + i % 4 := by omega
      have hz : y[i / 4]? = some 0xff := by
        rw [← hy, List.getElem?_map, takeWhile_getElem? (by omega)]; rfl
      rw [h4, shrn4_testBit y (i / 4) (i % 4) 0xff hall (by rw [hyl]; decide) (by omega) hz]
      rfl
    · rw [e]
      obtain ⟨a, ha, hne⟩ := first_nonzero h
      have hz : y[(x.takeWhile (· == 0)).length]? = some 0 := by
        rw [← hy, List.getElem?_map, ha]; simp [hne]
      have := shrn4_testBit y _ 0 0 hall (by rw [hyl]; decide) (by omega) hz
      simpa using this
  rw [this]; omega

/-! ### The contract -/

/-- The flags each build finds, in memory order. -/
def Accel.flags : Accel → Bytes → Bytes
  | .u32 le, b | .u64 le, b => wordFlags le b
  | _, b => b.map lane

/-- Everything the parser could ask of a trait: flags in memory order, read off by both queries. -/
theorem accel_flags (a : Accel) (T : Traits) (hT : a.traits = some T) (b : Bytes) (hb : b.length = T.step) :
    ∃ fs, fs = a.flags b ∧ Flags fs b ∧ (T.isAllZero (T.scan b) = true ↔ ∀ f ∈ fs, f = 0) ∧
      ((∃ f ∈ fs, f ≠ 0) → T.firstNonzeroByte (T.scan b) = (fs.takeWhile (· == 0)).length) := by
  cases a with
  | none => simp [Accel.traits] at hT
  | u32 le =>
    cases hT
    exact ⟨_, rfl, wordFlags_flags le b, u32_zero le b hb, u32_index le b hb⟩
  | u64 le =>
    cases hT
    exact ⟨_, rfl, wordFlags_flags le b, u64_zero le b hb, u64_index le b hb⟩
  | sse s =>
    cases hT
    replace hb : b.length = 16 := hb
    refine ⟨_, rfl, lanes_flags b, ?_, ?_⟩
    · rw [sse_scan s b hb]
      cases s with
      | true => exact testz_iff _
      | false =>
        show ((UInt16.ofNat (Simd.movemask (Simd.cmpeq (b.map lane) (Simd.set1 16 0))) == 0xffff)) = true ↔ ∀ f ∈ b.map lane, f = 0
        have h := movemask_zero (b.map lane)
        have hm := movemask_lt (Simd.cmpeq (b.map lane) (Simd.set1 (b.map lane).length 0))
        have hl : (Simd.cmpeq (b.map lane) (Simd.set1 (b.map lane).length 0)).length = 16 := by
          rw [simd_equal]; simpa using hb
        rw [hl] at hm
        simp only [List.length_map, hb] at h hm
        rw [← h, beq_iff_eq, ← UInt16.toNat_inj, UInt16.toNat_ofNat_of_lt' (by simpa [UInt16.size] using hm)]
        show _ = 65535 ↔ _
        omega
    · intro h
      rw [sse_scan s b hb]
      exact sse_index s _ (by simpa using hb) h
  | avx2 =>
    cases hT
    replace hb : b.length = 32 := hb
    refine ⟨_, rfl, lanes_flags b, ?_, ?_⟩
    · rw [avx2_scan b hb]; exact testz_iff _
    · intro h; rw [avx2_scan b hb]; exact avx2_index _ (by simpa using hb) h
  | neon =>
    cases hT
    replace hb : b.length = 16 := hb
    refine ⟨_, rfl, lanes_flags b, ?_, ?_⟩
    · rw [traitNeon_scan b hb]; exact maxv_iff _
    · intro h; rw [traitNeon_scan b hb]; exact neon_index _ (by simpa using hb) h

theorem accel_sound (a : Accel) (T : Traits) (hT : a.traits = some T) : T.Sound where
  pos := by
    cases a <;> first | (simp [Accel.traits] at hT; done) | (cases hT; exact Nat.zero_lt_succ _)
  whole n _ := by
    cases a <;> first | (simp [Accel.traits] at hT; done) | (cases hT; rfl)
  clean b hb hz := by
    obtain ⟨fs, -, h1, h2, _⟩ := accel_flags a T hT b hb
    exact h1.clean (h2.1 hz)
  index b hb hz := by
    obtain ⟨fs, -, h1, h2, h3⟩ := accel_flags a T hT b hb
    have hne : ∃ f ∈ fs, f ≠ 0 := exists_ne_zero fun h => by simp [h2.2 h] at hz
    rw [h3 hne, ← hb]
    exact h1.index hne

theorem accelOk (a : Accel) : AccelOk a.traits := by
  cases h : a.traits with
  | none => trivial
  | some T => exact accel_sound a T h

end Meojson
