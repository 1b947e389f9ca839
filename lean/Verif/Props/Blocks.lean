import Verif.Proofs.Blocks

/-!
# C49: block scanning
-/

set_option autoImplicit false

namespace Meojson
open Spec

/-- Every trait reports a block clean exactly when all its bytes are plain; otherwise the index it reports lies inside the block and no special
byte stands before it. -/
theorem C49_block_scan (a : Accel) (T : Traits) (hT : a.traits = some T) (b : Bytes) (hb : b.length = T.step) :
    (T.isAllZero (T.scan b) = true ↔ ∀ c ∈ b, ¬ (c < 0x20 ∨ c = 0x22 ∨ c = 0x5c)) ∧
    (T.isAllZero (T.scan b) = false → T.firstNonzeroByte (T.scan b) < T.step ∧
      ∀ c ∈ b.take (T.firstNonzeroByte (T.scan b)), ¬ (c < 0x20 ∨ c = 0x22 ∨ c = 0x5c)) := by
  have hu : ∀ c : UInt8, ¬ (c < 0x20 ∨ c = 0x22 ∨ c = 0x5c) ↔ Unescaped c := by
    intro c; unfold Unescaped; simp only [not_or, UInt8.not_lt]
  simp only [hu]
  obtain ⟨fs, -, h1, h2, -⟩ := accel_flags a T hT b hb
  exact ⟨⟨(accel_sound a T hT).clean b hb, fun h => h2.2 (h1.2.2 h)⟩, (accel_sound a T hT).index b hb⟩

example : (traitU32 true).isAllZero ((traitU32 true).scan (ascii "abcd")) = true ∧
    (traitU32 true).isAllZero ((traitU32 true).scan (ascii "ab\"\\")) = false ∧
    (traitU32 true).firstNonzeroByte ((traitU32 true).scan (ascii "ab\"\\")) = 2 ∧
    (traitSse false).firstNonzeroByte ((traitSse false).scan (ascii "0123456789\n12345")) = 10 := by decide +kernel

/-- The index itself. In a little-endian word and in a vector it is that of the first special byte; so it is for a quote, a backslash or a control
character `c` after plain bytes `p`. In a big-endian word the subtraction carries from `c` into the bytes before it, and the index is that of the
first of the bytes `#` before a quote, `]` before a backslash, or space before a control character. -/
theorem C49_index (a : Accel) (T : Traits) (hT : a.traits = some T) (p q : Bytes) (c : UInt8) (hl : (p ++ c :: q).length = T.step)
    (hp : ∀ b ∈ p, ¬ (b < 0x20 ∨ b = 0x22 ∨ b = 0x5c)) (hc : c < 0x20 ∨ c = 0x22 ∨ c = 0x5c) :
    ((a ≠ .u32 false ∧ a ≠ .u64 false) → T.firstNonzeroByte (T.scan (p ++ c :: q)) = p.length) ∧
    ((a = .u32 false ∨ a = .u64 false) → T.firstNonzeroByte (T.scan (p ++ c :: q)) =
      (p.reverse.dropWhile (· == if c < 0x20 then 0x20 else if c = 0x22 then 0x23 else 0x5d)).length) := by
  have hu : ∀ c : UInt8, ¬ (c < 0x20 ∨ c = 0x22 ∨ c = 0x5c) ↔ Unescaped c := by
    intro c; unfold Unescaped; simp only [not_or, UInt8.not_lt]
  have hc' : ¬ Unescaped c := fun h => (hu c).2 h hc
  obtain ⟨fs, rfl, h1, h2, h3⟩ := accel_flags a T hT _ hl
  obtain ⟨B, hB, -⟩ := blocks_step hT
  have h4 := first_flag_special a B hB (fun b hb => (hu b).1 (hp b hb)) hc' q
  have h5 : ∃ f ∈ a.flags (p ++ c :: q), f ≠ 0 := by
    rcases Classical.em (∀ f ∈ a.flags (p ++ c :: q), f = 0) with h | h
    · exact absurd hc ((C49_block_scan a T hT _ hl).1.1 (h2.2 h) c (by simp))
    · obtain ⟨f, hf⟩ := Classical.not_forall.1 h
      exact ⟨f, Classical.not_imp.1 hf⟩
  rw [h3 h5, h4]
  constructor
  · rintro ⟨n1, n2⟩
    cases a with
    | none => cases hT
    | u32 le => cases le with
      | true => cases hB; rfl
      | false => exact absurd rfl n1
    | u64 le => cases le with
      | true => cases hB; rfl
      | false => exact absurd rfl n2
    | sse => cases hB; rfl
    | avx2 => cases hB; rfl
    | neon => cases hB; rfl
  · rintro (rfl | rfl) <;> cases hB <;> rfl

/-- `a]]\` in a big-endian word is reported at 1, in a little-endian word at 3. -/
example : (traitU32 false).firstNonzeroByte ((traitU32 false).scan [0x61, 0x5d, 0x5d, 0x5c]) = 1 ∧
    (traitU32 true).firstNonzeroByte ((traitU32 true).scan [0x61, 0x5d, 0x5d, 0x5c]) = 3 := by decide +kernel

/-- `countr_zero` and `countl_zero` count the zero bits at the low and at the high end of a word, all of them if there is no one bit. -/
theorem C49_bits (w x : Nat) :
    (countrZero w x ≤ w ∧ (∀ i, i < countrZero w x → x.testBit i = false) ∧ (countrZero w x < w → x.testBit (countrZero w x) = true)) ∧
    (countlZero w x ≤ w ∧ (∀ i, i < countlZero w x → x.testBit (w - 1 - i) = false) ∧ (countlZero w x < w → x.testBit (w - 1 - countlZero w x) = true)) := by
  constructor
  · induction w generalizing x with
    | zero => exact ⟨Nat.le_refl 0, fun i h => absurd h (Nat.not_lt_zero i), fun h => absurd h (Nat.lt_irrefl 0)⟩
    | succ w ih =>
      unfold countrZero
      by_cases h : x.testBit 0 = true
      · rw [if_pos h]
        exact ⟨Nat.zero_le _, fun i hi => absurd hi (Nat.not_lt_zero i), fun _ => h⟩
      · rw [if_neg h]
        obtain ⟨h1, h2, h3⟩ := ih (x / 2)
        refine ⟨by omega, fun i hi => ?_, fun hi => ?_⟩
        · cases i with
          | zero => simpa using h
          | succ i => rw [Nat.testBit_succ]; exact h2 i (by omega)
        · rw [Nat.add_comm 1, Nat.testBit_succ]; exact h3 (by omega)
  · induction w with
    | zero => exact ⟨Nat.le_refl 0, fun i h => absurd h (Nat.not_lt_zero i), fun h => absurd h (Nat.lt_irrefl 0)⟩
    | succ w ih =>
      unfold countlZero
      by_cases h : x.testBit w = true
      · rw [if_pos h]
        exact ⟨Nat.zero_le _, fun i hi => absurd hi (Nat.not_lt_zero i), fun _ => by simpa using h⟩
      · rw [if_neg h]
        obtain ⟨h1, h2, h3⟩ := ih
        refine ⟨by omega, fun i hi => ?_, fun hi => ?_⟩
        · cases i with
          | zero => simpa using h
          | succ i => rw [show w + 1 - 1 - (i + 1) = w - 1 - i by omega]; exact h2 i (by omega)
        · rw [show w + 1 - 1 - (1 + countlZero w x) = w - 1 - countlZero w x by omega]; exact h3 (by omega)

example : countrZero 32 0x00800000 = 23 ∧ countlZero 32 0x00800000 = 8 ∧ countrZero 32 0 = 32 ∧ countlZero 64 0 = 64 := by decide

end Meojson
