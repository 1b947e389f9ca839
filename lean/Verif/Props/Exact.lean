import Verif.Proofs.Blocks
import Verif.Props.Entry
import Verif.Props.Strings

/-!
# C02, C04, C05, C15, C42: exactly what each build reads

The builds differ in the plain bytes they let stand between the two halves of a surrogate pair. `Spec.Passes` says which, and `ReadsAt` is the
language that results.
-/

set_option autoImplicit false

namespace Meojson
open Spec

/-! ## The language of every build -/

/-- `json::parse` of a build accepts the texts of the language with that build's string literals, and no others. -/
theorem C02_builds_partial (a : Accel) (s : Text) (v : Value) :
    parse a.traits s = some v ↔ ∃ j, ReadsAt false a.blocks s j ∧ v = j.toValue := parser_iff a false s v

/-- The same for `json::parsec`. -/
theorem C15_builds_partial (a : Accel) (s : Text) (v : Value) :
    parsec a.traits s = some v ↔ ∃ j, ReadsAt true a.blocks s j ∧ v = j.toValue := parser_iff a true s v

/-- The string literals of every build: before `rest`, the literal `t` is read as `s`. -/
theorem C04_literals_partial (a : Accel) (t s rest : Text) :
    parseStdstring a.traits (t ++ rest) = .ok s rest ↔ StrAt (Passes a.blocks) rest t s := parseStdstring_iff a t s rest

/-- A gap inside a pair, of `ABC` and eight bytes more: read where a block of 4 or 8 fits, not where one of 16 must. -/
example : Passes (Accel.u32 true).blocks (ascii "ABC") (ascii "\\udca9\"]") ∧ Passes (Accel.u64 true).blocks (ascii "ABC") (ascii "\\udca9\"]") ∧
    ¬ Passes (Accel.sse true).blocks (ascii "ABC") (ascii "\\udca9\"]") ∧ ¬ Passes Accel.none.blocks (ascii "ABC") (ascii "\\udca9\"]") := by
  have h : ∀ c ∈ ascii "ABC", Unescaped c := by decide +kernel
  refine ⟨.inr ⟨_, rfl, h, ?_⟩, .inr ⟨_, rfl, h, ?_⟩, ?_, ?_⟩
  · decide +kernel
  · decide +kernel
  · rintro (h | ⟨_, e, -, h⟩)
    · exact absurd h (by decide +kernel)
    · cases e
      exact absurd h (by decide +kernel)
  · rintro (h | ⟨_, h, -⟩)
    · exact absurd h (by decide +kernel)
    · cases h

/-! ## C05 -/

/-- Builds whose blocks agree read the same: SSE2, SSE4.1 and NEON. -/
theorem C05_same_partial (a b : Accel) (h : a.blocks = b.blocks) (k : Bool) (s : Text) : parser ⟨k, a.traits⟩ s = parser ⟨k, b.traits⟩ s := by
  refine Option.ext fun v => ?_
  rw [parser_iff, parser_iff, h]

example (k : Bool) (s : Text) : parser ⟨k, (Accel.sse true).traits⟩ s = parser ⟨k, Accel.neon.traits⟩ s ∧
    parser ⟨k, (Accel.sse false).traits⟩ s = parser ⟨k, Accel.neon.traits⟩ s :=
  ⟨C05_same_partial (.sse true) .neon rfl k s, C05_same_partial (.sse false) .neon rfl k s⟩

/-- Smaller blocks read more: what a build with blocks of `m` bytes accepts, a build with blocks of `n` bytes accepts with the same value if `n`
divides `m`, and if it is not the only one of the two that is a big-endian word. So AVX2 reads less than SSE and NEON, those less than
little-endian words, and big-endian words of 8 bytes less than those of 4, which read less than little-endian words. -/
theorem C05_order_partial (a b : Accel) (A B : Blocks) (ha : a.blocks = some A) (hb : b.blocks = some B)
    (hB : B.bigEndian = true → A.bigEndian = true) (hd : B.step ∣ A.step) (k : Bool) (s : Text) (v : Value) (h : parser ⟨k, a.traits⟩ s = some v) : parser ⟨k, b.traits⟩ s = some v := by
  have h0 : ∀ (a : Accel) (A : Blocks), a.blocks = some A → 0 < A.step := by
    intro a A h
    cases a <;> cases h <;> exact Nat.succ_pos _
  rw [parser_iff] at h ⊢
  obtain ⟨j, hj, rfl⟩ := h
  refine ⟨j, readsAt_imp (fun p r hp => ?_) hj, rfl⟩
  rw [ha] at hp
  obtain ⟨m, be⟩ := A
  obtain ⟨n, le⟩ := B
  rw [hb]
  exact passes_dvd (h0 b _ hb) (h0 a _ ha) hd hB hp

example : Accel.avx2.blocks = some ⟨32, false⟩ ∧ Accel.neon.blocks = some ⟨16, false⟩ ∧ (Accel.u64 true).blocks = some ⟨8, false⟩ ∧
    (Accel.u32 true).blocks = some ⟨4, false⟩ ∧ (Accel.u64 false).blocks = some ⟨8, true⟩ ∧ 4 ∣ 8 ∧ 8 ∣ 16 ∧ 16 ∣ 32 :=
  ⟨rfl, rfl, rfl, rfl, rfl, by decide⟩

/-- Little-endian words of 4 and of 8 bytes read the same: the texts in which any plain bytes may stand between the halves of a pair. -/
theorem C05_words_partial (a : Accel) (ha : a = .u32 true ∨ a = .u64 true) (k : Bool) (s : Text) (v : Value) :
    parser ⟨k, a.traits⟩ s = some v ↔ ∃ j, Reads k true s j ∧ v = j.toValue := by
  rw [parser_iff]
  rcases ha with rfl | rfl
  · simp only [show (Accel.u32 true).blocks = some ⟨4, false⟩ from rfl, readsAt_words rfl (B := ⟨4, false⟩) (by decide) (by decide)]
  · simp only [show (Accel.u64 true).blocks = some ⟨8, false⟩ from rfl, readsAt_words rfl (B := ⟨8, false⟩) (by decide) (by decide)]

example (k : Bool) (s : Text) : parser ⟨k, (Accel.u32 true).traits⟩ s = parser ⟨k, (Accel.u64 true).traits⟩ s :=
  Option.ext fun v => by rw [C05_words_partial _ (.inl rfl), C05_words_partial _ (.inr rfl)]

/-- The others are not equal, and the byte order matters: a `]` before the second half is taken for a backslash by a big-endian word. -/
theorem C05_differ : (∃ s, parse Accel.avx2.traits s = none ∧ (parse Accel.neon.traits s).isSome = true) ∧
    (∃ s, parse Accel.neon.traits s = none ∧ (parse (Accel.u64 true).traits s).isSome = true) ∧
    (∃ s, parse (Accel.u64 false).traits s = none ∧ (parse (Accel.u32 false).traits s).isSome = true) ∧
    (∃ s, parse (Accel.u32 false).traits s = none ∧ (parse (Accel.u32 true).traits s).isSome = true) ∧
    (∃ s, parse (Accel.u64 false).traits s = none ∧ (parse (Accel.u64 true).traits s).isSome = true) :=
  ⟨⟨ascii "[\"\\ud83dABC\\udca9     \"]", by decide +kernel⟩, ⟨ascii "[\"\\ud83dABC\\udca9\"]", by decide +kernel⟩,
    ⟨ascii "[\"\\ud83d123]\\udca9\"]", by decide +kernel⟩,
    ⟨ascii "[\"\\ud83d]\\udca9\"]", by decide +kernel⟩, ⟨ascii "[\"\\ud83d]\\udca9\"]", by decide +kernel⟩⟩

/-! ## C42 -/

/-- NUL bytes after a text never make a build reject it, or change the value. -/
theorem C42_grow_partial (a : Accel) (k : Bool) (s : Text) (n : Nat) (v : Value) (h : parser ⟨k, a.traits⟩ s = some v) :
    parser ⟨k, a.traits⟩ (s ++ List.replicate n 0x00) = some v := by
  rw [parser_iff] at h ⊢
  obtain ⟨j, hj, rfl⟩ := h
  exact ⟨j, readsAt_padded (m := 0) (.inl (Nat.zero_le n)) (by simpa using hj), rfl⟩

/-- Once there are as many NULs as a block has bytes, further ones make no difference. -/
theorem C42_enough_partial (a : Accel) (k : Bool) (s : Text) (m n : Nat) (hm : ∀ T, a.traits = some T → T.step ≤ m)
    (hn : ∀ T, a.traits = some T → T.step ≤ n) :
    parser ⟨k, a.traits⟩ (s ++ List.replicate m 0x00) = parser ⟨k, a.traits⟩ (s ++ List.replicate n 0x00) := by
  have hr : ∀ n, (∀ T, a.traits = some T → T.step ≤ n) → Roomy a.blocks n := by
    intro n h B hB
    cases a <;> cases hB <;> exact h _ rfl
  refine Option.ext fun v => ?_
  rw [parser_iff, parser_iff]
  exact ⟨fun ⟨j, h, e⟩ => ⟨j, readsAt_padded (.inr (hr n hn)) h, e⟩, fun ⟨j, h, e⟩ => ⟨j, readsAt_padded (.inr (hr m hm)) h, e⟩⟩

/-- What a build other than a big-endian word reads then: the texts in which any plain bytes may stand between the halves of a pair. -/
theorem C42_padded_partial (a : Accel) (T : Traits) (hT : a.traits = some T) (ha : a ≠ .u32 false ∧ a ≠ .u64 false) (k : Bool) (s : Text) (n : Nat)
    (hn : T.step ≤ n) (v : Value) :
    parser ⟨k, a.traits⟩ (s ++ List.replicate n 0x00) = some v ↔ ∃ j, Reads k true s j ∧ v = j.toValue := by
  obtain ⟨B, hB, e⟩ := blocks_step hT
  have hb : B.bigEndian = false := by
    cases a with
    | none => cases hT
    | u32 le => cases le with
      | true => cases hB; rfl
      | false => exact absurd rfl ha.1
    | u64 le => cases le with
      | true => cases hB; rfl
      | false => exact absurd rfl ha.2
    | sse => cases hB; rfl
    | avx2 => cases hB; rfl
    | neon => cases hB; rfl
  rw [parser_iff, hB]
  simp only [readsAt_roomy hb (by rw [e]; exact hn)]

/-- So such builds agree on texts with enough padding. -/
theorem C05_padded_partial (a b : Accel) (ha : a ≠ .none ∧ a ≠ .u32 false ∧ a ≠ .u64 false) (hb : b ≠ .none ∧ b ≠ .u32 false ∧ b ≠ .u64 false)
    (k : Bool) (s : Text) (n : Nat) (hn : 32 ≤ n) :
    parser ⟨k, a.traits⟩ (s ++ List.replicate n 0x00) = parser ⟨k, b.traits⟩ (s ++ List.replicate n 0x00) := by
  have h : ∀ a : Accel, a ≠ .none → ∃ T, a.traits = some T ∧ T.step ≤ 32 := by
    intro a ha
    cases a with
    | none => exact absurd rfl ha
    | _ => exact ⟨_, rfl, Nat.le_of_ble_eq_true rfl⟩
  obtain ⟨T, hT, h1⟩ := h a ha.1
  obtain ⟨U, hU, h2⟩ := h b hb.1
  refine Option.ext fun v => ?_
  rw [C42_padded_partial a T hT ha.2 k s n (by omega), C42_padded_partial b U hU hb.2 k s n (by omega)]

example : (Accel.neon ≠ .none ∧ Accel.neon ≠ .u32 false ∧ Accel.neon ≠ .u64 false) ∧ Accel.neon.traits = some traitNeon ∧ traitNeon.step ≤ 16 :=
  ⟨by simp, rfl, by decide⟩

end Meojson
