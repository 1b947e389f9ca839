import Verif.Model.Target
import Verif.Props.Exact

/-!
# C84: the build options decide how strings are scanned, and nothing else
-/

set_option autoImplicit false

namespace Meojson
open Spec

/-- With `MEOJSON_DISABLE_PACKED_BYTES` strings are read byte by byte; without, all targets read the same texts with the same result. -/
def C84Claim : Prop := (∀ t : Target, t.disable = true → t.accel = .none) ∧ ∀ (t u : Target) (s : Bytes), t.compiles = true → u.compiles = true → t.parse s = u.parse s

/-- Some builds, as GCC and clang define their macros. -/
def Target.x64 : Target := { sse2 := true }
def Target.x64avx2 : Target := { sse2 := true, sse41 := true, avx2 := true }
def Target.arm64 : Target := { armNeon := true, aarch64 := true }

/-- One text, read in a build for 64-bit ARM and rejected by builds of the same program for x86-64; read there too if packed bytes are disabled, though reading byte by byte rejects it. -/
theorem C84_refuted : ¬ C84Claim ∧ ∃ s, (Target.arm64.parse s).isSome = true ∧ Target.x64.parse s = none ∧ Target.x64avx2.parse s = none ∧
    ({ Target.x64 with disable := true }.parse s).isSome = true ∧ parse none s = none := by
  constructor
  · intro h
    have := h.1 { disable := true } rfl
    cases this
  · exact ⟨ascii "[\"\\ud83dABC\\udca9  \"]", by decide +kernel⟩

/-- No build reads byte by byte: there is always a word to pack bytes in. -/
theorem C84_never_plain (t : Target) : t.accel ≠ .none := by
  unfold Target.accel Target.trait32 Target.trait16 Target.trait8
  repeat' split
  all_goals simp

/-- What a build chooses. With `MEOJSON_DISABLE_PACKED_BYTES`, and on any machine that is neither x86 with SSE2 nor ARM with NEON enabled: a word of the size of a pointer, at most 8. -/
theorem C84_chosen (t : Target) :
    ((t.disable = true ∨ (t.sse2 = false ∧ t.mX64 = false ∧ t.mIX86FP = false ∧ (t.enableNeon = false ∨ (t.armNeon = false ∧ t.mARM = false ∧ t.mARM64 = false)))) →
      t.accel = if 8 ≤ t.pointer then .u64 t.littleEndian else .u32 t.littleEndian) ∧
    (t.disable = false → (t.sse2 = true ∨ t.mX64 = true ∨ t.mIX86FP = true) → t.accel = if t.avx2 then .avx2 else .sse (t.sse41 || t.msc)) ∧
    (t.disable = false → t.sse2 = false → t.mX64 = false → t.mIX86FP = false → t.enableNeon = true → (t.armNeon = true ∨ t.mARM = true ∨ t.mARM64 = true) → t.accel = .neon) := by
  refine ⟨fun h => ?_, fun hd h => ?_, fun hd h1 h2 h3 h4 h5 => ?_⟩
  · have hx : t.x86 = false := by
      unfold Target.x86
      rcases h with h | ⟨a, b, c, _⟩
      · simp [h]
      · simp [a, b, c]
    have ha : t.arm = false := by
      unfold Target.arm
      rcases h with h | ⟨_, _, _, h | ⟨a, b, c⟩⟩
      · simp [h]
      · simp [h]
      · simp [a, b, c]
    by_cases hp : 8 ≤ t.pointer <;> simp [Target.accel, Target.trait32, Target.trait16, Target.trait8, hx, ha, hp]
  · have hx : t.x86 = true := by
      unfold Target.x86
      rcases h with h | h | h <;> simp [h, hd]
    simp only [Target.accel, Target.trait32, Target.trait16, hx]
    cases t.avx2 <;> simp
  · have hx : t.x86 = false := by simp [Target.x86, h1, h2, h3]
    have ha : t.arm = true := by
      unfold Target.arm
      rcases h5 with h | h | h <;> simp [h, hd, h1, h2, h3, h4]
    simp [Target.accel, Target.trait32, Target.trait16, hx, ha]

example : Target.x64.accel = .sse false ∧ Target.x64avx2.accel = .avx2 ∧ Target.arm64.accel = .u64 true ∧ ({ Target.arm64 with enableNeon := true } : Target).accel = .neon ∧
    ({ pointer := 4, littleEndian := false } : Target).accel = .u32 false := by decide

/-- NEON is used only where it compiles on 64-bit ARM. -/
theorem C84_neon (t : Target) (h : t.accel = .neon) : t.compiles = (t.aarch64 || t.mARM64) := by
  have ha : t.arm = true := by
    cases ha : t.arm with
    | true => rfl
    | false =>
      unfold Target.accel Target.trait32 Target.trait16 Target.trait8 at h
      simp only [ha] at h
      revert h
      repeat' split
      all_goals simp_all
  simp [Target.compiles, ha]

/-- Exactly the builds that do not compile: NEON asked for and not disabled, on ARM that is not 64-bit, with none of the macros of x86. -/
theorem C84_compiles (t : Target) : t.compiles = false ↔
    t.disable = false ∧ t.enableNeon = true ∧ (t.armNeon = true ∨ t.mARM = true ∨ t.mARM64 = true) ∧ t.aarch64 = false ∧ t.mARM64 = false ∧ t.sse2 = false ∧ t.mX64 = false ∧ t.mIX86FP = false := by
  simp only [Target.compiles, Target.arm]
  cases t.disable <;> cases t.enableNeon <;> cases t.armNeon <;> cases t.mARM <;> cases t.mARM64 <;> cases t.aarch64 <;> cases t.sse2 <;> cases t.mX64 <;> cases t.mIX86FP <;> simp

example : ({ armNeon := true, enableNeon := true } : Target).compiles = false ∧ Target.arm64.compiles = true := by decide

/-- Targets that choose the same size of block read the same texts with the same result: SSE2, SSE4.1 and NEON; all words of little-endian machines, of either size. -/
theorem C84_same_partial (t u : Target) (s : Bytes)
    (h : t.accel.blocks = u.accel.blocks ∨ (t.accel = .u32 true ∨ t.accel = .u64 true) ∧ (u.accel = .u32 true ∨ u.accel = .u64 true)) : t.parse s = u.parse s := by
  rcases h with h | ⟨ht, hu⟩
  · exact C05_same_partial t.accel u.accel h false s
  · exact Option.ext fun v => by
      show parser ⟨false, t.accel.traits⟩ s = some v ↔ parser ⟨false, u.accel.traits⟩ s = some v
      rw [C05_words_partial _ ht, C05_words_partial _ hu]

example : Target.x64.accel.blocks = ({ armNeon := true, aarch64 := true, enableNeon := true } : Target).accel.blocks := rfl

/-- All targets agree about JSON texts, and about every text without surrogate escapes. -/
theorem C84_plain_partial (t u : Target) (s : Bytes) (h : NoSurrogate s ∨ ∃ j, JsonText rfc8259 s j) : t.parse s = u.parse s := by
  rcases h with h | ⟨j, h⟩
  · exact C05_plain_partial t.accel u.accel false s h
  · exact (C05_json_partial t.accel u.accel s j h).1

end Meojson
