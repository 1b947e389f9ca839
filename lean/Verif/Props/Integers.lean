import Verif.Proofs.Integer

/-!
# C20, C21: integers
-/

set_option autoImplicit false

namespace Meojson
open Spec

/-- `int`, `unsigned`, `long long`, `unsigned long long` on common platforms. -/
abbrev IntTy.i32 : IntTy := ⟨true, 32⟩
abbrev IntTy.u32 : IntTy := ⟨false, 32⟩
abbrev IntTy.i64 : IntTy := ⟨true, 64⟩
abbrev IntTy.u64 : IntTy := ⟨false, 64⟩

example : IntTy.i32.min = -2147483648 ∧ IntTy.i32.max = 2147483647 ∧ IntTy.u64.min = 0 ∧ IntTy.u64.max = 18446744073709551615 := by decide

/-- `json::value(n)` holds a JSON number, an integer literal for `n`. Reading it as an integer type gives `n` if the type has `n`, and throws
`json::exception` otherwise; `is` says which. The type `n` came from plays no part. -/
theorem C20_integer_roundtrip (n : Int) :
    ∃ text, Value.ofInt n = .str .number text ∧ Number text ∧ IntLit text n ∧
      ∀ T : IntTy, (T.Has n → (Value.ofInt n).asInt T = .ok n ∧ (Value.ofInt n).isInt T = .ok true) ∧
        (¬ T.Has n → (Value.ofInt n).asInt T = .throw .json ∧ (Value.ofInt n).isInt T = .ok false) := by
  refine ⟨intText n, rfl, (intText_intLit n).number, intText_intLit n, ?_⟩
  intro T
  have h := tryParseInteger_intText (T := T) (n := n)
  constructor <;> intro hT
  · rw [if_pos hT] at h
    simp [Value.asInt, Value.isInt, Value.ofInt, Value.type, Value.basicStr, h]
  · rw [if_neg hT] at h
    simp [Value.asInt, Value.isInt, Value.ofInt, Value.type, Value.basicStr, h]

example : IntTy.i32.Has (-2147483648) ∧ ¬ IntTy.i32.Has 2147483648 ∧ ¬ IntTy.u64.Has (-1) := by decide
example : Value.ofInt (-2147483648) = .str .number (ascii "-2147483648") := by decide +kernel

/-- What the integer types hold: two's complement and plain binary. -/
theorem C20_range (T : IntTy) (n : Int) :
    (T.signed = true → (T.Has n ↔ -(2 ^ (T.bits - 1) : Int) ≤ n ∧ n < (2 ^ (T.bits - 1) : Int))) ∧
    (T.signed = false → (T.Has n ↔ 0 ≤ n ∧ n < (2 ^ T.bits : Int))) := by
  have cast : ∀ k : Nat, ((2 ^ k : Nat) : Int) = 2 ^ k := fun k => by push_cast; rfl
  constructor
  · intro h
    simp only [IntTy.Has, IntTy.min, IntTy.max, h, if_true, cast]
    omega
  · intro h
    simp only [IntTy.Has, IntTy.min, IntTy.max, h, Bool.false_eq_true, if_false, cast]
    omega

/-- C21 as stated: a parsed number reads as `n` exactly when its text is an integer literal for `n` and `n` is in range. -/
def C21Claim : Prop := ∀ (T : IntTy) (text : Bytes), Number text → ∀ n,
  (Value.str .number text).asInt T = .ok n ↔ IntLit text n ∧ T.Has n

/-- `-0` is an integer literal for 0, which every type has, but the unsigned types refuse it. -/
theorem C21_refuted : ¬ C21Claim := by
  intro h
  have hl : IntLit [0x2d, 0x30] 0 := .inr ⟨[0x30], rfl, .inl rfl, by decide⟩
  have := (h IntTy.u32 _ hl.number 0).2 ⟨hl, by decide⟩
  revert this
  decide +kernel

/-- Apart from `-0` read as unsigned, which throws, the claim holds: never a wrapped or truncated result, and anything else throws `json::exception`. -/
theorem C21_partial (T : IntTy) (text : Bytes) (ht : Number text) :
    (T.signed = true ∨ text ≠ [0x2d, 0x30] →
      (∀ n, (Value.str .number text).asInt T = .ok n ↔ IntLit text n ∧ T.Has n) ∧
      ((Value.str .number text).isInt T = .ok true ↔ ∃ n, IntLit text n ∧ T.Has n)) ∧
    (T.signed = false ∧ text = [0x2d, 0x30] →
      (Value.str .number text).asInt T = .throw .json ∧ (Value.str .number text).isInt T = .ok false) ∧
    ((∃ n, (Value.str .number text).asInt T = .ok n) ∧ (Value.str .number text).isInt T = .ok true ∨
      (Value.str .number text).asInt T = .throw .json ∧ (Value.str .number text).isInt T = .ok false) := by
  have e1 : (Value.str .number text).asInt T = match tryParseInteger T text with | some n => .ok n | none => .throw .json := rfl
  have e2 : (Value.str .number text).isInt T = .ok (tryParseInteger T text).isSome := rfl
  rw [e1, e2]
  refine ⟨fun h => ?_, fun h => ?_, ?_⟩
  · have key := fun n => tryParseInteger_number ht h n
    constructor
    · intro n
      rw [← key]
      cases tryParseInteger T text <;> simp
    · rw [← exists_congr key]
      cases tryParseInteger T text <;> simp
  · rw [h.2, tryParseInteger_minus_zero h.1]; simp
  · cases tryParseInteger T text <;> simp

example : (Value.str .number (ascii "1e2")).asInt IntTy.i32 = .throw .json := by decide +kernel
example : (Value.str .number (ascii "2147483648")).asInt IntTy.i32 = .throw .json := by decide +kernel
example : (Value.str .number (ascii "2147483648")).asInt IntTy.i64 = .ok 2147483648 := by decide +kernel
example : (Value.str .number (ascii "-0")).asInt IntTy.i32 = .ok 0 := by decide +kernel

end Meojson
