import Verif.Proofs.Cost
import Verif.Proofs.Padding
import Verif.Proofs.Simd
import Verif.Props.Samples

/-!
# C06, C07, C50: no read outside the input, termination in linear work, recursion depth
-/

set_option autoImplicit false

namespace Meojson
open Spec

/-- `ub` is the outcome of a read at or after `_end`, block loads included. It does not occur, for any input, build, mode and number of steps. -/
theorem C06_no_read_past_end (a : Accel) (jsonc : Bool) (steps : Nat) (s : Bytes) : parseRun ⟨jsonc, a.traits⟩ steps s ≠ .ub := by
  intro h
  have key : ∀ m, parseRun ⟨jsonc, a.traits⟩ (steps + m) s = .ub := by
    intro m
    induction m with
    | zero => exact h
    | succ m ih =>
      rcases parseRun_fuel_succ ⟨jsonc, a.traits⟩ (steps + m) s with h' | h'
      · rw [ih] at h'; simp at h'
      · rw [← Nat.add_assoc, ← h', ih]
  have h1 := key (3 * s.length)
  rcases parseRun_returns (cfg := ⟨jsonc, a.traits⟩) (accelOk a) (n := steps + 3 * s.length) (s := s) (by omega) with h2 | ⟨v, r, h2⟩ <;>
    rw [h1] at h2 <;> simp at h2

/-- The outcome `ub` is not empty talk: a trait that skips too far would cause it. -/
example : ∃ T : Traits, parseRun ⟨false, some T⟩ 10 (ascii "[\"abcd") = .ub :=
  ⟨{ traitU32 true with isAllZero := fun _ => false, firstNonzeroByte := fun _ => 9 }, by decide +kernel⟩

/-- The traits of every build read blocks of at least one byte. -/
theorem stepPos (a : Accel) : StepPos a.traits := by
  intro T h
  have := accel_sound a T h
  exact this.pos

/-- Given enough steps the parse ends, in `ok` or `fail`, and the outcome depends on the input alone. However many steps are granted, the calls and
loop passes made are at most 64 for each byte and 9 more. `parseRunT` is the parser that counts; its outcome is the parser's. -/
theorem C07_linear (a : Accel) (jsonc : Bool) (s : Bytes) :
    ∃ r : Res Value, (r = .fail ∨ ∃ v rest, r = .ok v rest) ∧
      (∀ steps, 3 * s.length ≤ steps → parseRun ⟨jsonc, a.traits⟩ steps s = r) ∧
      ∀ steps, (parseRunT ⟨jsonc, a.traits⟩ steps s).res = parseRun ⟨jsonc, a.traits⟩ steps s ∧
        (parseRunT ⟨jsonc, a.traits⟩ steps s).ticks ≤ 64 * s.length + 9 := by
  refine ⟨parseRun ⟨jsonc, a.traits⟩ (3 * s.length) s, ?_, ?_, ?_⟩
  · rcases parseRun_returns (cfg := ⟨jsonc, a.traits⟩) (accelOk a) (n := 3 * s.length) (s := s) (by omega) with h | h
    · exact .inl h
    · exact .inr h
  · intro steps hs
    obtain ⟨k, rfl⟩ : ∃ k, steps = 3 * s.length + k := ⟨steps - 3 * s.length, by omega⟩
    clear hs
    induction k with
    | zero => rfl
    | succ k ih =>
      rcases parseRun_fuel_succ ⟨jsonc, a.traits⟩ (3 * s.length + k) s with h' | h'
      · exfalso
        rw [ih] at h'
        rcases parseRun_returns (cfg := ⟨jsonc, a.traits⟩) (accelOk a) (n := 3 * s.length) (s := s) (by omega) with h | ⟨v, rest, h⟩ <;> rw [h'] at h <;> simp at h
      · rw [← Nat.add_assoc, ← h', ih]
  · intro steps
    exact ⟨parseRunT_res _ _ _, by have := (parseRunT_cost (cfg := ⟨jsonc, a.traits⟩) (stepPos a) steps s).ticks; omega⟩

example : (parseRunT ⟨true, some (traitU64 true)⟩ 100 (ascii "[1,/* c */ {\"k\":[true]}]")).ticks = 68 := by decide +kernel

/-- `parse_array`/`parse_object` are never active more times than there are opening brackets in the input. -/
theorem C50_depth_bounded (a : Accel) (jsonc : Bool) (steps : Nat) (s : Bytes) :
    (parseRunT ⟨jsonc, a.traits⟩ steps s).res = parseRun ⟨jsonc, a.traits⟩ steps s ∧
    (parseRunT ⟨jsonc, a.traits⟩ steps s).depth ≤ (s.filter fun c => c == 0x5b || c == 0x7b).length := by
  refine ⟨parseRunT_res _ _ _, Nat.le_trans (parseRunT_cost (cfg := ⟨jsonc, a.traits⟩) (stepPos a) steps s).depth ?_⟩
  induction s with
  | nil => simp [opens]
  | cons c s ih =>
    simp only [opens, List.filter_cons]
    by_cases h : c = 0x5b ∨ c = 0x7b
    · have : (c == 0x5b || c == 0x7b) = true := by simpa using h
      simp only [h, this, if_true, List.length_cons]; omega
    · have : (c == 0x5b || c == 0x7b) = false := by simpa [not_or] using h
      simp only [h, this, if_false, Bool.false_eq_true]; omega

/-- There is no limit: the text of `d` opening and `d` closing brackets is accepted, and while it is parsed `d` activations are live at once. -/
theorem C50_depth_unbounded (a : Accel) (jsonc : Bool) (d : Nat) (hd : 1 ≤ d) :
    ∃ steps v, (parseRunT ⟨jsonc, a.traits⟩ steps (List.replicate d 0x5b ++ List.replicate d 0x5d)).res = .ok v [] ∧
      (parseRunT ⟨jsonc, a.traits⟩ steps (List.replicate d 0x5b ++ List.replicate d 0x5d)).depth = d ∧
      parser ⟨jsonc, a.traits⟩ (List.replicate d 0x5b ++ List.replicate d 0x5d) = some v := by
  obtain ⟨d, rfl⟩ : ∃ m, d = m + 1 := ⟨d - 1, by omega⟩
  have key : ∀ steps, 3 * d + 1 ≤ steps → ∃ t, parseRunT ⟨jsonc, a.traits⟩ steps (List.replicate (d + 1) 0x5b ++ List.replicate (d + 1) 0x5d) =
      ⟨.ok (deepArray d) [], t, d + 1⟩ := by
    intro steps hs
    obtain ⟨t, ht⟩ := parseArrayT_deep ⟨jsonc, a.traits⟩ d steps [] hs
    rw [List.append_nil, List.replicate_succ (n := d) (a := (0x5b : UInt8)), List.cons_append] at ht
    refine ⟨2 + (t + (2 + 0)) + 1, ?_⟩
    rw [List.replicate_succ (n := d) (a := (0x5b : UInt8)), List.cons_append]
    simp only [parseRunT, skipWhitespaceT_open, Run.bind, Bool.true_eq_false, if_false, if_true, ht]
    simp only [skipWhitespaceT, skipWhitespaceFT, Run.ret, Run.tick, Bool.false_eq_true, if_false, Nat.max_zero, Nat.zero_max]
  obtain ⟨t, ht⟩ := key (parseFuel (List.replicate (d + 1) 0x5b ++ List.replicate (d + 1) 0x5d)) (by
    simp only [parseFuel, List.length_append, List.length_replicate]; omega)
  refine ⟨_, deepArray d, by rw [ht], by rw [ht], ?_⟩
  simp only [parser, ← parseRunT_res, ht]

example : (parseRunT ⟨false, none⟩ 100 (ascii "[[[[]]],[[]]]")).depth = 4 := by decide +kernel

end Meojson
