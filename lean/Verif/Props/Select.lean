import Verif.Model.Select

/-!
# C73: `parse` takes texts, C strings and streams
-/

set_option autoImplicit false

namespace Meojson.Select

/-- The claim: `parse` can be called with any text, C string or stream. -/
def C73Claim : Prop := ∀ a : Arg, compiles a 1 = true

/-- It can be called with a container, a literal, a `const char*` and a `std::istream&`, and then means what one would expect. -/
theorem C73_calls_partial : select .container 1 = some .content ∧ select .constArray 1 = some .cString ∧ select .constPointer 1 = some .cString ∧ select .istream 1 = some .stream ∧
    ∀ a, compiles a 1 = true ↔ a = .container ∨ a = .constArray ∨ a = .constPointer ∨ a = .istream := by
  refine ⟨rfl, rfl, rfl, rfl, fun a => ?_⟩
  cases a <;> decide

/-- With a `char*`, a `char[N]` or a `std::ifstream` the template is a better match, and does not compile. -/
theorem C73_refuted : ¬ C73Claim ∧ ∀ a, a = .pointer ∨ a = .array ∨ a = .derivedStream → select a 1 = some .content ∧ compiles a 1 = false := by
  refine ⟨fun h => absurd (h .pointer) (by decide), fun a h => ?_⟩
  rcases h with rfl | rfl | rfl <;> decide

/-- With a flag behind it, as `open` calls it (parser_impl.hpp:641), any stream will do, and nothing else. -/
theorem C73_with_flags (a : Arg) (n : Nat) (h : n = 2 ∨ n = 3) : compiles a n = true ↔ a = .istream ∨ a = .derivedStream := by
  rcases h with rfl | rfl <;> cases a <;> decide

example : compiles .derivedStream 2 = true ∧ compiles .derivedStream 1 = false := by decide

/-- No other number of arguments will do. -/
theorem C73_arity (a : Arg) (n : Nat) (h : n = 0 ∨ 3 < n) : select a n = none ∧ compiles a n = false := by
  have h0 : (n = 1) = False := by simp; omega
  have h3 : (decide (1 ≤ n) && decide (n ≤ 3)) = false := by simp; omega
  have : select a n = none := by cases a <;> simp [select, best, Overload.takes, h0, h3]
  exact ⟨this, by simp [compiles, this, Overload.accepts]⟩

/-- `parsec` takes texts, literals and `const char*`. It has no overload for streams, with or without flags. -/
theorem C73_parsec (a : Arg) (n : Nat) : compilesC a n = true ↔ n = 1 ∧ (a = .container ∨ a = .constArray ∨ a = .constPointer) := by
  by_cases h : n = 1
  · subst h; cases a <;> decide
  · have : selectC a n = none := by cases a <;> simp [selectC, best, Overload.takes, h]
    simp [compilesC, this, Overload.accepts, h]

example : compilesC .constPointer 1 = true ∧ selectC .container 1 = some .content ∧ selectC .constPointer 1 = some .cString ∧ compilesC .istream 1 = false ∧ compilesC .istream 3 = false := by decide

end Meojson.Select
