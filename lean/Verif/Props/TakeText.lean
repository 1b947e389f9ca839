import Verif.Proofs.TakeText
import Verif.Props.Message

/-!
# C94: what the exception of a failed conversion from an rvalue says

`static_cast<T>(std::move(v))` says what `static_cast<T>(v)` says, unless `v` is null, `""`, `[]` or `{}`. A `move_from_json` of the user's that has taken the value over before it returns
false leaves nothing to describe.
-/

set_option autoImplicit false

namespace Meojson
open Spec Value

/-- With the texts left out, these are the conversions of C54 and C55: the same outcome, and the same is left of the value. -/
theorem C94_plain (F : Floats) (c : Compiler) (N : Names) (t : Ty) (v : Value) :
    (t.takeT F c N v).1 = (t.take F v).1 ∧ (t.takeT F c N v).2.plain = (t.take F v).2 ∧ (t.asRvT F c N v).1 = (t.asRv F v).1 ∧ (t.asRvT F c N v).2.plain = (t.asRv F v).2 := by
  have h := bare_take F c N t v
  have h' := bare_asRv F c N t v
  rw [← h, ← h']
  exact ⟨rfl, rfl, rfl, rfl⟩

/-- Outcome and text are those of the conversion from a const value, unless the value is null, `""`, `[]` or `{}`. -/
theorem C94_same_partial (F : Floats) (c : Compiler) (N : Names) (t : Ty) (v : Value) (hv : v.Sound) (hb : ¬ Blank v) : (t.takeT F c N v).2 = t.asT F c N v := by
  rcases takeT_instead F c N t v hv with h | ⟨h, -⟩
  · exact h
  · exact absurd h hb

/-- From one of these four outcome and text are as from the const value, or as from a const `[]` or `{}`. -/
theorem C94_blank (F : Floats) (c : Compiler) (N : Names) (t : Ty) (v : Value) (hv : v.Sound) :
    (t.takeT F c N v).2 = t.asT F c N v ∨ Blank v ∧ ((t.takeT F c N v).2 = t.asT F c N (.arr .array []) ∨ (t.takeT F c N v).2 = t.asT F c N (.obj .object [])) :=
  takeT_instead F c N t v hv

/-- `std::move(v).as<T>()` says what `v.as<T>()` says, for every value. -/
theorem C94_as (F : Floats) (c : Compiler) (N : Names) (t : Ty) (v : Value) (hv : v.Sound) : (t.asRvT F c N v).2 = t.asT F c N v := asRvT_snd F c N t hv

/-- When a conversion from an rvalue throws, there is a text, and it is about a part of the value that is not of the type wanted there; or else the value was null, `""`, `[]` or `{}` and
the text is about `[]` or `{}` in its place. -/
theorem C94_innermost (F : Floats) (c : Compiler) (N : Names) (t : Ty) (v : Value) (hv : v.Sound) (h : (t.take F v).2 = .throw .json) :
    ∃ m u, (t.takeT F c N v).2 = .error m ∧ (u = v ∨ Blank v ∧ (u = .arr .array [] ∨ u = .obj .object [])) ∧
      ∃ s w i, PartOf F t u s w ∧ w.Sound ∧ w.infoText c = .ok i ∧ About F N i s w m := by
  have hp := (C94_plain F c N t v).2.1
  rw [h] at hp
  have key : ∀ u : Value, u.Sound → (t.takeT F c N v).2 = t.asT F c N u →
      ∃ m, (t.takeT F c N v).2 = .error m ∧ ∃ s w i, PartOf F t u s w ∧ w.Sound ∧ w.infoText c = .ok i ∧ About F N i s w m := by
    intro u hu e
    rw [e, C87_plain] at hp
    rw [e]
    exact C87_innermost_partial F c N t u hu hp
  rcases takeT_instead F c N t v hv with e | ⟨hb, e | e⟩
  · obtain ⟨m, h1, h2⟩ := key v hv e
    exact ⟨m, v, h1, .inl rfl, h2⟩
  · obtain ⟨m, h1, h2⟩ := key (.arr .array []) (by simp [Sound, Wf, WfAll]) e
    exact ⟨m, _, h1, .inr ⟨hb, .inl rfl⟩, h2⟩
  · obtain ⟨m, h1, h2⟩ := key (.obj .object []) (by simp [Sound, Wf, WfMembers]) e
    exact ⟨m, _, h1, .inr ⟨hb, .inr rfl⟩, h2⟩

section
open MessageExamples

private abbrev toldOf (t : Ty) (v : Value) : Value × Option Bytes := let r := t.takeT floats .gcc names v; (r.1, r.2.text)

-- The second element is a text: the first has been moved out of the array when the exception is thrown.
example : ¬ Blank (.arr .array [.arr .array [], .str .string (ascii "x")]) ∧
    (Ty.tuple (.cons .json (.cons (.int cInt) .nil))).take floats (.arr .array [.arr .array [], .str .string (ascii "x")]) =
      (.arr .array [.arrNull .array, .str .string (ascii "x")], .throw .json) := by
  refine ⟨by simp [Blank, Value.type], ?_⟩
  simp only [Ty.take, Tys.size]; rfl
example : (toldOf (.tuple (.cons .json (.cons (.int cInt) .nil))) (.arr .array [.arr .array [], .str .string (ascii "x")])).2 =
    some (ascii "Type error: cannot convert to integer, expected=number, type=string, value=\"x\"") := by decide +kernel
example : (toldOf (.map .bool) (.arr .array [.null])).2 = some (ascii "Type error: cannot convert to object, expected=object, type=array, size=1") := by decide +kernel
example : (toldOf (.variant (.cons .bool (.cons (.int cInt) .nil))) (.str .string (ascii "x"))).2 =
    some (ascii "Type error: cannot convert to any variant alternative, type=string, value=\"x\"") := by decide +kernel

/-- Null, `""` and `{}` make no `std::array<int, 2>`; from a const value the exception says so and describes the value, from an rvalue it speaks of an array without elements. -/
theorem C94_refuted (F : Floats) (c : Compiler) (N : Names) : ∀ v, v = Value.null ∨ v = .str .string [] ∨ v = .obj .object [] →
    (∃ i, v.infoText c = .ok i ∧ (Ty.fixed 2 (.int cInt)).asT F c N v = .error (ascii "Type error: cannot convert to array, expected=array, " ++ i)) ∧
    (Ty.fixed 2 (.int cInt)).takeT F c N v = (.arr .array [], .error (ascii "Array size mismatch: expected=2, actual=0")) := by
  have e : wrongSize 2 0 = ascii "Array size mismatch: expected=2, actual=0" := by decide +kernel
  have e' : wanted (ascii "array") (ascii "array") = ascii "Type error: cannot convert to array, expected=array, " := by decide +kernel
  have key : ∀ v : Value, v.Sound → v.type ≠ .array → v.empty = .ok true →
      (∃ i, v.infoText c = .ok i ∧ (Ty.fixed 2 (.int cInt)).asT F c N v = .error (ascii "Type error: cannot convert to array, expected=array, " ++ i)) ∧
      (Ty.fixed 2 (.int cInt)).takeT F c N v = (.arr .array [], .error (ascii "Array size mismatch: expected=2, actual=0")) := by
    intro v hv ht he
    obtain ⟨h1, h2, -⟩ := C59_defined c v
    rcases h1 with ⟨i, hi⟩ | h1
    · refine ⟨⟨i, hi, ?_⟩, ?_⟩
      · rw [Ty.asT, asArrayT_not c ht, e', complain, hi]; rfl
      · rw [Ty.takeT, onArrayT, he, ← e]; rfl
    · rcases h2.1 h1 with rfl | rfl <;> exact hv.elim
  rintro v (rfl | rfl | rfl)
  · exact key _ (by simp [Sound, Wf, Value.null]) (by simp [Value.type, Value.null]) rfl
  · exact key _ (by simp [Sound, Wf]) (by simp [Value.type]) rfl
  · exact key _ (by simp [Sound, Wf, WfMembers]) (by simp [Value.type]) rfl

end

/-! ### `move_from_json` of the user's -/

/-- The object that `move_from_json` makes is returned. If it returns false and has left a value to describe, the text describes what is left, and the value is left so. -/
theorem C94_mover_partial (c : Compiler) (M : Mover) (v : Value) :
    (∀ x, (M.run v).1 = some x → M.convert c v = ((M.run v).2, .ok x)) ∧
    ((M.run v).1 = none → (M.run v).2.Sound → ∃ i, (M.run v).2.infoText c = .ok i ∧
      M.convert c v = ((M.run v).2, .error (ascii "Deserialization failed: move_from_json() returned false, " ++ i))) := by
  rcases hr : M.run v with ⟨x, w⟩
  refine ⟨fun y hy => ?_, fun hn hs => ?_⟩
  · obtain rfl : x = some y := hy
    simp only [Mover.convert, hr]
  · obtain rfl : x = none := hn
    obtain ⟨h1, h2, -⟩ := C59_defined c w
    rcases h1 with ⟨i, hi⟩ | h1
    · exact ⟨i, hi, by simp only [Mover.convert, hr, complain, hi]; rfl⟩
    · rcases h2.1 h1 with rfl | rfl <;> exact hs.elim

/-- Undefined behaviour is exactly this: it returns false and leaves an array or object that has been moved from. -/
theorem C94_mover_undefined (c : Compiler) (M : Mover) (v : Value) :
    (M.convert c v).2 = .ub ↔ (M.run v).1 = none ∧ ((M.run v).2 = .arrNull .array ∨ (M.run v).2 = .objNull .object) := by
  rcases hr : M.run v with ⟨x, w⟩
  obtain ⟨h1, h2, -⟩ := C59_defined c w
  cases x with
  | some x => simp [Mover.convert, hr]
  | none =>
    rcases h1 with ⟨i, hi⟩ | h1
    · have : ¬ (w = .arrNull .array ∨ w = .objNull .object) := fun h => by rw [h2.2 h] at hi; cases hi
      simp only [Mover.convert, hr, complain, hi, true_and]
      exact ⟨nofun, fun h => absurd h this⟩
    · simp only [Mover.convert, hr, complain, h1, true_and]
      exact ⟨fun _ => h2.1 h1, fun _ => rfl⟩

/-- A `move_from_json` that takes the value over and then finds it wanting. -/
def grabs (good : Value → Option CVal) : Mover := ⟨fun v => (good v, v.emptied)⟩

/-- The ordinary way to write it, `json::value mine = std::move(src); … return false;`, is undefined for every array and object: value_info() asks a null pointer for its size. A string is
described as an empty one. -/
theorem C94_refuted_mover (c : Compiler) (good : Value → Option CVal) :
    (∀ vs, good (.arr .array vs) = none → ((grabs good).convert c (.arr .array vs)).2 = .ub) ∧
    (∀ ms, good (.obj .object ms) = none → ((grabs good).convert c (.obj .object ms)).2 = .ub) ∧
    (∀ s, good (.str .string s) = none → ((grabs good).convert c (.str .string s)).2 =
      .error (ascii "Deserialization failed: move_from_json() returned false, type=string, value=\"\"")) := by
  refine ⟨fun vs h => ?_, fun ms h => ?_, fun s h => ?_⟩
  · exact (C94_mover_undefined c _ _).2 ⟨h, .inl rfl⟩
  · exact (C94_mover_undefined c _ _).2 ⟨h, .inr rfl⟩
  · have e : ((Value.str .string []).complain c Mover.refused : Told CVal).text = some (ascii "Deserialization failed: move_from_json() returned false, type=string, value=\"\"") := by
      cases c <;> decide +kernel
    simp only [Mover.convert, grabs, h, Value.emptied]
    cases hr : ((Value.str .string []).complain c Mover.refused : Told CVal) with
    | error m => rw [hr] at e; simp only [Told.text, Option.some.injEq] at e; rw [e]
    | _ => rw [hr] at e; cases e

example : ((grabs fun _ => none).convert .gcc (.arr .array [.null])).2 = .ub := (C94_refuted_mover .gcc _).1 _ rfl

/-- For a `json::array` or a `json::object` itself the elements are given to a temporary value first: whatever `move_from_json` does with it, they are gone when it returns false, and the text
always says that there were none. -/
theorem C94_refuted_array (M : Mover) (vs : List Value) (ms : List (Bytes × Value)) :
    ((M.run (.arr .array vs)).1 = none →
      M.convertArray vs = ([], .error (ascii "Deserialization failed: move_from_json() returned false for array, size=0"))) ∧
    ((M.run (.obj .object ms)).1 = none →
      M.convertObject ms = ([], .error (ascii "Deserialization failed: move_from_json() returned false for object, size=0"))) ∧
    (∀ x, (M.run (.arr .array vs)).1 = some x → M.convertArray vs = ([], .ok x)) ∧ (∀ x, (M.run (.obj .object ms)).1 = some x → M.convertObject ms = ([], .ok x)) := by
  have e1 : ascii "Deserialization failed: move_from_json() returned false for array, size=" ++ natText 0 =
      ascii "Deserialization failed: move_from_json() returned false for array, size=0" := by decide +kernel
  have e2 : ascii "Deserialization failed: move_from_json() returned false for object, size=" ++ natText 0 =
      ascii "Deserialization failed: move_from_json() returned false for object, size=0" := by decide +kernel
  refine ⟨fun h => ?_, fun h => ?_, fun x h => ?_, fun x h => ?_⟩
  · simp only [Mover.convertArray, h, List.length_nil, e1]
  · simp only [Mover.convertObject, h, List.length_nil, e2]
  · simp only [Mover.convertArray, h]
  · simp only [Mover.convertObject, h]

example : (Mover.mk fun v => (none, v)).convertArray [.null, .null] =
    ([], .error (ascii "Deserialization failed: move_from_json() returned false for array, size=0")) := (C94_refuted_array _ _ []).1 rfl

end Meojson
