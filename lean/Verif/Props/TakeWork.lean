import Verif.Proofs.TakeWork
import Verif.Props.ConvertWork

/-!
# C100: converting from an rvalue moves what is inside

It moves a `json::value`, and only where one is the element, the mapped type or the whole type. Texts are copied in any case, and so is everything further inside.
-/

set_option autoImplicit false

namespace Meojson
open Spec Value Work

/-- The work from an rvalue is never more than from a const lvalue, so that the bounds of C95 hold for it. -/
theorem C100_at_most (F : Floats) (t : Ty) (v : Value) (hv : v.Sound) :
    t.takeTicks F v ≤ (t.asW F v).ticks ∧ t.takeTicks F v ≤ t.extent * t.height * v.weight :=
  ⟨(takeTicks_most F t v hv).le, Nat.le_trans (takeTicks_most F t v hv).le (asW_extent F t v)⟩

/-- A `json::value` is moved, also as the element or mapped type: what is in the elements does not matter. The keys are copied. -/
theorem C100_moved_partial (F : Floats) (v : Value) (vs : List Value) (ms : List (Bytes × Value)) (lt : CVal → CVal → Bool) :
    Ty.json.takeTicks F v = 1 ∧ (Ty.nullable .optional .json).takeTicks F v = 2 ∧
    Ty.jarray.takeTicks F (.arr .array vs) = vs.length + 1 ∧
    (Ty.seq .json).takeTicks F (.arr .array vs) = 2 * vs.length + 1 ∧ (Ty.set lt .json).takeTicks F (.arr .array vs) = 2 * vs.length + 1 ∧
    (Ty.fixed vs.length .json).takeTicks F (.arr .array vs) = 2 * vs.length + 1 ∧
    Ty.jobject.takeTicks F (.obj .object ms) = (ms.map fun e => e.1.length + 1).sum + 1 ∧
    (Ty.map .json).takeTicks F (.obj .object ms) = (ms.map fun e => e.1.length + 2).sum + 1 := by
  have ha : (Value.arr .array vs).elementsM = vs := by cases vs <;> rfl
  have ho : (Value.obj .object ms).membersM = ms := by cases ms <;> rfl
  have hj : ∀ v : Value, ∃ x, (Ty.json.asRv F v).2 = .ok x := fun v => ⟨_, rfl⟩
  have hs : (vs.map fun v => Ty.json.asRvTicks F v + 0 + 1).sum = 2 * vs.length := by
    show (vs.map fun _ => 2).sum = _
    simp [List.map_const', Nat.mul_comm]
  refine ⟨by rw [Ty.takeTicks], by rw [Ty.takeTicks, Ty.takeTicks], ?_, ?_, ?_, ?_, ?_, ?_⟩
  · rw [Ty.takeTicks, ha, takeEachTicks_ok fun v => ⟨v, rfl⟩]
    simp [List.map_const']
  · rw [Ty.takeTicks, ha, takeEachTicks_ok hj, hs]
  · rw [Ty.takeTicks, ha, takeEachTicks_ok hj, hs]
  · rw [Ty.takeTicks, ha, if_pos rfl, takeEachTicks_ok hj, hs]
  · rw [Ty.takeTicks, ho, takeEachTicks_ok fun e => ⟨_, rfl⟩]
    simp only [Nat.zero_add]
  · rw [Ty.takeTicks, ho, takeEachTicks_ok fun e => ⟨_, rfl⟩]
    have : (fun e : Bytes × Value => Ty.json.asRvTicks F e.2 + e.1.length + 1) = fun e => e.1.length + 2 := funext fun e => by
      show 1 + e.1.length + 1 = _
      omega
    rw [this]

/-- For every other type nothing is moved: the work is that of the conversion from a const lvalue, to the unit, on every document. -/
theorem C100_copied (F : Floats) (t : Ty) (ht : t.Copied) (v : Value) (hv : v.Sound) : t.takeTicks F v = (t.asW F v).ticks := (takeTicks_most F t v hv).eq ht

/-- `std::vector<std::string>`, `std::map<std::string, std::string>`, `std::string` itself and `std::vector<std::vector<json::value>>` are such types. -/
example : (Ty.seq .string).Copied ∧ (Ty.map .string).Copied ∧ Ty.string.Copied ∧ (Ty.seq (.seq .json)).Copied ∧ (Ty.nullable .optional (.tuple (.cons (.int cInt) (.cons .jarray .nil)))).Copied := by
  simp [Ty.Copied, Ty.NotJson, Tys.NotJson, Tys.size]

/-- The claim fails for a text, for a vector of texts, for a map to texts and for a vector of vectors of `json::value`: the conversion from the rvalue succeeds, and its work grows with the one
text in the document. -/
theorem C100_refuted (F : Floats) (s : Bytes) :
    let text := Value.str .string s
    ((Ty.string.take F text).2 = .ok (.str s) ∧ Ty.string.takeTicks F text = s.length + 1) ∧
    (((Ty.seq .string).take F (.arr .array [text])).2 = .ok (.list [.str s]) ∧ (Ty.seq .string).takeTicks F (.arr .array [text]) = s.length + 3) ∧
    (((Ty.map .string).take F (.obj .object [([], text)])).2 = .ok (.map [([], .str s)]) ∧ (Ty.map .string).takeTicks F (.obj .object [([], text)]) = s.length + 3) ∧
    (((Ty.seq (.seq .json)).take F (.arr .array [.arr .array [text]])).2 = .ok (.list [.list [.json text]]) ∧
      (Ty.seq (.seq .json)).takeTicks F (.arr .array [.arr .array [text]]) = s.length + 5) := by
  refine ⟨⟨rfl, ?_⟩, ⟨rfl, ?_⟩, ⟨rfl, ?_⟩, ⟨rfl, ?_⟩⟩
  · show 1 + s.length = _; omega
  · show 1 + s.length + 0 + 1 + 0 + 1 = _; omega
  · show 1 + s.length + 0 + 1 + 0 + 1 = _; omega
  · have h : (Ty.seq .json).asW F (.arr .array [.str .string s]) = ⟨.ok (.list [.json (.str .string s)]), 0 + (1 + s.length + (0 + 0) + 1 + 0) + 1, 0⟩ := rfl
    have h' : (Ty.seq (.seq .json)).takeTicks F (.arr .array [.arr .array [.str .string s]]) = ((Ty.seq .json).asW F (.arr .array [.str .string s])).ticks + 0 + 1 + 0 + 1 := rfl
    rw [h', h]
    show 0 + (1 + s.length + (0 + 0) + 1 + 0) + 1 + 0 + 1 + 0 + 1 = _
    omega

namespace TakeWork

/-- `json::value` in other types, empty values, and conversions that end early. -/
def others : List (Ty × Value) :=
  let int : Ty := .int cInt
  let num : Value := .str .number (ascii "12")
  let txt : Value := .str .string (ascii "abc")
  let big : Value := .arr .array [txt, txt, txt]
  let nul : Value := .str .null []
  [(.tuple (.cons .json (.cons .string .nil)), .arr .array [big, txt]), (.tuple (.cons .json (.cons int .nil)), .arr .array [big, txt]), (.tuple (.cons .json (.cons int .nil)), .arr .array [big]),
    (.tuple (.cons .json .nil), big), (.tuple (.cons .jarray .nil), big), (.tuple .nil, nul), (.tuple .nil, txt), (.variant (.cons int (.cons .json .nil)), big), (.variant (.cons .jarray (.cons int .nil)), big),
    (.variant (.cons int (.cons .jarray .nil)), big), (.variant (.cons .bool (.cons int .nil)), num), (.variant (.cons .bool (.cons int .nil)), big), (.nullable .pointer .json, nul), (.nullable .pointer .json, big),
    (.nullable .optional (.seq .json), nul), (.nullable .optional (.seq .json), big), (.nullable .optional (.seq .string), big), (.nullable .pointer (.seq int), big), (.fixed 2 .json, big), (.fixed 0 int, nul),
    (.map .json, nul), (.map .json, txt), (.map int, .obj .object [(ascii "k", num), (ascii "lm", txt), (ascii "n", num)]), (.map .jarray, .obj .object [(ascii "k", big)]), (.jobject, .arr .array []),
    (.jarray, .obj .object [(ascii "k", big)]), (.struct (.var (ascii "a") (.json nul) .json .done), .obj .object [(ascii "a", big)])]

end TakeWork

/-- What is counted, on values of all kinds, and on `json::value` inside other types. -/
theorem C100_counts (F : Floats) :
    (ConvertWork.kinds.map fun e => e.1.takeTicks F e.2) = [5, 3, 4, 4, 1, 1, 3, 3, 2, 4, 1, 4, 9, 6, 1, 13, 9, 1, 10, 6, 2, 4, 13, 3, 12, 6, 9, 13, 2] ∧
    (TakeWork.others.map fun e => e.1.takeTicks F e.2) = [8, 8, 1, 2, 5, 1, 1, 2, 15, 16, 10, 3, 1, 2, 2, 8, 17, 7, 1, 1, 1, 1, 11, 16, 1, 1, 16] := ⟨by rfl, by rfl⟩

end Meojson
