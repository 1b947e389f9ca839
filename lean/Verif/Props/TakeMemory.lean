import Verif.Proofs.TakeMemory
import Verif.Props.Take

/-!
# C101: a conversion from an rvalue that runs out of memory leaves its source alone

It does for many types, and for others loses the document: what has been moved out of it dies with the temporary for which there was no memory.
-/

set_option autoImplicit false

namespace Meojson
open Spec Value

namespace TakeMemory

/-- A memory that refuses the request `k`. Vectors reserve if `r`; an insertion makes one request; conversions with `const&` make none. -/
def short (F : Floats) (r : Bool) (k : Nat) : Memory where
  gives i := i != k
  reserves _ := r
  asks _ _ := 1
  copy t v n := (t.as F v, n)

/-- The memory that refuses nothing. -/
def plenty (F : Floats) (r : Bool) : Memory := { short F r 0 with gives := fun _ => true }

theorem short_fair (F : Floats) (r : Bool) (k : Nat) : (short F r k).Fair F := fun _ _ _ => ⟨Nat.le_refl _, .inl rfl⟩

theorem plenty_fair (F : Floats) (r : Bool) : (plenty F r).Fair F := fun _ _ _ => ⟨Nat.le_refl _, .inl rfl⟩

/-- `[[null], "a"]` -/
def doc : Value := .arr .array [.arr .array [.null], .str .string [0x61]]

/-- `{"k": [null]}` -/
def dict : Value := .obj .object [([0x6B], .arr .array [.null])]

/-- How it ended, what is left, as text, and the number of the next request. -/
def sketch (r : Held Value CVal) : String × String × Nat :=
  let end' {α : Type} (text : α → String) : Out α → String
    | .ok x => text x
    | .throw .json => "json"
    | .throw .badAlloc => "alloc"
    | .throw _ => "other"
    | .ub => "ub"
  (end' (fun _ => "ok") r.2.1, end' (fun s => String.ofList (s.map fun c => Char.ofNat c.toNat)) r.1.dumps, r.2.2)

/-- Conversions of all kinds. -/
def cases : List (Ty × Value) :=
  let int : Ty := .int cInt
  let num : Value := .str .number (ascii "1")
  let txt : Value := .str .string (ascii "a")
  let nul : Value := .null
  let two : Value := .arr .array [num, txt]
  let mem : Value := .obj .object [(ascii "k", num), (ascii "l", txt)]
  let some : Ty → Ty → Ty := fun a b => .tuple (.cons a (.cons b .nil))
  let one : Ty → Ty → Ty := fun a b => .variant (.cons a (.cons b .nil))
  [(.json, two), (.seq .json, two), (.seq .json, .arr .array []), (.seq .string, nul), (.seq int, two), (.seq int, txt), (.set (fun _ _ => false) .json, two), (.jarray, two), (.jarray, txt), (.fixed 2 .json, two), (.fixed 3 .json, two),
   (some .json .string, two), (some .json int, two), (some int int, .arr .array [num]), (.tuple (.cons .jarray .nil), two), (.tuple (.cons .string .nil), txt), (one int .json, two), (one .jarray int, two), (one int .jarray, nul), (one int .string, txt), (one int .bool, txt),
   (.nullable .pointer .json, nul), (.nullable .pointer .json, txt), (.nullable .pointer (.seq .json), two), (.nullable .pointer int, txt), (.nullable .optional .json, two), (.nullable .optional .jarray, two), (.nullable .optional .jarray, txt),
   (.jobject, mem), (.jobject, nul), (.jobject, two), (.map .json, mem), (.map .string, mem), (.map int, mem), (.map int, .arr .array []), (int, num), (.string, num)]
end TakeMemory

open TakeMemory

/-- With enough memory the conversion ends as it does in C54, and leaves what it leaves in C55. -/
theorem C101_enough (F : Floats) (M : Memory) (hM : M.Fair F) (ha : M.Ample) (t : Ty) (v : Value) (hv : v.Sound) (n : Nat) :
    (t.takeM F M v n).1 = (t.take F v).1 ∧ (t.takeM F M v n).2.1 = (t.take F v).2 := by
  rcases (takeM_agrees hM t v hv n).cases with h | ⟨_, _, i, _, _, h⟩
  · exact h
  · rw [ha i] at h; cases h

example (F : Floats) : (plenty F true).Fair F ∧ (plenty F true).Ample := ⟨plenty_fair F true, fun _ => rfl⟩

/-- It ends as with enough memory, or throws `std::bad_alloc` because a request of its own was refused: never undefined, and no wrong result. -/
theorem C101_outcome (F : Floats) (M : Memory) (hM : M.Fair F) (t : Ty) (v : Value) (hv : v.Sound) (n : Nat) :
    ((t.takeM F M v n).2.1 = (t.take F v).2 ∧ ((∃ x, (t.takeM F M v n).2.1 = .ok x) ∨ (t.takeM F M v n).2.1 = .throw .json)) ∨
    ((t.takeM F M v n).2.1 = .throw .badAlloc ∧ ∃ i, n ≤ i ∧ i < (t.takeM F M v n).2.2 ∧ M.gives i = false) := by
  rcases (takeM_agrees hM t v hv n).cases with ⟨_, h⟩ | ⟨h, _, k⟩
  · refine .inl ⟨h, ?_⟩
    rw [h]
    exact C54_defined F t v hv
  · exact .inr ⟨h, k⟩

/-- Whatever happens, at most one level has been taken apart, as in C55; or the value was empty, and has now the tag of a container that was not to be had. -/
theorem C101_left (F : Floats) (M : Memory) (hM : M.Fair F) (t : Ty) (v : Value) (hv : v.Sound) (n : Nat) : Leaves v (t.takeM F M v n).1 := by
  rcases (takeM_agrees hM t v hv n).cases with ⟨h, _⟩ | ⟨_, h, _⟩
  · rw [h]; exact .inl (take_left F t v hv)
  · exact h.1

/-- The source stays as it was if nothing is moved out of it before the last request, and it is none of the four empty ones. -/
theorem C101_strong_partial (F : Floats) (M : Memory) (hM : M.Fair F) (t : Ty) (ht : t.Careful M) (v : Value) (hv : v.Sound) (hb : ¬ Blank v) (n : Nat)
    (h : (t.takeM F M v n).2.1 = .throw .badAlloc) : (t.takeM F M v n).1 = v := by
  rcases (takeM_agrees hM t v hv n).cases with ⟨_, k⟩ | ⟨_, k, _⟩
  · rcases C54_defined F t v hv with ⟨x, e⟩ | e <;> rw [← k, h] at e <;> cases e
  · exact k.2 ht hb

/-- `std::vector<json::value>` reserves, `std::list<std::string>` moves nothing, `std::array` asks for nothing. -/
example (F : Floats) :
    (Ty.seq .json).Careful (short F true 0) ∧ (Ty.seq .string).Careful (short F false 0) ∧ (Ty.fixed 2 .json).Careful (short F false 0) ∧
    (Ty.nullable .pointer .string).Careful (short F false 0) ∧ (Ty.nullable .optional (.seq .string)).Careful (short F false 0) ∧ (Ty.map .jarray).Careful (short F false 0) := by
  simp [Ty.Careful, Ty.Untouched, short]

example (F : Floats) : (Ty.seq .json).takeM F (short F true 0) doc 0 = (doc, .throw .badAlloc, 1) ∧ ¬ Blank doc := by
  refine ⟨?_, by simp [Blank, doc, Value.type]⟩
  simp only [Ty.takeM]; rfl

/-- Elements that were moved are lost. `static_cast<std::list<json::value>>(std::move(v))`, `static_cast<json::array>` and `static_cast<std::set<json::value>>` of `[[null], "a"]`, if there is no memory for
the second element: `[null]` and `"a"` are gone, the array still has its two elements, moved from, and copying or printing it is undefined. -/
theorem C101_refuted (F : Floats) (lt : CVal → CVal → Bool) (t : Ty) (ht : t = .jarray ∨ t = .seq .json ∨ t = .set lt .json) :
    let r := t.takeM F (short F false 1) doc 0
    r = (.arr .array [.arrNull .array, .str .string []], .throw .badAlloc, 2) ∧ r.1.copied = .ub ∧ r.1.dumps = .ub := by
  rcases ht with rfl | rfl | rfl <;> simp only [Ty.takeM] <;> exact ⟨rfl, rfl, rfl⟩

/-- Members likewise: `json::object` and a map to `json::value`. -/
theorem C101_refuted_object (F : Floats) (t : Ty) (ht : t = .jobject ∨ t = .map .json) :
    let r := t.takeM F (short F false 0) dict 0
    r = (.obj .object [([0x6B], .arrNull .array)], .throw .badAlloc, 1) ∧ r.1.copied = .ub ∧ r.1.dumps = .ub := by
  rcases ht with rfl | rfl <;> simp only [Ty.takeM] <;> exact ⟨rfl, rfl, rfl⟩

/-- Behind a pointer the whole document is lost, whatever it is: `static_cast<std::unique_ptr<json::value>>(std::move(v))` moves it into an argument of `std::make_unique`, which then has no memory. What is
made of an array has been made, and the array cleared, when `std::make_unique<std::vector<int>>` finds none. -/
theorem C101_refuted_pointer (F : Floats) (k : Nat) :
    (∀ v : Value, v.type ≠ .null → (Ty.nullable .pointer .json).takeM F (short F true k) v k = (v.emptied, .throw .badAlloc, k + 1)) ∧
    (Ty.nullable .pointer (.seq .string)).takeM F (short F true 1) (.arr .array [.str .string [0x61]]) 0 = (.arr .array [], .throw .badAlloc, 2) := by
  refine ⟨fun v hv => ?_, ?_⟩
  · simp [Ty.takeM, hv, short]
  · simp only [Ty.takeM]; rfl

/-- An empty value changes its type, though there is no container: null and `""` get the tag `array` or `object` over their text, and are then no longer null, and no array that can be read or printed: both throw
`std::bad_variant_access`. -/
theorem C101_refuted_blank (F : Floats) :
    (Ty.seq .string).takeM F (short F false 0) .null 0 = (.str .array [], .throw .badAlloc, 1) ∧
    (Ty.map .string).takeM F (short F false 0) .null 0 = (.str .object [], .throw .badAlloc, 1) ∧
    (Ty.seq .string).takeM F (short F false 0) (.obj .object []) 0 = (.obj .array [], .throw .badAlloc, 1) ∧
    (Value.str .array []).dumps = .throw .badVariant ∧ (Value.str .array []).asArray = .throw .badVariant := by
  refine ⟨?_, ?_, ?_, rfl, rfl⟩ <;> simp only [Ty.takeM] <;> rfl

/-- How conversions of all kinds end when the first, the second or the third request is refused, what is left, and how many requests were made: without `reserve`, and for sequences with it. -/
theorem C101_counts (F : Floats) :
    (TakeMemory.cases.map fun e => (List.range 3).map fun k => sketch (e.1.takeM F (short F false k) e.2 0)) =
      [[("ok", "ub", 0), ("ok", "ub", 0), ("ok", "ub", 0)], [("alloc", "[,\"a\"]", 1), ("alloc", "[,\"\"]", 2), ("ok", "[]", 2)], [("alloc", "[]", 1), ("ok", "[]", 1), ("ok", "[]", 1)],
        [("alloc", "other", 1), ("ok", "[]", 1), ("ok", "[]", 1)], [("alloc", "[1,\"a\"]", 1), ("json", "[1,\"a\"]", 1), ("json", "[1,\"a\"]", 1)],
        [("alloc", "\"a\"", 1), ("json", "\"a\"", 1), ("json", "\"a\"", 1)], [("alloc", "[,\"a\"]", 1), ("alloc", "[,\"\"]", 2), ("ok", "[]", 2)],
        [("alloc", "[,\"a\"]", 1), ("alloc", "[,\"\"]", 2), ("ok", "[]", 2)], [("alloc", "\"a\"", 1), ("json", "\"a\"", 1), ("json", "\"a\"", 1)],
        [("ok", "[]", 0), ("ok", "[]", 0), ("ok", "[]", 0)], [("alloc", "[1,\"a\"]", 1), ("json", "[1,\"a\"]", 1), ("json", "[1,\"a\"]", 1)], [("ok", "[]", 0), ("ok", "[]", 0), ("ok", "[]", 0)],
        [("json", "[,\"a\"]", 0), ("json", "[,\"a\"]", 0), ("json", "[,\"a\"]", 0)], [("alloc", "[1]", 1), ("json", "[1]", 1), ("json", "[1]", 1)],
        [("alloc", "[,\"a\"]", 1), ("alloc", "[,\"\"]", 2), ("ok", "[]", 2)], [("ok", "\"a\"", 0), ("ok", "\"a\"", 0), ("ok", "\"a\"", 0)], [("ok", "ub", 0), ("ok", "ub", 0), ("ok", "ub", 0)],
        [("ok", "[1,\"a\"]", 0), ("ok", "[1,\"a\"]", 0), ("ok", "[1,\"a\"]", 0)], [("alloc", "null", 1), ("json", "null", 1), ("json", "null", 1)],
        [("ok", "\"a\"", 0), ("ok", "\"a\"", 0), ("ok", "\"a\"", 0)], [("alloc", "\"a\"", 1), ("json", "\"a\"", 1), ("json", "\"a\"", 1)],
        [("ok", "null", 0), ("ok", "null", 0), ("ok", "null", 0)], [("alloc", "\"\"", 1), ("ok", "\"\"", 1), ("ok", "\"\"", 1)],
        [("alloc", "[,\"a\"]", 1), ("alloc", "[,\"\"]", 2), ("alloc", "[]", 3)], [("json", "\"a\"", 0), ("json", "\"a\"", 0), ("json", "\"a\"", 0)],
        [("ok", "ub", 0), ("ok", "ub", 0), ("ok", "ub", 0)], [("alloc", "[,\"a\"]", 1), ("alloc", "[,\"\"]", 2), ("ok", "[]", 2)],
        [("alloc", "\"a\"", 1), ("json", "\"a\"", 1), ("json", "\"a\"", 1)], [("alloc", "{\"k\":,\"l\":\"a\"}", 1), ("alloc", "{\"k\":,\"l\":\"\"}", 2), ("ok", "{\"k\":,\"l\":\"\"}", 2)],
        [("alloc", "other", 1), ("ok", "{}", 1), ("ok", "{}", 1)], [("alloc", "[1,\"a\"]", 1), ("json", "[1,\"a\"]", 1), ("json", "[1,\"a\"]", 1)],
        [("alloc", "{\"k\":,\"l\":\"a\"}", 1), ("alloc", "{\"k\":,\"l\":\"\"}", 2), ("ok", "{\"k\":,\"l\":\"\"}", 2)],
        [("json", "{\"k\":1,\"l\":\"a\"}", 0), ("json", "{\"k\":1,\"l\":\"a\"}", 0), ("json", "{\"k\":1,\"l\":\"a\"}", 0)],
        [("alloc", "{\"k\":1,\"l\":\"a\"}", 1), ("json", "{\"k\":1,\"l\":\"a\"}", 1), ("json", "{\"k\":1,\"l\":\"a\"}", 1)], [("alloc", "other", 1), ("ok", "{}", 1), ("ok", "{}", 1)],
        [("ok", "1", 0), ("ok", "1", 0), ("ok", "1", 0)], [("json", "1", 0), ("json", "1", 0), ("json", "1", 0)]] ∧
    (((TakeMemory.cases.drop 1).take 4).map fun e => (List.range 3).map fun k => sketch (e.1.takeM F (short F true k) e.2 0)) =
      [[("alloc", "[1,\"a\"]", 1), ("ok", "[]", 1), ("ok", "[]", 1)], [("alloc", "[]", 1), ("ok", "[]", 1), ("ok", "[]", 1)], [("alloc", "other", 1), ("ok", "[]", 1), ("ok", "[]", 1)],
        [("alloc", "[1,\"a\"]", 1), ("json", "[1,\"a\"]", 1), ("json", "[1,\"a\"]", 1)]] := ⟨by rfl, by rfl⟩

/-- A value that has been moved from cannot be converted: undefined, whatever memory there is, unless it is taken as it is. -/
theorem C101_moved_from (F : Floats) (M : Memory) (n : Nat) :
    (Ty.seq .json).takeM F M (.arrNull .array) n = (.arrNull .array, .ub, n) ∧ (Ty.jobject).takeM F M (.objNull .object) n = (.objNull .object, .ub, n) ∧
    (Ty.variant (.cons (.seq .json) (.cons .bool .nil))).takeM F M (.arrNull .array) n = (.arrNull .array, .ub, n) ∧
    Ty.json.takeM F M (.arrNull .array) n = (.arrNull .array, .ok (.json (.arrNull .array)), n) := by
  refine ⟨?_, ?_, ?_, ?_⟩ <;> simp only [Ty.takeM] <;> rfl

/-- The tag of an empty value is changed, and nothing else. -/
theorem C101_tag (F : Floats) (s : Bytes) (t : VType) (h : t = .null) :
    (Ty.seq .string).takeM F (short F false 0) (.str t s) 0 = (.str .array s, .throw .badAlloc, 1) ∧ (Ty.map .string).takeM F (short F false 0) (.arr t []) 0 = (.arr .object [], .throw .badAlloc, 1) ∧
    (Ty.seq .string).takeM F (short F false 0) (.arrNull t) 0 = (.arrNull .array, .throw .badAlloc, 1) ∧ (Ty.seq .string).takeM F (short F false 0) (.objNull t) 0 = (.objNull .array, .throw .badAlloc, 1) := by
  subst h
  refine ⟨?_, ?_, ?_, ?_⟩ <;> simp only [Ty.takeM] <;> rfl

/-- A library that asks for the first elements only, as a vector does that has grown enough: 2 requests for the first, 1 for the second, none for the others. -/
theorem C101_counts_uneven (F : Floats) (a b c : Value) :
    let M : Memory := { plenty F false with asks := fun _ i => 2 - i }
    (∀ t, t = Ty.jarray ∨ t = .seq .json ∨ t = .set (fun _ _ => false) .json → (t.takeM F M (.arr .array [a, b, c]) 0).2.2 = 3) ∧
    (∀ t, t = Ty.jobject ∨ t = .map .json → (t.takeM F M (.obj .object [([0x61], a), ([0x62], b), ([0x63], c)]) 0).2.2 = 3) := by
  refine ⟨?_, ?_⟩
  · rintro t (rfl | rfl | rfl) <;> simp only [Ty.takeM] <;> rfl
  · rintro t (rfl | rfl) <;> simp only [Ty.takeM] <;> rfl

end Meojson
