import Verif.Proofs.StoreMemory
import Verif.Props.Convert

/-!
# C102: a conversion to JSON that fails leaves its source alone

It does for many types. For others the texts and values that were moved first are lost when a later element fails, for want of memory or because an enumerator has no name.
-/

set_option autoImplicit false

namespace Meojson
open Spec Value

namespace StoreMemory

/-- A library that refuses the request `k`. Collections have `size()` if `r`; a vector without room asks for every element but the second; a copy of a text asks once for every character, a copy of a value
and a number once. -/
def short (r : Bool) (k : Nat) : Maker where
  gives i := i != k
  sized _ := r
  grows i := if i = 1 then 0 else 1
  texts s := s.length
  clones _ := 1
  made
    | .int _, _ => 1
    | _, _ => 0

/-- The library that refuses nothing. -/
def plenty (r : Bool) : Maker := { short r 0 with gives := fun _ => true }

/-- How it ended, what is left, as the text of a copy, and the number of the next request. -/
def sketch (F : Floats) (t : Ty) (r : Held CVal Value) : String × String × Nat :=
  let end' : Out Bytes → String
    | .ok s => String.ofList (s.map fun c => Char.ofNat c.toNat)
    | .throw .json => "json"
    | .throw .badAlloc => "alloc"
    | .throw _ => "other"
    | .ub => "ub"
  (end' (r.2.1.bind Value.dumps), end' ((t.store F .constLv r.1).bind fun p => p.1.dumps), r.2.2)

/-- Conversions of all kinds. -/
def cases : List (Ty × Cat × CVal) :=
  let int : Ty := .int cInt
  let a : CVal := .str (ascii "a")
  let b : CVal := .str (ascii "b")
  let v : CVal := .json (.ofArray [.null])
  let pair : Ty → Ty → Ty := fun a b => .tuple (.cons a (.cons b .nil))
  let one : Ty → Ty → Ty := fun a b => .variant (.cons a (.cons b .nil))
  let cls : Fields := .var (ascii "k") a .string (.key (ascii "m") (.opt (.var (ascii "l") (.int 1) int (.key (ascii "k") (.var (ascii "n") .null .null .done)))))
  [(.json, .rv, v), (.json, .constLv, v), (.jarray, .rv, .jarray [.null]), (.jarray, .lv, .jarray [.null]), (.jobject, .rv, .jobject [(ascii "k", .null)]), (.jobject, .constRv, .jobject [(ascii "k", .null)]),
   (.string, .rv, a), (.string, .lv, a), (int, .rv, .int 1), (.bool, .rv, .bool true), (.enum Samples.color, .rv, .enum 1), (.enum Samples.color, .rv, .enum 7),
   (.nullable .optional .string, .rv, .nothing), (.nullable .optional .string, .lv, .just a), (.nullable .pointer .string, .constLv, .just a), (.nullable .pointer (.seq .string), .rv, .just (.list [a, b])),
   (.seq .string, .rv, .list [a, b]), (.seq .string, .constLv, .list [a, b]), (.seq .string, .rv, .list []), (.seq (.seq .string), .rv, .list [.list [a], .list [b]]), (.seq int, .rv, .list [.int 1, .int 2, .int 3]),
   (.set (fun _ _ => false) .string, .rv, .list [a, b]), (.set (fun _ _ => false) .string, .rv, .list []), (.fixed 2 .string, .rv, .list [a, b]), (.fixed 2 .string, .lv, .list [a, b]), (.fixed 0 .string, .lv, .list []),
   (pair .string int, .rv, .list [a, .int 1]), (pair int .string, .rv, .list [.int 1, a]), (pair .string .string, .constRv, .list [a, b]), (.tuple .nil, .rv, .list []), (pair .string int, .rv, .list [a]),
   (one int .string, .rv, .alt 1 a), (one int .string, .lv, .alt 1 a), (one int .string, .rv, .alt 0 (.int 1)), (one int .string, .rv, .alt 2 a),
   (.map .string, .rv, .map [(ascii "k", a), (ascii "l", b)]), (.map .string, .lv, .map [(ascii "k", a)]), (.map int, .rv, .map []), (.map int, .rv, .map [(ascii "k", .int 1), (ascii "k", .int 2)]),
   (.struct cls, .rv, .list [a, .int 1, .null]), (.struct cls, .rv, .list [a, .int 1]), (.struct (.var (ascii "k") .null (.enum Samples.color) .done), .rv, .list [.enum 7])]
end StoreMemory

open StoreMemory

/-- With enough memory the constructor ends and leaves what it does in the model without memory, of which C28 and C51 speak. -/
theorem C102_enough (F : Floats) (M : Maker) (ha : M.Ample) (t : Ty) (c : Cat) (x : CVal) (n : Nat) :
    ((t.storeM F M c x n).2.1.bind fun v => .ok (v, (t.storeM F M c x n).1)) = t.store F c x := by
  rcases (storeM_meets F M t c x n).cases with h | ⟨_, i, _, _, h⟩
  · exact h
  · rw [ha i] at h; cases h

example (r : Bool) : (plenty r).Ample := fun _ => rfl

/-- It ends as with enough memory, or throws `std::bad_alloc` because a request of its own was refused. -/
theorem C102_outcome (F : Floats) (M : Maker) (t : Ty) (c : Cat) (x : CVal) (n : Nat) :
    ((t.storeM F M c x n).2.1.bind fun v => .ok (v, (t.storeM F M c x n).1)) = t.store F c x ∨
    ((t.storeM F M c x n).2.1 = .throw .badAlloc ∧ ∃ i, n ≤ i ∧ i < (t.storeM F M c x n).2.2 ∧ M.gives i = false) :=
  (storeM_meets F M t c x n).cases

/-- Whatever happens, the source is still an object of the same shape: containers have their sizes, maps their keys and variants their alternatives, and only texts and JSON values are moved from. -/
theorem C102_left (F : Floats) (M : Maker) (t : Ty) (c : Cat) (x : CVal) (n : Nat) : Drained x (t.storeM F M c x n).1 :=
  (storeM_left F M t c x n).1

/-- The relation says something: a number stays, and a list does not become shorter. -/
example : ¬ Drained (.int 1) (.int 2) ∧ ¬ Drained (.list [.str []]) (.list []) := by
  constructor
  · intro h; cases h
  · intro h; cases h with | elements h => cases h

/-- Arguments of which nothing is moved are left alone, also when the constructor succeeds. -/
theorem C102_inert (F : Floats) (M : Maker) (t : Ty) (c : Cat) (h : t.Inert c) (x : CVal) (n : Nat) : (t.storeM F M c x n).1 = x :=
  (storeM_left F M t c x n).2 h

/-- Lists of texts that are not rvalues, sets, vectors of numbers and maps to them, classes with text members. -/
example : (Ty.seq .string).Inert .lv ∧ (Ty.set (fun _ _ => false) .string).Inert .rv ∧ (Ty.seq (.seq (.int cInt))).Inert .rv ∧ (Ty.map (.int cInt)).Inert .rv ∧
    (Ty.struct (.var (ascii "k") (.str []) .string .done)).Inert .rv ∧ ¬ (Ty.seq .string).Inert .rv ∧ ¬ (Ty.nullable .optional .string).Inert .lv := by
  simp [Ty.Inert, Fields.Inert, Cat.element, Cat.setElement, Cat.content]

/-- A source stays as it was when the constructor throws, if nothing can fail any more once the first part of it has been moved. -/
theorem C102_partial (F : Floats) (M : Maker) (t : Ty) (c : Cat) (ht : t.Atomic M c) (x : CVal) (hx : t.Has x) (n : Nat) (e : Exn) (h : (t.storeM F M c x n).2.1 = .throw e) :
    (t.storeM F M c x n).1 = x := by
  rcases storeM_kept F M t c x hx ht n with ⟨v, k⟩ | k
  · rw [h] at k; cases k
  · exact k

/-- `std::vector<std::string>`, which has `size()`; `std::array<json::value, 2>`; `std::pair<Color, std::string>`, but not the pair the other way round. -/
example : (Ty.seq .string).Atomic (short true 0) .rv ∧ (Ty.fixed 2 .json).Atomic (short true 0) .rv ∧ (Ty.tuple (.cons (.enum Samples.color) (.cons .string .nil))).Atomic (short true 0) .rv ∧
    ¬ (Ty.tuple (.cons .string (.cons (.enum Samples.color) .nil))).Atomic (short true 0) .rv := by
  simp [Ty.Atomic, Tys.InOrder, Ty.Inert, Ty.Quiet, Tys.Quiet, Cat.element, Cat.part, short]

example (F : Floats) : (Ty.seq .string).storeM F (short true 1) .rv (.list [.str [0x61]]) 0 = (.list [.str [0x61]], .throw .badAlloc, 2) := by
  simp only [Ty.storeM]; rfl

/-- A text is lost although there is enough memory: `json::value(std::move(p))` for `std::pair<std::string, Color>` with an enumerator without a name throws `json::exception`, and the text was moved. The pair
the other way round keeps it. -/
theorem C102_refuted (F : Floats) (r : Bool) (s : Bytes) :
    (Ty.tuple (.cons .string (.cons (.enum Samples.color) .nil))).storeM F (plenty r) .rv (.list [.str s, .enum 7]) 0 = (.list [.str [], .enum 7], .throw .json, 3) ∧
    (Ty.tuple (.cons (.enum Samples.color) (.cons .string .nil))).storeM F (plenty r) .rv (.list [.enum 7, .str s]) 0 = (.list [.enum 7, .str s], .throw .json, 3) := by
  constructor <;> simp only [Ty.storeM, Tys.storeAllM] <;> rfl

/-- A lvalue is not safe: an optional of such a pair is moved from without having been given away. -/
theorem C102_refuted_lvalue (F : Floats) (r : Bool) (s : Bytes) :
    (Ty.nullable .optional (.tuple (.cons .string (.cons (.enum Samples.color) .nil)))).storeM F (plenty r) .lv (.just (.list [.str s, .enum 7])) 0 =
      (.just (.list [.str [], .enum 7]), .throw .json, 3) := by
  simp only [Ty.storeM, Tys.storeAllM]; rfl

/-- The first texts are lost when there is no memory for the second array, node or buffer: lists of lists, maps to texts, and collections of texts without `size()`. -/
theorem C102_refuted_memory (F : Floats) (s u : Bytes) :
    (Ty.seq (.seq .string)).storeM F (short true 4) .rv (.list [.list [.str s], .list [.str u]]) 0 = (.list [.list [.str []], .list [.str u]], .throw .badAlloc, 5) ∧
    (Ty.map .string).storeM F (short true 3) .rv (.map [([0x6B], .str s), ([0x6C], .str u)]) 0 = (.map [([0x6B], .str []), ([0x6C], .str u)], .throw .badAlloc, 4) ∧
    (Ty.seq .string).storeM F (short false 2) .rv (.list [.str s, .str u, .str s]) 0 = (.list [.str [], .str [], .str s], .throw .badAlloc, 3) := by
  refine ⟨?_, ?_, ?_⟩ <;> simp only [Ty.storeM] <;> rfl

/-- How conversions of all kinds end when one of the first five requests is refused and when none is, what is left, and how many requests were made: for collections with `size()`. -/
theorem C102_counts (F : Floats) :
    ((StoreMemory.cases.take 21).map fun e => [0, 1, 2, 3, 4, 99].map fun k => sketch F e.1 (e.1.storeM F (short true k) e.2.1 e.2.2 0)) =
      [[("[null]", "ub", 0), ("[null]", "ub", 0), ("[null]", "ub", 0), ("[null]", "ub", 0), ("[null]", "ub", 0), ("[null]", "ub", 0)],
        [("alloc", "[null]", 1), ("[null]", "[null]", 1), ("[null]", "[null]", 1), ("[null]", "[null]", 1), ("[null]", "[null]", 1), ("[null]", "[null]", 1)],
        [("alloc", "[null]", 1), ("[null]", "[]", 1), ("[null]", "[]", 1), ("[null]", "[]", 1), ("[null]", "[]", 1), ("[null]", "[]", 1)],
        [("alloc", "[null]", 1), ("alloc", "[null]", 2), ("[null]", "[null]", 2), ("[null]", "[null]", 2), ("[null]", "[null]", 2), ("[null]", "[null]", 2)],
        [("alloc", "{\"k\":null}", 1), ("{\"k\":null}", "{}", 1), ("{\"k\":null}", "{}", 1), ("{\"k\":null}", "{}", 1), ("{\"k\":null}", "{}", 1), ("{\"k\":null}", "{}", 1)],
        [("alloc", "{\"k\":null}", 1), ("alloc", "{\"k\":null}", 2), ("{\"k\":null}", "{\"k\":null}", 2), ("{\"k\":null}", "{\"k\":null}", 2), ("{\"k\":null}", "{\"k\":null}", 2), ("{\"k\":null}", "{\"k\":null}", 2)],
        [("\"a\"", "\"\"", 0), ("\"a\"", "\"\"", 0), ("\"a\"", "\"\"", 0), ("\"a\"", "\"\"", 0), ("\"a\"", "\"\"", 0), ("\"a\"", "\"\"", 0)],
        [("alloc", "\"a\"", 1), ("\"a\"", "\"a\"", 1), ("\"a\"", "\"a\"", 1), ("\"a\"", "\"a\"", 1), ("\"a\"", "\"a\"", 1), ("\"a\"", "\"a\"", 1)],
        [("alloc", "1", 1), ("1", "1", 1), ("1", "1", 1), ("1", "1", 1), ("1", "1", 1), ("1", "1", 1)],
        [("true", "true", 0), ("true", "true", 0), ("true", "true", 0), ("true", "true", 0), ("true", "true", 0), ("true", "true", 0)],
        [("\"green\"", "\"green\"", 0), ("\"green\"", "\"green\"", 0), ("\"green\"", "\"green\"", 0), ("\"green\"", "\"green\"", 0), ("\"green\"", "\"green\"", 0), ("\"green\"", "\"green\"", 0)],
        [("alloc", "json", 1), ("json", "json", 1), ("json", "json", 1), ("json", "json", 1), ("json", "json", 1), ("json", "json", 1)],
        [("null", "null", 0), ("null", "null", 0), ("null", "null", 0), ("null", "null", 0), ("null", "null", 0), ("null", "null", 0)],
        [("\"a\"", "\"\"", 0), ("\"a\"", "\"\"", 0), ("\"a\"", "\"\"", 0), ("\"a\"", "\"\"", 0), ("\"a\"", "\"\"", 0), ("\"a\"", "\"\"", 0)],
        [("alloc", "\"a\"", 1), ("\"a\"", "\"a\"", 1), ("\"a\"", "\"a\"", 1), ("\"a\"", "\"a\"", 1), ("\"a\"", "\"a\"", 1), ("\"a\"", "\"a\"", 1)],
        [("alloc", "[\"a\",\"b\"]", 1), ("alloc", "[\"a\",\"b\"]", 2), ("[\"a\",\"b\"]", "[\"\",\"\"]", 2), ("[\"a\",\"b\"]", "[\"\",\"\"]", 2), ("[\"a\",\"b\"]", "[\"\",\"\"]", 2), ("[\"a\",\"b\"]", "[\"\",\"\"]", 2)],
        [("alloc", "[\"a\",\"b\"]", 1), ("alloc", "[\"a\",\"b\"]", 2), ("[\"a\",\"b\"]", "[\"\",\"\"]", 2), ("[\"a\",\"b\"]", "[\"\",\"\"]", 2), ("[\"a\",\"b\"]", "[\"\",\"\"]", 2), ("[\"a\",\"b\"]", "[\"\",\"\"]", 2)],
        [("alloc", "[\"a\",\"b\"]", 1), ("alloc", "[\"a\",\"b\"]", 2), ("alloc", "[\"a\",\"b\"]", 3), ("alloc", "[\"a\",\"b\"]", 4), ("[\"a\",\"b\"]", "[\"a\",\"b\"]", 4), ("[\"a\",\"b\"]", "[\"a\",\"b\"]", 4)],
        [("alloc", "[]", 1), ("[]", "[]", 1), ("[]", "[]", 1), ("[]", "[]", 1), ("[]", "[]", 1), ("[]", "[]", 1)],
        [("alloc", "[[\"a\"],[\"b\"]]", 1), ("alloc", "[[\"a\"],[\"b\"]]", 2), ("alloc", "[[\"a\"],[\"b\"]]", 3), ("alloc", "[[\"a\"],[\"b\"]]", 4), ("alloc", "[[\"\"],[\"b\"]]", 5), ("[[\"a\"],[\"b\"]]", "[[\"\"],[\"\"]]", 6)],
        [("alloc", "[1,2,3]", 1), ("alloc", "[1,2,3]", 2), ("alloc", "[1,2,3]", 3), ("alloc", "[1,2,3]", 4), ("alloc", "[1,2,3]", 5), ("[1,2,3]", "[1,2,3]", 5)]] := by rfl

/-- Likewise. -/
theorem C102_counts_more (F : Floats) :
    (((StoreMemory.cases.drop 21).take 14).map fun e => [0, 1, 2, 3, 4, 99].map fun k => sketch F e.1 (e.1.storeM F (short true k) e.2.1 e.2.2 0)) =
      [[("alloc", "[\"a\",\"b\"]", 1), ("alloc", "[\"a\",\"b\"]", 2), ("alloc", "[\"a\",\"b\"]", 3), ("alloc", "[\"a\",\"b\"]", 4), ("[\"a\",\"b\"]", "[\"a\",\"b\"]", 4), ("[\"a\",\"b\"]", "[\"a\",\"b\"]", 4)],
        [("alloc", "[]", 1), ("[]", "[]", 1), ("[]", "[]", 1), ("[]", "[]", 1), ("[]", "[]", 1), ("[]", "[]", 1)],
        [("alloc", "[\"a\",\"b\"]", 1), ("alloc", "[\"a\",\"b\"]", 2), ("[\"a\",\"b\"]", "[\"\",\"\"]", 2), ("[\"a\",\"b\"]", "[\"\",\"\"]", 2), ("[\"a\",\"b\"]", "[\"\",\"\"]", 2), ("[\"a\",\"b\"]", "[\"\",\"\"]", 2)],
        [("alloc", "[\"a\",\"b\"]", 1), ("alloc", "[\"a\",\"b\"]", 2), ("alloc", "[\"a\",\"b\"]", 3), ("alloc", "[\"a\",\"b\"]", 4), ("[\"a\",\"b\"]", "[\"a\",\"b\"]", 4), ("[\"a\",\"b\"]", "[\"a\",\"b\"]", 4)],
        [("alloc", "[]", 1), ("[]", "[]", 1), ("[]", "[]", 1), ("[]", "[]", 1), ("[]", "[]", 1), ("[]", "[]", 1)],
        [("alloc", "[\"a\",1]", 1), ("alloc", "[\"a\",1]", 2), ("alloc", "[\"\",1]", 3), ("[\"a\",1]", "[\"\",1]", 3), ("[\"a\",1]", "[\"\",1]", 3), ("[\"a\",1]", "[\"\",1]", 3)],
        [("alloc", "[1,\"a\"]", 1), ("alloc", "[1,\"a\"]", 2), ("alloc", "[1,\"a\"]", 3), ("[1,\"a\"]", "[1,\"\"]", 3), ("[1,\"a\"]", "[1,\"\"]", 3), ("[1,\"a\"]", "[1,\"\"]", 3)],
        [("alloc", "[\"a\",\"b\"]", 1), ("alloc", "[\"a\",\"b\"]", 2), ("alloc", "[\"a\",\"b\"]", 3), ("alloc", "[\"a\",\"b\"]", 4), ("[\"a\",\"b\"]", "[\"a\",\"b\"]", 4), ("[\"a\",\"b\"]", "[\"a\",\"b\"]", 4)],
        [("alloc", "[]", 1), ("[]", "[]", 1), ("[]", "[]", 1), ("[]", "[]", 1), ("[]", "[]", 1), ("[]", "[]", 1)],
        [("alloc", "ub", 1), ("alloc", "ub", 2), ("ub", "ub", 2), ("ub", "ub", 2), ("ub", "ub", 2), ("ub", "ub", 2)],
        [("\"a\"", "\"\"", 0), ("\"a\"", "\"\"", 0), ("\"a\"", "\"\"", 0), ("\"a\"", "\"\"", 0), ("\"a\"", "\"\"", 0), ("\"a\"", "\"\"", 0)],
        [("alloc", "\"a\"", 1), ("\"a\"", "\"a\"", 1), ("\"a\"", "\"a\"", 1), ("\"a\"", "\"a\"", 1), ("\"a\"", "\"a\"", 1), ("\"a\"", "\"a\"", 1)],
        [("alloc", "1", 1), ("1", "1", 1), ("1", "1", 1), ("1", "1", 1), ("1", "1", 1), ("1", "1", 1)],
        [("ub", "ub", 0), ("ub", "ub", 0), ("ub", "ub", 0), ("ub", "ub", 0), ("ub", "ub", 0), ("ub", "ub", 0)]] := by rfl

/-- Maps, with the third or the fourth request refused. -/
theorem C102_counts_members (F : Floats) :
    (((StoreMemory.cases.drop 35).take 4).map fun e => [2, 3, 99].map fun k => sketch F e.1 (e.1.storeM F (short true k) e.2.1 e.2.2 0)) =
      [[("alloc", "{\"k\":\"a\",\"l\":\"b\"}", 3), ("alloc", "{\"k\":\"\",\"l\":\"b\"}", 4), ("{\"k\":\"a\",\"l\":\"b\"}", "{\"k\":\"\",\"l\":\"\"}", 5)],
        [("alloc", "{\"k\":\"a\"}", 3), ("alloc", "{\"k\":\"a\"}", 4), ("{\"k\":\"a\"}", "{\"k\":\"a\"}", 4)],
        [("{}", "{}", 1), ("{}", "{}", 1), ("{}", "{}", 1)],
        [("alloc", "{\"k\":1}", 3), ("alloc", "{\"k\":1}", 4), ("{\"k\":1}", "{\"k\":1}", 7)]] := by rfl

/-- Classes. -/
theorem C102_counts_classes (F : Floats) :
    ((StoreMemory.cases.drop 39).map fun e => [0, 1, 2, 3, 4, 99].map fun k => sketch F e.1 (e.1.storeM F (short true k) e.2.1 e.2.2 0)) =
      [[("alloc", "{\"k\":null,\"m\":1}", 1), ("alloc", "{\"k\":null,\"m\":1}", 2), ("alloc", "{\"k\":null,\"m\":1}", 3), ("alloc", "{\"k\":null,\"m\":1}", 4), ("alloc", "{\"k\":null,\"m\":1}", 5), ("{\"k\":null,\"m\":1}", "{\"k\":null,\"m\":1}", 8)],
        [("alloc", "ub", 1), ("alloc", "ub", 2), ("alloc", "ub", 3), ("alloc", "ub", 4), ("alloc", "ub", 5), ("ub", "ub", 6)],
        [("alloc", "json", 1), ("alloc", "json", 2), ("alloc", "json", 3), ("json", "json", 3), ("json", "json", 3), ("json", "json", 3)]] := by rfl

/-- Collections without `size()`. -/
theorem C102_counts_unsized (F : Floats) :
    (((StoreMemory.cases.drop 15).take 6).map fun e => [0, 1, 2, 3, 4, 99].map fun k => sketch F e.1 (e.1.storeM F (short false k) e.2.1 e.2.2 0)) =
      [[("alloc", "[\"a\",\"b\"]", 1), ("alloc", "[\"a\",\"b\"]", 2), ("[\"a\",\"b\"]", "[\"\",\"\"]", 2), ("[\"a\",\"b\"]", "[\"\",\"\"]", 2), ("[\"a\",\"b\"]", "[\"\",\"\"]", 2), ("[\"a\",\"b\"]", "[\"\",\"\"]", 2)],
        [("alloc", "[\"a\",\"b\"]", 1), ("alloc", "[\"a\",\"b\"]", 2), ("[\"a\",\"b\"]", "[\"\",\"\"]", 2), ("[\"a\",\"b\"]", "[\"\",\"\"]", 2), ("[\"a\",\"b\"]", "[\"\",\"\"]", 2), ("[\"a\",\"b\"]", "[\"\",\"\"]", 2)],
        [("alloc", "[\"a\",\"b\"]", 1), ("alloc", "[\"a\",\"b\"]", 2), ("alloc", "[\"a\",\"b\"]", 3), ("alloc", "[\"a\",\"b\"]", 4), ("[\"a\",\"b\"]", "[\"a\",\"b\"]", 4), ("[\"a\",\"b\"]", "[\"a\",\"b\"]", 4)],
        [("alloc", "[]", 1), ("[]", "[]", 1), ("[]", "[]", 1), ("[]", "[]", 1), ("[]", "[]", 1), ("[]", "[]", 1)],
        [("alloc", "[[\"a\"],[\"b\"]]", 1), ("alloc", "[[\"a\"],[\"b\"]]", 2), ("alloc", "[[\"a\"],[\"b\"]]", 3), ("alloc", "[[\"a\"],[\"b\"]]", 4), ("alloc", "[[\"\"],[\"b\"]]", 5), ("[[\"a\"],[\"b\"]]", "[[\"\"],[\"\"]]", 6)],
        [("alloc", "[1,2,3]", 1), ("alloc", "[1,2,3]", 2), ("alloc", "[1,2,3]", 3), ("alloc", "[1,2,3]", 4), ("alloc", "[1,2,3]", 5), ("[1,2,3]", "[1,2,3]", 6)]] := by rfl

end Meojson
