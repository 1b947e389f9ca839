import Verif.Proofs.AsMemory
import Verif.Props.TakeMemory

/-!
# C103: a conversion from a const value that runs out of memory says so, and loads members whole or not at all
-/

set_option autoImplicit false

namespace Meojson
open Spec Value

namespace AsMemory

/-- A library that refuses the request `k`. Vectors reserve if `r`; an insertion makes two requests for the first element and one for the second; a text is asked for as often as it has characters, and any
other conversion asks once. -/
def short (r : Bool) (k : Nat) : Copier where
  gives i := i != k
  reserves _ := r
  asks _ i := 2 - i
  texts s := s.length
  others _ _ := 1

/-- The library that refuses nothing. -/
def plenty (r : Bool) : Copier := { short r 0 with gives := fun _ => true }

/-- How it ended, and the number of the next request. -/
def sketch (r : Out CVal × Nat) : String × Nat :=
  (match r.1 with | .ok _ => "ok" | .throw .json => "json" | .throw .badAlloc => "alloc" | .throw _ => "other" | .ub => "ub", r.2)

/-- `struct { std::string a; bool b; }` with the key `b` optional and called `cc`. -/
def cls : Fields := .var (ascii "a") (.str []) .string (.opt (.key (ascii "cc") (.var (ascii "b") (.bool false) .bool .done)))

/-- Conversions of all kinds. -/
def cases : List (Ty × Value) :=
  let int : Ty := .int cInt
  let num : Value := .str .number (ascii "1")
  let txt : Value := .str .string (ascii "a")
  let two : Value := .arr .array [txt, txt]
  let mem : Value := .obj .object [(ascii "a", txt), (ascii "cc", .str .boolean (ascii "true"))]
  let pair : Ty → Ty → Ty := fun a b => .tuple (.cons a (.cons b .nil))
  let one : Ty → Ty → Ty := fun a b => .variant (.cons a (.cons b .nil))
  [(.json, two), (.jarray, two), (.jobject, mem), (.string, txt), (.string, num), (int, num), (.bool, num), (.nullable .pointer .string, .null), (.nullable .pointer .string, txt), (.nullable .optional .string, txt),
   (.nullable .optional .string, .null), (.seq .string, two), (.seq .string, .arr .array []), (.seq .string, txt), (.seq .bool, two), (.set (fun _ _ => false) .string, two), (.fixed 2 .string, two), (.fixed 3 .string, two),
   (pair .string .string, two), (pair .string .bool, two), (.tuple (.cons .string .nil), txt), (.tuple (.cons .string .nil), two), (pair .string (pair .string .string), .arr .array [txt]), (one .bool .string, txt),
   (one .bool int, txt), (one .bool .json, txt), (.map .string, .obj .object [(ascii "a", txt), (ascii "b", txt)]), (.map .string, two), (.map .bool, mem),
   (.struct cls, mem), (.struct cls, .obj .object [(ascii "a", txt)]), (.struct cls, .obj .object []), (.struct cls, .obj .object [(ascii "a", .null)]), (.struct cls, two), (.seq .string, .arrNull .array)]
end AsMemory

open AsMemory

/-- With little memory the conversion ends as with enough, or throws `std::bad_alloc` because a request of its own was refused: no other exception, nothing undefined, no other result. -/
theorem C103_outcome (F : Floats) (C : Copier) (t : Ty) (v : Value) (hv : v.Sound) (n : Nat) :
    (∃ x, (t.asM F C v n).1 = .ok x ∧ t.as F v = .ok x) ∨ ((t.asM F C v n).1 = .throw .json ∧ t.as F v = .throw .json) ∨
    ((t.asM F C v n).1 = .throw .badAlloc ∧ ∃ i, n ≤ i ∧ i < (t.asM F C v n).2 ∧ C.gives i = false) := by
  rcases (asM_goes F C t v n).cases with h | ⟨h, k⟩
  · rw [h]
    rcases (C27_defined F t v hv).2 with ⟨x, e⟩ | e
    · exact .inl ⟨x, e, e⟩
    · exact .inr (.inl ⟨e, e⟩)
  · exact .inr (.inr ⟨h, k⟩)

example (F : Floats) :
    ((Ty.seq .string).asM F (plenty true) (.arr .array [.str .string [0x61]]) 0 = (.ok (.list [.str [0x61]]), 2)) ∧ ((Ty.seq .string).asM F (plenty true) (.str .string []) 0).1 = .throw .json ∧
    (Ty.seq .string).asM F (short false 2) (.arr .array [.str .string [0x61]]) 0 = (.throw .badAlloc, 3) := by
  refine ⟨?_, ?_, ?_⟩ <;> simp only [Ty.asM] <;> rfl

/-- With enough memory it ends as in C27 and C28, also on values that are not sound. -/
theorem C103_enough (F : Floats) (C : Copier) (hC : ∀ i, C.gives i = true) (t : Ty) (v : Value) (n : Nat) : (t.asM F C v n).1 = t.as F v := by
  rcases (asM_goes F C t v n).cases with h | ⟨_, i, _, _, h⟩
  · exact h
  · rw [hC i] at h; cases h

example (r : Bool) : ∀ i, (plenty r).gives i = true := fun _ => rfl

/-- Loading into an object of a class with MEO_JSONIZATION: if a request is refused, the first members are what they are with enough memory and the others have not been touched. No member is left in between. -/
theorem C103_members (F : Floats) (C : Copier) (fs : Fields) (v : Value) (dst : List CVal) (n : Nat) :
    let r := fs.loadM F C {} v dst n
    (r.1.1 = (fs.load F {} v dst).1 ∧ r.2 = (fs.load F {} v dst).2) ∨
    (r.1.1 = .throw .badAlloc ∧ (∃ i, n ≤ i ∧ i < r.1.2 ∧ C.gives i = false) ∧ ∃ k, r.2 = (fs.load F {} v dst).2.take k ++ dst.drop k) :=
  (loadM_goes F C fs {} v dst n).cases

/-- The first member has its new text when there is no memory for the key of the second. -/
example (F : Floats) :
    cls.loadM F (short true 3) {} (.obj .object [(ascii "a", .str .string [0x61]), (ascii "cc", .str .boolean (ascii "true"))]) [.str [0x7A], .bool false] 0 =
      ((.throw .badAlloc, 4), [.str [0x61], .bool false]) := by
  simp only [cls, Fields.loadM, Ty.asM]; rfl

/-- These conversions keep the contract that the theorems of C101 ask of conversions with `const&` inside, so those hold of the library without it. -/
theorem C103_fair (F : Floats) (C : Copier) : (C.memory F).Fair F := fun t v n => ⟨(asM_goes F C t v n).mono, (asM_goes F C t v n).cases⟩

/-- For instance: a conversion from an rvalue that runs out of memory, in a container that reserves, leaves the document as it was. -/
theorem C103_rvalue (F : Floats) (C : Copier) (t : Ty) (ht : t.Careful (C.memory F)) (v : Value) (hv : v.Sound) (hb : ¬ Blank v) (n : Nat)
    (h : (t.takeM F (C.memory F) v n).2.1 = .throw .badAlloc) : (t.takeM F (C.memory F) v n).1 = v :=
  C101_strong_partial F (C.memory F) (C103_fair F C) t ht v hv hb n h

example (F : Floats) : (Ty.seq .json).Careful ((short true 0).memory F) ∧ ((Ty.seq .json).takeM F ((short true 0).memory F) TakeMemory.doc 0).2.1 = .throw .badAlloc := by
  constructor
  · simp [Ty.Careful, short, Copier.memory]
  · simp only [Ty.takeM]; rfl

/-- How conversions of all kinds end when one of the first four requests is refused and when none is, and how many requests were made: without `reserve`, and for sequences with it. -/
theorem C103_counts (F : Floats) :
    (AsMemory.cases.map fun e => [0, 1, 2, 3, 99].map fun k => sketch (e.1.asM F (short false k) e.2 0)) =
      [[("alloc", 1), ("ok", 1), ("ok", 1), ("ok", 1), ("ok", 1)], [("alloc", 1), ("ok", 1), ("ok", 1), ("ok", 1), ("ok", 1)], [("alloc", 1), ("ok", 1), ("ok", 1), ("ok", 1), ("ok", 1)],
        [("alloc", 1), ("ok", 1), ("ok", 1), ("ok", 1), ("ok", 1)], [("alloc", 1), ("alloc", 2), ("json", 2), ("json", 2), ("json", 2)],
        [("alloc", 1), ("ok", 1), ("ok", 1), ("ok", 1), ("ok", 1)], [("alloc", 1), ("alloc", 2), ("json", 2), ("json", 2), ("json", 2)], [("ok", 0), ("ok", 0), ("ok", 0), ("ok", 0), ("ok", 0)],
        [("alloc", 1), ("alloc", 2), ("ok", 2), ("ok", 2), ("ok", 2)], [("alloc", 1), ("ok", 1), ("ok", 1), ("ok", 1), ("ok", 1)],
        [("alloc", 1), ("alloc", 2), ("json", 2), ("json", 2), ("json", 2)], [("alloc", 1), ("alloc", 2), ("alloc", 3), ("alloc", 4), ("ok", 5)],
        [("ok", 0), ("ok", 0), ("ok", 0), ("ok", 0), ("ok", 0)], [("alloc", 1), ("json", 1), ("json", 1), ("json", 1), ("json", 1)],
        [("alloc", 1), ("alloc", 2), ("json", 2), ("json", 2), ("json", 2)], [("alloc", 1), ("alloc", 2), ("alloc", 3), ("alloc", 4), ("ok", 5)],
        [("alloc", 1), ("alloc", 2), ("ok", 2), ("ok", 2), ("ok", 2)], [("alloc", 1), ("json", 1), ("json", 1), ("json", 1), ("json", 1)],
        [("alloc", 1), ("alloc", 2), ("ok", 2), ("ok", 2), ("ok", 2)], [("alloc", 1), ("alloc", 2), ("alloc", 3), ("json", 3), ("json", 3)],
        [("alloc", 1), ("ok", 1), ("ok", 1), ("ok", 1), ("ok", 1)], [("alloc", 1), ("alloc", 2), ("json", 2), ("json", 2), ("json", 2)],
        [("alloc", 1), ("json", 1), ("json", 1), ("json", 1), ("json", 1)], [("alloc", 1), ("ok", 1), ("ok", 1), ("ok", 1), ("ok", 1)],
        [("alloc", 1), ("json", 1), ("json", 1), ("json", 1), ("json", 1)], [("alloc", 1), ("ok", 1), ("ok", 1), ("ok", 1), ("ok", 1)],
        [("alloc", 1), ("alloc", 2), ("alloc", 3), ("alloc", 4), ("ok", 5)], [("alloc", 1), ("json", 1), ("json", 1), ("json", 1), ("json", 1)],
        [("alloc", 1), ("alloc", 2), ("json", 2), ("json", 2), ("json", 2)], [("alloc", 1), ("alloc", 2), ("alloc", 3), ("alloc", 4), ("ok", 6)],
        [("alloc", 1), ("alloc", 2), ("alloc", 3), ("alloc", 4), ("ok", 5)], [("alloc", 1), ("alloc", 2), ("alloc", 3), ("alloc", 4), ("json", 4)],
        [("alloc", 1), ("alloc", 2), ("alloc", 3), ("alloc", 4), ("json", 4)], [("alloc", 1), ("alloc", 2), ("alloc", 3), ("alloc", 4), ("json", 4)],
        [("ub", 0), ("ub", 0), ("ub", 0), ("ub", 0), ("ub", 0)]] ∧
    (((AsMemory.cases.drop 11).take 3).map fun e => [0, 1, 2, 3, 99].map fun k => sketch (e.1.asM F (short true k) e.2 0)) =
      [[("alloc", 1), ("alloc", 2), ("alloc", 3), ("ok", 3), ("ok", 3)], [("ok", 0), ("ok", 0), ("ok", 0), ("ok", 0), ("ok", 0)],
        [("alloc", 1), ("json", 1), ("json", 1), ("json", 1), ("json", 1)]] := ⟨by rfl, by rfl⟩

end Meojson
