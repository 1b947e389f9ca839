import Verif.Proofs.StoreWork
import Verif.Spec.ConvertWork

/-!
# C99: converting to JSON takes work in proportion to the document made
-/

set_option autoImplicit false

namespace Meojson
open Meojson.Work

/-- The functions that count are the functions of the model. -/
theorem C99_same (F : Floats) (t : Ty) (c : Cat) (x : CVal) : (t.storeW F c x).res = t.store F c x := storeW_res F t c x

/-- The work is at most a constant times the values and bytes in the document that is made; the constant is one more than the number of wrappers and variants that are directly inside each
other (and then their content) anywhere in the type. -/
theorem C99_linear (F : Floats) (K : Nat) (t : Ty) (c : Cat) (x y : CVal) (v : Value) (ht : t.Neat K) (hx : t.Has x) (h : t.store F c x = .ok (v, y)) :
    (t.storeW F c x).ticks ≤ K * v.weight := by
  have h1 := storeW_cheap (F := F) t c x ht hx (v, y) (by rw [storeW_res]; exact h)
  have h2 := neat_lt ht
  simp only at h1
  omega

/-- Classes that contain themselves, to any depth: the very classes whose loading takes quadratic and exponential work (C95). -/
theorem C99_recursive (bottom : Ty) (n : Nat) : (bottom.Neat 2 → (Chain bottom n).Neat 2) ∧ (bottom.Neat 3 → (Tree bottom n).Neat 3) := by
  constructor <;> intro h <;> induction n with
  | zero => exact h
  | succ n ih => simp [Chain, Tree, Ty.Neat, Tys.Neat, Fields.Neat, Ty.layers, Tys.layers, Fields.members, Fields.membersFrom, ih]

/-- From an rvalue, texts and JSON values are moved and not copied, also in sequences, arrays, tuples, variants and nullable wrappers: the work does not depend on how long they are. -/
theorem C99_moved (F : Floats) (t : Ty) (x : CVal) (ht : t.Carried) (hx : t.Has x) : (t.storeW F .rv x).ticks ≤ 2 * x.pieces := by
  have := storeW_moved (F := F) t x ht hx; omega

/-- But the members of a class with MEO_JSONIZATION, the elements of a set and the keys of a map are copied also from an rvalue. -/
theorem C99_not_moved (F : Floats) (name s : Bytes) (d : CVal) (lt : CVal → CVal → Bool) (c : Cat) :
    ((Ty.struct (.var name d .string .done)).storeW F c (.list [.str s])).ticks = 3 + name.length + s.length ∧
    ((Ty.set lt .string).storeW F c (.list [.str s])).ticks = 3 + s.length ∧
    ((Ty.map .null).storeW F c (.map [(s, .null)])).ticks = 3 + s.length := by
  refine ⟨?_, ?_, ?_⟩
  · simp [Ty.storeW, Fields.dumpW, Work.bind, Work.tick, ret, Ty.store, NextState.keyFor]; omega
  · cases c <;> simp [Ty.storeW, eachBothW, Work.bind, Work.tick, ret, Ty.store, Cat.setElement] <;> omega
  · cases c <;> simp [Ty.storeW, eachBothW, Work.bind, Work.tick, ret, Ty.store, Cat.element, madeW, Value.null, Value.weight] <;> omega

/-- A class with one key for two members: the first of them is converted and thrown away, so the document does not bound the work. -/
theorem C99_same_key (F : Floats) (K : Nat) : ∃ (t : Ty) (x y : CVal) (v : Value), t.Has x ∧ t.layers = 1 ∧ t.store F .constLv x = .ok (v, y) ∧ K * v.weight < (t.storeW F .constLv x).ticks := by
  refine ⟨.struct (.var [0x61] (.str []) .string (.var [0x61] (.str []) .string .done)), .list [.str (List.replicate (3 * K) 0x62), .str []],
    .list [.str (List.replicate (3 * K) 0x62), .str []], .obj .object [([0x61], .str .string [])], ⟨trivial, trivial, trivial⟩, rfl, ?_, ?_⟩
  · simp [Ty.store, Fields.dump, Out.bind, NextState.keyFor, RawObject.insertOrAssign, bytesLt, Value.ofObject]
  · simp [Ty.storeW, Fields.dumpW, Work.bind, Work.tick, ret, Ty.store, NextState.keyFor, Value.weight, Value.weightMembers]; omega

namespace StoreWork

/-- Types and values of all kinds, for counts to the unit. -/
def kinds : List (Ty × CVal) :=
  let int : Ty := .int cInt
  let num : Value := .str .number (ascii "12")
  let txt : CVal := .str (ascii "abc")
  let two : Fields := .var (ascii "a") (.int 0) int (.opt (.key (ascii "bcd") (.var (ascii "b") (.str []) .string .done)))
  [(.bool, .bool true), (int, .int 12), (int, txt), (.string, txt), (.null, .null), (.json, .json (.arr .array [num, num])), (.json, .json (.arrNull .array)), (.jarray, .jarray [num, num]),
    (.jobject, .jobject [(ascii "k", num)]), (.nullable .optional .string, .nothing), (.nullable .optional .string, .just txt), (.nullable .pointer .string, .just txt),
    (.nullable .pointer (.nullable .optional .string), .just (.just txt)), (.seq .string, .list [txt, txt]), (.set (fun _ _ => false) .string, .list [txt, txt]), (.fixed 2 .string, .list [txt, txt]),
    (.tuple (.cons int (.cons .string .nil)), .list [.int 12, txt]), (.variant (.cons int (.cons .string .nil)), .alt 1 txt), (.map .string, .map [(ascii "k", txt), (ascii "lm", txt)]),
    (.struct two, .list [.int 12, txt]), (.seq int, .list [.int 1, txt, .int 1])]

end StoreWork
open StoreWork

/-- What is counted, on values of all kinds, for each value category. -/
theorem C99_counts (F : Floats) :
    (kinds.map fun e => (e.1.storeW F .constLv e.2).ticks) = [5, 3, 1, 4, 1, 7, 1, 7, 5, 1, 5, 5, 3, 11, 11, 11, 10, 5, 14, 14, 4] ∧
    (kinds.map fun e => (e.1.storeW F .rv e.2).ticks) = [5, 3, 1, 1, 1, 1, 1, 1, 1, 1, 2, 2, 3, 5, 11, 5, 7, 2, 8, 14, 4] ∧
    (kinds.map fun e => (e.1.storeW F .lv e.2).ticks) = [5, 3, 1, 4, 1, 7, 1, 7, 5, 1, 2, 2, 3, 11, 11, 11, 10, 5, 14, 14, 4] ∧
    (kinds.map fun e => (e.1.storeW F .constRv e.2).ticks) = [5, 3, 1, 4, 1, 7, 1, 7, 5, 1, 5, 2, 3, 11, 11, 11, 10, 5, 14, 14, 4] := ⟨rfl, rfl, rfl, rfl⟩

/-- A conversion compares and prints nothing: the depth that is counted for comparison and serialisation stays 0. -/
theorem C99_flat (F : Floats) (t : Ty) (c : Cat) (x : CVal) : (t.storeW F c x).depth = 0 := storeW_flat t c x

/-- A type and a value as in C99_linear: `std::map<std::string, std::optional<std::vector<std::string>>>`, with 3. -/
example : (Ty.map (.nullable .optional (.seq .string))).Neat 3 ∧
    (Ty.map (.nullable .optional (.seq .string))).Has (.map [([0x61], .nothing), ([0x62], .just (.list [.str [0x63], .str []]))]) := by
  constructor
  · simp [Ty.Neat, Ty.layers]
  · simp [Ty.Has]; decide

example (F : Floats) : (Ty.map (.nullable .optional (.seq .string))).store F .constLv (.map [([0x61], .nothing), ([0x62], .just (.list [.str [0x63]]))]) =
    .ok (.obj .object [([0x61], .null), ([0x62], .arr .array [.str .string [0x63]])], .map [([0x61], .nothing), ([0x62], .just (.list [.str [0x63]]))]) := by rfl

/-- And as in C99_moved: `std::vector<std::optional<std::string>>`. -/
example : (Ty.seq (.nullable .optional .string)).Carried ∧ (Ty.seq (.nullable .optional .string)).Has (.list [.nothing, .just (.str [0x63])]) := by
  simp [Ty.Carried, Ty.Has]

end Meojson
