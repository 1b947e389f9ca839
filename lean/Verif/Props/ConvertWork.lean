import Verif.Proofs.ConvertWork
import Verif.Props.Serialize

/-!
# C95: converting a document takes work in proportion to the document

For a type without classes inside classes that is so. For classes inside each other it is not: every member is checked with `is` before it is read with `as`, so that the innermost member is
looked at once for each class around it; and `is` of a `std::variant` goes through the same value once for each alternative, on every level anew.
-/

set_option autoImplicit false

namespace Meojson
open Spec Value Work

/-- The counted conversions give what `is` and `as` give. -/
theorem C95_same (F : Floats) (t : Ty) (v : Value) : (t.isW F v).res = t.is F v ∧ (t.asW F v).res = t.as F v := ⟨isW_res F t v, asW_res F t v⟩

/-- For one type the work is at most proportional to the values and bytes in the document, for every document: with the size of the type as the factor for `is`, and its size times its height
for `as`. -/
theorem C95_linear_partial (F : Floats) (t : Ty) (v : Value) :
    (t.isW F v).ticks ≤ t.extent * v.weight ∧ (t.asW F v).ticks ≤ t.extent * t.height * v.weight := ⟨isW_extent F t v, asW_extent F t v⟩

/-- For types without `std::variant` a factor does that only depends on the single classes and not on how they are inside each other, if each level of the document is counted once more
for `as`. -/
theorem C95_modest_partial (F : Floats) (K : Nat) (t : Ty) (v : Value) (h : t.Modest K) :
    (t.isW F v).ticks ≤ K * v.weight ∧ (t.asW F v).ticks ≤ K * v.weight * v.levels := by
  have h1 := modest_is (weight_pos v) (own_lt h) (isW_modest F t v h)
  have h2 := modest_as (weight_pos v) (levels_pos v) (own_lt h) (asW_modest F t v h)
  omega

example : (Ty.struct (.var (ascii "a") (.list []) (.seq .string) (.opt (.key (ascii "k") (.var (ascii "b") (.list []) (.map (.int cInt)) .done))))).Modest 4 := by
  simp only [Ty.Modest, Fields.Modest, Ty.own]
  decide +kernel

namespace ConvertWork

theorem find_only (k : Bytes) (w : Value) : (Value.obj .object [(k, w)]).findKey k = .ok (some w) := by
  simp [Value.findKey, Value.asObject, Value.type, RawObject.find, bytesLt_irrefl, Out.bind]

theorem bind_ok {α β : Type} (a : α) (n d : Nat) (f : α → Work β) : (Work.mk (.ok a) n d).bind f = ⟨(f a).res, n + (f a).ticks, max d (f a).depth⟩ := rfl

theorem eta {α : Type} {w : Work α} {r : Out α} {n : Nat} (hr : w.res = r) (hn : w.ticks = n) : w = ⟨r, n, w.depth⟩ := by subst hr hn; rfl

theorem chain_is (F : Floats) (bottom : Ty) : ∀ n, ((Chain bottom (n + 1)).isW F (chainDoc n)).res = .ok true ∧ ((Chain bottom (n + 1)).isW F (chainDoc n)).ticks = 4 * n + 3
  | 0 => ⟨rfl, rfl⟩
  | n + 1 => by
    have ih := chain_is F bottom n
    have ih := eta ih.1 ih.2
    rw [Chain, chainDoc]
    simp [Ty.isW, Fields.checkW, NextState.keyFor, find_only, ret, tick, bind_ok, Out.noexcept, Value.type, Value.asArray, allAreW]
    rw [ih]
    simp [bind_ok]
    omega

/-- What comes out of the document. -/
def chainVal : Nat → CVal
  | 0 => .list [.list []]
  | n + 1 => .list [.list [chainVal n]]

theorem chain_as (F : Floats) (bottom : Ty) : ∀ n, ((Chain bottom (n + 1)).asW F (chainDoc n)).res = .ok (chainVal n) ∧
    ((Chain bottom (n + 1)).asW F (chainDoc n)).ticks = 2 * n * n + 7 * n + 4
  | 0 => ⟨rfl, rfl⟩
  | n + 1 => by
    have hi := chain_is F bottom n
    have hi := eta hi.1 hi.2
    have ih := chain_as F bottom n
    have ih := eta ih.1 ih.2
    rw [Chain, chainDoc]
    simp [Ty.asW, Ty.isW, Fields.loadW, Fields.defaults, NextState.keyFor, find_only, ret, tick, bind_ok, Out.noexcept, Value.type, Value.asArray, allAreW, eachOfW]
    rw [ih, hi]
    simp [bind_ok, chainVal]
    rw [Nat.mul_add 2, Nat.add_mul, Nat.mul_add (2 * n)]
    omega

theorem chain_dumps : ∀ n, ∃ s, (chainDoc n).dumps = .ok s ∧ s.length = 11 * (n + 1)
  | 0 => ⟨_, rfl, by decide +kernel⟩
  | n + 1 => by
    obtain ⟨s, h, hs⟩ := chain_dumps n
    have h : (chainDoc n).dumpTo = .ok s := h
    refine ⟨[0x7b] ++ ([0x22] ++ escapeString (ascii "next") ++ [0x22, 0x3a] ++ ([0x5b] ++ s ++ [0x5d])) ++ [0x7d], ?_, ?_⟩
    · simp [Value.dumps, chainDoc, Value.dumpTo, Value.dumpMembers, Value.dumpElems, h, Out.bind]
    · have : (escapeString (ascii "next")).length = 4 := by decide +kernel
      simp only [List.length_append, List.length_cons, List.length_nil, this, hs]
      omega

theorem chain_json : ∀ n, (chainDoc n).Json
  | 0 => by simp [chainDoc, Value.Json, Wf, WfAll, WfMembers]
  | n + 1 => by
    have : Wf Number False (chainDoc n) := chain_json n
    simp [chainDoc, Value.Json, Wf, WfAll, WfMembers, this]

theorem chain_modest {bottom : Ty} (h : bottom.Modest 3) : ∀ n, (Chain bottom n).Modest 3
  | 0 => h
  | n + 1 => by
    have := chain_modest h n
    simp [Chain, Ty.Modest, Fields.Modest, Ty.own, Fields.members, Fields.membersFrom, this]

theorem int_not (s : Bytes) : Value.isInt cInt (.str .string s) = .ok false := rfl

theorem tree_is (F : Floats) (bottom : Ty) : ∀ n, ((Tree bottom (n + 1)).isW F (treeDoc n)).res = .ok true ∧ ((Tree bottom (n + 1)).isW F (treeDoc n)).ticks + 15 = 18 * 2 ^ n
  | 0 => ⟨rfl, rfl⟩
  | n + 1 => by
    have ih := tree_is F bottom n
    obtain ⟨m, hm⟩ : ∃ m, m = ((Tree bottom (n + 1)).isW F (treeDoc n)).ticks := ⟨_, rfl⟩
    have hi := eta ih.1 hm.symm
    have h2 := ih.2
    rw [← hm] at h2
    rw [Tree, treeDoc]
    simp [Ty.isW, Tys.isAnyW, Tys.areAllW, Fields.checkW, NextState.keyFor, find_only, ret, tick, bind_ok, Out.noexcept, Value.type, Value.asArray, allAreW, Tys.size, Ty.is, int_not, Value.textLength]
    rw [hi]
    simp [bind_ok, Nat.pow_succ, ascii]
    omega

/-- What comes out of the document. -/
def treeVal : Nat → CVal
  | 0 => .list [.list []]
  | n + 1 => .list [.list [.alt 1 (.list [treeVal n, .str (ascii "x")])]]

theorem text_of (s : Bytes) : (Value.str .string s).asString = .ok s := rfl

theorem tree_none (t : Ty) : (Tys.cons (.tuple (.cons t (.cons (.int cInt) .nil))) (.cons (.tuple (.cons t (.cons .string .nil))) .nil)).chosen = none := rfl

theorem tree_as (F : Floats) (bottom : Ty) : ∀ n, ((Tree bottom (n + 1)).asW F (treeDoc n)).res = .ok (treeVal n) ∧ 18 * 2 ^ n ≤ ((Tree bottom (n + 1)).asW F (treeDoc n)).ticks + 15
  | 0 => ⟨rfl, show 18 ≤ 4 + 15 by decide⟩
  | n + 1 => by
    have hi := tree_is F bottom n
    obtain ⟨m, hm⟩ : ∃ m, m = ((Tree bottom (n + 1)).isW F (treeDoc n)).ticks := ⟨_, rfl⟩
    have h2 := hi.2
    have hi := eta hi.1 hm.symm
    rw [← hm] at h2
    have ih := tree_as F bottom n
    have ih := eta ih.1 rfl
    rw [Tree, treeDoc]
    simp [Ty.asW, Tys.asAnyW, Tys.asAllW, tree_none, text_of, Out.bind, Ty.isW, Tys.isAnyW, Tys.areAllW, Fields.loadW, Fields.defaults, NextState.keyFor, find_only, ret, tick, bind_ok, Out.noexcept, Value.type,
      Value.asArray, allAreW, eachOfW, Tys.size, Ty.is, int_not, Ty.as, Value.textLength]
    rw [hi, ih]
    simp [bind_ok, Nat.pow_succ, treeVal, ascii]
    omega

theorem tree_dumps : ∀ n, ∃ s, (treeDoc n).dumps = .ok s ∧ s.length = 17 * n + 11
  | 0 => ⟨_, rfl, by decide +kernel⟩
  | n + 1 => by
    obtain ⟨s, h, hs⟩ := tree_dumps n
    have h : (treeDoc n).dumpTo = .ok s := h
    refine ⟨[0x7b] ++ ([0x22] ++ escapeString (ascii "kids") ++ [0x22, 0x3a] ++ ([0x5b] ++ ([0x5b] ++ (s ++ [0x2c] ++ ([0x22] ++ escapeString (ascii "x") ++ [0x22])) ++ [0x5d]) ++ [0x5d])) ++ [0x7d], ?_, ?_⟩
    · simp [Value.dumps, treeDoc, Value.dumpTo, Value.dumpMembers, Value.dumpElems, h, Out.bind]
    · have : (escapeString (ascii "kids")).length = 4 := by decide +kernel
      have h' : (escapeString (ascii "x")).length = 1 := by decide +kernel
      simp only [List.length_append, List.length_cons, List.length_nil, this, hs, h']
      omega

theorem tree_json : ∀ n, (treeDoc n).Json
  | 0 => by simp [treeDoc, Value.Json, Wf, WfAll, WfMembers]
  | n + 1 => by
    have : Wf Number False (treeDoc n) := tree_json n
    simp [treeDoc, Value.Json, Wf, WfAll, WfMembers, this]

theorem pow_grows (K : Nat) : ∃ n, K * (17 * n + 11) + 15 < 18 * 2 ^ n := by
  have h : ∀ n : Nat, n < 2 ^ n := fun n => Nat.lt_two_pow_self
  refine ⟨2 * K + 10, ?_⟩
  have h2 := h (K + 4)
  have e : 2 ^ (2 * K + 10) = 4 * (2 ^ (K + 4) * 2 ^ (K + 4)) := by rw [← Nat.pow_add, show 2 * K + 10 = 2 + (K + 4 + (K + 4)) by omega, Nat.pow_add]
  have h3 := Nat.mul_le_mul (show K + 5 ≤ 2 ^ (K + 4) from h2) (show K + 5 ≤ 2 ^ (K + 4) from h2)
  rw [e]
  have h5 : K * (17 * (2 * K)) = 34 * (K * K) := by rw [Nat.mul_left_comm, Nat.mul_left_comm K 2]; omega
  simp only [Nat.mul_add, Nat.add_mul, h5] at *
  omega

/-- Types and values of all kinds, for counts to the unit. -/
def kinds : List (Ty × Value) :=
  let int : Ty := .int cInt
  let num : Value := .str .number (ascii "12")
  let txt : Value := .str .string (ascii "abc")
  let nul : Value := .str .null []
  let two : Fields := .var (ascii "a") (.int 0) int (.opt (.var (ascii "b") (.int 0) int .done))
  [(.bool, .str .boolean (ascii "true")), (int, num), (int, txt), (.string, txt), (.null, nul), (.json, .arr .array [txt, num]), (.jarray, .arr .array [txt, num]),
    (.jobject, .obj .object [(ascii "k", txt)]), (.nullable .optional int, nul), (.nullable .optional int, num), (.nullable .pointer int, nul), (.nullable .pointer int, num),
    (.seq int, .arr .array [num, num]), (.seq int, .arr .array [txt, num]), (.seq int, num), (.set (fun _ _ => false) int, .arr .array [num, num, num]),
    (.fixed 2 int, .arr .array [num, num]), (.fixed 2 int, .arr .array [num]), (.tuple (.cons int (.cons .string .nil)), .arr .array [num, txt]),
    (.tuple (.cons int (.cons .string .nil)), .arr .array [txt, txt]), (.tuple (.cons int .nil), .arr .array [num]), (.tuple (.cons int .nil), num),
    (.variant (.cons int (.cons .string .nil)), txt), (.variant (.cons int (.cons .string .nil)), .arr .array []), (.map int, .obj .object [(ascii "k", num), (ascii "lm", num)]),
    (.map int, .obj .object [(ascii "k", txt), (ascii "lm", num)]), (.struct two, .obj .object [(ascii "a", num)]), (.struct two, .obj .object [(ascii "a", num), (ascii "b", txt)]),
    (.struct two, .obj .object [(ascii "b", num)])]

/-- A class of the user's whose check finds nothing wrong and whose `from_json` refuses every value. -/
def fussy : User := ⟨fun _ => True, fun _ => true, fun _ => none, fun _ => none⟩

/-- Classes with members that are not read: twice because `from_json` of a member refuses, three times because of a value whose pointer is null. -/
def failing : List (Ty × Value) :=
  let int : Ty := .int cInt
  let num : Value := .str .number (ascii "12")
  [(.struct (.var (ascii "a") (.int 0) int (.var (ascii "b") (.int 0) (.user fussy) (.var (ascii "c") (.int 0) int .done))), .obj .object [(ascii "a", num), (ascii "b", num), (ascii "c", num)]),
    (.struct (.var (ascii "b") (.list []) (.seq (.user fussy)) .done), .obj .object [(ascii "b", .arr .array [num, num])]),
    (.struct (.var (ascii "b") (.list []) (.seq int) .done), .obj .object [(ascii "b", .arrNull .array)]),
    (.struct (.var (ascii "a") (.int 0) int (.var (ascii "b") (.list []) (.seq (.seq int)) .done)), .obj .object [(ascii "a", num), (ascii "b", .arr .array [.arr .array [num], .arrNull .array])]),
    (.struct (.var (ascii "b") (.json .null) .json .done), .obj .object [(ascii "b", .arr .array [num, .arrNull .array])])]

end ConvertWork

open ConvertWork

/-- What is counted, on values of all kinds. Depth is not: it is bounded by the type. -/
theorem C95_counts (F : Floats) :
    (kinds.map fun e => (e.1.isW F e.2).ticks) = [5, 3, 4, 4, 1, 1, 1, 1, 1, 4, 1, 4, 9, 6, 1, 13, 9, 1, 10, 6, 5, 1, 9, 3, 9, 6, 6, 10, 2] ∧
    (kinds.map fun e => (e.1.asW F e.2).ticks) = [5, 3, 4, 4, 1, 8, 8, 6, 2, 4, 1, 4, 9, 6, 1, 13, 9, 1, 10, 6, 2, 4, 13, 3, 12, 6, 9, 13, 2] ∧
    ((kinds ++ failing).map fun e => ((e.1.isW F e.2).depth, (e.1.asW F e.2).depth)) = List.replicate 34 (0, 0) := ⟨rfl, rfl, rfl⟩

/-- A conversion that fails has done what it did before. -/
theorem C95_counts_failing (F : Floats) :
    (failing.map fun e => (e.1.isW F e.2).ticks) = [13, 11, 3, 15, 3] ∧ (failing.map fun e => (e.1.asW F e.2).ticks) = [15, 16, 3, 18, 8] ∧
    (failing.map fun e => match e.1.as F e.2 with | .ok _ => "ok" | .throw _ => "throw" | .ub => "ub") = ["throw", "throw", "ub", "ub", "ub"] := ⟨rfl, rfl, rfl⟩

/-- `struct Node { std::vector<Node> next; MEO_JSONIZATION(next) };` and `{"next":[{"next":[…{"next":[]}…]}]}` with `n` levels more than one: the document is parsed, and the work of `is` and
of `as`, to the unit. The class is one without variants, and one factor serves for all of its unfoldings. -/
theorem C95_chain (F : Floats) (bottom : Ty) (a : Accel) (n : Nat) :
    (Chain bottom (n + 1)).is F (chainDoc n) = .ok true ∧ ((Chain bottom (n + 1)).isW F (chainDoc n)).ticks = 4 * n + 3 ∧
    (∃ x, (Chain bottom (n + 1)).as F (chainDoc n) = .ok x) ∧ ((Chain bottom (n + 1)).asW F (chainDoc n)).ticks = 2 * n * n + 7 * n + 4 ∧
    (∃ s, s.length = 11 * (n + 1) ∧ parse a.traits s = some (chainDoc n)) ∧ (bottom.Modest 3 → (Chain bottom (n + 1)).Modest 3) := by
  obtain ⟨s, hs, hl⟩ := chain_dumps n
  obtain ⟨s', hs', hp, -⟩ := C08_roundtrip a (chainDoc n) (chain_json n) (.inr (by cases n <;> rfl))
  rw [hs, Out.ok.injEq] at hs'
  subst hs'
  exact ⟨isW_res F _ _ ▸ (chain_is F bottom n).1, (chain_is F bottom n).2, ⟨_, asW_res F _ _ ▸ (chain_as F bottom n).1⟩, (chain_as F bottom n).2, ⟨s, hl, hp⟩, fun h => chain_modest h _⟩

/-- So no factor does for this class: the work of `as` is not bounded by a multiple of the length of the text. -/
theorem C95_refuted_quadratic (F : Floats) (bottom : Ty) (a : Accel) (K : Nat) : ∃ n s, parse a.traits s = some (chainDoc n) ∧ (∃ x, (Chain bottom (n + 1)).as F (chainDoc n) = .ok x) ∧
    K * s.length < ((Chain bottom (n + 1)).asW F (chainDoc n)).ticks := by
  obtain ⟨-, -, hx, ht, ⟨s, hl, hp⟩, -⟩ := C95_chain F bottom a (11 * K)
  refine ⟨11 * K, s, hp, hx, ?_⟩
  rw [ht, hl]
  generalize hn : 11 * K = n
  have h1 : K * (11 * (n + 1)) = n * (n + 1) := by rw [← Nat.mul_assoc, Nat.mul_comm K, hn]
  rw [h1, Nat.mul_add, Nat.mul_assoc]
  omega

/-- `struct Node { std::vector<std::variant<std::pair<Node, int>, std::pair<Node, std::string>>> kids; MEO_JSONIZATION(kids) };` and
`{"kids":[[{"kids":[[…{"kids":[]}…,"x"]]},"x"]]}`: the text has `17 n + 11` bytes and is parsed, the conversion succeeds, and its work doubles with every level. -/
theorem C95_tree (F : Floats) (bottom : Ty) (a : Accel) (n : Nat) :
    (Tree bottom (n + 1)).is F (treeDoc n) = .ok true ∧ ((Tree bottom (n + 1)).isW F (treeDoc n)).ticks + 15 = 18 * 2 ^ n ∧
    (∃ x, (Tree bottom (n + 1)).as F (treeDoc n) = .ok x) ∧ 18 * 2 ^ n ≤ ((Tree bottom (n + 1)).asW F (treeDoc n)).ticks + 15 ∧
    ∃ s, s.length = 17 * n + 11 ∧ parse a.traits s = some (treeDoc n) := by
  obtain ⟨s, hs, hl⟩ := tree_dumps n
  obtain ⟨s', hs', hp, -⟩ := C08_roundtrip a (treeDoc n) (tree_json n) (.inr (by cases n <;> rfl))
  rw [hs, Out.ok.injEq] at hs'
  subst hs'
  exact ⟨isW_res F _ _ ▸ (tree_is F bottom n).1, (tree_is F bottom n).2, ⟨_, asW_res F _ _ ▸ (tree_as F bottom n).1⟩, (tree_as F bottom n).2, s, hl, hp⟩

/-- So the property is false: the work of a conversion, even of `is` alone, is not bounded by a multiple of the length of the text. -/
theorem C95_refuted (F : Floats) (bottom : Ty) (a : Accel) (K : Nat) : ∃ n s, parse a.traits s = some (treeDoc n) ∧
    ((Tree bottom (n + 1)).is F (treeDoc n) = .ok true ∧ K * s.length < ((Tree bottom (n + 1)).isW F (treeDoc n)).ticks) ∧
    (∃ x, (Tree bottom (n + 1)).as F (treeDoc n) = .ok x) ∧ K * s.length < ((Tree bottom (n + 1)).asW F (treeDoc n)).ticks := by
  obtain ⟨n, hn⟩ := pow_grows K
  obtain ⟨hi, ht, hx, hle, s, hl, hp⟩ := C95_tree F bottom a n
  refine ⟨n, s, hp, ⟨hi, ?_⟩, hx, ?_⟩ <;> rw [hl] <;> omega

/-- Forty levels, 691 bytes: more than nineteen million million calls. -/
example (F : Floats) (bottom : Ty) : 19 * 10 ^ 12 < ((Tree bottom 41).isW F (treeDoc 40)).ticks := by
  have : ((Tree bottom 41).isW F (treeDoc 40)).ticks + 15 = 18 * 2 ^ 40 := (C95_tree F bottom .none 40).2.1
  omega

end Meojson
