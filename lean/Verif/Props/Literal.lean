import Verif.Proofs.Literal
import Verif.Proofs.RoundTrip
import Verif.Spec.Heap
import Verif.Props.Containers

/-!
# C98: what nested braces make, and how often they copy it
-/

set_option autoImplicit false

namespace Meojson
open Meojson.Lit Meojson.Value Meojson.RawObject Meojson.Stores

/-- Elements are in the order written. -/
theorem C98_array (S : Shelf) (es : List Lit) : ((Lit.array es).make S).value = .arr .array (es.map fun e => (e.make S).value) := by
  simp [make, ofArray, makeAll_value]

/-- An object has the first of the members written with a key, in the order of the keys; braces with or without a class name make the same. -/
theorem C98_object (S : Shelf) (m : Bytes × Lit) (ms : List (Bytes × Lit)) :
    ∃ o : List (Bytes × Value), ((Lit.object (m :: ms)).make S).value = .obj .object o ∧ (∀ b, ((Lit.braces b (m :: ms)).make S).value = .obj .object o) ∧
      o.Pairwise (fun a b => a.1 < b.1) ∧
      ∀ k v, (k, v) ∈ o ↔ ((m :: ms).find? fun x => x.1 = k).map (fun x => (x.2.make S).value) = some v := by
  obtain ⟨h1, h2⟩ := ofInit_rep (makeMembers S (m :: ms)).value
  refine ⟨_, rfl, fun b => rfl, h1, fun k v => ?_⟩
  rw [← find_eq_some h1, h2, makeMembers_value, Spec.FMap.ofList, List.find?_map, Option.map_map]
  rfl

/-- No braces inside: `json::array{}` and `json::object{}` are empty, but `{}` and `json::value{}` are null, also as elements and members. -/
theorem C98_empty (S : Shelf) (b : Bool) (k : Bytes) :
    ((Lit.array []).make S).value = .arr .array [] ∧ ((Lit.object []).make S).value = .obj .object [] ∧ ((Lit.braces b []).make S).value = .str .null [] ∧
    ((Lit.array [.braces b []]).make S).value = .arr .array [.str .null []] ∧ ((Lit.braces false [(k, .braces b [])]).make S).value = .obj .object [(k, .str .null [])] := by
  refine ⟨rfl, rfl, rfl, rfl, rfl⟩

theorem ofInit_written (l : List (Bytes × Value)) : ∀ m : List (Bytes × Value), Sorted (m ++ l) → ObjectData.ofInit l m = m ++ l := by
  induction l with
  | nil => intro m _; simp [ObjectData.ofInit]
  | cons a l ih =>
    intro m h
    obtain ⟨k, v⟩ := a
    have hk : ∀ e ∈ m, e.1 < k := fun e he => (List.pairwise_append.1 h).2.2 e he (k, v) List.mem_cons_self
    simp only [ObjectData.ofInit]
    rw [emplace_last hk, ih _ (by simpa using h)]
    simp

/-- Every value can be written as a literal, with names or with bare braces. -/
theorem C98_written (S : Shelf) (bare : Bool) : ∀ v : Value, Keyed v → ((v.written bare).make S).value = v
  | .str _ _, _ => rfl
  | .arrNull _, _ => rfl
  | .objNull _, _ => rfl
  | .arr t vs, h => by
    cases t <;> first | rfl | (simp only [written, make, ofArray, all vs h]; done)
  | .obj t [], h => by cases t <;> rfl
  | .obj t (m :: ms), h => by
    have h1 := members (m :: ms) h.2
    have h2 := ofInit_written (m :: ms) [] (by simpa [Sorted] using h.1)
    obtain ⟨k, v⟩ := m
    cases t <;> first | rfl | skip
    cases bare <;> simp only [written, writtenMembers, make, Made.object, ofObject, Bool.false_eq_true, if_false, if_true] at h1 ⊢ <;> rw [h1, h2] <;> rfl
where
  all : ∀ vs : List Value, KeyedAll vs → (makeAll S (writtenAll bare vs)).value = vs
  | [], _ => rfl
  | v :: vs, h => by simp only [writtenAll, makeAll, C98_written S bare v h.1, all vs h.2]
  members : ∀ ms : List (Bytes × Value), KeyedMembers ms → (makeMembers S (writtenMembers bare ms)).value = ms
  | [], _ => rfl
  | (k, v) :: ms, h => by simp only [writtenMembers, makeMembers, C98_written S bare v h.1, members ms h.2]

/-- What is copied, exactly: each value and each byte once for each pair of braces around it, and once more for each of them that is the bare value of a member (unless `std::pair` moves it). -/
theorem C98_copies (S : Shelf) (l : Lit) (h : l.Distinct) : (l.make S).copied = l.shares (!S.pairMoves) 0 := by
  have := shares_eq S 0 l h; omega

/-- Keys written twice do not make it more. -/
theorem C98_at_most (S : Shelf) (l : Lit) : (l.make S).copied ≤ l.shares (!S.pairMoves) 0 ∧ (l.make S).copied ≤ 2 * l.depth * l.weight ∧
    (S.pairMoves → (l.make S).copied ≤ l.depth * l.weight) := by
  have h1 := shares_le S 0 l
  have h2 := shares_bound (!S.pairMoves) 0 l
  refine ⟨by omega, ?_, fun hp => ?_⟩
  · have : fold (!S.pairMoves) * l.depth ≤ 2 * l.depth := Nat.mul_le_mul_right _ (by unfold fold; split <;> omega)
    have := Nat.mul_le_mul_right l.weight this
    simp only [Nat.zero_add] at h2; omega
  · simp only [hp, fold, Nat.zero_add, Bool.not_true, Bool.false_eq_true, if_false, Nat.one_mul] at h1 h2; omega

/-- With a key written twice: a library that looks for the key first copies only the member that stays; another copies both. -/
theorem C98_twice (S : Shelf) (k : Bytes) (v w : Value) : ((Lit.object [(k, .leaf v), (k, .leaf w)]).make S).value = .obj .object [(k, v)] ∧
    ((Lit.object [(k, .leaf v), (k, .leaf w)]).make S).copied = if S.looksFirst then k.length + v.weight else 2 * k.length + v.weight + w.weight := by
  refine ⟨?_, ?_⟩
  · simp [make, makeMembers, Made.object, ObjectData.ofInit, emplace, ofObject, bytesLt_irrefl]
  · simp [make, makeMembers, Made.object, Lit.bare, ObjectData.ofInit, emplace, Value.weightMembers, bytesLt_irrefl]
    split <;> omega

theorem arrays_copied (S : Shelf) (v : Value) (n : Nat) :
    2 * ((Lit.arrays v n).make S).copied + n = n * (n + 2 * v.weight) ∧ ((Lit.arrays v n).make S).value.weight = n + v.weight := by
  induction n with
  | zero => simp [Lit.arrays, make]
  | succ n ih =>
    obtain ⟨h1, h2⟩ := ih
    simp only [Lit.arrays, make, makeAll, ofArray, Value.weight, Value.weightAll]
    refine ⟨?_, by omega⟩
    rw [h2]
    have : (n + 1) * (n + 1 + 2 * v.weight) = n * (n + 2 * v.weight) + 2 * n + 1 + 2 * v.weight := by ring
    omega

theorem objects_copied (S : Shelf) (hS : S.pairMoves = false) (k : Bytes) (v : Value) (n : Nat) :
    ((Lit.objects k v (n + 1)).make S).copied = (n + 1) * n * (k.length + 1) + (2 * n + 1) * (k.length + v.weight) ∧
    ((Lit.objects k v (n + 1)).make S).value.weight = (n + 1) * (k.length + 1) + v.weight := by
  induction n with
  | zero =>
    simp [Lit.objects, make, makeMembers, Made.object, Lit.bare, ObjectData.ofInit, emplace, ofObject, Value.weight, Value.weightMembers]
    omega
  | succ n ih =>
    obtain ⟨h1, h2⟩ := ih
    rw [Lit.objects]
    simp only [make, makeMembers, Made.object, ObjectData.ofInit, emplace, ofObject, Value.weight, Value.weightMembers, ite_self, h1, h2]
    simp only [Lit.objects, Lit.bare, hS, Bool.not_false, Bool.and_self, if_true]
    constructor <;> ring

/-- `n` arrays around a value: n(n-1)/2 copies of arrays and n of the value. -/
theorem C98_arrays (S : Shelf) (v : Value) (n : Nat) : ((Lit.arrays v n).make S).copied = n * (n - 1) / 2 + n * v.weight := by
  have h := (arrays_copied S v n).1
  have h1 : n * (n + 2 * v.weight) = n * (n - 1) + n + 2 * (n * v.weight) := by
    cases n with
    | zero => simp
    | succ n => simp only [Nat.add_sub_cancel]; ring
  omega

/-- `n + 1` bare braces around a value: twice as much. -/
theorem C98_objects (S : Shelf) (hS : S.pairMoves = false) (k : Bytes) (v : Value) (n : Nat) :
    ((Lit.objects k v (n + 1)).make S).copied = (n + 1) * n * (k.length + 1) + (2 * n + 1) * (k.length + v.weight) :=
  (objects_copied S hS k v n).1

/-- No multiple of its size is enough to make a literal. -/
theorem C98_quadratic (S : Shelf) (c : Nat) : ∃ l : Lit, l.Distinct ∧ c * l.weight < (l.make S).copied := by
  refine ⟨Lit.arrays .null (4 * c + 4), ?_, ?_⟩
  · generalize 4 * c + 4 = n
    induction n with
    | zero => trivial
    | succ n ih => exact ⟨ih, trivial⟩
  · have hw : ∀ n, (Lit.arrays .null n).weight = n + 1 := by
      intro n
      induction n with
      | zero => rfl
      | succ n ih => simp only [Lit.arrays, Lit.weight, Lit.weightAll, ih]; omega
    have h := (arrays_copied S .null (4 * c + 4)).1
    have h1 : (Value.null).weight = 1 := rfl
    rw [hw]
    rw [h1] at h
    have h2 : (4 * c + 4) * (4 * c + 4 + 2 * 1) = 2 * (c * (4 * c + 4 + 1)) + (8 * c * c + 30 * c + 24) := by ring
    have : 0 ≤ 8 * c * c := Nat.zero_le _
    omega

/-- As g++ 13 and its library do it. -/
def gnuShelf : Shelf := ⟨false, true⟩

/-- The numbers counted with g++ 13 for classes of our own (there values, not bytes): `{{"", {{"", {{"", 1}}}}}}` copies 11 values, `json::array{json::array{json::array{json::array{1}}}}` copies 10. -/
example : ((Lit.objects [] .null 3).make gnuShelf).copied = 11 ∧ ((Lit.arrays .null 4).make gnuShelf).copied = 10 := by decide

/-- `{{"", array{1, 2}}, {"", array{3, 4}}}` copies 7. -/
example : ((Lit.braces false [([], .array [.leaf .null, .leaf .null]), ([], .array [.leaf .null, .leaf .null])]).make gnuShelf).copied = 7 := by decide

example : ((Lit.objects [] .null 3).make ⟨true, true⟩).copied = 6 := by decide

/-- The literal of C98_copies: two keys, in one object. -/
example : (Lit.object [([0x61], .leaf .null), ([0x62], .braces false [([0x61], .array [])])]).Distinct := by
  simp [Lit.Distinct, Lit.DistinctMembers, Lit.DistinctAll]

example : Keyed (.obj .object [([0x61], .null), ([0x62], .arr .array [])]) := by
  refine ⟨by simp; decide, ?_, ?_, trivial⟩ <;> trivial

end Meojson
