import Verif.Spec.Literal
import Verif.Proofs.Map
import Mathlib.Tactic.Ring

set_option autoImplicit false

namespace Meojson
open Meojson.Value Meojson.RawObject

theorem weightMembers_append (a b : List (Bytes × Value)) : weightMembers (a ++ b) = weightMembers a + weightMembers b := by
  induction a with
  | nil => simp [weightMembers]
  | cons x a ih => obtain ⟨k, v⟩ := x; simp only [List.cons_append, weightMembers, ih]; omega

/-- Inserting adds the member, or nothing. -/
theorem emplace_weight (k : Bytes) (v : Value) (m : List (Bytes × Value)) :
    weightMembers (emplace k v m).1 ≤ k.length + v.weight + weightMembers m ∧
    ((∀ x ∈ m, x.1 ≠ k) → weightMembers (emplace k v m).1 = k.length + v.weight + weightMembers m) := by
  induction m with
  | nil => simp [emplace, weightMembers]
  | cons a m ih =>
    obtain ⟨k', v'⟩ := a
    simp only [emplace]
    split
    · simp [weightMembers]
    · split
      · simp only [weightMembers]
        refine ⟨by omega, fun h => ?_⟩
        rw [ih.2 fun x hx => h x (List.mem_cons_of_mem _ hx)]; omega
      · rename_i h1 h2
        refine ⟨by simp only [weightMembers]; omega, fun h => ?_⟩
        exfalso
        have := h (k', v') List.mem_cons_self
        have h1 := (bytesLt_false_iff _ _).1 (Bool.eq_false_iff.2 h1)
        have h2 := (bytesLt_false_iff _ _).1 (Bool.eq_false_iff.2 h2)
        exact this (Std.le_antisymm h1 h2)

theorem ofInit_weight (l : List (Bytes × Value)) : ∀ m : List (Bytes × Value),
    weightMembers (ObjectData.ofInit l m) ≤ weightMembers l + weightMembers m ∧
    ((l.map Prod.fst).Nodup → (∀ x ∈ l, ∀ y ∈ m, y.1 ≠ x.1) → weightMembers (ObjectData.ofInit l m) = weightMembers l + weightMembers m) := by
  induction l with
  | nil => intro m; simp [ObjectData.ofInit, weightMembers]
  | cons a l ih =>
    intro m
    obtain ⟨k, v⟩ := a
    have he := emplace_weight k v m
    simp only [ObjectData.ofInit, weightMembers]
    refine ⟨?_, fun hn hd => ?_⟩
    · have := (ih (emplace k v m).1).1; omega
    · simp only [List.map_cons, List.nodup_cons] at hn
      rw [(ih (emplace k v m).1).2 hn.2 ?_, he.2 fun y hy => hd (k, v) List.mem_cons_self y hy]
      · omega
      · intro x hx y hy
        rcases emplace_keys k v m y hy with rfl | hy
        · intro h; have h : k = x.1 := h; exact hn.1 (by rw [h]; exact List.mem_map_of_mem hx)
        · exact hd x (List.mem_cons_of_mem _ hx) y hy

namespace Lit
variable (S : Shelf)

theorem makeAll_value (es : List Lit) : (makeAll S es).value = es.map fun e => (e.make S).value := by
  induction es with
  | nil => rfl
  | cons e es ih => simp [makeAll, ih]

theorem makeMembers_value (ms : List (Bytes × Lit)) : (makeMembers S ms).value = ms.map fun m => (m.1, (m.2.make S).value) := by
  induction ms with
  | nil => rfl
  | cons m ms ih => obtain ⟨k, e⟩ := m; simp [makeMembers, ih]

theorem makeMembers_keys (ms : List (Bytes × Lit)) : (makeMembers S ms).value.map Prod.fst = ms.map Prod.fst := by
  simp [makeMembers_value, List.map_map, Function.comp_def]

theorem object_weight (r : Made (List (Bytes × Value))) :
    (r.object S).value.weight ≤ 1 + Value.weightMembers r.value ∧ (r.object S).copied ≤ r.copied + Value.weightMembers r.value := by
  have := (ofInit_weight r.value []).1
  simp only [Made.object, ofObject, Value.weight, Value.weightMembers] at *
  constructor
  · omega
  · split <;> omega

theorem object_distinct (r : Made (List (Bytes × Value))) (h : (r.value.map Prod.fst).Nodup) :
    (r.object S).value.weight = 1 + Value.weightMembers r.value ∧ (r.object S).copied = r.copied + Value.weightMembers r.value := by
  have := (ofInit_weight r.value []).2 h (by simp)
  simp only [Made.object, ofObject, Value.weight, Value.weightMembers] at *
  constructor
  · omega
  · split <;> omega

/-- In `n` surroundings: what was copied to make it, and `n` times its weight. -/
theorem shares_le : ∀ (n : Nat) (l : Lit), (l.make S).copied + n * (l.make S).value.weight ≤ l.shares (!S.pairMoves) n
  | n, .leaf v => by simp [make, shares]
  | n, .array es => by
    have := all (n + 1) es
    simp only [make, ofArray, Value.weight, shares]
    rw [Nat.add_mul, Nat.one_mul] at this
    rw [Nat.mul_add, Nat.mul_one]; omega
  | n, .object ms => by
    have h := members (n + 1) ms
    obtain ⟨h1, h2⟩ := object_weight S (makeMembers S ms)
    have h3 := Nat.mul_le_mul_left n h1
    simp only [make, shares]
    rw [Nat.add_mul, Nat.one_mul] at h
    rw [Nat.mul_add, Nat.mul_one] at h3; omega
  | n, .braces _ [] => by simp [make, Value.null, Value.weight, shares, sharesMembers]
  | n, .braces _ (m :: ms) => by
    have h := members (n + 1) (m :: ms)
    obtain ⟨h1, h2⟩ := object_weight S (makeMembers S (m :: ms))
    have h3 := Nat.mul_le_mul_left n h1
    simp only [make, shares]
    rw [Nat.add_mul, Nat.one_mul] at h
    rw [Nat.mul_add, Nat.mul_one] at h3; omega
where
  all : ∀ (n : Nat) (es : List Lit), (makeAll S es).copied + n * Value.weightAll (makeAll S es).value ≤ sharesAll (!S.pairMoves) n es
  | n, [] => by simp [makeAll, Value.weightAll, sharesAll]
  | n, e :: es => by
    have := shares_le n e
    have := all n es
    simp only [makeAll, Value.weightAll, sharesAll, Nat.mul_add]; omega
  members : ∀ (n : Nat) (ms : List (Bytes × Lit)), (makeMembers S ms).copied + n * Value.weightMembers (makeMembers S ms).value ≤ sharesMembers (!S.pairMoves) n ms
  | n, [] => by simp [makeMembers, Value.weightMembers, sharesMembers]
  | n, (k, e) :: ms => by
    have h0 := shares_le n e
    have h1 := shares_le (n + 1) e
    have := members n ms
    rw [Nat.add_mul, Nat.one_mul] at h1
    simp only [makeMembers, Value.weightMembers, sharesMembers, Nat.mul_add]
    split
    · rw [Nat.add_mul, Nat.one_mul]; omega
    · omega

/-- Exactly so when no key is written twice. -/
theorem shares_eq : ∀ (n : Nat) (l : Lit), l.Distinct → (l.make S).copied + n * (l.make S).value.weight = l.shares (!S.pairMoves) n
  | n, .leaf v, _ => by simp [make, shares]
  | n, .array es, h => by
    have := all (n + 1) es h
    simp only [make, ofArray, Value.weight, shares]
    rw [Nat.add_mul, Nat.one_mul] at this
    rw [Nat.mul_add, Nat.mul_one]; omega
  | n, .object ms, hd => by
    have h := members (n + 1) ms hd.2
    obtain ⟨h1, h2⟩ := object_distinct S (makeMembers S ms) (by rw [makeMembers_keys]; exact hd.1)
    simp only [make, shares]
    rw [Nat.add_mul, Nat.one_mul] at h
    rw [h1, h2, Nat.mul_add, Nat.mul_one]; omega
  | n, .braces _ [], _ => by simp [make, Value.null, Value.weight, shares, sharesMembers]
  | n, .braces _ (m :: ms), hd => by
    have h := members (n + 1) (m :: ms) hd.2
    obtain ⟨h1, h2⟩ := object_distinct S (makeMembers S (m :: ms)) (by rw [makeMembers_keys]; exact hd.1)
    simp only [make, shares]
    rw [Nat.add_mul, Nat.one_mul] at h
    rw [h1, h2, Nat.mul_add, Nat.mul_one]; omega
where
  all : ∀ (n : Nat) (es : List Lit), DistinctAll es → (makeAll S es).copied + n * Value.weightAll (makeAll S es).value = sharesAll (!S.pairMoves) n es
  | n, [], _ => by simp [makeAll, Value.weightAll, sharesAll]
  | n, e :: es, h => by
    have := shares_eq n e h.1
    have := all n es h.2
    simp only [makeAll, Value.weightAll, sharesAll, Nat.mul_add]; omega
  members : ∀ (n : Nat) (ms : List (Bytes × Lit)), DistinctMembers ms →
      (makeMembers S ms).copied + n * Value.weightMembers (makeMembers S ms).value = sharesMembers (!S.pairMoves) n ms
  | n, [], _ => by simp [makeMembers, Value.weightMembers, sharesMembers]
  | n, (k, e) :: ms, h => by
    have h0 := shares_eq n e h.1
    have h1 := shares_eq (n + 1) e h.1
    have := members n ms h.2
    rw [Nat.add_mul, Nat.one_mul] at h1
    simp only [makeMembers, Value.weightMembers, sharesMembers, Nat.mul_add]
    split
    · rw [Nat.add_mul, Nat.one_mul]; omega
    · omega

/-- One copy for each pair of braces around, or two. -/
def fold (twice : Bool) : Nat := if twice then 2 else 1

theorem shares_bound (t : Bool) : ∀ (n : Nat) (l : Lit), l.shares t n ≤ (n + fold t * l.depth) * l.weight
  | n, .leaf v => by simp [shares, depth, weight]
  | n, .array es => by
    have h := all (n + 1) es
    simp only [shares, depth, weight]
    have h1 : n + 1 + fold t * depthAll es ≤ n + fold t * (depthAll es + 1) := by
      rw [Nat.mul_add]; unfold fold; split <;> omega
    have h2 := Nat.mul_le_mul_right (weightAll es) h1
    rw [Nat.mul_add (n + fold t * (depthAll es + 1)), Nat.mul_one]; omega
  | n, .object ms => object n (members (n + 1) ms)
  | n, .braces _ ms => object n (members (n + 1) ms)
where
  all : ∀ (n : Nat) (es : List Lit), sharesAll t n es ≤ (n + fold t * depthAll es) * weightAll es
  | n, [] => by simp [sharesAll]
  | n, e :: es => by
    have h1 := shares_bound t n e
    have h2 := all n es
    have h3 := Nat.mul_le_mul_right e.weight (Nat.add_le_add_left (Nat.mul_le_mul_left (fold t) (Nat.le_max_left e.depth (depthAll es))) n)
    have h4 := Nat.mul_le_mul_right (weightAll es) (Nat.add_le_add_left (Nat.mul_le_mul_left (fold t) (Nat.le_max_right e.depth (depthAll es))) n)
    simp only [sharesAll, depthAll, weightAll, Nat.mul_add]; omega
  members : ∀ (n : Nat) (ms : List (Bytes × Lit)), sharesMembers t n ms ≤ (n + (fold t - 1) + fold t * depthMembers ms) * weightMembers ms
  | n, [] => by simp [sharesMembers]
  | n, (k, e) :: ms => by
    have h0 : (if (e.bare && t) = true then (n + 1) * k.length + e.shares t (n + 1) else n * k.length + e.shares t n) ≤
        (n + (fold t - 1) + fold t * e.depth) * (k.length + e.weight) := by
      rw [Nat.mul_add]
      split
      · rename_i ht
        have hf : fold t = 2 := by simp at ht; simp [fold, ht.2]
        have h1 := shares_bound t (n + 1) e
        rw [hf] at h1 ⊢
        have h2 : (n + 1) * k.length ≤ (n + (2 - 1) + 2 * e.depth) * k.length := Nat.mul_le_mul_right _ (by omega)
        exact Nat.add_le_add h2 h1
      · have h1 := shares_bound t n e
        have h2 : n * k.length ≤ (n + (fold t - 1) + fold t * e.depth) * k.length := Nat.mul_le_mul_right _ (by omega)
        have h3 : (n + fold t * e.depth) * e.weight ≤ (n + (fold t - 1) + fold t * e.depth) * e.weight := Nat.mul_le_mul_right _ (by omega)
        omega
    have h2 := members n ms
    have h3 := Nat.mul_le_mul_right (k.length + e.weight) (Nat.add_le_add_left (Nat.mul_le_mul_left (fold t) (Nat.le_max_left e.depth (depthMembers ms))) (n + (fold t - 1)))
    have h4 := Nat.mul_le_mul_right (weightMembers ms) (Nat.add_le_add_left (Nat.mul_le_mul_left (fold t) (Nat.le_max_right e.depth (depthMembers ms))) (n + (fold t - 1)))
    simp only [sharesMembers, depthMembers, weightMembers]
    rw [Nat.mul_add _ (k.length + e.weight)]
    omega
  object (n : Nat) {ms : List (Bytes × Lit)} (h : sharesMembers t (n + 1) ms ≤ (n + 1 + (fold t - 1) + fold t * depthMembers ms) * weightMembers ms) :
      n + sharesMembers t (n + 1) ms ≤ (n + fold t * (depthMembers ms + 1)) * (1 + weightMembers ms) := by
    have h1 : n + 1 + (fold t - 1) + fold t * depthMembers ms ≤ n + fold t * (depthMembers ms + 1) := by
      rw [Nat.mul_add]; unfold fold; split <;> omega
    have h2 := Nat.mul_le_mul_right (weightMembers ms) h1
    rw [Nat.mul_add (n + fold t * (depthMembers ms + 1)), Nat.mul_one]; omega

/-- The value is no larger than the literal. -/
theorem lit_make_weight : ∀ l : Lit, (l.make S).value.weight ≤ l.weight
  | .leaf v => Nat.le_refl _
  | .array es => by
    have := all es
    simp only [make, ofArray, Value.weight, weight]; omega
  | .object ms => by
    have := members ms
    have := (object_weight S (makeMembers S ms)).1
    simp only [make, weight]; omega
  | .braces _ [] => by simp [make, Value.null, Value.weight, weight]
  | .braces _ (m :: ms) => by
    have := members (m :: ms)
    have := (object_weight S (makeMembers S (m :: ms))).1
    simp only [make, weight]; omega
where
  all : ∀ es : List Lit, Value.weightAll (makeAll S es).value ≤ weightAll es
  | [] => Nat.le_refl _
  | e :: es => by
    have := lit_make_weight e
    have := all es
    simp only [makeAll, Value.weightAll, weightAll]; omega
  members : ∀ ms : List (Bytes × Lit), Value.weightMembers (makeMembers S ms).value ≤ weightMembers ms
  | [] => Nat.le_refl _
  | (k, e) :: ms => by
    have := lit_make_weight e
    have := members ms
    simp only [makeMembers, Value.weightMembers, weightMembers]; omega
end Lit
end Meojson
