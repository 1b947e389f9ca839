import Verif.Proofs.Map
import Verif.Model.Mutate

/-! Lookup after insertion, removal and merge. -/

set_option autoImplicit false

namespace Meojson
open Spec

theorem bytesLt_cases (a b : Bytes) :
    (bytesLt a b = true ∧ bytesLt b a = false ∧ a ≠ b) ∨ (a = b ∧ bytesLt a b = false ∧ bytesLt b a = false) ∨
    (bytesLt a b = false ∧ bytesLt b a = true ∧ a ≠ b) := by
  simp only [bytesLt_iff, bytesLt_false_iff]
  rcases Std.le_total (a := a) (b := b) with h | h
  · by_cases e : a = b
    · subst e; exact .inr (.inl ⟨rfl, h, h⟩)
    · have : a < b := Std.lt_of_le_of_ne h e
      exact .inl ⟨this, h, e⟩
  · by_cases e : a = b
    · subst e; exact .inr (.inl ⟨rfl, h, h⟩)
    · have : b < a := Std.lt_of_le_of_ne h (Ne.symm e)
      exact .inr (.inr ⟨h, this, e⟩)

theorem bytesLt_trans {a b c : Bytes} (h1 : bytesLt a b = true) (h2 : bytesLt b c = true) : bytesLt a c = true := by
  rw [bytesLt_iff] at *; exact Std.lt_trans h1 h2

theorem bytesLt_irrefl (a : Bytes) : bytesLt a a = false := by
  rw [bytesLt_false_iff]; exact Std.le_refl _

namespace RawObject
variable {β : Type}

theorem find_insertOrAssign (k : Bytes) (v : β) (m : List (Bytes × β)) (x : Bytes) :
    find x (insertOrAssign k v m) = if x = k then some v else find x m := by
  induction m with
  | nil =>
    simp only [insertOrAssign, find]
    rcases bytesLt_cases x k with ⟨h1, h2, h3⟩ | ⟨rfl, h1, h2⟩ | ⟨h1, h2, h3⟩ <;> simp [*]
  | cons a m ih =>
    obtain ⟨k', v'⟩ := a
    unfold insertOrAssign
    rcases bytesLt_cases k k' with ⟨h1, h2, h3⟩ | ⟨rfl, h1, h2⟩ | ⟨h1, h2, h3⟩
    · simp only [h1, if_true]
      rcases bytesLt_cases x k with ⟨g1, g2, g3⟩ | ⟨rfl, g1, g2⟩ | ⟨g1, g2, g3⟩
      · simp [find, g1, g3, bytesLt_trans g1 h1]
      · simp [find, g1]
      · simp [find, g1, g2, g3]
    · simp only [h1]
      rcases bytesLt_cases x k with ⟨g1, g2, g3⟩ | ⟨rfl, g1, g2⟩ | ⟨g1, g2, g3⟩ <;> simp [find, *]
    · simp only [h1, h2, if_true]
      unfold find
      simp only [Bool.false_eq_true, if_false]
      rw [ih]
      rcases bytesLt_cases x k' with ⟨g1, g2, g3⟩ | ⟨rfl, g1, g2⟩ | ⟨g1, g2, g3⟩
      · have : x ≠ k := by rintro rfl; rw [h1] at g1; simp at g1
        simp [g1, this]
      · simp [g1, Ne.symm h3]
      · simp [g1, g2]

theorem mem_insertOrAssign (k : Bytes) (v : β) (m : List (Bytes × β)) : ∀ x ∈ insertOrAssign k v m, x = (k, v) ∨ x ∈ m := by
  induction m with
  | nil => simp [insertOrAssign]
  | cons a m ih =>
    obtain ⟨k', v'⟩ := a
    unfold insertOrAssign
    rcases bytesLt_cases k k' with ⟨h1, h2, h3⟩ | ⟨rfl, h1, h2⟩ | ⟨h1, h2, h3⟩
    · simp [h1]
    · simp only [h1]; intro x hx; simp at hx ⊢; rcases hx with h | h <;> simp [h]
    · simp only [h1, h2]
      intro x hx
      simp at hx
      rcases hx with h | h
      · simp [h]
      · rcases ih x h with h | h <;> simp [h]

theorem insertOrAssign_sorted {m : List (Bytes × β)} (hm : Sorted m) (k : Bytes) (v : β) : Sorted (insertOrAssign k v m) := by
  induction m with
  | nil => simp [insertOrAssign, Sorted]
  | cons a m ih =>
    obtain ⟨k', v'⟩ := a
    have hm' := (List.pairwise_cons.1 hm)
    unfold insertOrAssign
    rcases bytesLt_cases k k' with ⟨h1, h2, h3⟩ | ⟨rfl, h1, h2⟩ | ⟨h1, h2, h3⟩
    · simp only [h1, if_true]
      rw [bytesLt_iff] at h1
      refine List.pairwise_cons.2 ⟨?_, hm⟩
      intro x hx
      rcases List.mem_cons.1 hx with rfl | hx
      · exact h1
      · exact Std.lt_trans h1 (hm'.1 x hx)
    · simp only [h1]
      exact List.pairwise_cons.2 ⟨hm'.1, hm'.2⟩
    · simp only [h1, h2, if_true]
      rw [bytesLt_iff] at h2
      refine List.pairwise_cons.2 ⟨?_, ih hm'.2⟩
      intro x hx
      rcases mem_insertOrAssign k v m x hx with rfl | hx
      · exact h2
      · exact hm'.1 x hx

theorem find_emplace (k : Bytes) (v : β) (m : List (Bytes × β)) (x : Bytes) :
    find x (emplace k v m).1 = if x = k then some ((find k m).getD v) else find x m := by
  induction m with
  | nil =>
    simp only [emplace, find]
    rcases bytesLt_cases x k with ⟨h1, h2, h3⟩ | ⟨rfl, h1, h2⟩ | ⟨h1, h2, h3⟩ <;> simp [*]
  | cons a m ih =>
    obtain ⟨k', v'⟩ := a
    unfold emplace
    rcases bytesLt_cases k k' with ⟨h1, h2, h3⟩ | ⟨rfl, h1, h2⟩ | ⟨h1, h2, h3⟩
    · simp only [h1, if_true]
      rcases bytesLt_cases x k with ⟨g1, g2, g3⟩ | ⟨rfl, g1, g2⟩ | ⟨g1, g2, g3⟩
      · simp [find, g1, g3, bytesLt_trans g1 h1]
      · simp [find, g1, h1]
      · simp [find, g1, g2, g3]
    · simp only [h1]
      rcases bytesLt_cases x k with ⟨g1, g2, g3⟩ | ⟨rfl, g1, g2⟩ | ⟨g1, g2, g3⟩ <;> simp [find, *]
    · simp only [h1, h2, if_true]
      unfold find
      simp only [Bool.false_eq_true, if_false]
      rw [ih]
      rcases bytesLt_cases x k' with ⟨g1, g2, g3⟩ | ⟨rfl, g1, g2⟩ | ⟨g1, g2, g3⟩
      · have : x ≠ k := by rintro rfl; rw [h1] at g1; simp at g1
        simp [g1, this]
      · simp [g1, Ne.symm h3]
      · simp [g1, g2, h1, h2]

theorem emplace_inserted (k : Bytes) (v : β) (m : List (Bytes × β)) : (emplace k v m).2 = (find k m).isNone := by
  induction m with
  | nil => simp [emplace, find]
  | cons a m ih =>
    obtain ⟨k', v'⟩ := a
    unfold emplace find
    rcases bytesLt_cases k k' with ⟨h1, h2, h3⟩ | ⟨rfl, h1, h2⟩ | ⟨h1, h2, h3⟩ <;> simp [h1, h2, ih]

theorem find_lt_head {k k' : Bytes} {v' : β} {m : List (Bytes × β)} (hm : Sorted ((k', v') :: m)) (h : bytesLt k k' = true) : find k m = none := by
  rw [find_eq_none (List.pairwise_cons.1 hm).2]
  intro v hv
  have := (List.pairwise_cons.1 hm).1 _ hv
  rw [bytesLt_iff] at h
  exact Std.lt_irrefl (Std.lt_trans h this)

theorem find_head_none {k : Bytes} {v : β} {m : List (Bytes × β)} (hm : Sorted ((k, v) :: m)) : find k m = none := by
  rw [find_eq_none (List.pairwise_cons.1 hm).2]
  intro w hw
  exact Std.lt_irrefl ((List.pairwise_cons.1 hm).1 (k, w) hw)

theorem find_erase {m : List (Bytes × β)} (hm : Sorted m) (k x : Bytes) :
    find x (erase k m).1 = if x = k then none else find x m := by
  induction m with
  | nil => simp [erase, find]
  | cons a m ih =>
    obtain ⟨k', v'⟩ := a
    have ih := ih (List.pairwise_cons.1 hm).2
    unfold erase
    rcases bytesLt_cases k k' with ⟨h1, h2, h3⟩ | ⟨rfl, h1, h2⟩ | ⟨h1, h2, h3⟩
    · simp only [h1, if_true]
      split
      · next h => subst h; simp [find, h1]
      · rfl
    · simp only [h1]
      rcases bytesLt_cases x k with ⟨g1, g2, g3⟩ | ⟨rfl, g1, g2⟩ | ⟨g1, g2, g3⟩
      · simp [find, g1, g3, find_lt_head hm g1]
      · simp [find_head_none hm]
      · simp [find, g1, g2, g3]
    · simp only [h1, h2, if_true]
      unfold find
      simp only [Bool.false_eq_true, if_false]
      rw [ih]
      rcases bytesLt_cases x k' with ⟨g1, g2, g3⟩ | ⟨rfl, g1, g2⟩ | ⟨g1, g2, g3⟩
      · simp [g1]
      · simp [g1, Ne.symm h3]
      · simp [g1, g2]

theorem erase_snd (k : Bytes) (m : List (Bytes × β)) : (erase k m).2 = (find k m).isSome := by
  induction m with
  | nil => simp [erase, find]
  | cons a m ih =>
    obtain ⟨k', v'⟩ := a
    unfold erase find
    rcases bytesLt_cases k k' with ⟨h1, h2, h3⟩ | ⟨rfl, h1, h2⟩ | ⟨h1, h2, h3⟩ <;> simp [h1, h2, ih]

theorem erase_sublist (k : Bytes) (m : List (Bytes × β)) : (erase k m).1.Sublist m := by
  induction m with
  | nil => simp [erase]
  | cons a m ih =>
    obtain ⟨k', v'⟩ := a
    unfold erase
    rcases bytesLt_cases k k' with ⟨h1, h2, h3⟩ | ⟨rfl, h1, h2⟩ | ⟨h1, h2, h3⟩ <;> simp [h1, h2, ih]

theorem erase_sorted {m : List (Bytes × β)} (hm : Sorted m) (k : Bytes) : Sorted (erase k m).1 :=
  hm.sublist (erase_sublist k m)

theorem erase_absent {m : List (Bytes × β)} {k : Bytes} (h : find k m = none) : (erase k m).1 = m := by
  induction m with
  | nil => simp [erase]
  | cons a m ih =>
    obtain ⟨k', v'⟩ := a
    unfold erase
    unfold find at h
    rcases bytesLt_cases k k' with ⟨h1, h2, h3⟩ | ⟨rfl, h1, h2⟩ | ⟨h1, h2, h3⟩
    · simp [h1]
    · simp [h1] at h
    · simp only [h1, h2, if_true, Bool.false_eq_true, if_false] at h ⊢
      rw [ih h]

/-- Two ordered member lists that answer every lookup alike are the same list. -/
theorem sorted_ext {a b : List (Bytes × β)} (ha : Sorted a) (hb : Sorted b) (h : ∀ k, find k a = find k b) : a = b := by
  induction a generalizing b with
  | nil =>
    cases b with
    | nil => rfl
    | cons y b =>
      have := h y.1
      simp [find, bytesLt_irrefl] at this
  | cons x a ih =>
    obtain ⟨k, v⟩ := x
    cases b with
    | nil =>
      have := h k
      simp [find, bytesLt_irrefl] at this
    | cons y b =>
      obtain ⟨l, w⟩ := y
      have hkk := bytesLt_irrefl k
      have hll := bytesLt_irrefl l
      rcases bytesLt_cases k l with ⟨h1, h2, h3⟩ | ⟨rfl, h1, h2⟩ | ⟨h1, h2, h3⟩
      · have := h k; simp [find, hkk, h1] at this
      · have hv := h k
        simp [find, hkk] at hv
        subst hv
        rw [ih (List.pairwise_cons.1 ha).2 (List.pairwise_cons.1 hb).2]
        intro x
        have := h x
        rcases bytesLt_cases x k with ⟨g1, g2, g3⟩ | ⟨rfl, g1, g2⟩ | ⟨g1, g2, g3⟩
        · rw [find_lt_head ha g1, find_lt_head hb g1]
        · rw [find_head_none ha, find_head_none hb]
        · simpa [find, g1, g2] using this
      · have := h l; simp [find, hll, h2] at this

end RawObject
open RawObject

theorem mergeObject_sorted {a b : List (Bytes × Value)} (ha : Sorted a) : Sorted (Value.mergeObject a b) := by
  induction b generalizing a with
  | nil => exact ha
  | cons x b ih => exact ih (insertOrAssign_sorted ha _ _)

theorem find_mergeObject {a b : List (Bytes × Value)} (hb : Sorted b) (k : Bytes) :
    find k (Value.mergeObject a b) = (find k b).or (find k a) := by
  induction b generalizing a with
  | nil => simp [Value.mergeObject, find]
  | cons x b ih =>
    obtain ⟨k', v'⟩ := x
    unfold Value.mergeObject
    rw [ih (List.pairwise_cons.1 hb).2, find_insertOrAssign]
    rcases bytesLt_cases k k' with ⟨h1, h2, h3⟩ | ⟨rfl, h1, h2⟩ | ⟨h1, h2, h3⟩
    · simp [find, h1, h3, find_lt_head hb h1]
    · simp [find, h1, find_head_none hb]
    · simp [find, h1, h2, h3]

end Meojson
