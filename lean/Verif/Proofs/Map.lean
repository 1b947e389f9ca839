import Verif.Spec.Denote

/-! Lemmas about the model of `std::map<std::string, value>`. -/

namespace Meojson
open Spec

theorem bytesLt_iff (a b : Bytes) : bytesLt a b = true ↔ a < b := by
  induction a generalizing b with
  | nil => cases b <;> simp [bytesLt]
  | cons x a ih =>
    cases b with
    | nil => simp [bytesLt]
    | cons y b =>
      unfold bytesLt
      rw [List.cons_lt_cons_iff]
      split
      · simp_all
      · split
        · rename_i h1 h2
          have : x ≠ y := fun h => by simp [h] at h2
          simp [h1, this]
        · rename_i h1 h2
          have : x = y := Std.le_antisymm (Std.not_lt.1 h2) (Std.not_lt.1 h1)
          simp [this, ih]

theorem bytesLt_false_iff (a b : Bytes) : bytesLt a b = false ↔ b ≤ a := by
  rw [← Bool.not_eq_true, bytesLt_iff]; exact Std.not_lt

namespace RawObject
variable {β : Type}

/-- The invariant of `std::map`: keys in strictly ascending order. -/
def Sorted (m : List (Bytes × β)) : Prop := m.Pairwise fun a b => a.1 < b.1

theorem Sorted.nil : Sorted ([] : List (Bytes × β)) := List.Pairwise.nil

theorem Sorted.nodup {m : List (Bytes × β)} (h : Sorted m) : (m.map Prod.fst).Nodup := by
  unfold List.Nodup
  rw [List.pairwise_map]
  exact h.imp fun hab he => by rw [he] at hab; exact Std.lt_irrefl hab

/-! #### find -/

theorem find_eq_none {m : List (Bytes × β)} (hm : Sorted m) (k : Bytes) : find k m = none ↔ ∀ v, (k, v) ∉ m := by
  induction m with
  | nil => simp [find]
  | cons a m ih =>
    obtain ⟨k', v'⟩ := a
    have hm' := (List.pairwise_cons.1 hm)
    unfold find
    split
    · rename_i h
      rw [bytesLt_iff] at h
      simp only [true_iff]
      intro v hv
      rcases List.mem_cons.1 hv with h' | h'
      · simp at h'; rw [h'.1] at h; exact Std.lt_irrefl h
      · have := hm'.1 _ h'
        exact Std.lt_irrefl (Std.lt_trans h this)
    · split
      · rename_i h1 h2
        rw [bytesLt_iff] at h2
        rw [ih hm'.2]
        constructor
        · intro h v hv
          rcases List.mem_cons.1 hv with h' | h'
          · simp at h'; rw [h'.1] at h2; exact Std.lt_irrefl h2
          · exact h v h'
        · intro h v hv; exact h v (List.mem_cons_of_mem _ hv)
      · rename_i h1 h2
        have h1 := (bytesLt_false_iff _ _).1 (Bool.eq_false_iff.2 h1)
        have h2 := (bytesLt_false_iff _ _).1 (Bool.eq_false_iff.2 h2)
        have : k = k' := Std.le_antisymm h2 h1
        subst this
        simp only [reduceCtorEq, false_iff]
        intro h; exact h v' (by simp)

theorem find_eq_some {m : List (Bytes × β)} (hm : Sorted m) (k : Bytes) (v : β) : find k m = some v ↔ (k, v) ∈ m := by
  induction m with
  | nil => simp [find]
  | cons a m ih =>
    obtain ⟨k', v'⟩ := a
    have hm' := (List.pairwise_cons.1 hm)
    unfold find
    split
    · rename_i h
      rw [bytesLt_iff] at h
      simp only [reduceCtorEq, false_iff]
      intro hv
      rcases List.mem_cons.1 hv with h' | h'
      · simp at h'; rw [h'.1] at h; exact Std.lt_irrefl h
      · have := hm'.1 _ h'
        exact Std.lt_irrefl (Std.lt_trans h this)
    · split
      · rename_i h1 h2
        rw [bytesLt_iff] at h2
        rw [ih hm'.2]
        constructor
        · intro h; exact List.mem_cons_of_mem _ h
        · intro hv
          rcases List.mem_cons.1 hv with h' | h'
          · simp at h'; rw [h'.1] at h2; exact absurd h2 Std.lt_irrefl
          · exact h'
      · rename_i h1 h2
        have h1 := (bytesLt_false_iff _ _).1 (Bool.eq_false_iff.2 h1)
        have h2 := (bytesLt_false_iff _ _).1 (Bool.eq_false_iff.2 h2)
        have : k = k' := Std.le_antisymm h2 h1
        subst this
        constructor
        · intro h; simp at h; simp [h]
        · intro hv
          rcases List.mem_cons.1 hv with h' | h'
          · simp at h'; simp [h']
          · have := hm'.1 _ h'
            exact absurd this Std.lt_irrefl

/-! #### emplace -/

theorem emplace_keys (k : Bytes) (v : β) (m : List (Bytes × β)) :
    ∀ x ∈ (emplace k v m).1, x = (k, v) ∨ x ∈ m := by
  induction m with
  | nil => simp [emplace]
  | cons a m ih =>
    obtain ⟨k', v'⟩ := a
    unfold emplace
    split
    · simp
    · split
      · intro x hx
        simp only [List.mem_cons] at hx ⊢
        rcases hx with h | h
        · exact .inr (.inl h)
        · rcases ih x h with h | h
          · exact .inl h
          · exact .inr (.inr h)
      · intro x hx; exact .inr hx

theorem emplace_sorted {m : List (Bytes × β)} (hm : Sorted m) (k : Bytes) (v : β) : Sorted (emplace k v m).1 := by
  induction m with
  | nil => simp [emplace, Sorted]
  | cons a m ih =>
    obtain ⟨k', v'⟩ := a
    have hm' := (List.pairwise_cons.1 hm)
    unfold emplace
    split
    · rename_i h
      rw [bytesLt_iff] at h
      refine List.pairwise_cons.2 ⟨?_, hm⟩
      intro x hx
      rcases List.mem_cons.1 hx with rfl | hx
      · exact h
      · exact Std.lt_trans h (hm'.1 x hx)
    · split
      · rename_i h1 h2
        rw [bytesLt_iff] at h2
        refine List.pairwise_cons.2 ⟨?_, ih hm'.2⟩
        intro x hx
        rcases emplace_keys k v m x hx with rfl | hx
        · exact h2
        · exact hm'.1 x hx
      · exact hm

theorem emplace_fst_perm {m : List (Bytes × β)} {k : Bytes} {v : β} (h : (emplace k v m).2 = true) :
    (emplace k v m).1.Perm ((k, v) :: m) := by
  induction m with
  | nil => simp [emplace]
  | cons a m ih =>
    obtain ⟨k', v'⟩ := a
    unfold emplace at h ⊢
    split at h
    · rename_i h1; simp [h1]
    · split at h
      · rename_i h1 h2
        simp only [h1, h2, if_true, Bool.false_eq_true, if_false]
        exact ((ih h).cons _).trans (List.Perm.swap _ _ _)
      · simp at h

theorem emplace_snd {m : List (Bytes × β)} (hm : Sorted m) (k : Bytes) (v : β) :
    (emplace k v m).2 = true ↔ k ∉ m.map Prod.fst := by
  induction m with
  | nil => simp [emplace]
  | cons a m ih =>
    obtain ⟨k', v'⟩ := a
    have hm' := (List.pairwise_cons.1 hm)
    unfold emplace
    split
    · rename_i h
      rw [bytesLt_iff] at h
      simp only [List.map_cons, List.mem_cons, not_or, true_iff]
      refine ⟨fun e => by rw [e] at h; exact Std.lt_irrefl h, ?_⟩
      intro hk
      obtain ⟨x, hx, rfl⟩ := List.mem_map.1 hk
      exact Std.lt_irrefl (Std.lt_trans h (hm'.1 x hx))
    · split
      · rename_i h1 h2
        rw [bytesLt_iff] at h2
        simp only [List.map_cons, List.mem_cons, not_or]
        rw [ih hm'.2]
        exact ⟨fun h => ⟨fun e => by rw [e] at h2; exact Std.lt_irrefl h2, h⟩, fun h => h.2⟩
      · rename_i h1 h2
        have h1 := (bytesLt_false_iff _ _).1 (Bool.eq_false_iff.2 h1)
        have h2 := (bytesLt_false_iff _ _).1 (Bool.eq_false_iff.2 h2)
        have : k = k' := Std.le_antisymm h2 h1
        simp [this]

end RawObject

/-! ### Sorted lists of members -/

open RawObject in
theorem sorted_unique {β : Type} {a b : List (Bytes × β)} (ha : Sorted a) (hb : Sorted b) (h : a.Perm b) : a = b := by
  refine List.Perm.eq_of_pairwise (le := fun (x y : Bytes × β) => x.1 < y.1) ?_ ha hb h
  intro x y _ _ h1 h2
  exact absurd (Std.lt_trans h1 h2) Std.lt_irrefl

theorem sortMembers_perm {β : Type} (ms : List (Bytes × β)) : (sortMembers ms).Perm ms := List.mergeSort_perm ..

open RawObject in
theorem sortMembers_sorted {β : Type} {ms : List (Bytes × β)} (h : (ms.map Prod.fst).Nodup) : Sorted (sortMembers ms) := by
  have h1 : (sortMembers ms).Pairwise fun a b => decide (a.1 ≤ b.1) = true :=
    List.pairwise_mergeSort (le := fun a b => decide (a.1 ≤ b.1))
      (fun a b c h1 h2 => by simp at *; exact Std.le_trans h1 h2) (fun a b => by simp; exact Std.le_total) ms
  have h2 : ((sortMembers ms).map Prod.fst).Nodup := ((sortMembers_perm ms).map Prod.fst).nodup_iff.2 h
  unfold List.Nodup at h2
  rw [List.pairwise_map] at h2
  refine (h1.and h2).imp ?_
  intro a b hab
  simp only [decide_eq_true_eq] at hab
  exact Std.lt_of_le_of_ne hab.1 hab.2

open RawObject in
theorem sortMembers_of_sorted {β : Type} {ms : List (Bytes × β)} (h : Sorted ms) : sortMembers ms = ms :=
  sorted_unique (sortMembers_sorted h.nodup) h (sortMembers_perm ms)

/-- Adding the last member of a list with distinct keys to the map of the others. -/
theorem emplace_sortMembers {β : Type} {ms : List (Bytes × β)} {k : Bytes} {v : β}
    (h : ((ms ++ [(k, v)]).map Prod.fst).Nodup) :
    RawObject.emplace k v (sortMembers ms) = (sortMembers (ms ++ [(k, v)]), true) := by
  have h' := h
  rw [List.map_append, List.nodup_append] at h'
  have hs := sortMembers_sorted h'.1
  have h2 : (RawObject.emplace k v (sortMembers ms)).2 = true := by
    rw [RawObject.emplace_snd hs]
    intro hk
    have := ((sortMembers_perm ms).map Prod.fst).mem_iff.1 hk
    exact h'.2.2 k this k (by simp) rfl
  refine Prod.ext ?_ h2
  refine sorted_unique (RawObject.emplace_sorted hs k v) (sortMembers_sorted h) ?_
  refine (RawObject.emplace_fst_perm h2).trans ?_
  refine .trans (.cons _ (sortMembers_perm ms)) (.trans ?_ (sortMembers_perm _).symm)
  exact (List.perm_append_singleton (k, v) ms).symm

/-- A successful emplace means the key was new. -/
theorem emplace_nodup {β : Type} {ms : List (Bytes × β)} {k : Bytes} {v : β} (h : (ms.map Prod.fst).Nodup)
    (he : (RawObject.emplace k v (sortMembers ms)).2 = true) : ((ms ++ [(k, v)]).map Prod.fst).Nodup := by
  rw [RawObject.emplace_snd (sortMembers_sorted h)] at he
  rw [List.map_append, List.nodup_append]
  refine ⟨h, by simp, ?_⟩
  intro a ha b hb
  simp at hb
  rintro rfl
  subst hb
  exact he (((sortMembers_perm ms).map Prod.fst).mem_iff.2 ha)

end Meojson
