import Verif.Proofs.HeapRep
import Verif.Spec.Work

/-! How much copying and destroying a value allocates and frees, and how deep their calls nest. -/

set_option autoImplicit false

namespace Meojson.Mem
open Value Stores

mutual
theorem Rep.cells : ∀ {v : Value} {x : HVal} {A : List Addr} {m : Cells}, Rep m v x A → A.length = v.containers
  | .str _ _, _, _, _, hr => by rw [hr.2]; rfl
  | .arrNull _, _, _, _, hr => by rw [hr.2]; rfl
  | .objNull _, _, _, _, hr => by rw [hr.2]; rfl
  | .arr _ _, _, _, _, hr => by
    obtain ⟨a, xs, B, e1, e2, e3, e4⟩ := hr
    rw [e4, List.length_cons, e3.cells, containers]
  | .obj _ _, _, _, _, hr => by
    obtain ⟨a, xs, B, e1, e2, e3, e4⟩ := hr
    rw [e4, List.length_cons, e3.cells, containers]
theorem RepL.cells : ∀ {vs : List Value} {xs : List HVal} {A : List Addr} {m : Cells}, RepL m vs xs A → A.length = containersAll vs
  | [], _, _, _, hr => by rw [hr.2]; rfl
  | _ :: _, _, _, _, hr => by
    obtain ⟨x, xs', B, C, e1, e2, e3, e4⟩ := hr
    rw [e4, List.length_append, e2.cells, e3.cells, containersAll]
theorem RepM.cells : ∀ {vs : List (Bytes × Value)} {xs : List (Bytes × HVal)} {A : List Addr} {m : Cells}, RepM m vs xs A → A.length = containersMembers vs
  | [], _, _, _, hr => by rw [hr.2]; rfl
  | _ :: _, _, _, _, hr => by
    obtain ⟨x, xs', B, C, e1, e2, e3, e4⟩ := hr
    rw [e4, List.length_append, e2.cells, e3.cells, containersMembers]
end

mutual
theorem Rep.live : ∀ {v : Value} {x : HVal} {A : List Addr} {m : Cells}, Rep m v x A → ∀ a ∈ A, m a ≠ none
  | .str _ _, _, _, _, hr => by rw [hr.2]; simp
  | .arrNull _, _, _, _, hr => by rw [hr.2]; simp
  | .objNull _, _, _, _, hr => by rw [hr.2]; simp
  | .arr _ _, _, _, _, hr => by
    obtain ⟨a, xs, B, e1, e2, e3, e4⟩ := hr
    intro b hb
    rw [e4] at hb
    rcases List.mem_cons.1 hb with rfl | hb
    · rw [e2]; simp
    · exact e3.live b hb
  | .obj _ _, _, _, _, hr => by
    obtain ⟨a, xs, B, e1, e2, e3, e4⟩ := hr
    intro b hb
    rw [e4] at hb
    rcases List.mem_cons.1 hb with rfl | hb
    · rw [e2]; simp
    · exact e3.live b hb
theorem RepL.live : ∀ {vs : List Value} {xs : List HVal} {A : List Addr} {m : Cells}, RepL m vs xs A → ∀ a ∈ A, m a ≠ none
  | [], _, _, _, hr => by rw [hr.2]; simp
  | _ :: _, _, _, _, hr => by
    obtain ⟨x, xs', B, C, e1, e2, e3, e4⟩ := hr
    intro b hb
    rw [e4] at hb
    rcases List.mem_append.1 hb with hb | hb
    · exact e2.live b hb
    · exact e3.live b hb
theorem RepM.live : ∀ {vs : List (Bytes × Value)} {xs : List (Bytes × HVal)} {A : List Addr} {m : Cells}, RepM m vs xs A → ∀ a ∈ A, m a ≠ none
  | [], _, _, _, hr => by rw [hr.2]; simp
  | _ :: _, _, _, _, hr => by
    obtain ⟨x, xs', B, C, e1, e2, e3, e4⟩ := hr
    intro b hb
    rw [e4] at hb
    rcases List.mem_append.1 hb with hb | hb
    · exact e2.live b hb
    · exact e3.live b hb
end

/-! ### Destruction -/

/-- With calls nested up to `n` deep a value of `d` levels is destroyed, or there are too few of them. -/
def Destroys (h : Heap) (A : List Addr) (d n : Nat) (r : Option Heap) : Prop :=
  (d ≤ n → ∃ g, r = some g ∧ Freed h g A) ∧ (n < d → r = none)

mutual
theorem Rep.destroys : ∀ {v : Value} {x : HVal} {A : List Addr} {h : Heap} {n : Nat}, Rep h.cell v x A → A.Nodup → Destroys h A v.levels n (destroyVal n h x)
  | .str _ _, x, A, h, n + 1, hr, _ => by rw [hr.1, hr.2]; exact ⟨fun _ => ⟨h, rfl, Freed.nil h⟩, fun e => by simp [levels] at e⟩
  | .arrNull _, x, A, h, n + 1, hr, _ => by rw [hr.1, hr.2]; exact ⟨fun _ => ⟨h, rfl, Freed.nil h⟩, fun e => by simp [levels] at e⟩
  | .objNull _, x, A, h, n + 1, hr, _ => by rw [hr.1, hr.2]; exact ⟨fun _ => ⟨h, rfl, Freed.nil h⟩, fun e => by simp [levels] at e⟩
  | .arr t vs, x, A, h, n + 1, hr, nd => by
    obtain ⟨a, xs, B, e1, e2, e3, e4⟩ := hr
    subst e1 e4
    obtain ⟨hna, ndB⟩ := List.nodup_cons.1 nd
    obtain ⟨ih1, ih2⟩ := RepL.destroys e3 ndB (n := n)
    refine ⟨fun hn => ?_, fun hn => ?_⟩
    · obtain ⟨g, hg, hf⟩ := ih1 (by simp only [levels] at hn; omega)
      refine ⟨g.set a none, ?_, hf.1, fun b => ?_⟩
      · simp only [destroyVal, e2, hg]; rfl
      · simp only [Heap.set, hf.2, List.mem_cons]
        by_cases h1 : b = a <;> simp [h1]
    · simp only [destroyVal, e2, ih2 (by simp only [levels] at hn; omega)]; rfl
  | .obj t ms, x, A, h, n + 1, hr, nd => by
    obtain ⟨a, xs, B, e1, e2, e3, e4⟩ := hr
    subst e1 e4
    obtain ⟨hna, ndB⟩ := List.nodup_cons.1 nd
    obtain ⟨ih1, ih2⟩ := RepM.destroys e3 ndB (n := n)
    refine ⟨fun hn => ?_, fun hn => ?_⟩
    · obtain ⟨g, hg, hf⟩ := ih1 (by simp only [levels] at hn; omega)
      refine ⟨g.set a none, ?_, hf.1, fun b => ?_⟩
      · simp only [destroyVal, e2, hg]; rfl
      · simp only [Heap.set, hf.2, List.mem_cons]
        by_cases h1 : b = a <;> simp [h1]
    · simp only [destroyVal, e2, ih2 (by simp only [levels] at hn; omega)]; rfl
  | v, _, _, _, 0, _, _ => ⟨fun hn => by cases v <;> simp [levels] at hn, fun _ => rfl⟩
theorem RepL.destroys : ∀ {vs : List Value} {xs : List HVal} {A : List Addr} {h : Heap} {n : Nat}, RepL h.cell vs xs A → A.Nodup →
    Destroys h A (levelsAll vs) n (destroyList (destroyVal n) h xs)
  | [], xs, A, h, n, hr, _ => by rw [hr.1, hr.2]; exact ⟨fun _ => ⟨h, rfl, Freed.nil h⟩, fun e => by simp [levelsAll] at e⟩
  | v :: vs, xs, A, h, n, hr, nd => by
    obtain ⟨x, xs', B, C, e1, e2, e3, e4⟩ := hr
    subst e1 e4
    obtain ⟨ndB, ndC, dis⟩ := List.nodup_append.1 nd
    obtain ⟨i1, i2⟩ := Rep.destroys e2 ndB (n := n)
    by_cases hv : v.levels ≤ n
    · obtain ⟨g, hg, hf⟩ := i1 hv
      have e3' : RepL g.cell vs xs' C := e3.frame fun c hc => by
        rw [hf.2, if_neg]; intro hb; exact dis c hb c hc rfl
      obtain ⟨j1, j2⟩ := RepL.destroys e3' ndC (n := n)
      refine ⟨fun hn => ?_, fun hn => ?_⟩
      · obtain ⟨g', hg', hf'⟩ := j1 (by simp only [levelsAll] at hn; omega)
        exact ⟨g', by simp [destroyList, hg, hg'], hf.trans hf'⟩
      · simp [destroyList, hg, j2 (by simp only [levelsAll] at hn; omega)]
    · exact ⟨fun hn => absurd hn (by simp only [levelsAll]; omega), fun _ => by simp [destroyList, i2 (by omega)]⟩
theorem RepM.destroys : ∀ {vs : List (Bytes × Value)} {xs : List (Bytes × HVal)} {A : List Addr} {h : Heap} {n : Nat}, RepM h.cell vs xs A → A.Nodup →
    Destroys h A (levelsMembers vs) n (destroyList (destroyVal n) h (xs.map (·.2)))
  | [], xs, A, h, n, hr, _ => by rw [hr.1, hr.2]; exact ⟨fun _ => ⟨h, rfl, Freed.nil h⟩, fun e => by simp [levelsMembers] at e⟩
  | (k, v) :: vs, xs, A, h, n, hr, nd => by
    obtain ⟨x, xs', B, C, e1, e2, e3, e4⟩ := hr
    subst e1 e4
    obtain ⟨ndB, ndC, dis⟩ := List.nodup_append.1 nd
    obtain ⟨i1, i2⟩ := Rep.destroys e2 ndB (n := n)
    by_cases hv : v.levels ≤ n
    · obtain ⟨g, hg, hf⟩ := i1 hv
      have e3' : RepM g.cell vs xs' C := e3.frame fun c hc => by
        rw [hf.2, if_neg]; intro hb; exact dis c hb c hc rfl
      obtain ⟨j1, j2⟩ := RepM.destroys e3' ndC (n := n)
      refine ⟨fun hn => ?_, fun hn => ?_⟩
      · obtain ⟨g', hg', hf'⟩ := j1 (by simp only [levelsMembers] at hn; omega)
        exact ⟨g', by simp [destroyList, hg, hg'], hf.trans hf'⟩
      · simp [destroyList, hg, j2 (by simp only [levelsMembers] at hn; omega)]
    · exact ⟨fun hn => absurd hn (by simp only [levelsMembers]; omega), fun _ => by simp [destroyList, i2 (by omega)]⟩
end

/-! ### Copying -/

/-- With calls nested up to `n` deep a value of `d` levels is copied, which makes `k` allocations, or there are too few of them. -/
def Copies {α β : Type} (R : Cells → β → α → List Addr → Prop) (h : Heap) (v : β) (k d n : Nat) (r : Copy α) : Prop :=
  (d ≤ n → ∃ g x B, r = .ok g x ∧ R g.cell v x B ∧ Grown h g B ∧ g.next = h.next + k) ∧ (n < d → r = .ub)

theorem copies_cons {oom : Addr → Bool} {n d e k l : Nat} {h : Heap} {v : Value} {vs : List Value} {x : HVal} {xs : List HVal}
    (h1 : Copies Rep h v k d n (copyVal oom n h x))
    (h2 : ∀ g D, Grown h g D → Copies RepL g vs l e n (copyList (copyVal oom n) g xs)) :
    Copies RepL h (v :: vs) (k + l) (max d e) n (copyList (copyVal oom n) h (x :: xs)) := by
  by_cases hv : d ≤ n
  · obtain ⟨g, x', D, e1, r1, hD, n1⟩ := h1.1 hv
    simp only [copyList, e1]
    refine ⟨fun hn => ?_, fun hn => ?_⟩
    · obtain ⟨f, xs'', E, e2, r2, h4, n2⟩ := (h2 g D hD).1 (by omega)
      simp only [e2]
      refine ⟨_, _, D ++ E, rfl, ⟨x', xs'', D, E, rfl, r1.frame fun b hb => h4.old b fun hc => ?_, r2, rfl⟩, hD.trans h4, by omega⟩
      have := (hD.fresh b hb).2; have := (h4.fresh b hc).1; omega
    · simp only [(h2 g D hD).2 (by omega)]
  · exact ⟨fun hn => by omega, fun _ => by simp only [copyList, h1.2 (by omega)]⟩

mutual
theorem Rep.copies {oom : Addr → Bool} (ho : ∀ a, oom a = false) : ∀ {v : Value} {x : HVal} {A : List Addr} {h : Heap} {n : Nat}, Rep h.cell v x A → Whole v →
    h.Clean → (∀ a ∈ A, a < h.next) → Copies Rep h v v.parts v.levels n (copyVal oom n h x)
  | .str t s, x, A, h, n + 1, hr, _, _, _ => by
    rw [hr.1]
    simp only [copyVal, ho, Bool.false_eq_true, if_false]
    exact ⟨fun _ => ⟨_, _, [], rfl, ⟨rfl, rfl⟩, Grown.bump h, rfl⟩, fun e => by simp [levels] at e⟩
  | .arr t vs, x, A, h, n + 1, hr, hw, cl, hlt => by
    obtain ⟨a, xs, B, e1, e2, e3, e4⟩ := hr
    subst e1 e4
    simp only [copyVal, e2, ho, Bool.false_eq_true, if_false]
    obtain ⟨ih1, ih2⟩ := RepL.copies ho (h := h.bump) (n := n) e3 hw ((Grown.bump h).clean cl) (fun b hb => Nat.lt_succ_of_lt (hlt b (by simp [hb])))
    refine ⟨fun hn => ?_, fun hn => by rw [ih2 (by simp only [levels] at hn; omega)]⟩
    obtain ⟨g, xs', C, hc, h1, h2, h3⟩ := ih1 (by simp only [levels] at hn; omega)
    simp only [hc]
    have hne : ∀ c ∈ C, c ≠ h.next := fun c hc => by
      have := (h2.fresh c hc).1; simp only [Heap.bump] at this; omega
    refine ⟨_, _, h.next :: C, rfl, ⟨h.next, xs', C, rfl, by simp [Heap.set], h1.frame fun c hc => ?_, rfl⟩, ?_, ?_⟩
    · simp [Heap.set, hne c hc]
    · refine ⟨Nat.le_trans (Nat.le_succ _) h2.next, fun b hb => ?_, List.nodup_cons.2 ⟨fun hb => hne _ hb rfl, h2.nodup⟩, fun b hb => ?_⟩
      · rcases List.mem_cons.1 hb with rfl | hb
        · exact ⟨Nat.le_refl _, h2.next⟩
        · have := h2.fresh b hb; simp only [Heap.bump] at this; exact ⟨by omega, this.2⟩
      · rw [List.mem_cons, not_or] at hb
        simp only [Heap.set, hb.1, if_false]; exact h2.old b hb.2
    · show g.next = _
      rw [h3]; simp only [Heap.bump, parts]; omega
  | .obj t ms, x, A, h, n + 1, hr, hw, cl, hlt => by
    obtain ⟨a, xs, B, e1, e2, e3, e4⟩ := hr
    subst e1 e4
    simp only [copyVal, e2, ho, Bool.false_eq_true, if_false]
    obtain ⟨ih1, ih2⟩ := RepM.copies ho (h := h.bump) (n := n) e3 hw ((Grown.bump h).clean cl) (fun b hb => Nat.lt_succ_of_lt (hlt b (by simp [hb])))
    refine ⟨fun hn => ?_, fun hn => by rw [ih2 (by simp only [levels] at hn; omega)]⟩
    obtain ⟨g, xs', C, hc, h1, h2, h3⟩ := ih1 (by simp only [levels] at hn; omega)
    simp only [hc]
    have hne : ∀ c ∈ C, c ≠ h.next := fun c hc => by
      have := (h2.fresh c hc).1; simp only [Heap.bump] at this; omega
    refine ⟨_, _, h.next :: C, rfl, ⟨h.next, _, C, rfl, if_pos rfl, ?_, rfl⟩, ?_, ?_⟩
    · have := e3.keys
      rw [this]
      exact h1.toM.frame fun c hc => by simp [Heap.set, hne c hc]
    · refine ⟨Nat.le_trans (Nat.le_succ _) h2.next, fun b hb => ?_, List.nodup_cons.2 ⟨fun hb => hne _ hb rfl, h2.nodup⟩, fun b hb => ?_⟩
      · rcases List.mem_cons.1 hb with rfl | hb
        · exact ⟨Nat.le_refl _, h2.next⟩
        · have := h2.fresh b hb; simp only [Heap.bump] at this; exact ⟨by omega, this.2⟩
      · rw [List.mem_cons, not_or] at hb
        simp only [Heap.set, hb.1, if_false]; exact h2.old b hb.2
    · show g.next = _
      rw [h3]; simp only [Heap.bump, parts]; omega
  | v, _, _, _, 0, _, _, _, _ => ⟨fun hn => by cases v <;> simp [levels] at hn, fun _ => rfl⟩
theorem RepL.copies {oom : Addr → Bool} (ho : ∀ a, oom a = false) : ∀ {vs : List Value} {xs : List HVal} {A : List Addr} {h : Heap} {n : Nat}, RepL h.cell vs xs A →
    WholeAll vs → h.Clean → (∀ a ∈ A, a < h.next) → Copies RepL h vs (partsAll vs) (levelsAll vs) n (copyList (copyVal oom n) h xs)
  | [], xs, A, h, n, hr, _, _, _ => by
    rw [hr.1]; exact ⟨fun _ => ⟨_, _, [], rfl, ⟨rfl, rfl⟩, Grown.refl h, rfl⟩, fun e => by simp [levelsAll] at e⟩
  | v :: vs, xs, A, h, n, hr, hw, cl, hlt => by
    obtain ⟨x, xs', B, C, e1, e2, e3, e4⟩ := hr
    subst e1 e4
    refine copies_cons (Rep.copies ho e2 hw.1 cl (fun b hb => hlt b (by simp [hb]))) fun g D hD => ?_
    exact RepL.copies ho (e3.frame fun c hc => hD.old c fun hd => by have := (hD.fresh c hd).1; have := hlt c (by simp [hc]); omega) hw.2 (hD.clean cl)
      (fun c hc => by have := hlt c (by simp [hc]); have := hD.next; omega)
theorem RepM.copies {oom : Addr → Bool} (ho : ∀ a, oom a = false) : ∀ {vs : List (Bytes × Value)} {xs : List (Bytes × HVal)} {A : List Addr} {h : Heap} {n : Nat},
    RepM h.cell vs xs A → WholeMembers vs → h.Clean → (∀ a ∈ A, a < h.next) →
    Copies RepL h (vs.map (·.2)) (partsMembers vs) (levelsMembers vs) n (copyList (copyVal oom n) h (xs.map (·.2)))
  | [], xs, A, h, n, hr, _, _, _ => by
    rw [hr.1]; exact ⟨fun _ => ⟨_, _, [], rfl, ⟨rfl, rfl⟩, Grown.refl h, rfl⟩, fun e => by simp [levelsMembers] at e⟩
  | (k, v) :: vs, xs, A, h, n, hr, hw, cl, hlt => by
    obtain ⟨x, xs', B, C, e1, e2, e3, e4⟩ := hr
    subst e1 e4
    refine copies_cons (Rep.copies ho e2 hw.1 cl (fun b hb => hlt b (by simp [hb]))) fun g D hD => ?_
    exact RepM.copies ho (e3.frame fun c hc => hD.old c fun hd => by have := (hD.fresh c hd).1; have := hlt c (by simp [hc]); omega) hw.2 (hD.clean cl)
      (fun c hc => by have := hlt c (by simp [hc]); have := hD.next; omega)
end

end Meojson.Mem
