import Verif.Spec.Heap
import Verif.Proofs.MapOps

/-! Heaps that represent trees: framing, destruction, copying, building, reading. -/

set_option autoImplicit false

namespace Meojson.Mem
open Stores

/-- The cells of a heap. -/
abbrev Cells := Addr → Option Cell

mutual
/-- `Rep h v x A`: in the cells `h`, `x` is the value `v`, and what it owns lies at the addresses `A`. -/
def Rep (h : Cells) : Value → HVal → List Addr → Prop
  | .str t s, x, A => x = ⟨t, .text s⟩ ∧ A = []
  | .arrNull t, x, A => x = ⟨t, .arr none⟩ ∧ A = []
  | .objNull t, x, A => x = ⟨t, .obj none⟩ ∧ A = []
  | .arr t vs, x, A => ∃ a xs B, x = ⟨t, .arr (some a)⟩ ∧ h a = some (.arr xs) ∧ RepL h vs xs B ∧ A = a :: B
  | .obj t ms, x, A => ∃ a xs B, x = ⟨t, .obj (some a)⟩ ∧ h a = some (.obj xs) ∧ RepM h ms xs B ∧ A = a :: B
def RepL (h : Cells) : List Value → List HVal → List Addr → Prop
  | [], xs, A => xs = [] ∧ A = []
  | v :: vs, xs, A => ∃ x xs' B C, xs = x :: xs' ∧ Rep h v x B ∧ RepL h vs xs' C ∧ A = B ++ C
def RepM (h : Cells) : List (Bytes × Value) → List (Bytes × HVal) → List Addr → Prop
  | [], xs, A => xs = [] ∧ A = []
  | (k, v) :: vs, xs, A => ∃ x xs' B C, xs = (k, x) :: xs' ∧ Rep h v x B ∧ RepM h vs xs' C ∧ A = B ++ C
end

mutual
theorem Rep.frame {h g : Cells} : ∀ {v : Value} {x : HVal} {A : List Addr}, Rep h v x A → (∀ a ∈ A, g a = h a) → Rep g v x A
  | .str _ _, _, _, hr, _ => hr
  | .arrNull _, _, _, hr, _ => hr
  | .objNull _, _, _, hr, _ => hr
  | .arr _ _, _, _, ⟨a, xs, B, e1, e2, e3, e4⟩, hg => by
    subst e4
    exact ⟨a, xs, B, e1, by rw [hg a (by simp), e2], RepL.frame e3 fun b hb => hg b (by simp [hb]), rfl⟩
  | .obj _ _, _, _, ⟨a, xs, B, e1, e2, e3, e4⟩, hg => by
    subst e4
    exact ⟨a, xs, B, e1, by rw [hg a (by simp), e2], RepM.frame e3 fun b hb => hg b (by simp [hb]), rfl⟩
theorem RepL.frame {h g : Cells} : ∀ {vs : List Value} {xs : List HVal} {A : List Addr}, RepL h vs xs A → (∀ a ∈ A, g a = h a) → RepL g vs xs A
  | [], _, _, hr, _ => hr
  | _ :: _, _, _, ⟨x, xs', B, C, e1, e2, e3, e4⟩, hg => by
    subst e4
    exact ⟨x, xs', B, C, e1, Rep.frame e2 fun b hb => hg b (by simp [hb]), RepL.frame e3 fun b hb => hg b (by simp [hb]), rfl⟩
theorem RepM.frame {h g : Cells} : ∀ {vs : List (Bytes × Value)} {xs : List (Bytes × HVal)} {A : List Addr},
    RepM h vs xs A → (∀ a ∈ A, g a = h a) → RepM g vs xs A
  | [], _, _, hr, _ => hr
  | (_, _) :: _, _, _, ⟨x, xs', B, C, e1, e2, e3, e4⟩, hg => by
    subst e4
    exact ⟨x, xs', B, C, e1, Rep.frame e2 fun b hb => hg b (by simp [hb]), RepM.frame e3 fun b hb => hg b (by simp [hb]), rfl⟩
end

mutual
theorem Rep.foot_unique {h : Cells} : ∀ {v : Value} {x : HVal} {A B : List Addr}, Rep h v x A → Rep h v x B → A = B
  | .str _ _, _, _, _, h1, h2 => by rw [h1.2, h2.2]
  | .arrNull _, _, _, _, h1, h2 => by rw [h1.2, h2.2]
  | .objNull _, _, _, _, h1, h2 => by rw [h1.2, h2.2]
  | .arr _ _, _, _, _, ⟨a, xs, B, e1, e2, e3, e4⟩, ⟨a', xs', B', d1, d2, d3, d4⟩ => by
    subst e4 d4 e1
    injection d1 with _ d1; injection d1 with d1; injection d1 with d1; subst d1
    rw [e2] at d2; injection d2 with d2; injection d2 with d2; subst d2
    rw [RepL.foot_unique e3 d3]
  | .obj _ _, _, _, _, ⟨a, xs, B, e1, e2, e3, e4⟩, ⟨a', xs', B', d1, d2, d3, d4⟩ => by
    subst e4 d4 e1
    injection d1 with _ d1; injection d1 with d1; injection d1 with d1; subst d1
    rw [e2] at d2; injection d2 with d2; injection d2 with d2; subst d2
    rw [RepM.foot_unique e3 d3]
theorem RepL.foot_unique {h : Cells} : ∀ {vs : List Value} {xs : List HVal} {A B : List Addr}, RepL h vs xs A → RepL h vs xs B → A = B
  | [], _, _, _, h1, h2 => by rw [h1.2, h2.2]
  | _ :: _, _, _, _, ⟨x, xs', B, C, e1, e2, e3, e4⟩, ⟨x', xs'', B', C', d1, d2, d3, d4⟩ => by
    subst e4 d4 e1
    injection d1 with d0 d1; subst d0 d1
    rw [Rep.foot_unique e2 d2, RepL.foot_unique e3 d3]
theorem RepM.foot_unique {h : Cells} : ∀ {vs : List (Bytes × Value)} {xs : List (Bytes × HVal)} {A B : List Addr},
    RepM h vs xs A → RepM h vs xs B → A = B
  | [], _, _, _, h1, h2 => by rw [h1.2, h2.2]
  | (_, _) :: _, _, _, _, ⟨x, xs', B, C, e1, e2, e3, e4⟩, ⟨x', xs'', B', C', d1, d2, d3, d4⟩ => by
    subst e4 d4 e1
    injection d1 with d0 d1; injection d0 with _ d0; subst d0 d1
    rw [Rep.foot_unique e2 d2, RepM.foot_unique e3 d3]
end

/-- Members are represented key by key. -/
theorem RepM.keys {h : Cells} : ∀ {ms : List (Bytes × Value)} {xs : List (Bytes × HVal)} {A : List Addr}, RepM h ms xs A → xs.map (·.1) = ms.map (·.1)
  | [], _, _, hr => by rw [hr.1]; rfl
  | (_, _) :: _, _, _, ⟨x, xs', B, C, e1, e2, e3, e4⟩ => by rw [e1]; simp [RepM.keys e3]

theorem RepL.length {h : Cells} : ∀ {vs : List Value} {xs : List HVal} {A : List Addr}, RepL h vs xs A → xs.length = vs.length
  | [], _, _, hr => by rw [hr.1]; rfl
  | _ :: _, _, _, ⟨x, xs', B, C, e1, e2, e3, e4⟩ => by rw [e1]; simp [RepL.length e3]

/-- A member list is represented by the list of its values, with the keys put back. -/
theorem RepM.toL {h : Cells} : ∀ {ms : List (Bytes × Value)} {xs : List (Bytes × HVal)} {A : List Addr},
    RepM h ms xs A → RepL h (ms.map (·.2)) (xs.map (·.2)) A
  | [], _, _, hr => by rw [hr.1, hr.2]; exact ⟨rfl, rfl⟩
  | (_, _) :: _, _, _, ⟨x, xs', B, C, e1, e2, e3, e4⟩ => by subst e1 e4; exact ⟨x, _, B, C, rfl, e2, RepM.toL e3, rfl⟩

theorem RepL.toM {h : Cells} : ∀ {ms : List (Bytes × Value)} {xs : List HVal} {A : List Addr},
    RepL h (ms.map (·.2)) xs A → RepM h ms ((ms.map (·.1)).zip xs) A
  | [], _, _, hr => by rw [hr.1, hr.2]; exact ⟨rfl, rfl⟩
  | (_, _) :: _, _, _, ⟨x, xs', B, C, e1, e2, e3, e4⟩ => by subst e1 e4; exact ⟨x, _, B, C, rfl, e2, RepL.toM e3, rfl⟩

/-! ### Destruction -/

/-- `g` is `h` with the cells at `A` freed. -/
def Freed (h g : Heap) (A : List Addr) : Prop := g.next = h.next ∧ ∀ a, g.cell a = if a ∈ A then none else h.cell a

theorem Freed.nil (h : Heap) : Freed h h [] := ⟨rfl, fun a => by simp⟩
theorem Freed.trans {h g f : Heap} {A B : List Addr} (h1 : Freed h g A) (h2 : Freed g f B) : Freed h f (A ++ B) := by
  refine ⟨h2.1.trans h1.1, fun a => ?_⟩
  rw [h2.2, h1.2]
  by_cases hb : a ∈ B <;> by_cases ha : a ∈ A <;> simp [ha, hb]

mutual
theorem Rep.destroy : ∀ {v : Value} {x : HVal} {A : List Addr} {h : Heap} {n : Nat}, Rep h.cell v x A → A.Nodup → A.length < n →
    ∃ g, destroyVal n h x = some g ∧ Freed h g A
  | .str _ _, x, A, h, n + 1, hr, _, _ => by rw [hr.1, hr.2]; exact ⟨h, rfl, Freed.nil h⟩
  | .arrNull _, x, A, h, n + 1, hr, _, _ => by rw [hr.1, hr.2]; exact ⟨h, rfl, Freed.nil h⟩
  | .objNull _, x, A, h, n + 1, hr, _, _ => by rw [hr.1, hr.2]; exact ⟨h, rfl, Freed.nil h⟩
  | .arr t vs, x, A, h, n + 1, hr, nd, hn => by
    obtain ⟨a, xs, B, e1, e2, e3, e4⟩ := hr
    subst e1 e4
    obtain ⟨hna, ndB⟩ := List.nodup_cons.1 nd
    obtain ⟨g, hg, hf⟩ := RepL.destroy e3 ndB (n := n) (by simp at hn; omega)
    refine ⟨g.set a none, ?_, hf.1, fun b => ?_⟩
    · simp only [destroyVal, e2, hg]; rfl
    · simp only [Heap.set, hf.2, List.mem_cons]
      by_cases h1 : b = a <;> simp [h1]
  | .obj t ms, x, A, h, n + 1, hr, nd, hn => by
    obtain ⟨a, xs, B, e1, e2, e3, e4⟩ := hr
    subst e1 e4
    obtain ⟨hna, ndB⟩ := List.nodup_cons.1 nd
    obtain ⟨g, hg, hf⟩ := RepM.destroy e3 ndB (n := n) (by simp at hn; omega)
    refine ⟨g.set a none, ?_, hf.1, fun b => ?_⟩
    · simp only [destroyVal, e2, hg]; rfl
    · simp only [Heap.set, hf.2, List.mem_cons]
      by_cases h1 : b = a <;> simp [h1]
  | _, _, _, _, 0, _, _, hn => absurd hn (Nat.not_lt_zero _)
theorem RepL.destroy : ∀ {vs : List Value} {xs : List HVal} {A : List Addr} {h : Heap} {n : Nat}, RepL h.cell vs xs A → A.Nodup → A.length < n →
    ∃ g, destroyList (destroyVal n) h xs = some g ∧ Freed h g A
  | [], xs, A, h, n, hr, _, _ => by rw [hr.1, hr.2]; exact ⟨h, rfl, Freed.nil h⟩
  | v :: vs, xs, A, h, n, hr, nd, hn => by
    obtain ⟨x, xs', B, C, e1, e2, e3, e4⟩ := hr
    subst e1 e4
    obtain ⟨ndB, ndC, dis⟩ := List.nodup_append.1 nd
    obtain ⟨g, hg, hf⟩ := Rep.destroy e2 ndB (n := n) (by simp at hn; omega)
    have e3' : RepL g.cell vs xs' C := e3.frame fun c hc => by
      rw [hf.2, if_neg]; intro hb; exact dis c hb c hc rfl
    obtain ⟨g', hg', hf'⟩ := RepL.destroy e3' ndC (n := n) (by simp at hn; omega)
    exact ⟨g', by simp [destroyList, hg, hg'], hf.trans hf'⟩
theorem RepM.destroy : ∀ {vs : List (Bytes × Value)} {xs : List (Bytes × HVal)} {A : List Addr} {h : Heap} {n : Nat}, RepM h.cell vs xs A → A.Nodup →
    A.length < n → ∃ g, destroyList (destroyVal n) h (xs.map (·.2)) = some g ∧ Freed h g A
  | [], xs, A, h, n, hr, _, _ => by rw [hr.1, hr.2]; exact ⟨h, rfl, Freed.nil h⟩
  | (k, v) :: vs, xs, A, h, n, hr, nd, hn => by
    obtain ⟨x, xs', B, C, e1, e2, e3, e4⟩ := hr
    subst e1 e4
    obtain ⟨ndB, ndC, dis⟩ := List.nodup_append.1 nd
    obtain ⟨g, hg, hf⟩ := Rep.destroy e2 ndB (n := n) (by simp at hn; omega)
    have e3' : RepM g.cell vs xs' C := e3.frame fun c hc => by
      rw [hf.2, if_neg]; intro hb; exact dis c hb c hc rfl
    obtain ⟨g', hg', hf'⟩ := RepM.destroy e3' ndC (n := n) (by simp at hn; omega)
    exact ⟨g', by simp [destroyList, hg, hg'], hf.trans hf'⟩
end

/-- Distinct numbers below `n` are at most `n`. -/
theorem nodup_length_le {A : List Addr} {n : Nat} (nd : A.Nodup) (hb : ∀ a ∈ A, a < n) : A.length ≤ n := by
  induction n generalizing A with
  | zero =>
    cases A with
    | nil => simp
    | cons a A => exact absurd (hb a (by simp)) (Nat.not_lt_zero _)
  | succ n ih =>
    have h1 : (A.erase n).length ≤ n := ih (nd.erase n) fun a ha => by
      have := hb a (List.mem_of_mem_erase ha)
      have hne : a ≠ n := fun e => by subst e; exact (List.Nodup.not_mem_erase nd) ha
      omega
    have := List.length_erase (l := A) (a := n)
    split at this <;> omega

/-! ### Reading -/

mutual
theorem Rep.reify : ∀ {v : Value} {x : HVal} {A : List Addr} {h : Heap} {n : Nat}, Rep h.cell v x A → A.length < n → Mem.reify h n x = some v
  | .str _ _, x, A, h, n + 1, hr, _ => by rw [hr.1]; rfl
  | .arrNull _, x, A, h, n + 1, hr, _ => by rw [hr.1]; rfl
  | .objNull _, x, A, h, n + 1, hr, _ => by rw [hr.1]; rfl
  | .arr t vs, x, A, h, n + 1, hr, hn => by
    obtain ⟨a, xs, B, e1, e2, e3, e4⟩ := hr
    subst e1 e4
    simp only [Mem.reify, e2, RepL.reify e3 (n := n) (by simp at hn; omega)]; rfl
  | .obj t ms, x, A, h, n + 1, hr, hn => by
    obtain ⟨a, xs, B, e1, e2, e3, e4⟩ := hr
    subst e1 e4
    simp only [Mem.reify, e2, RepM.reify e3 (n := n) (by simp at hn; omega)]; rfl
  | _, _, _, _, 0, _, hn => absurd hn (Nat.not_lt_zero _)
theorem RepL.reify : ∀ {vs : List Value} {xs : List HVal} {A : List Addr} {h : Heap} {n : Nat}, RepL h.cell vs xs A → A.length < n →
    allSome (Mem.reify h n) xs = some vs
  | [], xs, A, h, n, hr, _ => by rw [hr.1]; rfl
  | v :: vs, xs, A, h, n, hr, hn => by
    obtain ⟨x, xs', B, C, e1, e2, e3, e4⟩ := hr
    subst e1 e4
    simp [allSome, Rep.reify e2 (n := n) (by simp at hn; omega), RepL.reify e3 (n := n) (by simp at hn; omega)]
theorem RepM.reify : ∀ {vs : List (Bytes × Value)} {xs : List (Bytes × HVal)} {A : List Addr} {h : Heap} {n : Nat}, RepM h.cell vs xs A → A.length < n →
    allSome (fun m => (Mem.reify h n m.2).map fun v => (m.1, v)) xs = some vs
  | [], xs, A, h, n, hr, _ => by rw [hr.1]; rfl
  | (k, v) :: vs, xs, A, h, n, hr, hn => by
    obtain ⟨x, xs', B, C, e1, e2, e3, e4⟩ := hr
    subst e1 e4
    simp [allSome, Rep.reify e2 (n := n) (by simp at hn; omega), RepM.reify e3 (n := n) (by simp at hn; omega)]
end

/-! ### Building and copying -/

/-- What an allocating operation makes: `g` extends `h` by the cells `B`. -/
structure Grown (h g : Heap) (B : List Addr) : Prop where
  next : h.next ≤ g.next
  fresh : ∀ b ∈ B, h.next ≤ b ∧ b < g.next
  nodup : B.Nodup
  old : ∀ a, a ∉ B → g.cell a = h.cell a

theorem Grown.refl (h : Heap) : Grown h h [] := ⟨Nat.le_refl _, by simp, List.nodup_nil, fun _ _ => rfl⟩

theorem Grown.trans {h g f : Heap} {A B : List Addr} (h1 : Grown h g A) (h2 : Grown g f B) : Grown h f (A ++ B) where
  next := Nat.le_trans h1.next h2.next
  fresh b hb := by
    rcases List.mem_append.1 hb with hb | hb
    · have := h1.fresh b hb; have := h2.next; omega
    · have := h2.fresh b hb; have := h1.next; omega
  nodup := List.nodup_append.2 ⟨h1.nodup, h2.nodup, fun a ha b hb e => by
    subst e; have := h1.fresh a ha; have := h2.fresh a hb; omega⟩
  old a ha := by
    rw [List.mem_append, not_or] at ha
    rw [h2.old a ha.2, h1.old a ha.1]

theorem Grown.bump (h : Heap) : Grown h h.bump [] := ⟨Nat.le_succ _, by simp, List.nodup_nil, fun _ _ => rfl⟩

/-- A new cell on top. -/
theorem Grown.cell {h g : Heap} {B : List Addr} (hg : Grown h g B) (c : Cell) : Grown h (g.bump.set g.next (some c)) (g.next :: B) where
  next := Nat.le_trans hg.next (Nat.le_succ _)
  fresh b hb := by
    rcases List.mem_cons.1 hb with rfl | hb
    · exact ⟨hg.next, Nat.lt_succ_self _⟩
    · have := hg.fresh b hb; exact ⟨this.1, Nat.lt_succ_of_lt this.2⟩
  nodup := List.nodup_cons.2 ⟨fun hb => Nat.lt_irrefl _ (hg.fresh _ hb).2, hg.nodup⟩
  old a ha := by
    rw [List.mem_cons, not_or] at ha
    simp only [Heap.set, Heap.bump, ha.1, if_false]
    exact hg.old a ha.2

mutual
theorem build_rep : ∀ (v : Value) (h : Heap), ∃ B, Rep (build h v).1.cell v (build h v).2 B ∧ Grown h (build h v).1 B
  | .str _ _, h => ⟨[], ⟨rfl, rfl⟩, Grown.refl h⟩
  | .arrNull _, h => ⟨[], ⟨rfl, rfl⟩, Grown.refl h⟩
  | .objNull _, h => ⟨[], ⟨rfl, rfl⟩, Grown.refl h⟩
  | .arr t vs, h => by
    obtain ⟨B, h1, h2⟩ := buildAll_rep vs h
    refine ⟨_ :: B, ⟨_, _, B, rfl, if_pos rfl, h1.frame fun b hb => ?_, rfl⟩, h2.cell _⟩
    exact if_neg (Nat.ne_of_lt (h2.fresh b hb).2)
  | .obj t ms, h => by
    obtain ⟨B, h1, h2⟩ := buildMembers_rep ms h
    refine ⟨_ :: B, ⟨_, _, B, rfl, if_pos rfl, h1.frame fun b hb => ?_, rfl⟩, h2.cell _⟩
    exact if_neg (Nat.ne_of_lt (h2.fresh b hb).2)
theorem buildAll_rep : ∀ (vs : List Value) (h : Heap), ∃ B, RepL (buildAll h vs).1.cell vs (buildAll h vs).2 B ∧ Grown h (buildAll h vs).1 B
  | [], h => ⟨[], ⟨rfl, rfl⟩, Grown.refl h⟩
  | v :: vs, h => by
    obtain ⟨B, h1, h2⟩ := build_rep v h
    obtain ⟨C, h3, h4⟩ := buildAll_rep vs (build h v).1
    refine ⟨B ++ C, ⟨_, _, B, C, rfl, h1.frame fun b hb => h4.old b fun hc => ?_, h3, rfl⟩, h2.trans h4⟩
    have := (h2.fresh b hb).2; have := (h4.fresh b hc).1; omega
theorem buildMembers_rep : ∀ (ms : List (Bytes × Value)) (h : Heap),
    ∃ B, RepM (buildMembers h ms).1.cell ms (buildMembers h ms).2 B ∧ Grown h (buildMembers h ms).1 B
  | [], h => ⟨[], ⟨rfl, rfl⟩, Grown.refl h⟩
  | (k, v) :: ms, h => by
    obtain ⟨B, h1, h2⟩ := build_rep v h
    obtain ⟨C, h3, h4⟩ := buildMembers_rep ms (build h v).1
    refine ⟨B ++ C, ⟨_, _, B, C, rfl, h1.frame fun b hb => h4.old b fun hc => ?_, h3, rfl⟩, h2.trans h4⟩
    have := (h2.fresh b hb).2; have := (h4.fresh b hc).1; omega
end

/-- A copy of the values `vs`, or out of memory with nothing left behind. -/
def Copied {α β : Type} (R : Cells → β → α → List Addr → Prop) (oom : Addr → Bool) (h : Heap) (v : β) : Copy α → Prop
  | .ok g x => ∃ B, R g.cell v x B ∧ Grown h g B
  | .oom g => Grown h g [] ∧ ∃ a, oom a = true
  | .ub => False

/-- Nothing lies at unused addresses. -/
def Heap.Clean (h : Heap) : Prop := ∀ a, h.next ≤ a → h.cell a = none

theorem Grown.clean {h g : Heap} {B : List Addr} (hg : Grown h g B) (hc : h.Clean) : g.Clean := fun a ha => by
  rw [hg.old a fun hb => by have := hg.fresh a hb; omega]
  exact hc a (Nat.le_trans hg.next ha)

theorem copy_cons {oom : Addr → Bool} {n : Nat} {h : Heap} {v : Value} {vs : List Value} {x : HVal} {xs : List HVal} (cl : h.Clean)
    (h1 : Copied Rep oom h v (copyVal oom n h x))
    (h2 : ∀ g D, Grown h g D → Copied RepL oom g vs (copyList (copyVal oom n) g xs)) :
    Copied RepL oom h (v :: vs) (copyList (copyVal oom n) h (x :: xs)) := by
  simp only [copyList]
  cases hc : copyVal oom n h x with
  | ub => rw [hc] at h1; exact h1.elim
  | oom g => rw [hc] at h1; exact h1
  | ok g x' =>
    rw [hc] at h1
    obtain ⟨D, h1, hD⟩ := h1
    have ih := h2 g D hD
    simp only
    cases hc2 : copyList (copyVal oom n) g xs with
    | ub => rw [hc2] at ih; exact ih.elim
    | oom f =>
      rw [hc2] at ih
      have hlt : ∀ d ∈ D, d < f.next := fun d hd => Nat.lt_of_lt_of_le (hD.fresh d hd).2 ih.1.next
      obtain ⟨e, he, hf⟩ := (h1.frame fun d _ => ih.1.old d (by simp)).destroy hD.nodup (n := f.fuel)
        (Nat.lt_succ_of_le (nodup_length_le hD.nodup hlt))
      simp only [he]
      refine ⟨⟨?_, by simp, List.nodup_nil, fun a _ => ?_⟩, ih.2⟩
      · rw [hf.1]; exact Nat.le_trans hD.next ih.1.next
      · rw [hf.2]
        split
        · next hd => exact (cl a (hD.fresh a hd).1).symm
        · next hd => rw [ih.1.old a (by simp), hD.old a hd]
    | ok f xs'' =>
      rw [hc2] at ih
      obtain ⟨E, h3, h4⟩ := ih
      refine ⟨D ++ E, ⟨x', xs'', D, E, rfl, h1.frame fun b hb => h4.old b fun hc => ?_, h3, rfl⟩, hD.trans h4⟩
      have := (hD.fresh b hb).2; have := (h4.fresh b hc).1; omega

mutual
theorem Rep.copy (oom : Addr → Bool) : ∀ {v : Value} {x : HVal} {A : List Addr} {h : Heap} {n : Nat}, Rep h.cell v x A → Whole v →
    h.Clean → (∀ a ∈ A, a < h.next) → A.length < n → Copied Rep oom h v (copyVal oom n h x)
  | .str t s, x, A, h, n + 1, hr, _, _, _, _ => by
    rw [hr.1]
    simp only [copyVal]
    split
    · next e => exact ⟨Grown.bump h, _, e⟩
    · exact ⟨[], ⟨rfl, rfl⟩, Grown.bump h⟩
  | .arr t vs, x, A, h, n + 1, hr, hw, cl, hlt, hn => by
    obtain ⟨a, xs, B, e1, e2, e3, e4⟩ := hr
    subst e1 e4
    simp only [copyVal, e2]
    split
    · next e => exact ⟨Grown.bump h, _, e⟩
    · have ih := RepL.copy oom (h := h.bump) (n := n) e3 hw ((Grown.bump h).clean cl)
        (fun b hb => Nat.lt_succ_of_lt (hlt b (by simp [hb]))) (by simp at hn; omega)
      cases hc : copyList (copyVal oom n) h.bump xs with
      | ub => rw [hc] at ih; exact ih.elim
      | oom g => rw [hc] at ih; exact ⟨(Grown.bump h).trans ih.1, ih.2⟩
      | ok g xs' =>
        rw [hc] at ih
        obtain ⟨C, h1, h2⟩ := ih
        have hne : ∀ c ∈ C, c ≠ h.next := fun c hc => by
          have := (h2.fresh c hc).1; simp only [Heap.bump] at this; omega
        refine ⟨h.next :: C, ⟨h.next, xs', C, rfl, by simp [Heap.set], h1.frame fun c hc => ?_, rfl⟩, ?_⟩
        · simp [Heap.set, hne c hc]
        · refine ⟨Nat.le_trans (Nat.le_succ _) h2.next, fun b hb => ?_, List.nodup_cons.2 ⟨fun hb => hne _ hb rfl, h2.nodup⟩, fun b hb => ?_⟩
          · rcases List.mem_cons.1 hb with rfl | hb
            · exact ⟨Nat.le_refl _, h2.next⟩
            · have := h2.fresh b hb; simp only [Heap.bump] at this; exact ⟨by omega, this.2⟩
          · rw [List.mem_cons, not_or] at hb
            simp only [Heap.set, hb.1, if_false]; exact h2.old b hb.2
  | .obj t ms, x, A, h, n + 1, hr, hw, cl, hlt, hn => by
    obtain ⟨a, xs, B, e1, e2, e3, e4⟩ := hr
    subst e1 e4
    simp only [copyVal, e2]
    split
    · next e => exact ⟨Grown.bump h, _, e⟩
    · have ih := RepM.copy oom (h := h.bump) (n := n) e3 hw ((Grown.bump h).clean cl)
        (fun b hb => Nat.lt_succ_of_lt (hlt b (by simp [hb]))) (by simp at hn; omega)
      cases hc : copyList (copyVal oom n) h.bump (xs.map (·.2)) with
      | ub => rw [hc] at ih; exact ih.elim
      | oom g => rw [hc] at ih; exact ⟨(Grown.bump h).trans ih.1, ih.2⟩
      | ok g xs' =>
        rw [hc] at ih
        obtain ⟨C, h1, h2⟩ := ih
        have hne : ∀ c ∈ C, c ≠ h.next := fun c hc => by
          have := (h2.fresh c hc).1; simp only [Heap.bump] at this; omega
        refine ⟨h.next :: C, ⟨h.next, _, C, rfl, if_pos rfl, ?_, rfl⟩, ?_⟩
        · have := e3.keys
          rw [this]
          exact h1.toM.frame fun c hc => by simp [Heap.set, hne c hc]
        · refine ⟨Nat.le_trans (Nat.le_succ _) h2.next, fun b hb => ?_, List.nodup_cons.2 ⟨fun hb => hne _ hb rfl, h2.nodup⟩, fun b hb => ?_⟩
          · rcases List.mem_cons.1 hb with rfl | hb
            · exact ⟨Nat.le_refl _, h2.next⟩
            · have := h2.fresh b hb; simp only [Heap.bump] at this; exact ⟨by omega, this.2⟩
          · rw [List.mem_cons, not_or] at hb
            simp only [Heap.set, hb.1, if_false]; exact h2.old b hb.2
  | _, _, _, _, 0, _, _, _, _, hn => absurd hn (Nat.not_lt_zero _)
theorem RepL.copy (oom : Addr → Bool) : ∀ {vs : List Value} {xs : List HVal} {A : List Addr} {h : Heap} {n : Nat}, RepL h.cell vs xs A → WholeAll vs →
    h.Clean → (∀ a ∈ A, a < h.next) → A.length < n → Copied RepL oom h vs (copyList (copyVal oom n) h xs)
  | [], xs, A, h, n, hr, _, _, _, _ => by rw [hr.1]; exact ⟨[], ⟨rfl, rfl⟩, Grown.refl h⟩
  | v :: vs, xs, A, h, n, hr, hw, cl, hlt, hn => by
    obtain ⟨x, xs', B, C, e1, e2, e3, e4⟩ := hr
    subst e1 e4
    refine copy_cons cl (Rep.copy oom e2 hw.1 cl (fun b hb => hlt b (by simp [hb])) (by simp at hn; omega)) fun g D hD => ?_
    exact RepL.copy oom (e3.frame fun c hc => hD.old c fun hd => by have := (hD.fresh c hd).1; have := hlt c (by simp [hc]); omega) hw.2 (hD.clean cl)
      (fun c hc => by have := hlt c (by simp [hc]); have := hD.next; omega) (by simp at hn; omega)
theorem RepM.copy (oom : Addr → Bool) : ∀ {vs : List (Bytes × Value)} {xs : List (Bytes × HVal)} {A : List Addr} {h : Heap} {n : Nat}, RepM h.cell vs xs A →
    WholeMembers vs → h.Clean → (∀ a ∈ A, a < h.next) → A.length < n → Copied RepL oom h (vs.map (·.2)) (copyList (copyVal oom n) h (xs.map (·.2)))
  | [], xs, A, h, n, hr, _, _, _, _ => by rw [hr.1]; exact ⟨[], ⟨rfl, rfl⟩, Grown.refl h⟩
  | (k, v) :: vs, xs, A, h, n, hr, hw, cl, hlt, hn => by
    obtain ⟨x, xs', B, C, e1, e2, e3, e4⟩ := hr
    subst e1 e4
    refine copy_cons cl (Rep.copy oom e2 hw.1 cl (fun b hb => hlt b (by simp [hb])) (by simp at hn; omega)) fun g D hD => ?_
    exact RepM.copy oom (e3.frame fun c hc => hD.old c fun hd => by have := (hD.fresh c hd).1; have := hlt c (by simp [hc]); omega) hw.2 (hD.clean cl)
      (fun c hc => by have := hlt c (by simp [hc]); have := hD.next; omega) (by simp at hn; omega)
end

end Meojson.Mem
