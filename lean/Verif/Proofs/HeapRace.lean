import Verif.Proofs.HeapRun
import Verif.Spec.Race

/-! Which memory a statement reads and writes. -/

set_option autoImplicit false

namespace Meojson.Mem
open Stores

/-- Variables, addresses and single slots that may be written (`W`, `R`, `L`) and read (`X`, `Q`, `M`). -/
structure Regs where
  W : Nat → Prop
  X : Nat → Prop
  R : Nat → Prop
  Q : Nat → Prop
  L : Nat → Nat → Prop
  M : Nat → Nat → Prop
  wx : ∀ x, W x → X x
  rq : ∀ a, R a → Q a
  lm : ∀ a i, L a i → M a i
  mr : ∀ a i, M a i → ¬ R a

def HVal.In (P : Nat → Prop) (v : HVal) : Prop := ∀ a, pointer v = some a → P a
def Cell.In (P : Nat → Prop) (c : Cell) : Prop := ∀ v ∈ c.children, v.In P

def Heap.slot (h : Heap) (a i : Nat) : Option HVal := (h.cell a).bind fun c => c.children[i]?

theorem sameBut_refl {P : Nat → Prop} (c : Option Cell) : SameBut P c c := by cases c <;> simp [SameBut]

theorem cell_ext {c d : Cell} (h1 : shape d = shape c) (h2 : ∀ i : Nat, d.children[i]? = c.children[i]?) : d = c := by
  have h2 := List.ext_getElem? h2
  cases c with
  | arr vs => cases d with
    | arr ws => simp only [Cell.children] at h2; rw [h2]
    | obj _ => simp [shape] at h1
  | obj ms => cases d with
    | arr _ => simp [shape] at h1
    | obj ns =>
      simp only [shape, Sum.inr.injEq] at h1
      simp only [Cell.children] at h2
      congr 1
      apply List.ext_getElem?
      intro i
      have e1 := congrArg (·[i]?) h1
      have e2 := congrArg (·[i]?) h2
      simp only [List.getElem?_map] at e1 e2
      cases hm : ms[i]? with
      | none => rw [hm] at e1; simpa using e1
      | some m =>
        rw [hm] at e1 e2
        cases hn : ns[i]? with
        | none => rw [hn] at e1; simp at e1
        | some n =>
          rw [hn] at e1 e2
          simp only [Option.map_some, Option.some.injEq] at e1 e2
          rw [show n = m from Prod.ext e1 e2]

theorem sameBut_eq {P : Nat → Prop} {c d : Option Cell} (h : SameBut P c d) (hP : ∀ i, ¬ P i) : d = c := by
  cases c <;> cases d <;> simp only [SameBut] at h
  · rfl
  · rw [cell_ext h.1 fun i => h.2 i (hP i)]

theorem setChild_shape (c : Cell) (i : Nat) (v : HVal) : shape (c.setChild i v) = shape c := by
  cases c with
  | arr vs => simp [shape, Cell.setChild]
  | obj ms =>
    simp only [shape, Cell.setChild, Sum.inr.injEq]
    apply List.ext_getElem?
    intro j
    simp only [List.getElem?_map, List.getElem?_modify]
    cases ms[j]? with
    | none => rfl
    | some m => simp only [Option.map_some, Option.map_eq_map]; split <;> rfl

theorem sameBut_setChild {P : Nat → Prop} {c d : Option Cell} (h : SameBut P c d) {i : Nat} (hi : P i) (v : HVal) : SameBut P c (d.map (·.setChild i v)) := by
  cases c <;> cases d <;> simp only [SameBut, Option.map_none, Option.map_some] at h ⊢
  refine ⟨(setChild_shape _ _ _).trans h.1, fun j hj => ?_⟩
  rw [setChild_children, List.getElem?_set_ne (by rintro rfl; exact hj hi)]
  exact h.2 j hj

theorem HVal.In.arr {P : Nat → Prop} {v : HVal} {a : Nat} (h : v.In P) (e : v.raw = .arr (some a)) : P a := h a (by simp [pointer, e])
theorem HVal.In.obj {P : Nat → Prop} {v : HVal} {a : Nat} (h : v.In P) (e : v.raw = .obj (some a)) : P a := h a (by simp [pointer, e])
theorem HVal.In.retag {P : Nat → Prop} {v : HVal} {t : VType} (h : v.In P) : HVal.In P ⟨t, v.raw⟩ := h
theorem HVal.In.moved {P : Nat → Prop} {v : HVal} {j : Bytes} : (v.movedFrom j).In P := by
  intro a h
  unfold HVal.movedFrom at h
  split at h <;> simp [pointer] at h

theorem setChild_in {P : Nat → Prop} {c : Cell} {i : Nat} {v : HVal} (hc : c.In P) (hv : v.In P) : (c.setChild i v).In P := by
  cases c with
  | arr vs =>
    intro w hw
    rcases List.mem_or_eq_of_mem_set hw with h | rfl
    · exact hc w h
    · exact hv
  | obj ms =>
    intro w hw
    simp only [Cell.setChild, Cell.children, List.mem_map] at hw
    obtain ⟨m, hm, rfl⟩ := hw
    obtain ⟨j, hj⟩ := List.mem_iff_getElem?.1 hm
    rw [List.getElem?_modify] at hj
    cases e : ms[j]? with
    | none => rw [e] at hj; simp at hj
    | some m' =>
      rw [e] at hj
      simp only [Option.map_eq_map, Option.map_some, Option.some.injEq] at hj
      split at hj
      · subst hj; exact hv
      · subst hj; exact hc _ (List.mem_map.2 ⟨_, List.mem_of_getElem? e, rfl⟩)

structure HRel (G : Regs) (b b' h h' : Heap) : Prop where
  r : ∀ a c, G.R a → h.cell a = some c → c.In G.R
  q : ∀ a c, G.Q a → h.cell a = some c → c.In G.Q
  new : ∀ a, h.next ≤ a → G.R a
  next : h'.next = h.next
  agree : ∀ a, G.Q a → h'.cell a = h.cell a
  kept : ∀ a, ¬ G.R a → SameBut (G.L a) (b.cell a) (h.cell a)
  kept' : ∀ a, ¬ G.R a → SameBut (G.L a) (b'.cell a) (h'.cell a)
  slot : ∀ a i, G.M a i → h'.slot a i = h.slot a i
  l : ∀ a i v, G.L a i → h.slot a i = some v → v.In G.R
  m : ∀ a i v, G.M a i → h.slot a i = some v → v.In G.Q

structure SRel (G : Regs) (b b' s s' : State) : Prop where
  heap : HRel G b.heap b'.heap s.heap s'.heap
  w : ∀ x v, G.W x → s.var x = some v → v.In G.R
  x : ∀ x v, G.X x → s.var x = some v → v.In G.Q
  var : ∀ x, G.X x → s'.var x = s.var x
  kept : ∀ x, ¬ G.W x → s.var x = b.var x
  kept' : ∀ x, ¬ G.W x → s'.var x = b'.var x

section
variable {G : Regs} {b b' h h' : Heap} {B B' s s' : State}

theorem HRel.set (H : HRel G b b' h h') {a : Nat} {c : Option Cell} (ha : G.R a) (hc : ∀ d, c = some d → d.In G.R) :
    HRel G b b' (h.set a c) (h'.set a c) where
  r e d he hd := by
    simp only [Heap.set] at hd
    split at hd
    · exact hc d hd
    · exact H.r e d he hd
  q e d he hd := by
    simp only [Heap.set] at hd
    split at hd
    · exact fun v hv p hp => G.rq p (hc d hd v hv p hp)
    · exact H.q e d he hd
  new := H.new
  next := H.next
  agree e he := by
    simp only [Heap.set]
    split
    · rfl
    · exact H.agree e he
  kept e he := by
    simp only [Heap.set]
    split
    · subst e; exact absurd ha he
    · exact H.kept e he
  kept' e he := by
    simp only [Heap.set]
    split
    · subst e; exact absurd ha he
    · exact H.kept' e he
  slot e i he := by
    have hn : e ≠ a := by rintro rfl; exact G.mr e i he ha
    simp only [Heap.slot, Heap.set, if_neg hn]
    exact H.slot e i he
  l e i v he := by
    have hn : e ≠ a := by rintro rfl; exact G.mr e i (G.lm _ _ he) ha
    simp only [Heap.slot, Heap.set, if_neg hn]
    exact H.l e i v he
  m e i v he := by
    have hn : e ≠ a := by rintro rfl; exact G.mr e i he ha
    simp only [Heap.slot, Heap.set, if_neg hn]
    exact H.m e i v he

theorem slot_setChild (h : Heap) (a i : Nat) (v : HVal) (e j : Nat) : (h.set a ((h.cell a).map (·.setChild i v))).slot e j =
    if e = a ∧ j = i then (h.slot a i).map fun _ => v else h.slot e j := by
  simp only [Heap.slot, Heap.set]
  by_cases he : e = a
  · subst he
    simp only [if_true, true_and]
    cases hc : h.cell e with
    | none => simp
    | some c =>
      simp only [Option.map_some, Option.bind_some, setChild_children, List.getElem?_set]
      by_cases hj : j = i
      · subst hj
        simp only [if_true]
        split
        · next hl => simp [List.getElem?_eq_getElem hl]
        · next hl => simp [List.getElem?_eq_none (Nat.le_of_not_lt hl)]
      · rw [if_neg (Ne.symm hj), if_neg hj]
  · simp [he]

/-- One slot is written. -/
theorem HRel.setSlot (H : HRel G b b' h h') {a i : Nat} {v : HVal} (hl : G.L a i) (hv : v.In G.R) :
    HRel G b b' (h.set a ((h.cell a).map (·.setChild i v))) (h'.set a ((h'.cell a).map (·.setChild i v))) where
  r e d he hd := by
    have hn : e ≠ a := by rintro rfl; exact G.mr e i (G.lm _ _ hl) he
    simp only [Heap.set, if_neg hn] at hd
    exact H.r e d he hd
  q e d he hd := by
    simp only [Heap.set] at hd
    split at hd
    · next ea =>
      subst ea
      obtain ⟨c, e1, rfl⟩ := Option.map_eq_some_iff.1 hd
      exact setChild_in (H.q e c he e1) fun p hp => G.rq p (hv p hp)
    · exact H.q e d he hd
  new := H.new
  next := H.next
  agree e he := by
    simp only [Heap.set]
    split
    · next ea => subst ea; rw [H.agree e he]
    · exact H.agree e he
  kept e he := by
    simp only [Heap.set]
    split
    · next ea => subst ea; exact sameBut_setChild (H.kept e he) hl v
    · exact H.kept e he
  kept' e he := by
    simp only [Heap.set]
    split
    · next ea => subst ea; exact sameBut_setChild (H.kept' e he) hl v
    · exact H.kept' e he
  slot e j he := by
    simp only [slot_setChild]
    split
    · rw [H.slot a i (G.lm _ _ hl)]
    · exact H.slot e j he
  l e j w he hw := by
    simp only [slot_setChild] at hw
    split at hw
    · obtain ⟨_, _, rfl⟩ := Option.map_eq_some_iff.1 hw; exact hv
    · exact H.l e j w he hw
  m e j w he hw := by
    simp only [slot_setChild] at hw
    split at hw
    · obtain ⟨_, _, rfl⟩ := Option.map_eq_some_iff.1 hw; exact fun p hp => G.rq p (hv p hp)
    · exact H.m e j w he hw

theorem HRel.bump (H : HRel G b b' h h') : HRel G b b' h.bump h'.bump where
  r := H.r
  q := H.q
  new a ha := H.new a (by simp only [Heap.bump] at ha; omega)
  next := by simp only [Heap.bump, H.next]
  agree := H.agree
  kept := H.kept
  kept' := H.kept'
  slot := H.slot
  l := H.l
  m := H.m

theorem HRel.fuel (H : HRel G b b' h h') : h'.fuel = h.fuel := by simp only [Heap.fuel, H.next]

def ORel (G : Regs) (b b' : Heap) : Option Heap → Option Heap → Prop
  | some h, some h' => HRel G b b' h h'
  | none, none => True
  | _, _ => False

theorem destroyList_rel {f : Heap → HVal → Option Heap} (hf : ∀ h h' v, HRel G b b' h h' → v.In G.R → ORel G b b' (f h v) (f h' v)) :
    ∀ (vs : List HVal) (h h' : Heap), HRel G b b' h h' → (∀ v ∈ vs, v.In G.R) → ORel G b b' (destroyList f h vs) (destroyList f h' vs)
  | [], _, _, H, _ => H
  | v :: vs, h, h', H, hv => by
    have := hf h h' v H (hv v (by simp))
    simp only [destroyList]
    cases e : f h v <;> cases e' : f h' v <;> rw [e, e'] at this <;> simp only [ORel] at this
    · trivial
    · exact destroyList_rel hf vs _ _ this fun w hw => hv w (by simp [hw])

theorem destroyVal_rel : ∀ (n : Nat) (h h' : Heap) (v : HVal), HRel G b b' h h' → v.In G.R → ORel G b b' (destroyVal n h v) (destroyVal n h' v)
  | 0, _, _, _, _, _ => trivial
  | n + 1, h, h', v, H, hv => by
    simp only [destroyVal]
    cases e : v.raw with
    | text s => exact H
    | arr p =>
      cases p with
      | none => exact H
      | some a =>
        have ha := hv.arr e
        simp only
        rw [H.agree a (G.rq a ha)]
        cases ec : h.cell a with
        | none => trivial
        | some c =>
          cases c with
          | obj ms => trivial
          | arr vs =>
            have := destroyList_rel (fun h h' v => destroyVal_rel n h h' v) vs h h' H fun v hm => H.r a _ ha ec v hm
            simp only
            generalize destroyList (destroyVal n) h vs = o at this ⊢
            generalize destroyList (destroyVal n) h' vs = o' at this ⊢
            cases o <;> cases o' <;> simp only [ORel] at this
            · trivial
            · exact this.set ha fun d hd => by cases hd
    | obj p =>
      cases p with
      | none => exact H
      | some a =>
        have ha := hv.obj e
        simp only
        rw [H.agree a (G.rq a ha)]
        cases ec : h.cell a with
        | none => trivial
        | some c =>
          cases c with
          | arr ms => trivial
          | obj ms =>
            have := destroyList_rel (fun h h' v => destroyVal_rel n h h' v) (ms.map fun m : Bytes × HVal => m.2) h h' H fun v hm => H.r a _ ha ec v hm
            simp only
            generalize destroyList (destroyVal n) h (ms.map (·.2)) = o at this ⊢
            generalize destroyList (destroyVal n) h' (ms.map (·.2)) = o' at this ⊢
            cases o <;> cases o' <;> simp only [ORel] at this
            · trivial
            · exact this.set ha fun d hd => by cases hd

def CRel {α : Type} (G : Regs) (b b' : Heap) (P : α → Prop) : Copy α → Copy α → Prop
  | .ok h x, .ok h' x' => HRel G b b' h h' ∧ x' = x ∧ P x
  | .oom h, .oom h' => HRel G b b' h h'
  | .ub, .ub => True
  | _, _ => False

theorem copyList_rel {f : Heap → HVal → Copy HVal} (hf : ∀ h h' v, HRel G b b' h h' → v.In G.Q → CRel G b b' (HVal.In G.R) (f h v) (f h' v)) :
    ∀ (vs : List HVal) (h h' : Heap), HRel G b b' h h' → (∀ v ∈ vs, v.In G.Q) →
      CRel G b b' (fun vs : List HVal => ∀ v ∈ vs, v.In G.R) (copyList f h vs) (copyList f h' vs)
  | [], _, _, H, _ => ⟨H, rfl, by simp⟩
  | v :: vs, h, h', H, hv => by
    have := hf h h' v H (hv v (by simp))
    simp only [copyList]
    generalize f h v = o at this ⊢
    generalize f h' v = o' at this ⊢
    cases o <;> cases o' <;> simp only [CRel] at this
    · rename_i h1 v1 h2 v2
      obtain ⟨H1, rfl, hi⟩ := this
      have := copyList_rel hf vs h1 h2 H1 fun w hw => hv w (by simp [hw])
      simp only
      generalize copyList f h1 vs = o at this ⊢
      generalize copyList f h2 vs = o' at this ⊢
      cases o <;> cases o' <;> simp only [CRel] at this
      · obtain ⟨H2, rfl, hj⟩ := this
        refine ⟨H2, rfl, fun w hw => ?_⟩
        rcases List.mem_cons.1 hw with rfl | hw
        · exact hi
        · exact hj w hw
      · rename_i h3 h4
        have hd := destroyVal_rel h3.fuel h3 h4 v2 this hi
        simp only
        rw [this.fuel]
        generalize destroyVal h3.fuel h3 v2 = o at hd ⊢
        generalize destroyVal h3.fuel h4 v2 = o' at hd ⊢
        cases o <;> cases o' <;> simp only [ORel] at hd
        · trivial
        · exact hd
      · trivial
    · exact this
    · trivial

theorem zip_in {P : Nat → Prop} : ∀ (ks : List Bytes) (vs : List HVal), (∀ v ∈ vs, v.In P) → (Cell.obj (ks.zip vs)).In P := by
  intro ks vs hv v hm
  simp only [Cell.children, List.mem_map] at hm
  obtain ⟨m, hm, rfl⟩ := hm
  exact hv _ (List.of_mem_zip hm).2

theorem copyVal_rel (oom : Nat → Bool) : ∀ (n : Nat) (h h' : Heap) (v : HVal), HRel G b b' h h' → v.In G.Q →
    CRel G b b' (HVal.In G.R) (copyVal oom n h v) (copyVal oom n h' v)
  | 0, _, _, _, _, _ => trivial
  | n + 1, h, h', v, H, hv => by
    simp only [copyVal, H.next]
    cases e : v.raw with
    | text s =>
      simp only
      cases oom h.next
      · refine ⟨H.bump, rfl, fun a ha => ?_⟩
        simp [pointer, e] at ha
      · exact H.bump
    | arr p =>
      cases p with
      | none => trivial
      | some a =>
        have ha := hv.arr e
        simp only
        rw [H.agree a ha]
        cases ec : h.cell a with
        | none => trivial
        | some c =>
          cases c with
          | obj ms => trivial
          | arr vs =>
            simp only
            cases oom h.next
            · have := copyList_rel (fun h h' v => copyVal_rel oom n h h' v) vs h.bump h'.bump H.bump fun v hm => H.q a _ ha ec v hm
              simp only [Bool.false_eq_true, if_false]
              generalize copyList (copyVal oom n) h.bump vs = o at this ⊢
              generalize copyList (copyVal oom n) h'.bump vs = o' at this ⊢
              cases o <;> cases o' <;> simp only [CRel] at this
              · obtain ⟨H1, rfl, hi⟩ := this
                have hn : G.R h.next := H.new _ (Nat.le_refl _)
                refine ⟨H1.set hn fun d hd => ?_, rfl, fun p hp => ?_⟩
                · cases hd; exact hi
                · simp [pointer] at hp; exact hp ▸ hn
              · exact this
              · trivial
            · exact H.bump
    | obj p =>
      cases p with
      | none => trivial
      | some a =>
        have ha := hv.obj e
        simp only
        rw [H.agree a ha]
        cases ec : h.cell a with
        | none => trivial
        | some c =>
          cases c with
          | arr ms => trivial
          | obj ms =>
            simp only
            cases oom h.next
            · have := copyList_rel (fun h h' v => copyVal_rel oom n h h' v) (ms.map fun m : Bytes × HVal => m.2) h.bump h'.bump H.bump fun v hm => H.q a _ ha ec v hm
              simp only [Bool.false_eq_true, if_false]
              generalize copyList (copyVal oom n) h.bump (ms.map (·.2)) = o at this ⊢
              generalize copyList (copyVal oom n) h'.bump (ms.map (·.2)) = o' at this ⊢
              cases o <;> cases o' <;> simp only [CRel] at this
              · obtain ⟨H1, rfl, hi⟩ := this
                have hn : G.R h.next := H.new _ (Nat.le_refl _)
                refine ⟨H1.set hn fun d hd => ?_, rfl, fun p hp => ?_⟩
                · cases hd; exact zip_in _ _ hi
                · simp [pointer] at hp; exact hp ▸ hn
              · exact this
              · trivial
            · exact H.bump

mutual
theorem build_rel : ∀ (v : Value) (h h' : Heap), HRel G b b' h h' →
    HRel G b b' (build h v).1 (build h' v).1 ∧ (build h' v).2 = (build h v).2 ∧ (build h v).2.In G.R
  | .str _ _, _, _, H => ⟨H, rfl, fun _ h => by simp [build, pointer] at h⟩
  | .arrNull _, _, _, H => ⟨H, rfl, fun _ h => by simp [build, pointer] at h⟩
  | .objNull _, _, _, H => ⟨H, rfl, fun _ h => by simp [build, pointer] at h⟩
  | .arr t vs, h, h', H => by
    obtain ⟨H1, e, hi⟩ := buildAll_rel vs h h' H
    have hn : G.R (buildAll h vs).1.next := H1.new _ (Nat.le_refl _)
    simp only [build, e, H1.next]
    refine ⟨H1.bump.set hn fun d hd => ?_, trivial, fun p hp => ?_⟩
    · cases hd; exact hi
    · simp [pointer] at hp; exact hp ▸ hn
  | .obj t ms, h, h', H => by
    obtain ⟨H1, e, hi⟩ := buildMembers_rel ms h h' H
    have hn : G.R (buildMembers h ms).1.next := H1.new _ (Nat.le_refl _)
    simp only [build, e, H1.next]
    refine ⟨H1.bump.set hn fun d hd => ?_, trivial, fun p hp => ?_⟩
    · cases hd; exact hi
    · simp [pointer] at hp; exact hp ▸ hn
theorem buildAll_rel : ∀ (vs : List Value) (h h' : Heap), HRel G b b' h h' →
    HRel G b b' (buildAll h vs).1 (buildAll h' vs).1 ∧ (buildAll h' vs).2 = (buildAll h vs).2 ∧ (Cell.arr (buildAll h vs).2).In G.R
  | [], _, _, H => ⟨H, rfl, fun _ h => by simp [buildAll, Cell.children] at h⟩
  | v :: vs, h, h', H => by
    obtain ⟨H1, e1, i1⟩ := build_rel v h h' H
    obtain ⟨H2, e2, i2⟩ := buildAll_rel vs _ _ H1
    simp only [buildAll, e1, e2]
    refine ⟨H2, trivial, fun w hw => ?_⟩
    rcases List.mem_cons.1 hw with rfl | hw
    · exact i1
    · exact i2 w hw
theorem buildMembers_rel : ∀ (ms : List (Bytes × Value)) (h h' : Heap), HRel G b b' h h' →
    HRel G b b' (buildMembers h ms).1 (buildMembers h' ms).1 ∧ (buildMembers h' ms).2 = (buildMembers h ms).2 ∧
      (Cell.obj (buildMembers h ms).2).In G.R
  | [], _, _, H => ⟨H, rfl, fun _ h => by simp [buildMembers, Cell.children] at h⟩
  | (k, v) :: ms, h, h', H => by
    obtain ⟨H1, e1, i1⟩ := build_rel v h h' H
    obtain ⟨H2, e2, i2⟩ := buildMembers_rel ms _ _ H1
    simp only [buildMembers, e1, e2]
    refine ⟨H2, trivial, fun w hw => ?_⟩
    rcases List.mem_cons.1 hw with rfl | hw
    · exact i1
    · exact i2 w hw
end

/-! ### States -/

def Loc.Rd (G : Regs) : Loc → Prop
  | .var x => G.X x
  | .child a i => G.Q a ∨ G.M a i
def Loc.Wr (G : Regs) : Loc → Prop
  | .var x => G.W x
  | .child a i => G.R a ∨ G.L a i

theorem Loc.Wr.rd {l : Loc} (hl : l.Wr G) : l.Rd G := by
  cases l with
  | var x => exact G.wx x hl
  | child a i => exact hl.imp (G.rq a) (G.lm a i)

theorem SRel.read (H : SRel G B B' s s') {l : Loc} (hl : l.Rd G) : s'.read l = s.read l := by
  cases l with
  | var x => exact H.var x hl
  | child a i =>
    rcases hl with hl | hl
    · simp only [State.read, H.heap.agree a hl]
    · exact H.heap.slot a i hl

theorem read_in {P : Nat → Prop} {a i : Nat} {v : HVal} (h : ∀ c, s.heap.cell a = some c → c.In P) (e : s.read (.child a i) = some v) : v.In P := by
  simp only [State.read] at e
  obtain ⟨c, e1, e2⟩ := Option.bind_eq_some_iff.1 e
  exact h c e1 v (List.mem_of_getElem? e2)

theorem SRel.inQ (H : SRel G B B' s s') {l : Loc} {v : HVal} (hl : l.Rd G) (e : s.read l = some v) : v.In G.Q := by
  cases l with
  | var x => exact H.x x v hl e
  | child a i =>
    rcases hl with hl | hl
    · exact read_in (fun c => H.heap.q a c hl) e
    · exact H.heap.m a i v hl e

theorem SRel.inR (H : SRel G B B' s s') {l : Loc} {v : HVal} (hl : l.Wr G) (e : s.read l = some v) : v.In G.R := by
  cases l with
  | var x => exact H.w x v hl e
  | child a i =>
    rcases hl with hl | hl
    · exact read_in (fun c => H.heap.r a c hl) e
    · exact H.heap.l a i v hl e

theorem SRel.write (H : SRel G B B' s s') {l : Loc} {v : HVal} (hl : l.Wr G) (hv : v.In G.R) : SRel G B B' (s.write l v) (s'.write l v) := by
  cases l with
  | var x =>
    refine ⟨H.heap, ?_, ?_, ?_, ?_, ?_⟩ <;> simp only [State.write]
    · intro y w hy hw
      split at hw
      · cases hw; exact hv
      · exact H.w y w hy hw
    · intro y w hy hw
      split at hw
      · cases hw; exact fun a ha => G.rq a (hv a ha)
      · exact H.x y w hy hw
    · intro y hy
      split
      · rfl
      · exact H.var y hy
    · intro y hy
      split
      · subst y; exact absurd hl hy
      · exact H.kept y hy
    · intro y hy
      split
      · subst y; exact absurd hl hy
      · exact H.kept' y hy
  | child a i =>
    refine ⟨?_, H.w, H.x, H.var, H.kept, H.kept'⟩
    simp only [State.write]
    rcases hl with hl | hl
    · rw [H.heap.agree a (G.rq a hl)]
      refine H.heap.set hl fun d hd => ?_
      obtain ⟨c, e, rfl⟩ := Option.map_eq_some_iff.1 hd
      exact setChild_in (H.heap.r a c hl e) hv
    · exact H.heap.setSlot hl hv

theorem SRel.withHeap (H : SRel G B B' s s') {h h' : Heap} (hh : HRel G B.heap B'.heap h h') : SRel G B B' (s.withHeap h) (s'.withHeap h') :=
  ⟨hh, H.w, H.x, H.var, H.kept, H.kept'⟩

theorem SRel.part (H : SRel G B B' s s') {v : HVal} (hv : v.In G.Q) (sel : Sel) : s'.part v sel = s.part v sel := by
  obtain ⟨t, r⟩ := v
  cases sel with
  | pos i =>
    cases t <;> try rfl
    cases r with
    | arr p =>
      cases p with
      | none => rfl
      | some a => simp only [State.part, H.heap.agree a (hv.arr rfl)]
    | _ => rfl
  | key k =>
    cases t <;> try rfl
    cases r with
    | obj p =>
      cases p with
      | none => rfl
      | some a => simp only [State.part, H.heap.agree a (hv.obj rfl)]
    | _ => rfl

theorem part_child {v : HVal} {sel : Sel} {l : Loc} (e : s.part v sel = some l) : ∃ a i, l = .child a i ∧ pointer v = some a := by
  obtain ⟨t, r⟩ := v
  cases sel with
  | pos i =>
    simp only [State.part] at e
    split at e
    · rename_i a heq
      cases heq
      split at e
      · split at e
        · cases e; exact ⟨_, _, rfl, rfl⟩
        · cases e
      · cases e
    · cases e
  | key k =>
    simp only [State.part] at e
    split at e
    · rename_i a heq
      cases heq
      split at e
      · obtain ⟨i, _, rfl⟩ := Option.map_eq_some_iff.1 e
        exact ⟨_, _, rfl, rfl⟩
      · cases e
    · cases e

theorem SRel.locate (H : SRel G B B' s s') : ∀ (path : List Sel) (l : Loc), l.Rd G →
    s'.locate l path = s.locate l path ∧ (∀ m, s.locate l path = some m → m.Rd G ∧ (l.Wr G → m.Wr G)) ∧ s'.lost l path = s.lost l path
  | [], _, hl => ⟨rfl, fun m e => by cases e; exact ⟨hl, id⟩, rfl⟩
  | sel :: path, l, hl => by
    simp only [State.locate, State.lost, H.read hl]
    cases e : s.read l with
    | none => exact ⟨rfl, fun _ e => (by cases e), rfl⟩
    | some v =>
      have hv := H.inQ hl e
      simp only [Option.bind_some, H.part hv]
      cases e1 : s.part v sel with
      | none =>
        refine ⟨rfl, fun _ e => (by cases e), ?_⟩
        simp only [State.sees]
        cases er : v.raw with
        | text _ => rfl
        | arr p => cases p with
          | none => rfl
          | some a => simp only [H.heap.agree a (hv.arr er)]
        | obj p => cases p with
          | none => rfl
          | some a => simp only [H.heap.agree a (hv.obj er)]
      | some m =>
        obtain ⟨a, i, rfl, ep⟩ := part_child e1
        obtain ⟨h1, h2, h3⟩ := H.locate path (.child a i) (.inl (hv a ep))
        refine ⟨h1, fun n en => ⟨(h2 n en).1, fun hw => (h2 n en).2 (.inl (H.inR hw e a ep))⟩, h3⟩

theorem SRel.resolve (H : SRel G B B' s s') {p : Place} (hp : G.X p.x) : s'.resolve p = s.resolve p := by
  simp only [State.resolve, H.read (l := .var p.x) hp, (H.locate p.path (.var p.x) hp).1]

theorem SRel.rd (H : SRel G B B' s s') {p : Place} {l : Loc} (hp : G.X p.x) (e : s.resolve p = some l) : l.Rd G := by
  obtain ⟨_, _, e⟩ := Option.bind_eq_some_iff.1 e
  exact ((H.locate p.path (.var p.x) hp).2.1 l e).1

theorem SRel.wr (H : SRel G B B' s s') {p : Place} {l : Loc} (hp : G.W p.x) (e : s.resolve p = some l) : l.Wr G := by
  obtain ⟨_, _, e⟩ := Option.bind_eq_some_iff.1 e
  exact ((H.locate p.path (.var p.x) (G.wx _ hp)).2.1 l e).2 hp

abbrev FRel (G : Regs) (B B' : State) : Fin → Fin → Prop := SameEnd (SRel G B B')

/-- A place that both states find in the same way. -/
structure Placed (G : Regs) (s s' : State) (p : Place) : Prop where
  res : s'.resolve p = s.resolve p
  lost : ((s'.read (.var p.x)).isNone || s'.lost (.var p.x) p.path) = ((s.read (.var p.x)).isNone || s.lost (.var p.x) p.path)
  rd : ∀ l, s.resolve p = some l → l.Rd G

theorem SRel.placed (H : SRel G B B' s s') {p : Place} (hp : G.X p.x) : Placed G s s' p :=
  ⟨H.resolve hp, by rw [H.read (l := .var p.x) hp, (H.locate p.path (.var p.x) hp).2.2], fun _ => H.rd hp⟩

theorem SRel.missing (H : SRel G B B' s s') {ps : List Place} (hp : ∀ p ∈ ps, Placed G s s' p) : FRel G B B' (s.missing ps) (s'.missing ps) := by
  have : (ps.any fun p => (s'.read (.var p.x)).isNone || s'.lost (.var p.x) p.path) =
      ps.any fun p => (s.read (.var p.x)).isNone || s.lost (.var p.x) p.path := by
    induction ps with
    | nil => rfl
    | cons p ps ih => simp only [List.any_cons, (hp p (by simp)).lost, ih fun q hq => hp q (by simp [hq])]
  simp only [State.missing, this]
  split
  · trivial
  · exact H

theorem FRel.bind {f f' : Fin} {k k' : State → Fin} (hf : FRel G B B' f f') (hk : ∀ s s', SRel G B B' s s' → FRel G B B' (k s) (k' s')) :
    FRel G B B' (f.bind k) (f'.bind k') := by
  cases f <;> cases f' <;> simp only [SameEnd] at hf
  · exact hk _ _ hf
  · exact hf
  · trivial

theorem SRel.dispose (H : SRel G B B' s s') {v : HVal} (hv : v.In G.R) : FRel G B B' (dispose s v) (dispose s' v) := by
  have := destroyVal_rel s.heap.fuel _ _ v H.heap hv
  simp only [Mem.dispose, H.heap.fuel]
  generalize destroyVal s.heap.fuel s.heap v = o at this ⊢
  generalize destroyVal s.heap.fuel s'.heap v = o' at this ⊢
  cases o <;> cases o' <;> simp only [ORel] at this
  · trivial
  · exact H.withHeap this

theorem SRel.replace (H : SRel G B B' s s') {d : Loc} {v : HVal} (hd : d.Wr G) (hv : v.In G.R) : FRel G B B' (replace s d v) (replace s' d v) := by
  simp only [Mem.replace, H.read hd.rd]
  cases e : s.read d with
  | none => trivial
  | some old =>
    have H1 := H.write hd hv
    have := destroyVal_rel s.heap.fuel _ _ old H1.heap (H.inR hd e)
    simp only [H.heap.fuel]
    generalize destroyVal s.heap.fuel (s.write d v).heap old = o at this ⊢
    generalize destroyVal s.heap.fuel (s'.write d v).heap old = o' at this ⊢
    cases o <;> cases o' <;> simp only [ORel] at this
    · trivial
    · exact H1.withHeap this

theorem SRel.copyFrom (H : SRel G B B' s s') {oom : Nat → Bool} {l : Loc} {k k' : State → HVal → Fin} (hl : l.Rd G)
    (hk : ∀ s s' v, SRel G B B' s s' → v.In G.R → FRel G B B' (k s v) (k' s' v)) : FRel G B B' (copyFrom oom s l k) (copyFrom oom s' l k') := by
  simp only [Mem.copyFrom, H.read hl]
  cases e : s.read l with
  | none => trivial
  | some v =>
    have := copyVal_rel oom s.heap.fuel _ _ v H.heap (H.inQ hl e)
    simp only [H.heap.fuel]
    generalize copyVal oom s.heap.fuel s.heap v = o at this ⊢
    generalize copyVal oom s.heap.fuel s'.heap v = o' at this ⊢
    cases o <;> cases o' <;> simp only [CRel] at this
    · obtain ⟨H1, rfl, hi⟩ := this
      exact hk _ _ _ (H.withHeap H1) hi
    · exact H.withHeap this
    · trivial

theorem SRel.copyAssign (H : SRel G B B' s s') {oom : Nat → Bool} {d l : Loc} (hd : d.Wr G) (hl : l.Rd G) :
    FRel G B B' (copyAssign oom s d l) (copyAssign oom s' d l) := by
  simp only [Mem.copyAssign, H.read hd.rd, H.read hl]
  cases e : s.read d with
  | none => trivial
  | some dv =>
    cases e2 : s.read l with
    | none => trivial
    | some sv =>
      refine (H.write hd (H.inR hd e).retag).copyFrom hl fun s s' v H hv => H.replace hd hv.retag

theorem SRel.moveAssign (H : SRel G B B' s s') {junk : Bytes} {d l : Loc} (hd : d.Wr G) (hl : l.Wr G) :
    FRel G B B' (moveAssign junk s d l) (moveAssign junk s' d l) := by
  simp only [Mem.moveAssign, H.read hd.rd, H.read hl.rd]
  cases e : s.read d with
  | none => trivial
  | some dv =>
    cases e2 : s.read l with
    | none => trivial
    | some sv =>
      have H1 := H.write (v := ⟨sv.ty, dv.raw⟩) hd (H.inR hd e).retag
      have hs := H.inR hl e2
      simp only
      cases dv.raw.same sv.raw
      · simp only [Bool.false_eq_true, if_false]
        have hd' : (s.write d ⟨sv.ty, dv.raw⟩).heap.fuel = (s'.write d ⟨sv.ty, dv.raw⟩).heap.fuel := H1.heap.fuel.symm
        have := destroyVal_rel (s.write d ⟨sv.ty, dv.raw⟩).heap.fuel _ _ dv H1.heap (H.inR hd e)
        rw [← hd']
        generalize destroyVal (s.write d ⟨sv.ty, dv.raw⟩).heap.fuel (s.write d ⟨sv.ty, dv.raw⟩).heap dv = o at this ⊢
        generalize destroyVal (s.write d ⟨sv.ty, dv.raw⟩).heap.fuel (s'.write d ⟨sv.ty, dv.raw⟩).heap dv = o' at this ⊢
        cases o <;> cases o' <;> simp only [ORel] at this
        · trivial
        · have H2 := H1.withHeap this
          simp only [H2.read hl.rd]
          cases State.read _ l
          · trivial
          · exact (H2.write hd hs).write hl HVal.In.moved
      · simp only [if_true]
        cases er : sv.raw with
        | text t => exact (H1.write hd hs).write hl HVal.In.moved
        | arr p => exact (H1.write hl HVal.In.moved).replace hd hs
        | obj p => exact (H1.write hl HVal.In.moved).replace hd hs

theorem SRel.blank (H : SRel G B B' s s') {v : HVal} (hv : v.In G.Q) : s'.blank v = s.blank v := by
  obtain ⟨t, r⟩ := v
  cases t <;> try rfl
  · cases r with
    | arr p => cases p with
      | none => rfl
      | some a => simp only [State.blank, H.heap.agree a (hv.arr rfl)]
    | _ => rfl
  · cases r with
    | obj p => cases p with
      | none => rfl
      | some a => simp only [State.blank, H.heap.agree a (hv.obj rfl)]
    | _ => rfl

theorem pointer_arr_in {P : Nat → Prop} {a : Nat} {t : VType} (h : P a) : HVal.In P ⟨t, .arr (some a)⟩ := fun b hb => by
  simp [pointer] at hb; exact hb ▸ h
theorem pointer_obj_in {P : Nat → Prop} {a : Nat} {t : VType} (h : P a) : HVal.In P ⟨t, .obj (some a)⟩ := fun b hb => by
  simp [pointer] at hb; exact hb ▸ h

theorem SRel.asArray (H : SRel G B B' s s') {oom : Nat → Bool} {p : Loc} {k k' : State → Nat → Fin} (hp : p.Wr G)
    (hk : ∀ s s' a, SRel G B B' s s' → G.R a → FRel G B B' (k s a) (k' s' a)) : FRel G B B' (asArray oom s p k) (asArray oom s' p k') := by
  simp only [Mem.asArray, H.read hp.rd]
  cases e : s.read p with
  | none => trivial
  | some v =>
    have hv := H.inR hp e
    simp only [H.blank (H.inQ hp.rd e)]
    cases s.blank v with
    | none => trivial
    | some b =>
      cases b with
      | true =>
        have H1 := H.write (v := ⟨.array, v.raw⟩) hp hv.retag
        simp only [H1.heap.next]
        have hn := H1.heap.new _ (Nat.le_refl _)
        split
        · exact H1.withHeap H1.heap.bump
        · refine FRel.bind (SRel.replace (H1.withHeap (H1.heap.bump.set hn fun d hd => ?_)) hp (pointer_arr_in hn)) fun s s' H => hk s s' _ H hn
          cases hd
          exact fun w hw => by simp [Cell.children] at hw
      | false =>
        simp only
        split
        · cases er : v.raw with
          | text _ => exact H
          | obj _ => exact H
          | arr p => cases p with
            | none => trivial
            | some a => exact hk _ _ _ H (hv.arr er)
        · exact H

theorem SRel.asObject (H : SRel G B B' s s') {oom : Nat → Bool} {p : Loc} {k k' : State → Nat → Fin} (hp : p.Wr G)
    (hk : ∀ s s' a, SRel G B B' s s' → G.R a → FRel G B B' (k s a) (k' s' a)) : FRel G B B' (asObject oom s p k) (asObject oom s' p k') := by
  simp only [Mem.asObject, H.read hp.rd]
  cases e : s.read p with
  | none => trivial
  | some v =>
    have hv := H.inR hp e
    simp only [H.blank (H.inQ hp.rd e)]
    cases s.blank v with
    | none => trivial
    | some b =>
      cases b with
      | true =>
        have H1 := H.write (v := ⟨.object, v.raw⟩) hp hv.retag
        simp only [H1.heap.next]
        have hn := H1.heap.new _ (Nat.le_refl _)
        split
        · exact H1.withHeap H1.heap.bump
        · refine FRel.bind (SRel.replace (H1.withHeap (H1.heap.bump.set hn fun d hd => ?_)) hp (pointer_obj_in hn)) fun s s' H => hk s s' _ H hn
          cases hd
          exact fun w hw => by simp [Cell.children] at hw
      | false =>
        simp only
        split
        · cases er : v.raw with
          | text _ => exact H
          | arr _ => exact H
          | obj p => cases p with
            | none => trivial
            | some a => exact hk _ _ _ H (hv.obj er)
        · exact H

theorem SRel.sees (H : SRel G B B' s s') {v : HVal} (hv : v.In G.Q) : s'.sees v = s.sees v := by
  simp only [State.sees]
  cases er : v.raw with
  | text _ => rfl
  | arr p => cases p with
    | none => rfl
    | some a => simp only [H.heap.agree a (hv.arr er)]
  | obj p => cases p with
    | none => rfl
    | some a => simp only [H.heap.agree a (hv.obj er)]

theorem SRel.constArray (H : SRel G B B' s s') {l : Loc} {k k' : Nat → Fin} (hl : l.Rd G)
    (hk : ∀ a, G.Q a → (l.Wr G → G.R a) → FRel G B B' (k a) (k' a)) : FRel G B B' (constArray s l k) (constArray s' l k') := by
  simp only [Mem.constArray, H.read hl]
  cases e : s.read l with
  | none => trivial
  | some v =>
    simp only [H.sees (H.inQ hl e)]
    split
    · cases er : v.raw with
      | text _ => exact H
      | obj _ => exact H
      | arr p => cases p with
        | none => trivial
        | some a => exact hk a ((H.inQ hl e).arr er) fun hw => (H.inR hw e).arr er
    · split
      · exact H
      · trivial

theorem SRel.constObject (H : SRel G B B' s s') {l : Loc} {k k' : Nat → Fin} (hl : l.Rd G)
    (hk : ∀ a, G.Q a → (l.Wr G → G.R a) → FRel G B B' (k a) (k' a)) : FRel G B B' (constObject s l k) (constObject s' l k') := by
  simp only [Mem.constObject, H.read hl]
  cases e : s.read l with
  | none => trivial
  | some v =>
    simp only [H.sees (H.inQ hl e)]
    split
    · cases er : v.raw with
      | text _ => exact H
      | arr _ => exact H
      | obj p => cases p with
        | none => trivial
        | some a => exact hk a ((H.inQ hl e).obj er) fun hw => (H.inR hw e).obj er
    · split
      · exact H
      · trivial

theorem emplace_mem {α : Type} (k : Bytes) (v : α) : ∀ (ms : List (Bytes × α)) (m : Bytes × α), m ∈ (RawObject.emplace k v ms).1 → m.2 = v ∨ m ∈ ms := by
  intro ms
  induction ms with
  | nil => intro m hm; simp [RawObject.emplace] at hm; left; rw [hm]
  | cons x ms ih =>
    obtain ⟨k', v'⟩ := x
    intro m hm
    simp only [RawObject.emplace] at hm
    split at hm
    · simp only [List.mem_cons] at hm
      rcases hm with rfl | rfl | hm
      · left; rfl
      · right; simp
      · right; simp [hm]
    · split at hm
      · simp only [List.mem_cons] at hm
        rcases hm with rfl | hm
        · right; simp
        · rcases ih m hm with h | h
          · left; exact h
          · right; simp [h]
      · right; exact hm

theorem emplace_in {P : Nat → Prop} {k : Bytes} {v : HVal} {ms : List (Bytes × HVal)} (hv : v.In P) (hm : (Cell.obj ms).In P) :
    (Cell.obj (RawObject.emplace k v ms).1).In P := by
  intro w hw
  simp only [Cell.children, List.mem_map] at hw
  obtain ⟨m, hm', rfl⟩ := hw
  rcases emplace_mem k v ms m hm' with h | h
  · exact h ▸ hv
  · exact hm _ (List.mem_map.2 ⟨m, h, rfl⟩)

/-- The object at an address that may be written. -/
theorem SRel.cellObj (H : SRel G B B' s s') {a : Nat} {f f' : List (Bytes × HVal) → Fin} (ha : G.R a)
    (hf : ∀ ms, (Cell.obj ms).In G.R → FRel G B B' (f ms) (f' ms)) :
    FRel G B B' (match s.heap.cell a with | some (.obj ms) => f ms | _ => .ub) (match s'.heap.cell a with | some (.obj ms) => f' ms | _ => .ub) := by
  rw [H.heap.agree a (G.rq a ha)]
  cases e : s.heap.cell a with
  | none => trivial
  | some c => cases c with
    | arr _ => trivial
    | obj ms => exact hf ms (H.heap.r a _ ha e)

theorem SRel.cellArr (H : SRel G B B' s s') {a : Nat} {f f' : List HVal → Fin} (ha : G.R a)
    (hf : ∀ vs, (Cell.arr vs).In G.R → FRel G B B' (f vs) (f' vs)) :
    FRel G B B' (match s.heap.cell a with | some (.arr vs) => f vs | _ => .ub) (match s'.heap.cell a with | some (.arr vs) => f' vs | _ => .ub) := by
  rw [H.heap.agree a (G.rq a ha)]
  cases e : s.heap.cell a with
  | none => trivial
  | some c => cases c with
    | obj _ => trivial
    | arr ms => exact hf ms (H.heap.r a _ ha e)

theorem SRel.setCell (H : SRel G B B' s s') {a : Nat} {c : Cell} (ha : G.R a) (hc : c.In G.R) :
    SRel G B B' (s.withHeap (s.heap.set a (some c))) (s'.withHeap (s'.heap.set a (some c))) :=
  H.withHeap (H.heap.set ha fun d hd => by cases hd; exact hc)

theorem SRel.insertOrAssign (H : SRel G B B' s s') {oom : Nat → Bool} {a : Nat} {k : Bytes} {l : Loc} (ha : G.R a) (hl : l.Rd G) :
    FRel G B B' (insertOrAssign oom s a k l) (insertOrAssign oom s' a k l) := by
  refine H.cellObj ha fun ms hm => ?_
  cases keyIndex k ms with
  | some i => exact H.copyAssign (d := .child a i) (.inl ha) hl
  | none => exact H.copyFrom hl fun s s' v H hv => H.cellObj ha fun ms hm => H.setCell ha (emplace_in hv hm)

theorem SRel.mapIndex (H : SRel G B B' s s') {oom : Nat → Bool} {a : Nat} {k : Bytes} (ha : G.R a) :
    FRel G B B' (mapIndex oom s a k) (mapIndex oom s' a k) := by
  refine H.cellObj ha fun ms hm => ?_
  cases keyIndex k ms with
  | some i => exact H
  | none =>
    simp only [H.heap.next]
    split
    · exact H.withHeap H.heap.bump
    · refine H.withHeap (H.heap.bump.set ha fun d hd => ?_)
      cases hd
      exact emplace_in (fun a h => by simp [pointer] at h) hm

theorem append_in {P : Nat → Prop} {vs ws : List HVal} (h1 : (Cell.arr vs).In P) (h2 : ∀ w ∈ ws, w.In P) : (Cell.arr (vs ++ ws)).In P := by
  intro w hw
  rcases List.mem_append.1 hw with h | h
  · exact h1 w h
  · exact h2 w h

theorem SRel.appendArray (H : SRel G B B' s s') {oom : Nat → Bool} {a c : Nat} (ha : G.R a) (hc : G.Q c) :
    FRel G B B' (appendArray oom s a c) (appendArray oom s' a c) := by
  simp only [Mem.appendArray]
  split
  · trivial
  · rw [H.heap.agree a (G.rq a ha), H.heap.agree c hc]
    cases e1 : s.heap.cell a with
    | none => trivial
    | some ca =>
      cases ca with
      | obj _ => trivial
      | arr vs =>
        cases e2 : s.heap.cell c with
        | none => trivial
        | some cc =>
          cases cc with
          | obj _ => trivial
          | arr ws =>
            have := copyList_rel (fun h h' v => copyVal_rel oom s.heap.fuel h h' v) ws s.heap s'.heap H.heap fun v hm => H.heap.q c _ hc e2 v hm
            simp only [H.heap.fuel]
            generalize copyList (copyVal oom s.heap.fuel) s.heap ws = o at this ⊢
            generalize copyList (copyVal oom s.heap.fuel) s'.heap ws = o' at this ⊢
            cases o <;> cases o' <;> simp only [CRel] at this
            · obtain ⟨H1, rfl, hi⟩ := this
              refine H.withHeap (H1.set ha fun d hd => ?_)
              cases hd
              exact append_in (H.heap.r a _ ha e1) hi
            · exact H.withHeap this
            · trivial

theorem SRel.mergeKeys {oom : Nat → Bool} {a c : Nat} (ha : G.R a) (hc : G.Q c) : ∀ (ks : List Bytes) (s s' : State), SRel G B B' s s' →
    FRel G B B' (mergeKeys oom a c s ks) (mergeKeys oom a c s' ks)
  | [], s, s', H => by
    simp only [Mem.mergeKeys, H.heap.agree c hc]
    split
    · exact H
    · trivial
  | k :: ks, s, s', H => by
    simp only [Mem.mergeKeys, H.heap.agree c hc]
    cases s.heap.cell c with
    | none => trivial
    | some d =>
      cases d with
      | arr _ => trivial
      | obj ms =>
        simp only
        cases keyIndex k ms with
        | none => trivial
        | some i => exact FRel.bind (H.insertOrAssign (l := .child c i) ha (.inl hc)) fun s s' H => SRel.mergeKeys ha hc ks s s' H

theorem SRel.takeFrom (H : SRel G B B' s s') {junk : Bytes} {l : Loc} {k k' : State → HVal → Fin} (hl : l.Wr G)
    (hk : ∀ s s' v, SRel G B B' s s' → v.In G.R → FRel G B B' (k s v) (k' s' v)) : FRel G B B' (takeFrom junk s l k) (takeFrom junk s' l k') := by
  simp only [Mem.takeFrom, H.read hl.rd]
  cases e : s.read l with
  | none => trivial
  | some v => exact hk _ _ _ (H.write hl HVal.In.moved) (H.inR hl e)

theorem SRel.grow (H : SRel G B B' s s') {oom : Nat → Bool} {k k' : State → Fin} (hk : ∀ s s', SRel G B B' s s' → FRel G B B' (k s) (k' s')) :
    FRel G B B' (grow oom s k) (grow oom s' k') := by
  simp only [Mem.grow, H.heap.next]
  split
  · exact H.withHeap H.heap.bump
  · exact hk _ _ (H.withHeap H.heap.bump)

theorem SRel.pushMove (H : SRel G B B' s s') {oom : Nat → Bool} {junk : Bytes} {a : Nat} {l : Loc} (ha : G.R a) (hl : l.Wr G) :
    FRel G B B' (pushMove oom junk s a l) (pushMove oom junk s' a l) :=
  H.grow fun _ _ H => H.takeFrom hl fun _ _ v H hv => H.cellArr ha fun vs hvs => H.setCell ha (append_in hvs (by simpa using hv))

theorem SRel.insertOrAssignMove (H : SRel G B B' s s') {oom : Nat → Bool} {junk : Bytes} {a : Nat} {k : Bytes} {l : Loc} (ha : G.R a) (hl : l.Wr G) :
    FRel G B B' (insertOrAssignMove oom junk s a k l) (insertOrAssignMove oom junk s' a k l) := by
  refine H.cellObj ha fun ms hm => ?_
  cases keyIndex k ms with
  | some i => exact H.moveAssign (d := .child a i) (.inl ha) hl
  | none => exact H.grow fun _ _ H => H.takeFrom hl fun _ _ v H hv => H.cellObj ha fun ms hm => H.setCell ha (emplace_in hv hm)

theorem SRel.appendArrayMove (H : SRel G B B' s s') {oom : Nat → Bool} {junk : Nat → Bytes} {a c : Nat} (ha : G.R a) (hc : G.R c) :
    FRel G B B' (appendArrayMove oom junk s a c) (appendArrayMove oom junk s' a c) := by
  simp only [Mem.appendArrayMove]
  split
  · trivial
  · rw [H.heap.agree a (G.rq a ha), H.heap.agree c (G.rq c hc)]
    cases e1 : s.heap.cell a with
    | none => trivial
    | some ca =>
      cases ca with
      | obj _ => trivial
      | arr vs =>
        cases e2 : s.heap.cell c with
        | none => trivial
        | some cc =>
          cases cc with
          | obj _ => trivial
          | arr ws =>
            refine H.grow fun s1 s1' H1 => ?_
            refine H1.withHeap ((H1.heap.set hc fun d hd => ?_).set ha fun d hd => ?_)
            · cases hd
              intro w hw
              simp only [Cell.children, List.mem_mapIdx] at hw
              obtain ⟨i, hi, rfl⟩ := hw
              exact HVal.In.moved
            · cases hd
              exact append_in (H.heap.r a _ ha e1) fun w hw => H.heap.r c _ hc e2 w hw

theorem SRel.mergeKeysMove {oom : Nat → Bool} {junk : Bytes → Bytes} {a c : Nat} (ha : G.R a) (hc : G.R c) : ∀ (ks : List Bytes) (s s' : State),
    SRel G B B' s s' → FRel G B B' (mergeKeysMove oom junk a c s ks) (mergeKeysMove oom junk a c s' ks)
  | [], s, s', H => by
    simp only [Mem.mergeKeysMove, H.heap.agree c (G.rq c hc)]
    split
    · exact H
    · trivial
  | k :: ks, s, s', H => by
    simp only [Mem.mergeKeysMove, H.heap.agree c (G.rq c hc)]
    cases s.heap.cell c with
    | none => trivial
    | some d =>
      cases d with
      | arr _ => trivial
      | obj ms =>
        simp only
        cases keyIndex k ms with
        | none => trivial
        | some i => exact FRel.bind (H.insertOrAssignMove (l := .child c i) ha (.inl hc)) fun s s' H => SRel.mergeKeysMove ha hc ks s s' H

theorem find_mem {α : Type} (k : Bytes) : ∀ (ms : List (Bytes × α)) (v : α), RawObject.find k ms = some v → ∃ k', (k', v) ∈ ms := by
  intro ms
  induction ms with
  | nil => intro v h; simp [RawObject.find] at h
  | cons x ms ih =>
    obtain ⟨k', v'⟩ := x
    intro v h
    simp only [RawObject.find] at h
    split at h
    · cases h
    · split at h
      · obtain ⟨k2, h⟩ := ih v h
        exact ⟨k2, by simp [h]⟩
      · cases h; exact ⟨k', by simp⟩

theorem erase_mem {α : Type} (k : Bytes) : ∀ (ms : List (Bytes × α)) (m : Bytes × α), m ∈ (RawObject.erase k ms).1 → m ∈ ms := by
  intro ms
  induction ms with
  | nil => intro m h; simp [RawObject.erase] at h
  | cons x ms ih =>
    obtain ⟨k', v'⟩ := x
    intro m h
    simp only [RawObject.erase] at h
    split at h
    · exact h
    · split at h
      · simp only [List.mem_cons] at h
        rcases h with rfl | h
        · simp
        · simp [ih m h]
      · simp [h]

/-- Everything a statement does happens in the memory it may use. -/
theorem step_rel_at (H : SRel G B B' s s') (oom : Nat → Bool) (op : Op) (hv : ∀ x ∈ binds op, G.W x) (hx : ∀ p ∈ places op, Placed G s s' p)
    (hw : ∀ p ∈ places op, p ∈ touches op → ∀ l, s.resolve p = some l → l.Wr G) : FRel G B B' (step oom s op) (step oom s' op) := by
  cases op with
  | init x v =>
    have wx : G.W x := hv x (by simp [binds])
    simp only [step, H.var x (G.wx x wx)]
    cases s.var x with
    | some _ => exact H
    | none =>
      obtain ⟨H1, e, hi⟩ := build_rel v _ _ H.heap
      simp only [e]
      exact (H.withHeap H1).write (l := .var x) wx hi
  | copyInit x p =>
    have wx : G.W x := hv x (by simp [binds])
    have xp := hx p (by simp [places])
    simp only [step, H.var x (G.wx x wx), xp.res]
    cases s.var x with
    | some _ => exact H
    | none =>
      cases e : s.resolve p with
      | none => exact H.missing (by simpa using xp)
      | some l => exact H.copyFrom (xp.rd _ e) fun s s' v H hv => H.write (l := .var x) wx hv
  | moveInit x p junk =>
    have wx : G.W x := hv x (by simp [binds])
    have xp := hx p (by simp [places])
    have wp := hw p (by simp [places]) (by simp [touches])
    simp only [step, H.var x (G.wx x wx), xp.res]
    cases s.var x with
    | some _ => exact H
    | none =>
      cases e : s.resolve p with
      | none => exact H.missing (by simpa using xp)
      | some l =>
        have wl := wp _ e
        simp only [H.read wl.rd]
        cases e2 : s.read l with
        | none => trivial
        | some v => exact (H.write wl HVal.In.moved).write (l := .var x) wx (H.inR wl e2)
  | copyAssign d p =>
    have xd := hx d (by simp [places])
    have wd := hw d (by simp [places]) (by simp [touches])
    have xp := hx p (by simp [places])
    simp only [step, xd.res, xp.res]
    have hm : FRel G B B' (s.missing [d, p]) (s'.missing [d, p]) := H.missing (by simpa using ⟨xd, xp⟩)
    cases e1 : s.resolve d with
    | none => exact hm
    | some ld =>
      cases e2 : s.resolve p with
      | none => exact hm
      | some l => exact H.copyAssign (wd _ e1) (xp.rd _ e2)
  | assign d v =>
    have xd := hx d (by simp [places])
    have wd := hw d (by simp [places]) (by simp [touches])
    simp only [step, xd.res]
    cases e1 : s.resolve d with
    | none => exact H.missing (by simpa using xd)
    | some ld =>
      obtain ⟨H1, e, hi⟩ := build_rel v _ _ H.heap
      simp only [e]
      exact (H.withHeap H1).replace (wd _ e1) hi
  | moveAssign d p junk =>
    have xd := hx d (by simp [places])
    have wd := hw d (by simp [places]) (by simp [touches])
    have xp := hx p (by simp [places])
    have wp := hw p (by simp [places]) (by simp [touches])
    simp only [step, xd.res, xp.res]
    have hm : FRel G B B' (s.missing [d, p]) (s'.missing [d, p]) := H.missing (by simpa using ⟨xd, xp⟩)
    cases e1 : s.resolve d with
    | none => exact hm
    | some ld =>
      cases e2 : s.resolve p with
      | none => exact hm
      | some l => exact H.moveAssign (wd _ e1) (wp _ e2)
  | index p k =>
    have xp := hx p (by simp [places])
    have wp := hw p (by simp [places]) (by simp [touches])
    simp only [step, xp.res]
    cases e1 : s.resolve p with
    | none => exact H.missing (by simpa using xp)
    | some l =>
      have wl := wp _ e1
      exact H.asObject wl fun _ _ _ H _ => H.asObject wl fun _ _ a H ha => H.mapIndex ha
  | emplaceBack p q =>
    have xp := hx p (by simp [places])
    have wp := hw p (by simp [places]) (by simp [touches])
    have xq := hx q (by simp [places])
    simp only [step, xp.res, xq.res]
    have hm : FRel G B B' (s.missing [p, q]) (s'.missing [p, q]) := H.missing (by simpa using ⟨xp, xq⟩)
    cases e1 : s.resolve p with
    | none => exact hm
    | some lp =>
      cases e2 : s.resolve q with
      | none => exact hm
      | some l =>
        have wl := wp _ e1
        have rl := xq.rd _ e2
        exact H.asArray wl fun _ _ a H ha => H.copyFrom rl fun _ _ v H hv => H.cellArr ha fun vs hvs => H.setCell ha (append_in hvs (by simpa using hv))
  | emplaceKey p k q =>
    have xp := hx p (by simp [places])
    have wp := hw p (by simp [places]) (by simp [touches])
    have xq := hx q (by simp [places])
    simp only [step, xp.res, xq.res]
    have hm : FRel G B B' (s.missing [p, q]) (s'.missing [p, q]) := H.missing (by simpa using ⟨xp, xq⟩)
    cases e1 : s.resolve p with
    | none => exact hm
    | some lp =>
      cases e2 : s.resolve q with
      | none => exact hm
      | some l =>
        have wl := wp _ e1
        have rl := xq.rd _ e2
        exact H.asObject wl fun _ _ a H ha => H.insertOrAssign ha rl
  | erasePos p i =>
    have xp := hx p (by simp [places])
    have wp := hw p (by simp [places]) (by simp [touches])
    simp only [step, xp.res]
    cases e1 : s.resolve p with
    | none => exact H.missing (by simpa using xp)
    | some l =>
      have wl := wp _ e1
      refine H.asArray wl fun _ _ a H ha => H.cellArr ha fun vs hvs => ?_
      cases ei : vs[i]? with
      | none => exact H
      | some v =>
        exact (H.setCell (c := .arr (vs.eraseIdx i)) ha fun w hw => hvs w (List.mem_of_mem_eraseIdx (i := i) hw)).dispose (hvs v (List.mem_of_getElem? ei))
  | eraseKey p k =>
    have xp := hx p (by simp [places])
    have wp := hw p (by simp [places]) (by simp [touches])
    simp only [step, xp.res]
    cases e1 : s.resolve p with
    | none => exact H.missing (by simpa using xp)
    | some l =>
      have wl := wp _ e1
      refine H.asObject wl fun _ _ a H ha => H.cellObj ha fun ms hms => ?_
      cases ei : RawObject.find k ms with
      | none => exact H
      | some v =>
        obtain ⟨k', hk⟩ := find_mem k ms v ei
        refine (H.setCell ha fun w hw => ?_).dispose (hms v (List.mem_map.2 ⟨_, hk, rfl⟩))
        simp only [Cell.children, List.mem_map] at hw
        obtain ⟨m, hm, rfl⟩ := hw
        exact hms _ (List.mem_map.2 ⟨m, erase_mem k ms m hm, rfl⟩)
  | append p q =>
    have xp := hx p (by simp [places])
    have wp := hw p (by simp [places]) (by simp [touches])
    have xq := hx q (by simp [places])
    simp only [step, xp.res, xq.res]
    have hm : FRel G B B' (s.missing [p, q]) (s'.missing [p, q]) := H.missing (by simpa using ⟨xp, xq⟩)
    cases e1 : s.resolve p with
    | none => exact hm
    | some lp =>
      cases e2 : s.resolve q with
      | none => exact hm
      | some l =>
        have wl := wp _ e1
        exact H.constArray (xq.rd _ e2) fun c hc _ => H.asArray wl fun _ _ a H ha => H.appendArray ha hc
  | merge p q =>
    have xp := hx p (by simp [places])
    have wp := hw p (by simp [places]) (by simp [touches])
    have xq := hx q (by simp [places])
    simp only [step, xp.res, xq.res]
    have hm : FRel G B B' (s.missing [p, q]) (s'.missing [p, q]) := H.missing (by simpa using ⟨xp, xq⟩)
    cases e1 : s.resolve p with
    | none => exact hm
    | some lp =>
      cases e2 : s.resolve q with
      | none => exact hm
      | some l =>
        have wl := wp _ e1
        refine H.constObject (xq.rd _ e2) fun c hc _ => H.asObject wl fun s1 s1' a H ha => ?_
        rw [H.heap.agree c hc]
        cases s1.heap.cell c with
        | none => trivial
        | some d => cases d with
          | arr _ => trivial
          | obj ms => exact SRel.mergeKeys ha hc _ _ _ H
  | asArray p =>
    have xp := hx p (by simp [places])
    have wp := hw p (by simp [places]) (by simp [touches])
    simp only [step, xp.res]
    cases e1 : s.resolve p with
    | none => exact H.missing (by simpa using xp)
    | some l => exact H.asArray (wp _ e1) fun _ _ _ H _ => H
  | asObject p =>
    have xp := hx p (by simp [places])
    have wp := hw p (by simp [places]) (by simp [touches])
    simp only [step, xp.res]
    cases e1 : s.resolve p with
    | none => exact H.missing (by simpa using xp)
    | some l => exact H.asObject (wp _ e1) fun _ _ _ H _ => H
  | emplaceBackMove p q junk =>
    have xp := hx p (by simp [places])
    have wp := hw p (by simp [places]) (by simp [touches])
    have xq := hx q (by simp [places])
    have wq := hw q (by simp [places]) (by simp [touches])
    simp only [step, xp.res, xq.res]
    have hm : FRel G B B' (s.missing [p, q]) (s'.missing [p, q]) := H.missing (by simpa using ⟨xp, xq⟩)
    cases e1 : s.resolve p with
    | none => exact hm
    | some lp =>
      cases e2 : s.resolve q with
      | none => exact hm
      | some l =>
        have wl := wq _ e2
        exact H.asArray (wp _ e1) fun _ _ a H ha => H.pushMove ha wl
  | emplaceKeyMove p k q junk =>
    have xp := hx p (by simp [places])
    have wp := hw p (by simp [places]) (by simp [touches])
    have xq := hx q (by simp [places])
    have wq := hw q (by simp [places]) (by simp [touches])
    simp only [step, xp.res, xq.res]
    have hm : FRel G B B' (s.missing [p, q]) (s'.missing [p, q]) := H.missing (by simpa using ⟨xp, xq⟩)
    cases e1 : s.resolve p with
    | none => exact hm
    | some lp =>
      cases e2 : s.resolve q with
      | none => exact hm
      | some l =>
        have wl := wq _ e2
        exact H.asObject (wp _ e1) fun _ _ a H ha => H.insertOrAssignMove ha wl
  | appendMove p q junk =>
    have xp := hx p (by simp [places])
    have wp := hw p (by simp [places]) (by simp [touches])
    have xq := hx q (by simp [places])
    have wq := hw q (by simp [places]) (by simp [touches])
    simp only [step, xp.res, xq.res]
    have hm : FRel G B B' (s.missing [p, q]) (s'.missing [p, q]) := H.missing (by simpa using ⟨xp, xq⟩)
    cases e1 : s.resolve p with
    | none => exact hm
    | some lp =>
      cases e2 : s.resolve q with
      | none => exact hm
      | some l =>
        have wl := wq _ e2
        have wp' := wp _ e1
        exact H.constArray wl.rd fun c _ hc => H.asArray wp' fun _ _ a H ha => H.appendArrayMove ha (hc wl)
  | mergeMove p q junk =>
    have xp := hx p (by simp [places])
    have wp := hw p (by simp [places]) (by simp [touches])
    have xq := hx q (by simp [places])
    have wq := hw q (by simp [places]) (by simp [touches])
    simp only [step, xp.res, xq.res]
    have hm : FRel G B B' (s.missing [p, q]) (s'.missing [p, q]) := H.missing (by simpa using ⟨xp, xq⟩)
    cases e1 : s.resolve p with
    | none => exact hm
    | some lp =>
      cases e2 : s.resolve q with
      | none => exact hm
      | some l =>
        have wl := wq _ e2
        have wp' := wp _ e1
        refine H.constObject wl.rd fun c hq hc => H.asObject wp' fun s1 s1' a H ha => ?_
        rw [H.heap.agree c hq]
        cases s1.heap.cell c with
        | none => trivial
        | some d => cases d with
          | arr _ => trivial
          | obj ms => exact SRel.mergeKeysMove ha (hc wl) _ _ _ H
  | drop x =>
    have wx : G.W x := hv x (by simp [binds])
    simp only [step, H.var x (G.wx x wx)]
    cases e : s.var x with
    | none => exact H
    | some v =>
      refine SRel.dispose (s := ⟨s.heap, fun y => if y = x then none else s.var y⟩) (s' := ⟨s'.heap, fun y => if y = x then none else s'.var y⟩)
        ⟨H.heap, ?_, ?_, ?_, ?_, ?_⟩ (H.w x v wx e) <;> simp only
      · intro y w hy hw
        split at hw
        · cases hw
        · exact H.w y w hy hw
      · intro y w hy hw
        split at hw
        · cases hw
        · exact H.x y w hy hw
      · intro y hy
        split
        · rfl
        · exact H.var y hy
      · intro y hy
        split
        · subst y; exact absurd wx hy
        · exact H.kept y hy
      · intro y hy
        split
        · subst y; exact absurd wx hy
        · exact H.kept' y hy

theorem step_rel (H : SRel G B B' s s') (oom : Nat → Bool) (op : Op) (hw : ∀ x ∈ writes op, G.W x) (hx : ∀ p ∈ places op, G.X p.x) :
    FRel G B B' (step oom s op) (step oom s' op) :=
  step_rel_at H oom op (fun x h => hw x (by cases op <;> simp_all [binds, writes, touches])) (fun p hp => H.placed (hx p hp)) fun p _ ht l e =>
    H.wr (hw p.x (List.mem_map.2 ⟨p, ht, rfl⟩)) e

end
end Meojson.Mem
