import Verif.Proofs.HeapFocus

/-! Two parts of the same value. -/

set_option autoImplicit false

namespace Meojson.Mem
open Stores

/-- Where a part lies: at the root, or in a cell of the value outside the part. -/
theorem Rep.where_ {st : State} {path : List Sel} {v w : Value} {x : HVal} {A : List Addr} {l0 : Loc} (hr : Rep st.heap.cell v x A) (nd : A.Nodup) (ht : Keyed v)
    (hg : getAt v path = some w) (h0 : st.read l0 = some x) (hoff : ¬ l0.In A) {l : Loc} (hl : st.locate l0 path = some l) :
    ∃ y B, st.read l = some y ∧ Rep st.heap.cell w y B ∧ (∀ b ∈ B, b ∈ A) ∧ (path = [] → l = l0) ∧ (path ≠ [] → l.In A) ∧ ¬ l.In B := by
  obtain ⟨l', y, B, C, f1, f2, f3, f4, f5, f6, _⟩ := hr.focus nd ht hg h0 hoff
  rw [hl] at f1; cases f1
  refine ⟨y, B, f2, f3, fun b hb => f4.symm.subset (by simp [hb]), fun e => (f5 e).1, fun e => (f6 e).mono fun c hc => f4.symm.subset (by simp [hc]), ?_⟩
  intro hin
  by_cases e : path = []
  · rw [(f5 e).1] at hin
    exact hoff (hin.mono fun b hb => f4.symm.subset (by simp [hb]))
  · obtain ⟨a, i, e1, ha⟩ := f6 e
    obtain ⟨a', i', e2, ha'⟩ := hin
    rw [e1] at e2; cases e2
    have := (f4.nodup_iff).1 nd
    rw [List.nodup_append] at this
    exact this.2.2 _ ha _ ha' rfl

/-- Locations inside an unchanged value do not change. -/
theorem Rep.locate_frame {st st' : State} : ∀ {q : List Sel} {v u : Value} {x : HVal} {A : List Addr} {l0 : Loc}, Rep st.heap.cell v x A → Keyed v →
    getAt v q = some u → st.read l0 = some x → st'.read l0 = some x → (∀ a ∈ A, st'.heap.cell a = st.heap.cell a) →
    st'.locate l0 q = st.locate l0 q
  | [], _, _, _, _, _, _, _, _, _, _, _ => rfl
  | s :: q, v, u, x, A, l0, hr, ht, hg, h0, h1, hc => by
    obtain ⟨a, c, i, v1, y, A1, Ai, A2, hx, ha, hi, hp, hg1, ht1, hr1, hA, _, _, _⟩ := hr.child ht hg
    subst hA
    have ha' := (hc a (by simp)).trans ha
    simp only [State.locate, h0, h1, Option.bind_some, part_congr hx (hc a (by simp)) s, hp]
    exact Rep.locate_frame hr1 ht1 hg1 (by simp [State.read, ha, hi]) (by simp [State.read, ha', hi]) fun b hb => hc b (by simp [hb])

/-- A part that does not contain another one is apart from it. -/
theorem Rep.apart {st : State} : ∀ {p q : List Sel} {v w u : Value} {x : HVal} {A : List Addr} {l0 lp lq : Loc}, Rep st.heap.cell v x A → A.Nodup → Keyed v →
    getAt v p = some w → getAt v q = some u → st.read l0 = some x → ¬ l0.In A → st.locate l0 p = some lp → st.locate l0 q = some lq →
    ¬ q <+: p → lp ≠ lq ∧ ∀ z B, st.read lq = some z → Rep st.heap.cell u z B → ¬ lp.In B
  | _, [], _, _, _, _, _, _, _, _, _, _, _, _, _, _, _, _, _, hn => absurd (List.nil_prefix) hn
  | [], t :: q, v, w, u, x, A, l0, lp, lq, hr, nd, ht, hp, hq, h0, hoff, lp', lq', hn => by
    cases lp'
    obtain ⟨z, B, w1, w2, w3, w4, w5, w6⟩ := hr.where_ nd ht hq h0 hoff lq'
    refine ⟨fun e => hoff (e ▸ w5 (by simp)), fun z' B' hz hB hin => ?_⟩
    rw [w1] at hz; cases hz
    rw [hB.foot_unique w2] at hin
    exact hoff (hin.mono w3)
  | s :: p, t :: q, v, w, u, x, A, l0, lp, lq, hr, nd, ht, hp, hq, h0, hoff, hlp, hlq, hn => by
    obtain ⟨a, c, i, v1, y, A1, Ai, A2, hx, ha, hi, hps, hg1, ht1, hr1, hA, hv, _, others⟩ := hr.child ht hp
    subst hA
    have nd' := nd
    rw [List.nodup_cons, List.nodup_append, List.nodup_append] at nd'
    obtain ⟨na, ⟨ndA1, ndAi, dis1⟩, ndA2, dis2⟩ := nd'
    have off : ¬ (Loc.child a i).In Ai := by
      rintro ⟨b, j, e, hb⟩; cases e; exact na (by simp [hb])
    have hi' : st.read (.child a i) = some y := by simp [State.read, ha, hi]
    simp only [State.locate, h0, Option.bind_some, hps] at hlp
    by_cases hst : t = s
    · subst hst
      simp only [State.locate, h0, Option.bind_some, hps] at hlq
      obtain ⟨a', c', i', u1, y', A1', Ai', A2', _, ha', hi'', hps', hgu, htu, hru, hA', hv1', _⟩ := hr.child ht hq
      rw [hps] at hps'; cases hps'
      have : u1 = v1 := by
        rw [hv] at hv1'; exact (Option.some.inj hv1').symm
      subst this
      refine Rep.apart hr1 ndAi ht1 hg1 hgu hi' off hlp hlq fun h => hn ?_
      exact List.cons_prefix_cons.2 ⟨rfl, h⟩
    · obtain ⟨j, u1, z, Aj, hji, hj, hpt, hgu, htu, hru, hsub⟩ := others t q u hst hq
      simp only [State.locate, h0, Option.bind_some, hpt] at hlq
      have hdis : ∀ b ∈ Aj, b ∉ Ai := fun b hb hAi => by
        rcases List.mem_append.1 (hsub.subset hb) with h | h
        · exact dis1 _ h _ hAi rfl
        · exact dis2 _ (by simp [hAi]) _ h rfl
      have naj : a ∉ Aj := fun h => na (by have := hsub.subset h; simp only [List.mem_append] at this ⊢; rcases this with h | h <;> simp [h])
      have nai : a ∉ Ai := fun h => na (by simp [h])
      have ndj : Aj.Nodup := by
        have : (A1 ++ A2).Nodup := List.nodup_append.2 ⟨ndA1, ndA2, fun b hb b' hb' => dis2 b (by simp [hb]) b' hb'⟩
        exact this.sublist hsub
      obtain ⟨z1, B1, w1, w2, w3, w4, w5, w6⟩ := hr1.where_ ndAi ht1 hg1 hi' off hlp
      have offj : ¬ (Loc.child a j).In Aj := by
        rintro ⟨b, j, e, hb⟩; cases e; exact naj hb
      obtain ⟨z2, B2, x1, x2, x3, x4, x5, x6⟩ := hru.where_ ndj htu hgu (by simp [State.read, ha, hj]) offj hlq
      have key : ∀ b k, lp = .child b k → (b = a ∧ k = i ∨ b ∈ Ai) := fun b k e => by
        by_cases e' : p = []
        · rw [w4 e'] at e; cases e; exact .inl ⟨rfl, rfl⟩
        · obtain ⟨b', k', e2, hb⟩ := w5 e'; rw [e] at e2; cases e2; exact .inr hb
      refine ⟨fun e => ?_, fun z' B' hz hB hin => ?_⟩
      · subst e
        by_cases e' : q = []
        · rcases key _ _ (x4 e') with ⟨_, h⟩ | h
          · exact hji h
          · exact nai h
        · obtain ⟨b', k', e2, hb⟩ := x5 e'
          rcases key _ _ e2 with ⟨h, _⟩ | h
          · exact naj (h ▸ hb)
          · exact hdis _ hb h
      · rw [x1] at hz; cases hz
        rw [hB.foot_unique x2] at hin
        obtain ⟨b', k', e2, hb⟩ := hin
        rcases key _ _ e2 with ⟨h, _⟩ | h
        · exact naj (h ▸ x3 _ hb)
        · exact hdis _ (x3 _ hb) h

/-- Replacing a part does not move the parts that are not inside it. -/
theorem Rep.locate_stable {st st' : State} {y' : HVal} : ∀ {p q : List Sel} {v w u : Value} {x y : HVal} {A B : List Addr} {l0 lp : Loc},
    Rep st.heap.cell v x A → A.Nodup → Keyed v →
    getAt v p = some w → getAt v q = some u → st.read l0 = some x → ¬ l0.In A → st.locate l0 p = some lp →
    st.read lp = some y → Rep st.heap.cell w y B → (∀ c ∈ A, c ∉ B → st'.heap.cell c = (st.write lp y').heap.cell c) →
    st'.read l0 = some (if p = [] then y' else x) → (p <+: q → p = q) → st'.locate l0 q = st.locate l0 q
  | _, [], _, _, _, _, _, _, _, _, _, _, _, _, _, _, _, _, _, _, _, _, _, _ => rfl
  | [], t :: q, _, _, _, _, _, _, _, _, _, _, _, _, _, _, _, _, _, _, _, _, _, hn => by simp at hn
  | s :: p, t :: q, v, w, u, x, y, A, B, l0, lp, hr, nd, ht, hp, hq, h0, hoff, hlp, hy, hB, hc, h1, hn => by
    obtain ⟨a, c, i, v1, y1, A1, Ai, A2, hx, ha, hi, hps, hg1, ht1, hr1, hA, hv, _, others⟩ := hr.child ht hp
    subst hA
    have nd' := nd
    rw [List.nodup_cons, List.nodup_append, List.nodup_append] at nd'
    obtain ⟨na, ⟨ndA1, ndAi, dis1⟩, ndA2, dis2⟩ := nd'
    have off : ¬ (Loc.child a i).In Ai := by
      rintro ⟨b, j, e, hb⟩; cases e; exact na (by simp [hb])
    have hi' : st.read (.child a i) = some y1 := by simp [State.read, ha, hi]
    have nai : a ∉ Ai := fun h => na (by simp [h])
    simp only [State.locate, h0, Option.bind_some, hps] at hlp
    obtain ⟨z1, B1, w1, w2, w3, w4, w5, w6⟩ := hr1.where_ ndAi ht1 hg1 hi' off hlp
    rw [w1] at hy; cases hy
    rw [w2.foot_unique hB] at w3
    simp only [reduceCtorEq, if_false] at h1
    have hcell : st'.heap.cell a = some (c.setChild i (if p = [] then y' else y1)) := by
      rw [hc a (by simp) fun h => nai (w3 _ h)]
      by_cases e : p = []
      · rw [w4 e]; simp [State.write, Heap.set, ha, e]
      · obtain ⟨b, j, e1, hb⟩ := w5 e
        have hne : a ≠ b := fun e' => nai (e' ▸ hb)
        rw [e1]; simp only [State.write, Heap.set, hne, if_false, if_neg e, ha]
        congr 1
        have hw := write_read (st := st) (l := .child a i) (x := y1) hi'
        have := congrArg (fun s => s.heap.cell a) hw
        simp [State.write, Heap.set, ha] at this
        exact this.symm
    have hpart : ∀ s, st'.part x s = st.part x s := fun s =>
      part_setChild (st := st) (a := a) (i := i) (y := if p = [] then y' else y1) hx (by rw [hcell, ha]; rfl) s
    have hread : st'.read (.child a i) = some (if p = [] then y' else y1) := by
      have := (List.getElem?_eq_some_iff.1 hi).1
      simp [State.read, hcell, setChild_children, this]
    by_cases hst : t = s
    · subst hst
      simp only [State.locate, h0, h1, Option.bind_some, hpart, hps]
      obtain ⟨a', c', i', u1, y2, A1', Ai', A2', _, ha', hi'', hps', hgu, htu, hru, hA', hv1', _⟩ := hr.child ht hq
      rw [hps] at hps'; cases hps'
      have : u1 = v1 := by
        rw [hv] at hv1'; exact (Option.some.inj hv1').symm
      subst this
      exact Rep.locate_stable hr1 ndAi ht1 hg1 hgu hi' off hlp w1 hB (fun c hcc => hc c (by simp [hcc])) hread
        fun h => List.cons.inj (hn (List.cons_prefix_cons.2 ⟨rfl, h⟩)) |>.2
    · obtain ⟨j, u1, z, Aj, hji, hj, hpt, hgu, htu, hru, hsub⟩ := others t q u hst hq
      simp only [State.locate, h0, h1, Option.bind_some, hpart, hpt]
      refine Rep.locate_frame hru htu hgu (by simp [State.read, ha, hj]) ?_ fun b hb => ?_
      · simp [State.read, hcell, setChild_children, hj, Ne.symm hji]
      · have hb' := hsub.subset hb
        have hbi : b ∉ Ai := fun hAi => by
          rcases List.mem_append.1 hb' with h | h
          · exact dis1 _ h _ hAi rfl
          · exact dis2 _ (by simp [hAi]) _ h rfl
        have hba : b ≠ a := fun e => na (by
          subst e; simp only [List.mem_append] at hb' ⊢; rcases hb' with h | h <;> simp [h])
        rw [hc b (by simp only [List.mem_append, List.mem_cons] at hb' ⊢; rcases hb' with h | h <;> simp [h]) fun h => hbi (w3 _ h)]
        refine write_cell_off ?_
        rintro ⟨b', k, e1, hb''⟩
        obtain rfl : b' = b := by simpa using hb''
        by_cases e : p = []
        · rw [w4 e] at e1; cases e1; exact hba rfl
        · obtain ⟨b2, j2, e2, hb2⟩ := w5 e
          rw [e1] at e2; cases e2; exact hbi hb2

end Meojson.Mem
