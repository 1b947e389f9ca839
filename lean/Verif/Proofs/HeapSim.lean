import Verif.Proofs.HeapOps

/-! Statements on memory do what they should on stores. -/

set_option autoImplicit false

namespace Meojson.Mem
open Stores

theorem Rep.ty {h : Cells} {v : Value} {x : HVal} {A : List Addr} (hr : Rep h v x A) : x.ty = v.type := by
  cases v with
  | str => rw [hr.1]; rfl
  | arrNull => rw [hr.1]; rfl
  | objNull => rw [hr.1]; rfl
  | arr => obtain ⟨a, xs, B, e, _⟩ := hr; rw [e]; rfl
  | obj => obtain ⟨a, xs, B, e, _⟩ := hr; rw [e]; rfl

theorem Rep.retag {h : Cells} {v : Value} {x : HVal} {A : List Addr} (hr : Rep h v x A) (t : VType) : Rep h (v.setType t) ⟨t, x.raw⟩ A := by
  cases v with
  | str => rw [hr.1]; exact ⟨rfl, hr.2⟩
  | arrNull => rw [hr.1]; exact ⟨rfl, hr.2⟩
  | objNull => rw [hr.1]; exact ⟨rfl, hr.2⟩
  | arr => obtain ⟨a, xs, B, e, h1⟩ := hr; rw [e]; exact ⟨a, xs, B, rfl, h1⟩
  | obj => obtain ⟨a, xs, B, e, h1⟩ := hr; rw [e]; exact ⟨a, xs, B, rfl, h1⟩

theorem write_cell_congr {st st' : State} {l : Loc} {y : HVal} {c : Addr} (h : st.heap.cell c = st'.heap.cell c) :
    (st.write l y).heap.cell c = (st'.write l y).heap.cell c := by
  cases l with
  | var x => exact h
  | child a i =>
    simp only [State.write, Heap.set]
    split
    · next e => rw [← e, h]
    · exact h

theorem write_var_congr {st st' : State} {l : Loc} {y : HVal} (h : st.var = st'.var) : (st.write l y).var = (st'.write l y).var := by
  cases l with
  | var x => simp [State.write, h]
  | child a i => exact h

theorem read_congr {st st' : State} {l : Loc} (h1 : st.var = st'.var) (h2 : ∀ a i, l = .child a i → st.heap.cell a = st'.heap.cell a) : st.read l = st'.read l := by
  cases l with
  | var x => simp [State.read, h1]
  | child a i => simp [State.read, h2 a i rfl]

theorem write_comm {st : State} {l l' : Loc} {x y : HVal} (h : l ≠ l') : (st.write l x).write l' y = (st.write l' y).write l x := by
  cases l with
  | var z =>
    cases l' with
    | var z' =>
      have : z ≠ z' := fun e => h (by rw [e])
      simp only [State.write]; congr 1; funext w
      by_cases h1 : w = z' <;> by_cases h2 : w = z <;> simp [h1, h2, this, Ne.symm this]
    | child a i => rfl
  | child a i =>
    cases l' with
    | var z' => rfl
    | child b j =>
      simp only [State.write, Heap.set]
      congr 2
      funext c
      by_cases hab : a = b
      · subst hab
        have hij : i ≠ j := fun e => h (by rw [e])
        by_cases hc : c = a
        · simp only [hc, if_true]
          cases st.heap.cell a with
          | none => rfl
          | some k =>
            simp only [Option.map_some]; congr 1
            cases k with
            | arr vs => simp only [Cell.setChild]; congr 1; exact List.set_comm _ _ hij
            | obj ms =>
              simp only [Cell.setChild]; congr 1
              apply List.ext_getElem?
              intro n
              simp only [List.getElem?_modify]
              by_cases h1 : i = n <;> by_cases h2 : j = n <;> simp [h1, h2]
              exact absurd (h1.trans h2.symm) hij
        · simp [hc]
      · by_cases h1 : c = a <;> by_cases h2 : c = b <;> simp [h1, h2, hab, Ne.symm hab]

/-- How a statement may end: as it should, or out of memory. -/
def Ends (oom : Addr → Bool) (σ : Store) (op : Op) (σ' : Store) : Fin → Prop
  | .done st => Holds st σ' []
  | .thrown st => (∃ a, oom a = true) ∧ ∃ σ'', Aborted σ op σ'' ∧ Holds st σ'' []
  | .ub => False

section
variable {st : State} {σ : Store} {F : Nat → List Addr}

theorem SRep.loc_lt {E : List Addr} (H : SRep st σ E F) (T : KeyedStore σ) {p : Place} {w : Value} {l : Loc} (hg : σ.get p = some w) (hl : st.resolve p = some l) :
    ∀ a i, l = .child a i → a < st.heap.next := by
  intro a i e
  obtain ⟨l1, y1, B1, p1, p2, p3, p4, p5, p6, p7, p8⟩ := H.place T hg
  rw [hl] at p1; cases p1
  by_cases e' : p.path = []
  · rw [p7 e'] at e; cases e
  · obtain ⟨b, j, e2, hb⟩ := p8 e'; rw [e] at e2; cases e2; exact H.lt _ _ hb

/-- A place that does not lie in another one is not stored in its cells. -/
theorem SRep.elsewhere {E : List Addr} (H : SRep st σ E F) (T : KeyedStore σ) {p q : Place} {w u : Value} {l lq : Loc} {y : HVal} {B : List Addr} (hg : σ.get p = some w)
    (hl : st.resolve p = some l) (hy : st.read l = some y) (hB : Rep st.heap.cell w y B) (hq : σ.get q = some u) (hlq : st.resolve q = some lq)
    (hn : ¬ Inside q p) (hne : q ≠ p) : lq ≠ l ∧ ∀ a i, lq = .child a i → a < st.heap.next ∧ a ∉ B := by
  obtain ⟨a1, a2⟩ := H.apart T hq hg hlq hl hy hB fun h => hn ⟨h.1, h.2, fun e => hne (by cases p; cases q; simp_all)⟩
  exact ⟨a1, fun a i e => ⟨H.loc_lt T hq hlq a i e, fun ha => a2 ⟨a, i, e, ha⟩⟩⟩

/-- Storing a new value at a place and destroying the old one. -/
theorem SRep.replaced (H : SRep st σ [] F) (T : KeyedStore σ) {p : Place} {w w' : Value} {l : Loc} {y y' x1 : HVal} {B D : List Addr} {st1 : State}
    (hg : σ.get p = some w) (hl : st.resolve p = some l) (hy : st.read l = some y) (hB : Rep st.heap.cell w y B) (hx1 : x1.raw = y.raw)
    (hvar : st1.var = (st.write l x1).var) (hnext : st.heap.next ≤ st1.heap.next)
    (hcell : ∀ c, c < st.heap.next → st1.heap.cell c = (st.write l x1).heap.cell c)
    (hrep : Rep st1.heap.cell w' y' D) (hnd : D.Nodup) (hb : ∀ b ∈ D, st.heap.next ≤ b ∧ b < st1.heap.next)
    (hlive : ∀ c, st.heap.next ≤ c → st1.heap.cell c ≠ none → c ∈ D) :
    ∃ st', replace st1 l y' = .done st' ∧ Holds st' (σ.set p w') [] ∧ st'.resolve p = some l ∧ st'.read l = some y' ∧
      (∀ q u, σ.get q = some u → ¬ Inside q p → st'.resolve q = st.resolve q) ∧
      ∀ lq, lq ≠ l → (∀ a i, lq = .child a i → a < st.heap.next ∧ a ∉ B) → st'.read lq = st.read lq := by
  have llt := H.loc_lt T hg hl
  obtain ⟨l1, y1, B1, p1, p2, p3, p4, p5, p6, p7, p8⟩ := H.place T hg
  rw [hl] at p1; cases p1
  rw [hy] at p2; cases p2
  have := p3.foot_unique hB; subst this
  have hread : st1.read l = some x1 := by
    rw [read_congr hvar fun a i e => hcell a (llt a i e)]; exact read_write_same hy
  have hlD : ¬ l.In D := by
    rintro ⟨a, i, e, ha⟩; have := llt a i e; have := (hb a ha).1; omega
  -- the old payload, just before it is destroyed
  have hold : Rep (st1.write l y').heap.cell (w.setType x1.ty) x1 B1 := by
    have : x1 = ⟨x1.ty, y.raw⟩ := by cases x1; simp at hx1; simp [hx1]
    rw [this]
    refine (p3.retag x1.ty).frame fun b hb => ?_
    rw [write_cell_off' p6 hb, hcell b (H.lt _ _ (p4 b hb)), write_cell_off' p6 hb]
  obtain ⟨g, h1, h2⟩ := hold.destroy p5 (n := st1.heap.fuel) (Nat.lt_succ_of_le (Nat.le_trans (nodup_length_le p5 fun b hb => H.lt _ _ (p4 b hb)) hnext))
  refine ⟨(st1.write l y').withHeap g, ?_, ?_⟩
  · simp only [replace, hread, h1]
  · have hv' : ((st1.write l y').withHeap g).var = (st.write l y').var := by
      show (st1.write l y').var = _
      rw [write_var_congr hvar, write_write]
    have hn' : ((st1.write l y').withHeap g).heap.next = st1.heap.next := by
      show g.next = _
      rw [h2.1, write_next]
    have hc' : ∀ c, c < st.heap.next → c ∉ B1 → ((st1.write l y').withHeap g).heap.cell c = (st.write l y').heap.cell c := fun c hc hcB => by
      show g.cell c = _
      rw [h2.2, if_neg hcB, write_cell_congr (hcell c hc), write_write]
    have hBD : ∀ c, c ∈ B1 → c ∉ D := fun c hc hd => by have := H.lt _ _ (p4 c hc); have := (hb c hd).1; omega
    have hnew : ∀ c, st.heap.next ≤ c → g.cell c = st1.heap.cell c := fun c hc => by
      rw [h2.2, if_neg fun h => by have := H.lt _ _ (p4 c h); omega]
      refine write_cell_off ?_
      rintro ⟨a, i, e, ha⟩
      obtain rfl : a = c := by simpa using ha
      have := llt a i e; omega
    refine (fun R => ⟨R.1, R.2.1, R.2.2, fun q u hq hn => H.stable T hg hl hy hB hv' (fun c h1 h2 _ => hc' c h1 h2) hq hn,
        fun lq hne hlq => (read_congr hv' fun a i e => hc' a (hlq a i e).1 (hlq a i e).2).trans (read_write_other (Ne.symm hne))⟩)
      (H.update T (E' := []) (B' := D) hg hl hy hB hv' (by omega) (fun c h1 h2 _ => hc' c h1 h2) ?_ (by simpa using hnd) ?_ ?_)
    · exact hrep.frame fun d hd => hnew d (hb d hd).1
    · intro b hbD
      simp only [List.append_nil] at hbD
      exact ⟨.inr (.inr (hb b hbD).1), by rw [hn']; exact (hb b hbD).2⟩
    · rintro c (h | h | h) hne
      · exact absurd (show g.cell c = none by rw [h2.2, if_pos h]) hne
      · simp at h
      · simp only [List.append_nil]
        refine hlive c h ?_
        rw [← hnew c h]; exact hne

/-- Copying from a place. -/
theorem SRep.copied (H : SRep st σ [] F) (T : KeyedStore σ) {s : Place} {v : Value} {l : Loc} (oom : Addr → Bool) (hg : σ.get s = some v) (hw : Whole v)
    (hl : st.resolve s = some l) (k : State → HVal → Fin) :
    (∃ g x D, copyFrom oom st l k = k (st.withHeap g) x ∧ Rep g.cell v x D ∧ Grown st.heap g D) ∨
    (∃ g, copyFrom oom st l k = .thrown (st.withHeap g) ∧ Grown st.heap g [] ∧ ∃ a, oom a = true) := by
  obtain ⟨l1, y1, B1, p1, p2, p3, p4, p5, p6, p7, p8⟩ := H.place T hg
  rw [hl] at p1; cases p1
  have hlt : ∀ b ∈ B1, b < st.heap.next := fun b hb => H.lt _ _ (p4 b hb)
  have := p3.copy oom hw H.clean hlt (n := st.heap.fuel) (Nat.lt_succ_of_le (nodup_length_le p5 hlt))
  simp only [copyFrom, p2]
  cases hc : copyVal oom st.heap.fuel st.heap y1 with
  | ub => rw [hc] at this; exact this.elim
  | oom g => rw [hc] at this; exact .inr ⟨g, rfl, this.1, this.2⟩
  | ok g x => rw [hc] at this; obtain ⟨D, h1, h2⟩ := this; exact .inl ⟨g, x, D, rfl, h1, h2⟩

/-- A container changed in place. -/
theorem SRep.remade (H : SRep st σ [] F) (T : KeyedStore σ) {p : Place} {w w' : Value} {l : Loc} {y : HVal} {B B' : List Addr} {st' : State}
    (hg : σ.get p = some w) (hl : st.resolve p = some l) (hy : st.read l = some y) (hB : Rep st.heap.cell w y B)
    (hvar : st'.var = st.var) (hnext : st.heap.next ≤ st'.heap.next)
    (hcell : ∀ c, c < st.heap.next → c ∉ B → st'.heap.cell c = st.heap.cell c)
    (hrep : Rep st'.heap.cell w' y B') (hnd : B'.Nodup)
    (hb : ∀ b ∈ B', (b ∈ B ∨ st.heap.next ≤ b) ∧ b < st'.heap.next)
    (hlive : ∀ c, (c ∈ B ∨ st.heap.next ≤ c) → st'.heap.cell c ≠ none → c ∈ B') :
    Holds st' (σ.set p w') [] ∧ st'.resolve p = some l ∧ st'.read l = some y ∧
      ∀ q u lq, σ.get q = some u → ¬ Inside q p → st.resolve q = some lq → st'.resolve q = some lq ∧ st'.read lq = st.read lq := by
  have hw := write_read hy
  refine (fun R => ⟨R.1, R.2.1, R.2.2, fun q u lq hq hn hlq => ⟨(H.stable T (y' := y) hg hl hy hB (by rw [hw]; exact hvar)
      (fun c h1 h2 _ => by rw [hw]; exact hcell c h1 h2) hq hn).trans hlq, ?_⟩⟩)
    (H.update T (E' := []) (B' := B') hg hl hy hB (by rw [hw]; exact hvar) hnext (fun c h1 h2 _ => by rw [hw]; exact hcell c h1 h2) hrep
    (by simpa using hnd) ?_ ?_)
  · intro b hb'
    simp only [List.append_nil] at hb'
    have := hb b hb'
    exact ⟨this.1.elim .inl fun h => .inr (.inr h), this.2⟩
  · rintro c (h | h | h) hne
    · simpa using hlive c (.inl h) hne
    · simp at h
    · simpa using hlive c (.inr h) hne
  · by_cases e : q = p
    · subst e; rw [hl] at hlq; cases hlq; rw [R.2.2, hy]
    · exact read_congr hvar fun a i e' => let h := (H.elsewhere T hg hl hy hB hq hlq hn e).2 a i e'; hcell a h.1 h.2

theorem holds_grow (H : SRep st σ [] F) {g : Heap} (hg : Grown st.heap g []) : Holds (st.withHeap g) σ [] := ⟨F, H.grow hg⟩

end

end Meojson.Mem
