import Verif.Proofs.HeapStep

/-! Move assignment. -/

set_option autoImplicit false

namespace Meojson.Mem
open Stores

section
variable {st : State} {σ : Store} {F : Nat → List Addr}

theorem Rep.same {h g : Cells} {v w : Value} {x y : HVal} {A B : List Addr} (hv : Rep h v x A) (hw : Rep g w y B) :
    x.raw.same y.raw = decide (payloadKind v = payloadKind w) := by
  cases v <;> cases w <;> simp only [Rep] at hv hw <;>
    first
    | (obtain ⟨_, _, _, rfl, _⟩ := hv; obtain ⟨_, _, _, rfl, _⟩ := hw; rfl)
    | (obtain ⟨_, _, _, rfl, _⟩ := hv; obtain ⟨rfl, _⟩ := hw; rfl)
    | (obtain ⟨rfl, _⟩ := hv; obtain ⟨_, _, _, rfl, _⟩ := hw; rfl)
    | (obtain ⟨rfl, _⟩ := hv; obtain ⟨rfl, _⟩ := hw; rfl)

theorem Rep.text {h : Cells} {v : Value} {x : HVal} {A : List Addr} (hv : Rep h v x A) {s : Bytes} (hx : x.raw = .text s) : A = [] ∧ payloadKind v = 0 := by
  cases v <;> simp only [Rep] at hv
  · exact ⟨hv.2, rfl⟩
  · obtain ⟨_, _, _, rfl, _⟩ := hv; cases hx
  · obtain ⟨rfl, _⟩ := hv; cases hx
  · obtain ⟨_, _, _, rfl, _⟩ := hv; cases hx
  · obtain ⟨rfl, _⟩ := hv; cases hx

/-- A temporary is stored at a place, and what was there is destroyed. -/
theorem SRep.settle {E : List Addr} (H : SRep st σ E F) (T : KeyedStore σ) {d : Place} {w v : Value} {l : Loc} {y x : HVal} {B : List Addr} {st' : State}
    (hd : σ.get d = some w) (hl : st.resolve d = some l) (hy : st.read l = some y) (hB : Rep st.heap.cell w y B) (hv : Rep st.heap.cell v x E)
    (hvar : st'.var = (st.write l x).var) (hnext : st'.heap.next = st.heap.next)
    (hcell : ∀ c, st'.heap.cell c = if c ∈ B then none else (st.write l x).heap.cell c) :
    Holds st' (σ.set d v) [] ∧
      ∀ r u lr, σ.get r = some u → ¬ Inside r d → r ≠ d → st.resolve r = some lr → st'.resolve r = some lr ∧ st'.read lr = st.read lr := by
  obtain ⟨l1, y1, B1, p1, p2, p3, p4, p5, p6, p7, p8⟩ := H.place T hd
  rw [hl] at p1; cases p1
  rw [hy] at p2; cases p2
  have := p3.foot_unique hB; subst this
  have hlE : ¬ l.In E := by
    rintro ⟨a, i, e, ha⟩
    by_cases e' : d.path = []
    · rw [p7 e'] at e; cases e
    · obtain ⟨b, j, e2, hb⟩ := p8 e'; rw [e] at e2; cases e2; exact H.off _ _ hb ha
  have hBE : ∀ b ∈ B1, b ∉ E := fun b hb => H.off _ _ (p4 b hb)
  have hE : ∀ b ∈ E, st'.heap.cell b = st.heap.cell b := fun b hb => by
    rw [hcell, if_neg fun h => hBE b h hb]; exact write_cell_off' hlE hb
  refine ⟨(H.update T (E' := []) (B' := E) hd hl hy hB hvar (by omega) (fun c _ h _ => by rw [hcell, if_neg h]) (hv.frame hE) (by simpa using H.extra) ?_ ?_).1,
    fun r u lr hr hn hne hlr => ⟨(H.stable T hd hl hy hB hvar (fun c _ h _ => by rw [hcell, if_neg h]) hr hn).trans hlr, ?_⟩⟩
  · intro b hb
    simp only [List.append_nil] at hb
    exact ⟨.inr (.inl hb), by rw [hnext]; exact H.ltE b hb⟩
  · rintro c (h | h | h) hne
    · rw [hcell, if_pos h] at hne; exact absurd rfl hne
    · simpa using h
    · exfalso; apply hne
      rw [hcell]
      split
      · rfl
      · refine Classical.byContradiction fun hh => ?_
        rcases H.live c (write_live hh) with h1 | ⟨z, h1⟩
        · have := H.ltE c h1; omega
        · have := H.lt z c h1; omega
  · have h := H.elsewhere T hd hl hy hB hr hlr hn hne
    exact (read_congr hvar fun a i e => by rw [hcell, if_neg (h.2 a i e).2]).trans (read_write_other (Ne.symm h.1))

theorem set_below {σ : Store} (T : KeyedStore σ) {d s : Place} {w u v : Value} (hd : σ.get d = some w) (hin : Inside s d) : (σ.set s u).set d v = σ.set d v := by
  obtain ⟨hx, ⟨r, hr⟩, _⟩ := hin
  obtain ⟨x, hv, hg⟩ := get_some hd
  funext z
  simp only [Store.set, Store.put]
  by_cases e : z = d.x
  · simp only [e, hx, if_true, hv, Option.map_some]
    rw [← hr, setAt_append (T _ _ hv) hg, setAt_setAt]
  · simp [e, hx]

theorem get_above {σ : Store} (T : KeyedStore σ) {d s : Place} {w u : Value} (hd : σ.get d = some w) (hin : Inside s d) :
    ∃ r, s.path = d.path ++ r ∧ r ≠ [] ∧ (σ.set s u).get d = some (setAt w r u) := by
  obtain ⟨hx, ⟨r, hr⟩, hne⟩ := hin
  obtain ⟨x, hv, hg⟩ := get_some hd
  refine ⟨r, hr.symm, fun e => hne (by rw [← hr, e, List.append_nil]), ?_⟩
  rw [get_of (v := setAt x s.path u) (by simp [Store.set, Store.put, hx, hv]), ← hr, setAt_append (T _ _ hv) hg]
  exact getAt_setAt hg

/-- What moving out of a place leaves where it was. -/
theorem SRep.movedStable (H : SRep st σ [] F) (T : KeyedStore σ) {s r : Place} {v u : Value} {l lr : Loc} {y y' : HVal} {B : List Addr} (hs : σ.get s = some v)
    (hl : st.resolve s = some l) (hy : st.read l = some y) (hB : Rep st.heap.cell v y B) (hr : σ.get r = some u) (hn : ¬ Inside r s) (hne : r ≠ s)
    (hlr : st.resolve r = some lr) : (st.write l y').resolve r = some lr ∧ (st.write l y').read lr = st.read lr :=
  ⟨(H.stable T hs hl hy hB rfl (fun _ _ _ _ => rfl) hr hn).trans hlr, read_write_other (Ne.symm (H.elsewhere T hs hl hy hB hr hlr hn hne).1)⟩

/-- A place is still there after something is stored at another place that it does not lie in. -/
theorem get_still {σ : Store} (T : KeyedStore σ) {s r : Place} {v u w : Value} (hs : σ.get s = some v) (hr : σ.get r = some u) (hn : ¬ Inside r s) (hne : r ≠ s) :
    ∃ u', (σ.set s w).get r = some u' := by
  by_cases h : Inside s r
  · obtain ⟨_, _, _, hg⟩ := get_above (u := w) T hr h; exact ⟨_, hg⟩
  · exact ⟨u, by rw [get_set_other hs (apart_of (Ne.symm hne) h hn), hr]⟩

/-- Move assignment, once the source has been emptied. -/
theorem moveAssign_exact (H : SRep st σ [] F) (T : KeyedStore σ) {d s : Place} {w v w2 : Value} {ld ls : Loc} {junk : Bytes} (hd : σ.get d = some w)
    (hs : σ.get s = some v) (hne : d ≠ s) (hds : ¬ Inside d s) (hkind : Inside s d → payloadKind w = payloadKind v)
    (hd2 : (σ.set s (hollow junk v)).get d = some w2) (hld : st.resolve d = some ld) (hls : st.resolve s = some ls) :
    ∃ st', Mem.moveAssign junk st ld ls = .done st' ∧ Holds st' ((σ.set s (hollow junk v)).set d v) [] ∧
      ∀ r u lr, σ.get r = some u → ¬ Inside r d → r ≠ d → ¬ Inside r s → r ≠ s → st.resolve r = some lr → st'.resolve r = some lr ∧ st'.read lr = st.read lr := by
  obtain ⟨ld', yd, Bd, d1, dr, d3, d4, d5, d6, d7, d8⟩ := H.place T hd
  rw [hld] at d1; cases d1
  obtain ⟨ls', ys, Bs, s1, sr, s3, s4, s5, s6, s7, s8⟩ := H.place T hs
  rw [hls] at s1; cases s1
  have d1 := hld
  have s1 := hls
  suffices h : ∃ st', Mem.moveAssign junk st ld ls = .done st' ∧ Holds st' ((σ.set s (hollow junk v)).set d v) [] ∧
      ∀ r u lr, (σ.set s (hollow junk v)).get r = some u → ¬ Inside r d → r ≠ d → (st.write ls (ys.movedFrom junk)).resolve r = some lr →
        st'.resolve r = some lr ∧ st'.read lr = (st.write ls (ys.movedFrom junk)).read lr by
    obtain ⟨st', h1, h2, h3⟩ := h
    refine ⟨st', h1, h2, fun r u lr hr hn1 hne1 hn2 hne2 hlr => ?_⟩
    obtain ⟨u', hu'⟩ := get_still (w := hollow junk v) T hs hr hn2 hne2
    have hm := H.movedStable T (y' := ys.movedFrom junk) hs s1 sr s3 hr hn2 hne2 hlr
    have := h3 r u' lr hu' hn1 hne1 hm.1
    exact ⟨this.1, this.2.trans hm.2⟩
  have hnp : ¬ (d.x = s.x ∧ s.path <+: d.path) := fun ⟨e, h⟩ => hds ⟨e, h, fun e' => hne (by cases d; cases s; simp at e e'; simp [e, e'])⟩
  have hll := (H.apart T hd hs d1 s1 sr s3 hnp).1
  obtain ⟨⟨F1, H1⟩, hv1⟩ := H.moved T junk hs s1 sr s3 s5 s6 fun b hb => H.lt _ _ (s4 b hb)
  have T1 := keyed_set T hs (keyed_hollow (keyed_get T hs) junk)
  have hl1 : (st.write ls (ys.movedFrom junk)).resolve d = some ld := by
    rw [← d1]
    exact H.stable T hs s1 sr s3 rfl (fun _ _ _ _ => rfl) hd hds
  obtain ⟨l2, y2, B2, q1, q2, q3, q4, q5, q6, q7, q8⟩ := H1.place T1 hd2
  rw [hl1] at q1; cases q1
  rw [read_write_other hll.symm, dr] at q2; cases q2
  simp only [moveAssign, dr, sr]
  have hfuel : B2.length < (st.write ls (ys.movedFrom junk)).heap.fuel :=
    Nat.lt_succ_of_le (nodup_length_le q5 fun b hb => H1.lt _ _ (q4 b hb))
  have hnext1 : (st.write ls (ys.movedFrom junk)).heap.next = st.heap.next := write_next ..
  -- the two orders of writing
  have hw2 : ∀ x y, ((st.write ld x).write ls (ys.movedFrom junk)).write ld y = (st.write ls (ys.movedFrom junk)).write ld y := fun x y => by
    rw [write_comm hll, write_write]
  split
  · -- the same alternative
    split
    · next t ht =>
      have hB2 : B2 = [] := by
        have : yd.raw.same ys.raw = true := by assumption
        cases hyd : yd.raw with
        | text t' => exact (q3.text hyd).1
        | arr => rw [hyd, ht] at this; cases this
        | obj => rw [hyd, ht] at this; cases this
      refine ⟨_, rfl, H1.settle T1 hd2 hl1 (by rw [read_write_other hll.symm, dr]) q3 hv1 ?_ ?_ ?_⟩
      · rw [write_write, write_comm hll]
      · rw [write_write, write_comm hll, write_next]
      · intro c; rw [write_write, write_comm hll, hB2]; simp
    · have hread : ((st.write ld ⟨ys.ty, yd.raw⟩).write ls (ys.movedFrom junk)).read ld = some ⟨ys.ty, yd.raw⟩ := by
        rw [read_write_other hll.symm]; exact read_write_same dr
      have hrep : Rep ((st.write ls (ys.movedFrom junk)).write ld ys).heap.cell (w2.setType ys.ty) ⟨ys.ty, yd.raw⟩ B2 :=
        (q3.retag ys.ty).frame fun b hb => write_cell_off' q6 hb
      obtain ⟨g, h1, h2⟩ := hrep.destroy q5 (n := (st.write ls (ys.movedFrom junk)).heap.fuel) hfuel
      have hf : ((st.write ld ⟨ys.ty, yd.raw⟩).write ls (ys.movedFrom junk)).heap.fuel = (st.write ls (ys.movedFrom junk)).heap.fuel := by
        simp [Heap.fuel, write_next]
      simp only [replace, hread, hw2, hf, h1]
      refine ⟨_, rfl, H1.settle T1 hd2 hl1 (by rw [read_write_other hll.symm, dr]) q3 hv1 rfl ?_ h2.2⟩
      show g.next = _
      rw [h2.1, write_next]
  · -- different alternatives: the places are apart
    next hdiff =>
    have hsd : ¬ Inside s d := fun h => hdiff (by rw [d3.same s3, hkind h]; simp)
    have ha := apart_of hne hds hsd
    have hlsB : ¬ ls.In Bd := (H.apart T hs hd s1 d1 dr d3 fun ⟨e, h⟩ => ha.2 ⟨e.symm, h⟩).2
    have hw2w : w2 = w := by
      rw [get_set_other hs ⟨fun ⟨e, h⟩ => ha.2 ⟨e.symm, h⟩, fun ⟨e, h⟩ => ha.1 ⟨e.symm, h⟩⟩, hd] at hd2; exact (Option.some.inj hd2).symm
    subst hw2w
    have hB2 : B2 = Bd := q3.foot_unique (d3.frame fun b hb => write_cell_off' hlsB hb)
    subst hB2
    have hrep : Rep (st.write ld ⟨ys.ty, yd.raw⟩).heap.cell w2 yd B2 := d3.frame fun b hb => write_cell_off' d6 hb
    obtain ⟨g, h1, h2⟩ := hrep.destroy d5 (n := (st.write ld ⟨ys.ty, yd.raw⟩).heap.fuel) (by rw [Heap.fuel, write_next]; rw [Heap.fuel, write_next] at hfuel; exact hfuel)
    have hls : ∀ a i, ls = .child a i → a ∉ B2 := fun a i e ha => hlsB ⟨a, i, e, ha⟩
    have hread : ((st.write ld ⟨ys.ty, yd.raw⟩).withHeap g).read ls = some ys := by
      rw [← sr, ← read_write_other (st := st) (x := ⟨ys.ty, yd.raw⟩) hll]
      refine read_congr rfl fun a i e => ?_
      show g.cell a = _
      rw [h2.2, if_neg (hls a i e)]
    simp only [h1, hread]
    refine ⟨_, rfl, H1.settle T1 hd2 hl1 (by rw [read_write_other hll.symm, dr]) q3 hv1 ?_ ?_ ?_⟩
    · rw [← write_comm hll, ← write_write st ld ⟨ys.ty, yd.raw⟩ ys]
      exact write_var_congr (write_var_congr rfl)
    · rw [write_next, write_next]
      show g.next = _
      rw [h2.1, write_next, write_next]
    · intro c
      by_cases hc : c ∈ B2
      · rw [if_pos hc, write_cell_off' hlsB hc, write_cell_off' d6 hc]
        show g.cell c = _
        rw [h2.2, if_pos hc]
      · rw [if_neg hc, ← write_comm hll, ← write_write st ld ⟨ys.ty, yd.raw⟩ ys]
        refine write_cell_congr (write_cell_congr ?_)
        show g.cell c = _
        rw [h2.2, if_neg hc]

theorem moveAssign_core (H : SRep st σ [] F) (T : KeyedStore σ) (oom : Addr → Bool) {d s : Place} {w v w2 : Value} {junk : Bytes} (hd : σ.get d = some w)
    (hs : σ.get s = some v) (hne : d ≠ s) (hds : ¬ Inside d s) (hkind : Inside s d → payloadKind w = payloadKind v)
    (hd2 : (σ.set s (hollow junk v)).get d = some w2) :
    Ends oom σ (.moveAssign d s junk) ((σ.set s (hollow junk v)).set d v) (step oom st (.moveAssign d s junk)) := by
  obtain ⟨ld, _, _, d1, _⟩ := H.place T hd
  obtain ⟨ls, _, _, s1, _⟩ := H.place T hs
  obtain ⟨st', h1, h2, _⟩ := moveAssign_exact H T hd hs hne hds hkind hd2 d1 s1
  simp only [step, d1, s1, h1]
  exact h2

theorem moveAssign_ends (H : SRep st σ [] F) (T : KeyedStore σ) (oom : Addr → Bool) {d s : Place} {w v : Value} {junk : Bytes} (hd : σ.get d = some w)
    (hs : σ.get s = some v) (hne : d ≠ s) (hds : ¬ Inside d s) (hsd : ¬ Inside s d) :
    Ends oom σ (.moveAssign d s junk) ((σ.set s (hollow junk v)).set d v) (step oom st (.moveAssign d s junk)) := by
  have ha := apart_of hne hds hsd
  refine moveAssign_core H T oom hd hs hne hds (fun h => absurd h hsd) (w2 := w) ?_
  rw [get_set_other hs ⟨fun ⟨e, h⟩ => ha.2 ⟨e.symm, h⟩, fun ⟨e, h⟩ => ha.1 ⟨e.symm, h⟩⟩, hd]

theorem moveAssignPart_ends (H : SRep st σ [] F) (T : KeyedStore σ) (oom : Addr → Bool) {d s : Place} {w v : Value} {junk : Bytes} (hd : σ.get d = some w)
    (hs : σ.get s = some v) (hin : Inside s d) (hk : payloadKind w = payloadKind v) : Ends oom σ (.moveAssign d s junk) (σ.set d v) (step oom st (.moveAssign d s junk)) := by
  obtain ⟨r, _, _, hg⟩ := get_above (u := hollow junk v) T hd hin
  rw [← set_below (u := hollow junk v) T hd hin]
  refine moveAssign_core H T oom hd hs (fun e => hin.2.2 (by rw [e])) (fun h => ?_) (fun _ => hk) hg
  exact hin.2.2 (h.2.1.eq_of_length (Nat.le_antisymm h.2.1.length_le hin.2.1.length_le))

theorem Rep.pointer {h : Cells} {v : Value} {x : HVal} {A : List Addr} (hv : Rep h v x A) (hx : ∀ s, x.raw ≠ .text s) : payloadKind v ≠ 0 := by
  cases v <;> simp [payloadKind]
  exact hx _ (by rw [hv.1])

theorem SRep.selfMoved (H : SRep st σ [] F) {l : Loc} {y : HVal} {junk : Bytes} (p2 : st.read l = some y)
    (hdes : ∀ n g, destroyVal (n + 1) g (y.movedFrom junk) = some g) {oom : Addr → Bool} {op : Op} :
    Ends oom σ op σ (replace (st.write l (y.movedFrom junk)) l y) := by
  have hf : (st.write l (y.movedFrom junk)).heap.fuel = st.heap.next + 1 := by rw [Heap.fuel, write_next]
  simp only [replace, read_write_same p2, hf, hdes, write_write, write_read p2]
  exact ⟨F, H⟩

theorem moveAssignSelf_ends (H : SRep st σ [] F) (T : KeyedStore σ) (oom : Addr → Bool) {d : Place} {v : Value} {junk : Bytes} (hd : σ.get d = some v) :
    Ends oom σ (.moveAssign d d junk) (σ.set d (if payloadKind v = 0 then hollow junk v else v)) (step oom st (.moveAssign d d junk)) := by
  obtain ⟨l, y, B, p1, p2, p3, p4, p5, p6, p7, p8⟩ := H.place T hd
  have hsame : y.raw.same y.raw = true := by cases y.raw <;> rfl
  simp only [step, p1, moveAssign, p2, hsame, if_true, write_write]
  cases hy : y.raw with
  | text t =>
    obtain ⟨hB, hk⟩ := p3.text hy
    rw [if_pos hk]
    subst hB
    exact (H.moved T junk hd p1 p2 p3 p5 p6 fun b hb => H.lt _ _ (p4 b hb)).1
  | arr o =>
    rw [if_neg (p3.pointer (by rw [hy]; simp)), set_get T hd]
    exact H.selfMoved p2 (by simp [HVal.movedFrom, hy, destroyVal])
  | obj o =>
    rw [if_neg (p3.pointer (by rw [hy]; simp)), set_get T hd]
    exact H.selfMoved p2 (by simp [HVal.movedFrom, hy, destroyVal])

end

end Meojson.Mem
