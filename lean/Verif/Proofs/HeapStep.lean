import Verif.Proofs.HeapSim

/-! Each statement does what it should. -/

set_option autoImplicit false

namespace Meojson.Mem
open Stores

section
variable {st : State} {σ : Store} {F : Nat → List Addr}

theorem SRep.var_none (H : SRep st σ [] F) {x : Nat} (h : σ x = none) : st.var x = none := (H.absent x h).1

theorem copyAssign_exact (H : SRep st σ [] F) (T : KeyedStore σ) (oom : Addr → Bool) {d s : Place} {w v : Value} {ld ls : Loc} (hd : σ.get d = some w)
    (hs : σ.get s = some v) (hw : Whole v) (hin : Inside d s → w.type = v.type) (hld : st.resolve d = some ld) (hls : st.resolve s = some ls) :
    (∃ st', Mem.copyAssign oom st ld ls = .done st' ∧ Holds st' (σ.set d v) [] ∧
      ∀ q u lq, σ.get q = some u → ¬ Inside q d → q ≠ d → st.resolve q = some lq → st'.resolve q = some lq ∧ st'.read lq = st.read lq) ∨
    (∃ st', Mem.copyAssign oom st ld ls = .thrown st' ∧ (∃ a, oom a = true) ∧ Holds st' (σ.set d (w.setType v.type)) []) := by
  obtain ⟨l1, y, B, p1, p2, p3, p4, p5, p6, p7, p8⟩ := H.place T hd
  rw [hld] at p1; cases p1
  obtain ⟨l2, z, C, q1, q2, q3, q4, q5, q6, q7, q8⟩ := H.place T hs
  rw [hls] at q1; cases q1
  simp only [Mem.copyAssign, p2, q2]
  -- after the tag is written, the source is as before
  obtain ⟨r1, r2⟩ : (st.write ld ⟨z.ty, y.raw⟩).read ls = some z ∧ Rep (st.write ld ⟨z.ty, y.raw⟩).heap.cell v z C := by
    by_cases hp : d.x = s.x ∧ s.path <+: d.path
    · have hty : w.type = v.type := by
        by_cases e : d.path = s.path
        · have : d = s := by cases d; cases s; simp at hp e; simp [hp, e]
          subst this; rw [hd] at hs; cases hs; rfl
        · exact hin ⟨hp.1, hp.2, e⟩
      have : (⟨z.ty, y.raw⟩ : HVal) = y := by rw [q3.ty, ← hty, ← p3.ty]
      rw [this, write_read p2]; exact ⟨q2, q3⟩
    · obtain ⟨a1, a2⟩ := H.apart T hd hs hld hls q2 q3 hp
      exact ⟨by rw [read_write_other a1, q2], q3.frame fun c hc => write_cell_off' a2 hc⟩
  have hlt : ∀ b ∈ C, b < (st.write ld ⟨z.ty, y.raw⟩).heap.next := fun b hb => by rw [write_next]; exact H.lt _ _ (q4 b hb)
  have hclean : (st.write ld ⟨z.ty, y.raw⟩).heap.Clean := fun a ha => by
    rw [write_next] at ha
    exact Classical.byContradiction fun hne => write_live hne (H.clean a ha)
  have hcopy := r2.copy oom hw hclean hlt (n := (st.write ld ⟨z.ty, y.raw⟩).heap.fuel) (Nat.lt_succ_of_le (nodup_length_le q5 hlt))
  simp only [copyFrom, r1]
  have hclt : ∀ c, c < st.heap.next → ∀ (g : Heap) (D : List Addr), Grown (st.write ld ⟨z.ty, y.raw⟩).heap g D →
      g.cell c = (st.write ld ⟨z.ty, y.raw⟩).heap.cell c := fun c hc g D hg => hg.old c fun hD => by
    have := (hg.fresh c hD).1; rw [write_next] at this; omega
  cases hc : copyVal oom (st.write ld ⟨z.ty, y.raw⟩).heap.fuel (st.write ld ⟨z.ty, y.raw⟩).heap z with
  | ub => rw [hc] at hcopy; exact hcopy.elim
  | oom g =>
    rw [hc] at hcopy
    refine .inr ⟨_, rfl, hcopy.2, ?_⟩
    rw [← q3.ty]
    have hn : st.heap.next ≤ g.next := by have := hcopy.1.next; rwa [write_next] at this
    refine (H.update T (st' := (st.write ld ⟨z.ty, y.raw⟩).withHeap g) (E' := []) (B' := B) (y' := ⟨z.ty, y.raw⟩) hd hld p2 p3 rfl hn (fun c hc _ _ => hclt c hc g _ hcopy.1) ?_ (by simpa using p5) ?_ ?_).1
    · refine (p3.retag z.ty).frame fun b hb => ?_
      show g.cell b = _
      rw [hclt b (H.lt _ _ (p4 b hb)) g _ hcopy.1, write_cell_off' p6 hb]
    · intro b hb
      simp only [List.append_nil] at hb
      exact ⟨.inl hb, Nat.lt_of_lt_of_le (H.lt _ _ (p4 b hb)) hn⟩
    · rintro c (h | h | h) hne
      · simpa using h
      · simp at h
      · refine absurd ?_ hne
        show g.cell c = none
        rw [hcopy.1.old c (by simp)]; exact hclean c (by rw [write_next]; exact h)
  | ok g x =>
    rw [hc] at hcopy
    obtain ⟨D, h1, h2⟩ := hcopy
    have hx : (⟨z.ty, x.raw⟩ : HVal) = x := by rw [q3.ty, ← h1.ty]
    simp only [hx]
    have hn : st.heap.next ≤ g.next := by have := h2.next; rwa [write_next] at this
    obtain ⟨st', e1, e2, _, _, e3, e4⟩ := H.replaced T (x1 := ⟨z.ty, y.raw⟩) (st1 := (st.write ld ⟨z.ty, y.raw⟩).withHeap g) (D := D) (y' := x) (w' := v)
      hd hld p2 p3 rfl rfl hn (fun c hc => hclt c hc g D h2) h1 h2.nodup
      (fun b hb => by have := h2.fresh b hb; rw [write_next] at this; exact this)
      (fun c hc hne => Classical.byContradiction fun hD => hne (by
        show g.cell c = none
        rw [h2.old c hD]; exact hclean c (by rw [write_next]; exact hc)))
    exact .inl ⟨st', e1, e2, fun q u lq hq hn hne hlq => ⟨(e3 q u hq hn).trans hlq, let h := H.elsewhere T hd hld p2 p3 hq hlq hn hne; e4 lq h.1 h.2⟩⟩

theorem copyAssign_ends (H : SRep st σ [] F) (T : KeyedStore σ) (oom : Addr → Bool) {d s : Place} {w v : Value} {ld ls : Loc} (hd : σ.get d = some w)
    (hs : σ.get s = some v) (hw : Whole v) (hin : Inside d s → w.type = v.type) (hld : st.resolve d = some ld) (hls : st.resolve s = some ls) :
    Ends oom σ (.copyAssign d s) (σ.set d v) (Mem.copyAssign oom st ld ls) := by
  rcases copyAssign_exact H T oom hd hs hw hin hld hls with ⟨st', e1, e2, _⟩ | ⟨st', e1, e2, e3⟩
  · rw [e1]; exact e2
  · rw [e1]; exact ⟨e2, _, .copyAssign hd hs, e3⟩

theorem getAt_hollowable {v u : Value} (hv : Hollowable v) {q : List Sel} (h : getAt v q = some u) : q = [] := by
  cases q with
  | nil => rfl
  | cons s q => cases hv <;> cases s <;> simp [getAt] at h

theorem not_inside_of_hollowable {p q : Place} {v u : Value} (hp : σ.get p = some v) (hv : Hollowable v) (hq : σ.get q = some u) : ¬ Inside q p := by
  rintro ⟨e, ⟨r, hr⟩, hne⟩
  obtain ⟨t, ht, hg⟩ := get_some hp
  obtain ⟨t', ht', hg'⟩ := get_some hq
  rw [e, ht] at ht'; cases ht'
  rw [← hr, getAt_append, hg] at hg'
  have := getAt_hollowable hv hg'
  subst this; simp at hr; exact hne hr.symm

theorem blank_of_hollowable {v : Value} {y : HVal} {B : List Addr} (hr : Rep st.heap.cell v y B) (hv : Hollowable v) : st.blank y = some true := by
  cases hv with
  | null => rw [hr.1]; rfl
  | string => rw [hr.1]; rfl
  | array =>
    obtain ⟨a, xs, B, e1, e2, e3, e4⟩ := hr
    rw [e3.1] at e2
    simp [e1, State.blank, e2]
  | object =>
    obtain ⟨a, xs, B, e1, e2, e3, e4⟩ := hr
    rw [e3.1] at e2
    simp [e1, State.blank, e2]

/-- Turning a null or empty value into an empty container. -/
theorem SRep.coerce (H : SRep st σ [] F) (T : KeyedStore σ) {p : Place} {v w' : Value} {l : Loc} {y : HVal} {B : List Addr} (hg : σ.get p = some v)
    (hv : Hollowable v) (hl : st.resolve p = some l) (hy : st.read l = some y) (hB : Rep st.heap.cell v y B) {t : VType} {r : Raw} {c : Cell}
    (hw : ∀ g : Cells, g st.heap.next = some c → Rep g w' ⟨t, r⟩ [st.heap.next]) :
    (∃ st', replace ((st.write l ⟨t, y.raw⟩).withHeap ((st.write l ⟨t, y.raw⟩).heap.bump.set (st.write l ⟨t, y.raw⟩).heap.next (some c))) l ⟨t, r⟩ = .done st' ∧
      Holds st' (σ.set p w') [] ∧ st'.resolve p = some l ∧ st'.read l = some ⟨t, r⟩ ∧ (∀ q u, σ.get q = some u → st'.resolve q = st.resolve q) ∧
      ∀ q u lq, σ.get q = some u → q ≠ p → st.resolve q = some lq → st'.read lq = st.read lq) ∧
    Holds ((st.write l ⟨t, y.raw⟩).withHeap (st.write l ⟨t, y.raw⟩).heap.bump) (σ.set p (v.setType t)) [] := by
  obtain ⟨l1, y1, B1, p1, p2, p3, p4, p5, p6, p7, p8⟩ := H.place T hg
  rw [hl] at p1; cases p1
  rw [hy] at p2; cases p2
  have := p3.foot_unique hB; subst this
  refine ⟨?_, ?_⟩
  · obtain ⟨st', e1, e2, e3, e4, e5, e6⟩ := H.replaced T (x1 := ⟨t, y.raw⟩) (D := [st.heap.next]) (y' := ⟨t, r⟩) (w' := w')
      (st1 := (st.write l ⟨t, y.raw⟩).withHeap ((st.write l ⟨t, y.raw⟩).heap.bump.set (st.write l ⟨t, y.raw⟩).heap.next (some c)))
      hg hl hy hB rfl rfl (by show _ ≤ (st.write l ⟨t, y.raw⟩).heap.next + 1; rw [write_next]; omega)
      (fun d hd => by
        show (if d = _ then _ else _) = _
        rw [write_next, if_neg (Nat.ne_of_lt hd)]; rfl)
      (hw _ (by rw [write_next]; exact if_pos rfl)) (by simp)
      (fun b hb => by
        simp only [List.mem_singleton] at hb; subst hb
        refine ⟨Nat.le_refl _, ?_⟩
        show _ < (st.write l ⟨t, y.raw⟩).heap.next + 1
        rw [write_next]; omega)
      (fun d hd hne => by
        simp only [List.mem_singleton]
        refine Classical.byContradiction fun hdn => hne ?_
        show (if d = _ then _ else _) = _
        rw [write_next, if_neg hdn]
        exact Classical.byContradiction fun hne => write_live hne (H.clean d hd))
    refine ⟨st', e1, e2, e3, e4, fun q u hq => e5 q u hq (not_inside_of_hollowable hg hv hq), fun q u lq hq hne hlq => ?_⟩
    have h := H.elsewhere T hg hl hy hB hq hlq (not_inside_of_hollowable hg hv hq) hne
    exact e6 lq h.1 h.2
  · refine (H.update T (st' := (st.write l ⟨t, y.raw⟩).withHeap (st.write l ⟨t, y.raw⟩).heap.bump) (E' := []) (B' := B1) (y' := ⟨t, y.raw⟩) hg hl hy hB rfl
      (by show _ ≤ (st.write l ⟨t, y.raw⟩).heap.next + 1; rw [write_next]; omega) (fun _ _ _ _ => rfl) ?_ (by simpa using p5) ?_ ?_).1
    · exact (p3.retag t).frame fun b hb => write_cell_off' p6 hb
    · intro b hb
      simp only [List.append_nil] at hb
      refine ⟨.inl hb, ?_⟩
      show _ < (st.write l ⟨t, y.raw⟩).heap.next + 1
      rw [write_next]; have := H.lt _ _ (p4 b hb); omega
    · rintro d (h | h | h) hne
      · simpa using h
      · simp at h
      · exact absurd (H.clean d h) (write_live hne)

/-- A place keeps its value. -/
theorem SRep.same (H : SRep st σ [] F) (T : KeyedStore σ) {p : Place} {v : Value} (hg : σ.get p = some v) : Holds st (σ.set p v) [] := by
  obtain ⟨l, y, B, p1, p2, p3, p4, p5, p6, p7, p8⟩ := H.place T hg
  refine (H.remade T (B' := B) hg p1 p2 p3 rfl (Nat.le_refl _) (fun _ _ _ => rfl) p3 p5 (fun b hb => ⟨.inl hb, H.lt _ _ (p4 b hb)⟩) ?_).1
  rintro c (h | h) hne
  · exact h
  · exact absurd (H.clean c h) hne

/-- Using a value as an array. -/
theorem SRep.array (H : SRep st σ [] F) (T : KeyedStore σ) (oom : Addr → Bool) {p : Place} {v : Value} {vs : List Value} {l : Loc} (hg : σ.get p = some v)
    (hv : Elems v vs) (hl : st.resolve p = some l) (k : State → Addr → Fin) :
    (∃ st' a, asArray oom st l k = k st' a ∧ Holds st' (σ.set p (.arr .array vs)) [] ∧ st'.resolve p = some l ∧
      st'.read l = some ⟨.array, .arr (some a)⟩ ∧ (∀ q u, σ.get q = some u → st'.resolve q = st.resolve q) ∧
      (∀ op, container op = some (p, .array) → Aborted σ op (σ.set p (.arr .array vs))) ∧ ∀ q u lq, σ.get q = some u → (q ≠ p ∨ ¬ Hollowable v) → st.resolve q = some lq → st'.read lq = st.read lq) ∨
    (∃ st', asArray oom st l k = .thrown st' ∧ (∃ a, oom a = true) ∧ Hollowable v ∧ Holds st' (σ.set p (v.setType .array)) []) := by
  obtain ⟨l1, y, B, p1, p2, p3, p4, p5, p6, p7, p8⟩ := H.place T hg
  rw [hl] at p1; cases p1
  by_cases hh : Hollowable v
  · have hvs : vs = [] := by
      rcases hv with ⟨_, h⟩ | h
      · exact h
      · subst h; cases hh; rfl
    subst hvs
    obtain ⟨⟨st', e1, e2, e3, e4, e5, e7⟩, e6⟩ := H.coerce T (w' := .arr .array []) (t := .array) (r := .arr (some st.heap.next)) (c := .arr []) hg hh hl p2 p3
      (fun g hgc => ⟨_, [], [], rfl, hgc, ⟨rfl, rfl⟩, rfl⟩)
    simp only [asArray, p2, blank_of_hollowable p3 hh]
    by_cases ho : oom (st.write l ⟨.array, y.raw⟩).heap.next
    · rw [if_pos ho]
      exact .inr ⟨_, rfl, ⟨_, ho⟩, hh, e6⟩
    · rw [if_neg ho]
      rw [write_next] at e1 ⊢
      rw [e1]
      exact .inl ⟨st', _, rfl, e2, e3, e4, e5, fun _ ho => .array ho hg hh, fun q u lq hq hne => e7 q u lq hq (hne.resolve_right (absurd hh))⟩
  · rcases hv with h | h
    · exact absurd h.1 hh
    · subst h
      obtain ⟨a, xs, C, e1, e2, e3, e4⟩ := id p3
      subst e1
      have hne : xs.isEmpty = false := by
        cases xs with
        | nil =>
          cases vs with
          | nil => exact absurd .array hh
          | cons => have := e3.length; simp at this
        | cons => rfl
      refine .inl ⟨st, a, ?_, H.same T hg, hl, p2, fun _ _ _ => rfl, ?_, fun _ _ _ _ _ _ => rfl⟩
      · simp [asArray, p2, State.blank, e2, hne]
      · rw [set_get T hg]; exact fun _ h => .same (by rw [h]; rfl)

/-- Using a value as an object. -/
theorem SRep.object (H : SRep st σ [] F) (T : KeyedStore σ) (oom : Addr → Bool) {p : Place} {v : Value} {ms : List (Bytes × Value)} {l : Loc} (hg : σ.get p = some v)
    (hv : Members v ms) (hl : st.resolve p = some l) (k : State → Addr → Fin) :
    (∃ st' a, asObject oom st l k = k st' a ∧ Holds st' (σ.set p (.obj .object ms)) [] ∧ st'.resolve p = some l ∧
      st'.read l = some ⟨.object, .obj (some a)⟩ ∧ (∀ q u, σ.get q = some u → st'.resolve q = st.resolve q) ∧
      (∀ op, container op = some (p, .object) → Aborted σ op (σ.set p (.obj .object ms))) ∧ ∀ q u lq, σ.get q = some u → (q ≠ p ∨ ¬ Hollowable v) → st.resolve q = some lq → st'.read lq = st.read lq) ∨
    (∃ st', asObject oom st l k = .thrown st' ∧ (∃ a, oom a = true) ∧ Hollowable v ∧ Holds st' (σ.set p (v.setType .object)) []) := by
  obtain ⟨l1, y, B, p1, p2, p3, p4, p5, p6, p7, p8⟩ := H.place T hg
  rw [hl] at p1; cases p1
  by_cases hh : Hollowable v
  · have hvs : ms = [] := by
      rcases hv with ⟨_, h⟩ | h
      · exact h
      · subst h; cases hh; rfl
    subst hvs
    obtain ⟨⟨st', e1, e2, e3, e4, e5, e7⟩, e6⟩ := H.coerce T (w' := .obj .object []) (t := .object) (r := .obj (some st.heap.next)) (c := .obj []) hg hh hl p2 p3
      (fun g hgc => ⟨_, [], [], rfl, hgc, ⟨rfl, rfl⟩, rfl⟩)
    simp only [asObject, p2, blank_of_hollowable p3 hh]
    by_cases ho : oom (st.write l ⟨.object, y.raw⟩).heap.next
    · rw [if_pos ho]
      exact .inr ⟨_, rfl, ⟨_, ho⟩, hh, e6⟩
    · rw [if_neg ho]
      rw [write_next] at e1 ⊢
      rw [e1]
      exact .inl ⟨st', _, rfl, e2, e3, e4, e5, fun _ ho => .object ho hg hh, fun q u lq hq hne => e7 q u lq hq (hne.resolve_right (absurd hh))⟩
  · rcases hv with h | h
    · exact absurd h.1 hh
    · subst h
      obtain ⟨a, xs, C, e1, e2, e3, e4⟩ := id p3
      subst e1
      have hne : xs.isEmpty = false := by
        cases xs with
        | nil =>
          cases ms with
          | nil => exact absurd .object hh
          | cons => have := e3.keys; simp at this
        | cons => rfl
      refine .inl ⟨st, a, ?_, H.same T hg, hl, p2, fun _ _ _ => rfl, ?_, fun _ _ _ _ _ _ => rfl⟩
      · simp [asObject, p2, State.blank, e2, hne]
      · rw [set_get T hg]; exact fun _ h => .same (by rw [h]; rfl)

theorem copyInit_ends (H : SRep st σ [] F) (T : KeyedStore σ) (oom : Addr → Bool) {x : Nat} {s : Place} {v : Value} (hx : σ x = none)
    (hs : σ.get s = some v) (hw : Whole v) : Ends oom σ (.copyInit x s) (σ.put x (some v)) (step oom st (.copyInit x s)) := by
  obtain ⟨l, y, B, p1, p2, p3, p4, p5, p6, p7, p8⟩ := H.place T hs
  simp only [step, H.var_none hx, p1]
  rcases H.copied T oom hs hw p1 (fun st v => .done (st.write (.var x) v)) with ⟨g, z, D, e1, e2, e3⟩ | ⟨g, e1, e2, e3⟩
  · rw [e1]; exact (H.grow e3).adopt hx e2
  · rw [e1]; exact ⟨e3, σ, .copyInit, holds_grow H e2⟩

theorem init_ends (H : SRep st σ [] F) (oom : Addr → Bool) {x : Nat} {v : Value} (hx : σ x = none) :
    Ends oom σ (.init x v) (σ.put x (some v)) (step oom st (.init x v)) := by
  simp only [step, H.var_none hx]
  obtain ⟨B, h1, h2⟩ := build_rep v st.heap
  exact (H.grow h2).adopt hx h1

theorem assign_ends (H : SRep st σ [] F) (T : KeyedStore σ) (oom : Addr → Bool) {d : Place} {w v : Value} (hd : σ.get d = some w) :
    Ends oom σ (.assign d v) (σ.set d v) (step oom st (.assign d v)) := by
  obtain ⟨l, y, B, p1, p2, p3, p4, p5, p6, p7, p8⟩ := H.place T hd
  simp only [step, p1]
  obtain ⟨D, h1, h2⟩ := build_rep v st.heap
  have hw := write_read p2
  obtain ⟨st', e1, e2, _⟩ := H.replaced T (x1 := y) (st1 := st.withHeap (build st.heap v).1) (D := D) (y' := (build st.heap v).2) (w' := v)
    hd p1 p2 p3 rfl (by rw [hw]; rfl) h2.next (fun c hc => by rw [hw]; exact h2.old c fun hD => by have := (h2.fresh c hD).1; omega) h1 h2.nodup h2.fresh
    (fun c hc hne => Classical.byContradiction fun hD => hne (by
        show (build st.heap v).1.cell c = none
        rw [h2.old c hD]; exact H.clean c hc))
  rw [e1]; exact e2

theorem drop_ends (H : SRep st σ [] F) (oom : Addr → Bool) {x : Nat} {v : Value} (hx : σ x = some v) :
    Ends oom σ (.drop x) (σ.put x none) (step oom st (.drop x)) := by
  obtain ⟨h, h1, h2, F', h3⟩ := H.release hx
  simp only [step, h1, dispose]
  obtain ⟨g, e1, e2⟩ := h3.free h2
  simp only at e1
  simp only [e1]; exact e2

theorem Rep.movedFrom {h : Cells} {v : Value} {x : HVal} {A : List Addr} (hr : Rep h v x A) (junk : Bytes) (g : Cells) :
    Rep g (hollow junk v) (x.movedFrom junk) [] := by
  cases v with
  | str => rw [hr.1]; exact ⟨rfl, rfl⟩
  | arrNull => rw [hr.1]; exact ⟨rfl, rfl⟩
  | objNull => rw [hr.1]; exact ⟨rfl, rfl⟩
  | arr => obtain ⟨a, xs, B, e, h1⟩ := hr; rw [e]; exact ⟨rfl, rfl⟩
  | obj => obtain ⟨a, xs, B, e, h1⟩ := hr; rw [e]; exact ⟨rfl, rfl⟩

/-- Moving out of a place. -/
theorem SRep.moved (H : SRep st σ [] F) (T : KeyedStore σ) {s : Place} {v : Value} {l : Loc} {y : HVal} {B : List Addr} (junk : Bytes) (hs : σ.get s = some v)
    (hl : st.resolve s = some l) (hy : st.read l = some y) (hB : Rep st.heap.cell v y B) (nd : B.Nodup) (hlB : ¬ l.In B) (hlt : ∀ b ∈ B, b < st.heap.next) :
    Holds (st.write l (y.movedFrom junk)) (σ.set s (hollow junk v)) B ∧ Rep (st.write l (y.movedFrom junk)).heap.cell v y B := by
  refine ⟨(H.update T (E' := B) (B' := []) hs hl hy hB rfl (by rw [write_next]; exact Nat.le_refl _) (fun _ _ _ _ => rfl) (hB.movedFrom junk _)
      (by simpa using nd) ?_ ?_).1, hB.frame fun b hb => write_cell_off' hlB hb⟩
  · intro b hb
    simp only [List.nil_append] at hb
    exact ⟨.inl hb, by rw [write_next]; exact hlt b hb⟩
  · rintro c (h | h | h) hne
    · simpa using h
    · simp at h
    · exact absurd (H.clean c h) (write_live hne)

theorem moveInit_ends (H : SRep st σ [] F) (T : KeyedStore σ) (oom : Addr → Bool) {x : Nat} {s : Place} {v : Value} {junk : Bytes} (hx : σ x = none)
    (hs : σ.get s = some v) : Ends oom σ (.moveInit x s junk) ((σ.set s (hollow junk v)).put x (some v)) (step oom st (.moveInit x s junk)) := by
  obtain ⟨l, y, B, p1, p2, p3, p4, p5, p6, p7, p8⟩ := H.place T hs
  simp only [step, H.var_none hx, p1, p2]
  obtain ⟨⟨F', h1⟩, h2⟩ := H.moved T junk hs p1 p2 p3 p5 p6 fun b hb => H.lt _ _ (p4 b hb)
  refine h1.adopt ?_ h2
  obtain ⟨u, hu, _⟩ := get_some hs
  have : x ≠ s.x := fun e => by rw [← e, hx] at hu; cases hu
  simp [Store.set, Store.put, this, hx]

theorem emplaceBack_ends (H : SRep st σ [] F) (T : KeyedStore σ) (oom : Addr → Bool) {p s : Place} {v w : Value} {vs : List Value} (hp : σ.get p = some v)
    (hv : Elems v vs) (hs : (σ.get s).isSome) (hw : (σ.set p (.arr .array vs)).get s = some w) (hwh : Whole w) (ht : Keyed (.arr .array vs)) :
    Ends oom σ (.emplaceBack p s) (σ.set p (.arr .array (vs ++ [w]))) (step oom st (.emplaceBack p s)) := by
  obtain ⟨l, _, _, p1, _⟩ := H.place T hp
  obtain ⟨u, hu⟩ := Option.isSome_iff_exists.1 hs
  obtain ⟨ls, _, _, s1, _⟩ := H.place T hu
  simp only [step, p1, s1]
  rcases H.array T oom hp hv p1 _ with ⟨st', a, e1, ⟨F', e2⟩, e3, e4, e5, e6, _⟩ | ⟨st', e1, e2, hh, e3⟩
  · rw [e1]
    have T' := keyed_set T hp ht
    rcases e2.copied T' oom hw hwh ((e5 _ _ hu).trans s1) _ with ⟨g, x, D, f1, f2, f3⟩ | ⟨g, f1, f2, f3⟩
    · rw [f1]
      have hp' := get_set (w' := .arr .array vs) hp
      obtain ⟨l', y, B, q1, q2, q3, q4, q5, q6, q7, q8⟩ := e2.place T' hp'
      rw [e3] at q1; cases q1
      rw [e4] at q2; cases q2
      obtain ⟨a', xs, C, d1, d2, d3, d4⟩ := q3
      simp at d1; subst d1 d4
      have hold : ∀ c, c < st'.heap.next → g.cell c = st'.heap.cell c := fun c hc => f3.old c fun hD => by have := (f3.fresh c hD).1; omega
      have halt := e2.lt _ _ (q4 a (by simp))
      have hCa : ∀ c ∈ C, c ≠ a := fun c hc e => by subst e; exact (List.nodup_cons.1 q5).1 hc
      have hDa : ∀ c ∈ D, c ≠ a := fun c hc e => by have := (f3.fresh c hc).1; omega
      show Ends oom σ _ _ (match g.cell a with | some (.arr vs) => _ | _ => _)
      rw [hold a halt, d2]
      show Holds _ _ _
      rw [← set_set σ p (.arr .array vs)]
      have hrl : ∀ {g : Cells} {vs : List Value} {xs : List HVal} {A : List Addr} {w : Value} {x : HVal} {D : List Addr}, RepL g vs xs A → Rep g w x D →
          RepL g (vs ++ [w]) (xs ++ [x]) (A ++ D) := by
        intro g vs
        induction vs with
        | nil => intro xs A w x D h1 h2; rw [h1.1, h1.2]; exact ⟨x, [], D, [], rfl, h2, ⟨rfl, rfl⟩, by simp⟩
        | cons v vs ih =>
          intro xs A w x D h1 h2
          obtain ⟨z, zs, B, C, k1, k2, k3, k4⟩ := h1
          subst k1 k4
          exact ⟨z, zs ++ [x], B, C ++ D, rfl, k2, ih k3 h2, by simp⟩
      refine (e2.remade T' (B' := a :: (C ++ D)) (st' := (st'.withHeap g).withHeap ((st'.withHeap g).heap.set a (some (.arr (xs ++ [x])))))
        hp' e3 e4 ⟨a, xs, C, rfl, d2, d3, rfl⟩ rfl f3.next ?_ ?_ ?_ ?_ ?_).1
      · intro c hc hcB
        show (if c = a then _ else g.cell c) = _
        rw [if_neg (fun e => hcB (by simp [e]))]; exact hold c hc
      · refine ⟨a, xs ++ [x], C ++ D, rfl, if_pos rfl, hrl (d3.frame fun c hc => ?_) (f2.frame fun c hc => ?_), rfl⟩
        · show (if c = a then _ else g.cell c) = _
          rw [if_neg (hCa c hc)]; exact hold c (e2.lt _ _ (q4 c (by simp [hc])))
        · show (if c = a then _ else g.cell c) = _
          rw [if_neg (hDa c hc)]
      · rw [List.nodup_cons, List.nodup_append, List.mem_append]
        refine ⟨?_, (List.nodup_cons.1 q5).2, f3.nodup, ?_⟩
        · rintro (h | h)
          · exact hCa _ h rfl
          · exact hDa _ h rfl
        · intro c hc d hd e
          subst e
          have := e2.lt _ _ (q4 c (by simp [hc])); have := (f3.fresh c hd).1; omega
      · intro b hb
        show _ ∧ b < g.next
        simp only [List.mem_cons, List.mem_append] at hb
        rcases hb with rfl | hb | hb
        · exact ⟨.inl (by simp), Nat.lt_of_lt_of_le halt f3.next⟩
        · exact ⟨.inl (by simp [hb]), Nat.lt_of_lt_of_le (e2.lt _ _ (q4 b (by simp [hb]))) f3.next⟩
        · exact ⟨.inr (f3.fresh b hb).1, (f3.fresh b hb).2⟩
      · rintro c (h | h) hne
        · simp only [List.mem_cons, List.mem_append] at h ⊢
          rcases h with h | h
          · exact .inl h
          · exact .inr (.inl h)
        · refine Classical.byContradiction fun hn => hne ?_
          simp only [List.mem_cons, List.mem_append, not_or] at hn
          show (if c = a then _ else g.cell c) = _
          rw [if_neg hn.1, f3.old c hn.2.2]; exact e2.clean c h
    · rw [f1]; exact ⟨f3, _, e6 _ rfl, holds_grow e2 f2⟩
  · rw [e1]; exact ⟨e2, _, .tag rfl hp hh, e3⟩

/-- A new member in the object at a place. -/
theorem SRep.inserted (H : SRep st σ [] F) (T : KeyedStore σ) {p : Place} {ms : List (Bytes × Value)} {l : Loc} {a : Addr} {k : Bytes}
    (hp : σ.get p = some (.obj .object ms)) (hl : st.resolve p = some l) (hy : st.read l = some ⟨.object, .obj (some a)⟩) (hk : ms.lookup k = none)
    {g : Heap} {w : Value} {x : HVal} {D : List Addr} (f2 : Rep g.cell w x D) (f3 : Grown st.heap g D) :
    ∃ xs, g.cell a = some (.obj xs) ∧ keyIndex k xs = none ∧ st.heap.cell a = some (.obj xs) ∧
      Holds ((st.withHeap g).withHeap (g.set a (some (.obj (RawObject.emplace k x xs).1)))) (σ.set p (.obj .object (putMember k w ms))) [] ∧
      ∀ q u lq, σ.get q = some u → ¬ Inside q p → st.resolve q = some lq →
        ((st.withHeap g).withHeap (g.set a (some (.obj (RawObject.emplace k x xs).1)))).resolve q = some lq ∧
        ((st.withHeap g).withHeap (g.set a (some (.obj (RawObject.emplace k x xs).1)))).read lq = st.read lq := by
  obtain ⟨l', y, B, q1, q2, q3, q4, q5, q6, q7, q8⟩ := H.place T hp
  rw [hl] at q1; cases q1
  rw [hy] at q2; cases q2
  obtain ⟨a', xs, C, d1, d2, d3, d4⟩ := q3
  simp at d1; subst d1 d4
  have hs := (keyed_get T hp).1
  have hold : ∀ c, c < st.heap.next → g.cell c = st.heap.cell c := fun c hc => f3.old c fun hD => by have := (f3.fresh c hD).1; omega
  have halt := H.lt _ _ (q4 a (by simp))
  have hCa : ∀ c ∈ C, c ≠ a := fun c hc e => by subst e; exact (List.nodup_cons.1 q5).1 hc
  have hDa : ∀ c ∈ D, c ≠ a := fun c hc e => by have := (f3.fresh c hc).1; omega
  refine ⟨xs, by rw [hold a halt, d2], keyIndex_absent hs d3.keys hk, d2, ?_⟩
  have hfr : ∀ {c} (z : Option Cell), c ≠ a → (g.set a z).cell c = g.cell c := fun z hc => if_neg hc
  obtain ⟨A', r1, r2⟩ := RepM.insert (k := k) (h := (g.set a (some (.obj (RawObject.emplace k x xs).1))).cell) (f2.frame fun c hc => hfr _ (hDa c hc))
    (d3.frame fun c hc => (hfr _ (hCa c hc)).trans (hold c (H.lt _ _ (q4 c (by simp [hc]))))) hs hk
  refine (fun R => ⟨R.1, R.2.2.2⟩) (H.remade T (B' := a :: A') (st' := (st.withHeap g).withHeap (g.set a (some (.obj (RawObject.emplace k x xs).1))))
    hp hl hy ⟨a, xs, C, rfl, d2, d3, rfl⟩ rfl f3.next ?_ ?_ ?_ ?_ ?_)
  · intro c hc hcB
    show (g.set a _).cell c = _
    rw [hfr _ (fun e => hcB (by simp [e]))]; exact hold c hc
  · exact ⟨a, _, A', rfl, if_pos rfl, r1, rfl⟩
  · rw [List.nodup_cons, r2.nodup_iff, r2.mem_iff, List.nodup_append, List.mem_append]
    refine ⟨?_, (List.nodup_cons.1 q5).2, f3.nodup, ?_⟩
    · rintro (h | h)
      · exact hCa _ h rfl
      · exact hDa _ h rfl
    · intro c hc d hd e
      subst e
      have := H.lt _ _ (q4 c (by simp [hc])); have := (f3.fresh c hd).1; omega
  · intro b hb
    show _ ∧ b < g.next
    rw [List.mem_cons, r2.mem_iff, List.mem_append] at hb
    rcases hb with rfl | hb | hb
    · exact ⟨.inl (by simp), Nat.lt_of_lt_of_le halt f3.next⟩
    · exact ⟨.inl (by simp [hb]), Nat.lt_of_lt_of_le (H.lt _ _ (q4 b (by simp [hb]))) f3.next⟩
    · exact ⟨.inr (f3.fresh b hb).1, (f3.fresh b hb).2⟩
  · intro c hc hne
    rw [List.mem_cons, r2.mem_iff, List.mem_append]
    rcases hc with h | h
    · simp only [List.mem_cons] at h
      rcases h with h | h
      · exact .inl h
      · exact .inr (.inl h)
    · refine Classical.byContradiction fun hn => hne ?_
      simp only [not_or] at hn
      show (g.set a _).cell c = _
      rw [hfr _ hn.1, f3.old c hn.2.2]; exact H.clean c h

theorem keyed_members {v : Value} {ms : List (Bytes × Value)} (h : Members v ms) (ht : Keyed v) : Keyed (.obj .object ms) := by
  rcases h with ⟨_, h⟩ | h
  · subst h; exact ⟨List.Pairwise.nil, trivial⟩
  · subst h; exact ht

theorem keyed_elems {v : Value} {vs : List Value} (h : Elems v vs) (ht : Keyed v) : Keyed (.arr .array vs) := by
  rcases h with ⟨_, h⟩ | h
  · subst h; exact trivial
  · subst h; exact ht

theorem index_ends (H : SRep st σ [] F) (T : KeyedStore σ) (oom : Addr → Bool) {p : Place} {k : Bytes} {v : Value} {ms : List (Bytes × Value)}
    (hp : σ.get p = some v) (hv : Members v ms) :
    Ends oom σ (.index p k) (σ.set p (.obj .object (if (ms.lookup k).isSome then ms else putMember k .null ms))) (step oom st (.index p k)) := by
  obtain ⟨l, _, _, p1, _⟩ := H.place T hp
  simp only [step, p1]
  have ht := keyed_members hv (keyed_get T hp)
  rcases H.object T oom hp hv p1 _ with ⟨st1, a1, e1, ⟨F1, e2⟩, e3, e4, e5, e6, _⟩ | ⟨st', e1, e2, hh, e3⟩
  · rw [e1]
    have T1 := keyed_set T hp ht
    have hp1 := get_set (w' := .obj .object ms) hp
    rcases e2.object T1 oom hp1 (.inr rfl) e3 _ with ⟨st2, a2, c1, ⟨F2, c2⟩, c3, c4, c5, c6, _⟩ | ⟨st', c1, c2, _, c3⟩
    · rw [c1]
      rw [set_set] at c2
      obtain ⟨l', y, B, q1, q2, q3, q4, q5, q6, q7, q8⟩ := c2.place T1 hp1
      rw [c3] at q1; cases q1
      rw [c4] at q2; cases q2
      obtain ⟨a', xs, C, d1, d2, d3, d4⟩ := q3
      simp at d1; subst d1 d4
      have hs := ht.1
      simp only [mapIndex, d2]
      cases hk : ms.lookup k with
      | some old =>
        obtain ⟨i, k1, _⟩ := keyIndex_of_lookup hs d3.keys hk
        simp only [k1, Option.isSome_some, if_true]
        exact ⟨F2, c2⟩
      | none =>
        simp only [keyIndex_absent hs d3.keys hk, Option.isSome_none, Bool.false_eq_true, if_false]
        by_cases ho : oom st2.heap.next
        · rw [if_pos ho]
          exact ⟨⟨_, ho⟩, _, e6 _ rfl, holds_grow c2 (Grown.bump _)⟩
        · rw [if_neg ho]
          obtain ⟨xs', g1, _, g3, g4, _⟩ := c2.inserted T1 hp1 c3 c4 hk (w := .null) (x := ⟨.null, .text []⟩) (D := []) ⟨rfl, rfl⟩ (Grown.bump _)
          rw [d2] at g3; cases g3
          rw [set_set] at g4
          exact g4
    · rw [c1]
      refine ⟨c2, _, ?_, c3⟩
      rw [set_set]; exact e6 _ rfl
  · rw [e1]; exact ⟨e2, _, .tag rfl hp hh, e3⟩

theorem emplaceKey_ends (H : SRep st σ [] F) (T : KeyedStore σ) (oom : Addr → Bool) {p s : Place} {k : Bytes} {v w : Value} {ms : List (Bytes × Value)}
    (hp : σ.get p = some v) (hv : Members v ms) (hs : (σ.get s).isSome) (hw : (σ.set p (.obj .object ms)).get s = some w) (hwh : Whole w)
    (hin : ∀ old, ms.lookup k = some old → Inside ⟨p.x, p.path ++ [.key k]⟩ s → old.type = w.type) :
    Ends oom σ (.emplaceKey p k s) (σ.set p (.obj .object (putMember k w ms))) (step oom st (.emplaceKey p k s)) := by
  obtain ⟨l, _, _, p1, _⟩ := H.place T hp
  obtain ⟨u, hu⟩ := Option.isSome_iff_exists.1 hs
  obtain ⟨ls, _, _, s1, _⟩ := H.place T hu
  simp only [step, p1, s1]
  have ht := keyed_members hv (keyed_get T hp)
  rcases H.object T oom hp hv p1 _ with ⟨st1, a, e1, ⟨F1, e2⟩, e3, e4, e5, e6, _⟩ | ⟨st', e1, e2, hh, e3⟩
  · rw [e1]
    have T1 := keyed_set T hp ht
    have hp1 := get_set (w' := .obj .object ms) hp
    have hls := (e5 _ _ hu).trans s1
    obtain ⟨l', y, B, q1, q2, q3, q4, q5, q6, q7, q8⟩ := e2.place T1 hp1
    rw [e3] at q1; cases q1
    rw [e4] at q2; cases q2
    obtain ⟨a', xs, C, d1, d2, d3, d4⟩ := q3
    simp at d1; subst d1 d4
    simp only [insertOrAssign, d2]
    cases hk : ms.lookup k with
    | none =>
      simp only [keyIndex_absent ht.1 d3.keys hk]
      rcases e2.copied T1 oom hw hwh hls _ with ⟨g, x, D, f1, f2, f3⟩ | ⟨g, f1, f2, f3⟩
      · rw [f1]
        obtain ⟨xs', g1, _, g3, g4, _⟩ := e2.inserted T1 hp1 e3 e4 hk f2 f3
        show Ends oom σ _ _ (match g.cell a with | some (.obj ms) => _ | _ => _)
        rw [g1, ← set_set σ p (.obj .object ms)]
        exact g4
      · rw [f1]; exact ⟨f3, _, e6 _ rfl, holds_grow e2 f2⟩
    | some old =>
      obtain ⟨i, k1, _⟩ := keyIndex_of_lookup ht.1 d3.keys hk
      simp only [k1]
      -- nothing was coerced
      have hve : v = .obj .object ms := by
        rcases hv with ⟨_, h⟩ | h
        · subst h; simp at hk
        · exact h
      subst hve
      rw [set_get T hp] at e2 T1 hp1 hw
      have hgk : σ.get ⟨p.x, p.path ++ [.key k]⟩ = some old := by rw [get_key hp, hk]
      have hrk : st1.resolve ⟨p.x, p.path ++ [.key k]⟩ = some (.child a i) := by
        obtain ⟨v0, hv0, _⟩ := get_some hp
        obtain ⟨x0, hx0, _⟩ := e2.rep _ _ hv0
        rw [resolve_of hx0] at e3
        simp only [State.resolve, State.read, hx0, Option.bind_some]
        rw [locate_append, e3]
        simp only [Option.bind_some, State.locate, e4, State.part, d2, k1, Option.map_some]
      rcases copyAssign_exact e2 T oom hgk hw hwh (hin old hk) hrk hls with ⟨st', c1, c2, _⟩ | ⟨st', c1, c2, c3⟩
      · rw [c1]
        rwa [set_key T hp, ← putMember_existing ht.1 hk] at c2
      · rw [c1]
        rw [set_key T hp, ← putMember_existing ht.1 hk] at c3
        exact ⟨c2, _, .emplaceKey hp hk hw, c3⟩
  · rw [e1]; exact ⟨e2, _, .tag rfl hp hh, e3⟩

/-- Taking an element out of a container and destroying it. -/
theorem SRep.removed (H : SRep st σ [] F) (T : KeyedStore σ) {p : Place} {w w' u : Value} {l : Loc} {y x : HVal} {a : Addr} {c : Cell} {A1 Ai A2 : List Addr}
    (hp : σ.get p = some w) (hl : st.resolve p = some l) (hy : st.read l = some y) (hB : Rep st.heap.cell w y (a :: (A1 ++ Ai ++ A2)))
    (hu : Rep st.heap.cell u x Ai)
    (hw' : ∀ g : Cells, g a = some c → (∀ b ∈ A1 ++ A2, g b = st.heap.cell b) → Rep g w' y (a :: (A1 ++ A2))) :
    ∃ st', dispose (st.withHeap (st.heap.set a (some c))) x = .done st' ∧ Holds st' (σ.set p w') [] := by
  obtain ⟨l', y', B, q1, q2, q3, q4, q5, q6, q7, q8⟩ := H.place T hp
  rw [hl] at q1; cases q1
  rw [hy] at q2; cases q2
  have := q3.foot_unique hB; subst this
  have nd := q5
  rw [List.nodup_cons, List.nodup_append, List.nodup_append] at nd
  obtain ⟨na, ⟨ndA1, ndAi, dis1⟩, ndA2, dis2⟩ := nd
  have hai : ∀ b ∈ Ai, b ≠ a := fun b hb e => na (by subst e; simp [hb])
  have hlt : ∀ b ∈ a :: (A1 ++ Ai ++ A2), b < st.heap.next := fun b hb => H.lt _ _ (q4 b hb)
  obtain ⟨g, h1, h2⟩ := Rep.destroy (h := st.heap.set a (some c)) (hu.frame fun b hb => if_neg (hai b hb)) ndAi (n := (st.heap.set a (some c)).fuel)
    (Nat.lt_succ_of_le (nodup_length_le ndAi fun b hb => hlt b (by simp [hb])))
  refine ⟨st.withHeap g, ?_, ?_⟩
  · simp only [dispose, State.withHeap, h1]
  · have hoffi : ∀ b ∈ A1 ++ A2, b ∉ Ai := fun b hb hi => by
      rcases List.mem_append.1 hb with h | h
      · exact dis1 _ h _ hi rfl
      · exact dis2 _ (by simp [hi]) _ h rfl
    have hoffa : ∀ b ∈ A1 ++ A2, b ≠ a := fun b hb e => na (by
      subst e; rcases List.mem_append.1 hb with h | h <;> simp [h])
    have hga : g.cell a = some c := by
      rw [h2.2, if_neg fun h => hai a h rfl]; exact if_pos rfl
    have hgb : ∀ b, b ≠ a → b ∉ Ai → g.cell b = st.heap.cell b := fun b h3 h4 => by
      rw [h2.2, if_neg h4]; exact if_neg h3
    refine (H.remade T (B' := a :: (A1 ++ A2)) (st' := st.withHeap g) hp hl hy q3 rfl (by show _ ≤ g.next; rw [h2.1]; exact Nat.le_refl _) ?_ ?_ ?_ ?_ ?_).1
    · intro b hb hbB
      simp only [List.mem_cons, List.mem_append, not_or] at hbB
      exact hgb b hbB.1 hbB.2.1.2
    · exact hw' g.cell hga fun b hb => hgb b (hoffa b hb) (hoffi b hb)
    · rw [List.nodup_cons, List.nodup_append]
      exact ⟨fun h => hoffa a h rfl, ndA1, ndA2, fun b hb b' hb' => dis2 b (by simp [hb]) b' hb'⟩
    · intro b hb
      have : b ∈ a :: (A1 ++ Ai ++ A2) := by
        simp only [List.mem_cons, List.mem_append] at hb ⊢
        rcases hb with h | h | h <;> simp [h]
      exact ⟨.inl this, by show _ < g.next; rw [h2.1]; exact hlt b this⟩
    · rintro b (h | h) hne
      · simp only [List.mem_cons, List.mem_append] at h ⊢
        rcases h with h | (h | h) | h
        · exact .inl h
        · exact .inr (.inl h)
        · exact absurd (show g.cell b = none by rw [h2.2, if_pos h]) hne
        · exact .inr (.inr h)
      · refine absurd ?_ hne
        show g.cell b = none
        rw [hgb b (fun e => by have := hlt a (by simp); omega) fun hi => by have := hlt b (by simp [hi]); omega]
        exact H.clean b h

theorem erasePos_ends (H : SRep st σ [] F) (T : KeyedStore σ) (oom : Addr → Bool) {p : Place} {i : Nat} {v : Value} {vs : List Value} (hp : σ.get p = some v)
    (hv : Elems v vs) : Ends oom σ (.erasePos p i) (σ.set p (.arr .array (vs.eraseIdx i))) (step oom st (.erasePos p i)) := by
  obtain ⟨l, _, _, p1, _⟩ := H.place T hp
  simp only [step, p1]
  have ht := keyed_elems hv (keyed_get T hp)
  rcases H.array T oom hp hv p1 _ with ⟨st1, a, e1, ⟨F1, e2⟩, e3, e4, e5, e6, _⟩ | ⟨st', e1, e2, hh, e3⟩
  · rw [e1]
    have T1 := keyed_set T hp ht
    have hp1 := get_set (w' := .arr .array vs) hp
    obtain ⟨l', y, B, q1, q2, q3, q4, q5, q6, q7, q8⟩ := e2.place T1 hp1
    rw [e3] at q1; cases q1
    rw [e4] at q2; cases q2
    obtain ⟨a', xs, C, d1, d2, d3, d4⟩ := q3
    simp at d1; subst d1 d4
    simp only [d2]
    cases hi : vs[i]? with
    | none =>
      have hlen := List.getElem?_eq_none_iff.1 hi
      have : xs[i]? = none := List.getElem?_eq_none_iff.2 (by rw [d3.length]; exact hlen)
      simp only [this, List.eraseIdx_of_length_le hlen]
      exact ⟨F1, e2⟩
    | some u =>
      obtain ⟨x, A1, Ai, A2, f1, f2, f3, f4⟩ := d3.erase hi
      subst f3
      simp only [f1]
      obtain ⟨st', g1, g2⟩ := e2.removed T1 (w' := .arr .array (vs.eraseIdx i)) (c := .arr (xs.eraseIdx i)) hp1 e3 e4 ⟨a, xs, _, rfl, d2, d3, rfl⟩ f2
        fun g ga gb => ⟨a, _, _, rfl, ga, f4.frame gb, rfl⟩
      rw [g1]
      rw [set_set] at g2
      exact g2
  · rw [e1]; exact ⟨e2, _, .tag rfl hp hh, e3⟩

theorem eraseKey_ends (H : SRep st σ [] F) (T : KeyedStore σ) (oom : Addr → Bool) {p : Place} {k : Bytes} {v : Value} {ms : List (Bytes × Value)}
    (hp : σ.get p = some v) (hv : Members v ms) :
    Ends oom σ (.eraseKey p k) (σ.set p (.obj .object (ms.filter fun m => m.1 ≠ k))) (step oom st (.eraseKey p k)) := by
  obtain ⟨l, _, _, p1, _⟩ := H.place T hp
  simp only [step, p1]
  have ht := keyed_members hv (keyed_get T hp)
  rcases H.object T oom hp hv p1 _ with ⟨st1, a, e1, ⟨F1, e2⟩, e3, e4, e5, e6, _⟩ | ⟨st', e1, e2, hh, e3⟩
  · rw [e1]
    have T1 := keyed_set T hp ht
    have hp1 := get_set (w' := .obj .object ms) hp
    obtain ⟨l', y, B, q1, q2, q3, q4, q5, q6, q7, q8⟩ := e2.place T1 hp1
    rw [e3] at q1; cases q1
    rw [e4] at q2; cases q2
    obtain ⟨a', xs, C, d1, d2, d3, d4⟩ := q3
    simp at d1; subst d1 d4
    simp only [d2]
    cases hk : ms.lookup k with
    | none =>
      simp only [find_absent ht.1 d3.keys hk]
      have : (ms.filter fun m => decide (m.1 ≠ k)) = ms := by
        rw [List.filter_eq_self]; intro m hm; simpa using not_mem_of_lookup hk m hm
      rw [this]
      exact ⟨F1, e2⟩
    | some u =>
      obtain ⟨x, A1, Ai, A2, f1, f2, f3, f4⟩ := d3.erase ht.1 hk
      subst f3
      simp only [f1]
      obtain ⟨st', g1, g2⟩ := e2.removed T1 (w' := .obj .object (ms.filter fun m => decide (m.1 ≠ k))) (c := .obj (RawObject.erase k xs).1) hp1 e3 e4
        ⟨a, xs, _, rfl, d2, d3, rfl⟩ f2 fun g ga gb => ⟨a, _, _, rfl, ga, f4.frame gb, rfl⟩
      rw [g1]
      rw [set_set] at g2
      exact g2
  · rw [e1]; exact ⟨e2, _, .tag rfl hp hh, e3⟩

end

end Meojson.Mem
