import Verif.Proofs.HeapApart

/-! States that represent stores. -/

set_option autoImplicit false

namespace Meojson.Mem
open Stores

/-- `st` represents `σ`: variable `x` owns the cells `F x`, the cells `E` belong to temporaries, and there are no other cells. -/
structure SRep (st : State) (σ : Store) (E : List Addr) (F : Nat → List Addr) : Prop where
  absent : ∀ x, σ x = none → st.var x = none ∧ F x = []
  rep : ∀ x v, σ x = some v → ∃ h, st.var x = some h ∧ Rep st.heap.cell v h (F x)
  nodup : ∀ x, (F x).Nodup
  disj : ∀ x y, x ≠ y → ∀ a ∈ F x, a ∉ F y
  extra : E.Nodup
  off : ∀ x, ∀ a ∈ F x, a ∉ E
  lt : ∀ x, ∀ a ∈ F x, a < st.heap.next
  ltE : ∀ a ∈ E, a < st.heap.next
  live : ∀ a, st.heap.cell a ≠ none → a ∈ E ∨ ∃ x, a ∈ F x

def Holds (st : State) (σ : Store) (E : List Addr) : Prop := ∃ F, SRep st σ E F

theorem SRep.clean {st : State} {σ : Store} {E : List Addr} {F : Nat → List Addr} (H : SRep st σ E F) : st.heap.Clean := fun a ha => by
  cases h : st.heap.cell a with
  | none => rfl
  | some c =>
    rcases H.live a (by rw [h]; simp) with h | ⟨x, h⟩
    · have := H.ltE a h; omega
    · have := H.lt x a h; omega

theorem get_some {σ : Store} {p : Place} {w : Value} (h : σ.get p = some w) : ∃ v, σ p.x = some v ∧ getAt v p.path = some w :=
  Option.bind_eq_some_iff.1 h

theorem get_of {σ : Store} {p : Place} {v : Value} (h : σ p.x = some v) : σ.get p = getAt v p.path := by rw [Store.get, h]; rfl

theorem resolve_of {st : State} {p : Place} {x : HVal} (h : st.var p.x = some x) : st.resolve p = st.locate (.var p.x) p.path := by
  simp [State.resolve, State.read, h]

theorem var_not_in {x : Nat} {A : List Addr} : ¬ (Loc.var x).In A := by rintro ⟨_, _, h, _⟩; cases h

/-- Where a place lies. -/
theorem SRep.place {st : State} {σ : Store} {E : List Addr} {F : Nat → List Addr} (H : SRep st σ E F) (T : KeyedStore σ) {p : Place} {w : Value}
    (hg : σ.get p = some w) : ∃ l y B, st.resolve p = some l ∧ st.read l = some y ∧ Rep st.heap.cell w y B ∧ (∀ b ∈ B, b ∈ F p.x) ∧ B.Nodup ∧ ¬ l.In B ∧
      (p.path = [] → l = .var p.x) ∧ (p.path ≠ [] → l.In (F p.x)) := by
  obtain ⟨v, hv, hg⟩ := get_some hg
  obtain ⟨x, hx, hr⟩ := H.rep _ _ hv
  obtain ⟨l, y, B, C, f1, f2, f3, f4, f5, f6, _⟩ := hr.focus (H.nodup _) (T _ _ hv) hg (l0 := .var p.x) hx var_not_in
  obtain ⟨y', B', g1, g2, g3, g4, g5, g6⟩ := hr.where_ (H.nodup _) (T _ _ hv) hg (l0 := .var p.x) hx var_not_in f1
  have nd := (f4.nodup_iff).1 (H.nodup _)
  rw [List.nodup_append] at nd
  rw [f2] at g1; cases g1
  have := g2.foot_unique f3; subst this
  exact ⟨l, y, B', by rw [resolve_of hx, f1], f2, f3, g3, nd.2.1, g6, g4, g5⟩

theorem write_var_other {st : State} {l : Loc} {y : HVal} {x : Nat} (h : l ≠ .var x) : (st.write l y).var x = st.var x :=
  read_write_other (st := st) (l' := .var x) h

theorem write_live {st : State} {l : Loc} {y : HVal} {a : Addr} (h : (st.write l y).heap.cell a ≠ none) : st.heap.cell a ≠ none := by
  cases l with
  | var x => exact h
  | child b i =>
    simp only [State.write, Heap.set] at h
    split at h
    · next e => intro e'; rw [e] at e'; rw [e'] at h; exact h rfl
    · exact h

section
variable {st : State} {σ : Store} {E : List Addr} {F : Nat → List Addr}

/-- What an update leaves of the tree it happens in. -/
theorem SRep.agree (H : SRep st σ E F) {p : Place} {x : HVal} (hx : st.var p.x = some x)
    {l : Loc} {B : List Addr} (hlv : p.path = [] → l = .var p.x) (hli : p.path ≠ [] → l.In (F p.x))
    {st' : State} {y' : HVal} (hvar : st'.var = (st.write l y').var)
    (hcell : ∀ c, c < st.heap.next → c ∉ B → c ∉ E → st'.heap.cell c = (st.write l y').heap.cell c) :
    st'.read (.var p.x) = some (if p.path = [] then y' else x) ∧
    (∀ c ∈ F p.x, c ∉ B → st'.heap.cell c = (st.write l y').heap.cell c) := by
  refine ⟨?_, fun c hc hB => hcell c (H.lt _ _ hc) hB (H.off _ _ hc)⟩
  simp only [State.read, hvar]
  by_cases e : p.path = []
  · rw [hlv e, if_pos e]; simp [State.write]
  · obtain ⟨a, i, e1, _⟩ := hli e
    rw [e1, if_neg e]; exact hx

/-- What an update does not touch. -/
theorem SRep.untouched (H : SRep st σ E F) {p : Place} {l : Loc} {B : List Addr} (hlv : p.path = [] → l = .var p.x) (hli : p.path ≠ [] → l.In (F p.x))
    (hBF : ∀ b ∈ B, b ∈ F p.x) {st' : State} {y' : HVal} (hvar : st'.var = (st.write l y').var)
    (hcell : ∀ c, c < st.heap.next → c ∉ B → c ∉ E → st'.heap.cell c = (st.write l y').heap.cell c) {x : Nat} (hx : x ≠ p.x) :
    st'.var x = st.var x ∧ ∀ c ∈ F x, st'.heap.cell c = st.heap.cell c := by
  refine ⟨?_, fun c hc => ?_⟩
  · rw [hvar]
    refine write_var_other fun e => ?_
    by_cases e' : p.path = []
    · rw [hlv e'] at e; cases e; exact hx rfl
    · obtain ⟨a, i, e1, _⟩ := hli e'; rw [e1] at e; cases e
  · rw [hcell c (H.lt _ _ hc) (fun hB => H.disj _ _ hx _ hc (hBF _ hB)) (H.off _ _ hc)]
    refine write_cell_off fun hin => ?_
    by_cases e' : p.path = []
    · rw [hlv e'] at hin; exact var_not_in hin
    · obtain ⟨a, i, e1, ha⟩ := hli e'
      obtain ⟨a', i', e2, ha'⟩ := hin
      rw [e1] at e2; cases e2
      obtain rfl : a = c := by simpa using ha'
      exact H.disj _ _ hx _ hc ha

/-- Replacing the value at a place. -/
theorem SRep.update (H : SRep st σ E F) (T : KeyedStore σ) {p : Place} {w w' : Value} {l : Loc} {y y' : HVal} {B B' E' : List Addr} {st' : State}
    (hg : σ.get p = some w) (hl : st.resolve p = some l) (hy : st.read l = some y) (hB : Rep st.heap.cell w y B)
    (hvar : st'.var = (st.write l y').var) (hnext : st.heap.next ≤ st'.heap.next)
    (hcell : ∀ c, c < st.heap.next → c ∉ B → c ∉ E → st'.heap.cell c = (st.write l y').heap.cell c)
    (hrep : Rep st'.heap.cell w' y' B') (hnd : (B' ++ E').Nodup)
    (hb : ∀ b ∈ B' ++ E', (b ∈ B ∨ b ∈ E ∨ st.heap.next ≤ b) ∧ b < st'.heap.next)
    (hlive : ∀ c, (c ∈ B ∨ c ∈ E ∨ st.heap.next ≤ c) → st'.heap.cell c ≠ none → c ∈ B' ++ E') :
    Holds st' (σ.set p w') E' ∧ st'.resolve p = some l ∧ st'.read l = some y' := by
  obtain ⟨l1, y1, B1, p1, p2, p3, p4, p5, p6, p7, p8⟩ := H.place T hg
  rw [hl] at p1; cases p1
  rw [hy] at p2; cases p2
  have := p3.foot_unique hB; subst this
  obtain ⟨v, hv, hgv⟩ := get_some hg
  obtain ⟨x, hx, hr⟩ := H.rep _ _ hv
  obtain ⟨l2, y2, B2, C, f1, f2, f3, f4, f5, f6, f7⟩ := hr.focus (H.nodup _) (T _ _ hv) hgv (l0 := .var p.x) hx var_not_in
  rw [resolve_of hx, f1] at hl; cases hl
  rw [hy] at f2; cases f2
  have := f3.foot_unique hB; subst this
  obtain ⟨hread, hag⟩ := H.agree hx p7 p8 hvar hcell
  have nd := (f4.nodup_iff).1 (H.nodup _)
  rw [List.nodup_append] at nd
  have hCF : ∀ c ∈ C, c ∈ F p.x := fun c hc => f4.symm.subset (by simp [hc])
  obtain ⟨g1, g2, A', g3, g4⟩ := f7 st' w' y' B' (fun c hc => hag c (hCF c hc) fun hb => nd.2.2 _ hc _ hb rfl) hread hrep
  have hnd' := List.nodup_append.1 hnd
  have hxv' : st'.var p.x = some (if p.path = [] then y' else x) := hread
  refine ⟨⟨fun z => if z = p.x then A' else F z, ?_⟩, ?_, g2⟩
  · constructor
    · intro z hz
      by_cases e : z = p.x
      · subst e; simp [Store.set, Store.put, hv] at hz
      · simp only [Store.set, Store.put, e, if_false] at hz ⊢
        have := H.absent z hz
        exact ⟨by rw [(H.untouched p7 p8 p4 hvar hcell e).1, this.1], this.2⟩
    · intro z u hz
      by_cases e : z = p.x
      · subst e
        simp only [Store.set, Store.put, if_true, hv, Option.map_some, Option.some.injEq] at hz ⊢
        subst hz
        exact ⟨_, hxv', g3⟩
      · simp only [Store.set, Store.put, e, if_false] at hz ⊢
        obtain ⟨h1, h2⟩ := H.untouched p7 p8 p4 hvar hcell e
        obtain ⟨k, k1, k2⟩ := H.rep _ _ hz
        exact ⟨k, by rw [h1, k1], k2.frame h2⟩
    · intro z
      by_cases e : z = p.x
      · simp only [e, if_true]
        rw [g4.nodup_iff, List.nodup_append]
        refine ⟨nd.1, hnd'.1, fun a ha b hb' => ?_⟩
        rintro rfl
        rcases (hb a (by simp [hb'])).1 with h | h | h
        · exact nd.2.2 _ ha _ h rfl
        · exact H.off _ _ (hCF _ ha) h
        · have := H.lt _ _ (hCF _ ha); omega
      · simp only [e, if_false]; exact H.nodup z
    · -- disjointness
      have key : ∀ z, z ≠ p.x → ∀ a ∈ F z, a ∉ A' := fun z hz a ha haA => by
        rcases List.mem_append.1 (g4.subset haA) with h | h
        · exact H.disj _ _ hz _ ha (hCF _ h)
        · rcases (hb a (by simp [h])).1 with h | h | h
          · exact H.disj _ _ hz _ ha (p4 _ h)
          · exact H.off _ _ ha h
          · have := H.lt _ _ ha; omega
      intro z z' hzz a
      by_cases e : z = p.x
      · have e' : z' ≠ p.x := fun h => hzz (e.trans h.symm)
        simp only [e, if_true, e', if_false]
        exact fun h1 h2 => key z' e' a h2 h1
      · by_cases e' : z' = p.x
        · simp only [e, if_false, e', if_true]; exact key z e a
        · simp only [e, e', if_false]; exact H.disj z z' hzz a
    · exact hnd'.2.1
    · intro z a ha haE
      by_cases e : z = p.x
      · simp only [e, if_true] at ha
        rcases List.mem_append.1 (g4.subset ha) with h | h
        · rcases (hb a (by simp [haE])).1 with h' | h' | h'
          · exact nd.2.2 _ h _ h' rfl
          · exact H.off _ _ (hCF _ h) h'
          · have := H.lt _ _ (hCF _ h); omega
        · exact hnd'.2.2 _ h _ haE rfl
      · simp only [e, if_false] at ha
        rcases (hb a (by simp [haE])).1 with h' | h' | h'
        · exact H.disj _ _ e _ ha (p4 _ h')
        · exact H.off _ _ ha h'
        · have := H.lt _ _ ha; omega
    · intro z a ha
      by_cases e : z = p.x
      · simp only [e, if_true] at ha
        rcases List.mem_append.1 (g4.subset ha) with h | h
        · exact Nat.lt_of_lt_of_le (H.lt _ _ (hCF _ h)) hnext
        · exact (hb a (by simp [h])).2
      · simp only [e, if_false] at ha
        exact Nat.lt_of_lt_of_le (H.lt _ _ ha) hnext
    · exact fun a ha => (hb a (by simp [ha])).2
    · intro a ha
      by_cases hc : a ∈ B2 ∨ a ∈ E ∨ st.heap.next ≤ a
      · rcases List.mem_append.1 (hlive a hc ha) with h | h
        · exact .inr ⟨p.x, by simp only [if_true]; exact g4.symm.subset (by simp [h])⟩
        · exact .inl h
      · simp only [not_or, Nat.not_le] at hc
        rw [hcell a hc.2.2 hc.1 hc.2.1] at ha
        rcases H.live a (write_live ha) with h | ⟨z, h⟩
        · exact absurd h hc.2.1
        · refine .inr ⟨z, ?_⟩
          by_cases e : z = p.x
          · simp only [e, if_true]
            rw [e] at h
            rcases List.mem_append.1 (f4.subset h) with h | h
            · exact g4.symm.subset (by simp [h])
            · exact absurd h hc.1
          · simp only [e, if_false]; exact h
  · rw [resolve_of hxv', g1]

/-- Two places, the second of which does not contain the first. -/
theorem SRep.apart (H : SRep st σ E F) (T : KeyedStore σ) {p q : Place} {w u : Value} {lp lq : Loc} {z : HVal} {B : List Addr}
    (hp : σ.get p = some w) (hq : σ.get q = some u) (hlp : st.resolve p = some lp) (hlq : st.resolve q = some lq) (hz : st.read lq = some z)
    (hB : Rep st.heap.cell u z B) (hn : ¬ (p.x = q.x ∧ q.path <+: p.path)) : lp ≠ lq ∧ ¬ lp.In B := by
  obtain ⟨l1, y1, B1, p1, p2, p3, p4, p5, p6, p7, p8⟩ := H.place T hp
  rw [hlp] at p1; cases p1
  obtain ⟨l2, y2, B2, q1, q2, q3, q4, q5, q6, q7, q8⟩ := H.place T hq
  rw [hlq] at q1; cases q1
  rw [hz] at q2; cases q2
  have := q3.foot_unique hB; subst this
  by_cases hx : p.x = q.x
  · obtain ⟨v, hv, hgp⟩ := get_some hp
    obtain ⟨v', hv', hgq⟩ := get_some hq
    rw [← hx] at hv'; rw [hv] at hv'; cases hv'
    obtain ⟨x, hx1, hr⟩ := H.rep _ _ hv
    rw [resolve_of hx1] at hlp
    rw [resolve_of (hx ▸ hx1), ← hx] at hlq
    have := hr.apart (H.nodup _) (T _ _ hv) hgp hgq (l0 := .var p.x) hx1 var_not_in hlp hlq fun h => hn ⟨hx, h⟩
    exact ⟨this.1, this.2 _ _ hz hB⟩
  · refine ⟨fun e => ?_, fun hin => ?_⟩
    · by_cases e1 : p.path = []
      · by_cases e2 : q.path = []
        · rw [p7 e1, q7 e2] at e; injection e with e; exact hx e
        · rw [p7 e1] at e; obtain ⟨a, i, h, _⟩ := q8 e2; rw [← e] at h; cases h
      · obtain ⟨a, i, h, ha⟩ := p8 e1
        by_cases e2 : q.path = []
        · rw [q7 e2, h] at e; cases e
        · obtain ⟨a', i', h', ha'⟩ := q8 e2
          rw [h, h'] at e; cases e; exact H.disj _ _ hx _ ha ha'
    · obtain ⟨b, k, h, hb⟩ := hin
      by_cases e1 : p.path = []
      · rw [p7 e1] at h; cases h
      · obtain ⟨a, i, h', ha⟩ := p8 e1
        rw [h] at h'; cases h'; exact H.disj _ _ hx _ ha (q4 _ hb)

/-- Replacing the value at a place does not move the places that are not inside it. -/
theorem SRep.stable (H : SRep st σ E F) (T : KeyedStore σ) {p q : Place} {w u : Value} {l : Loc} {y y' : HVal} {B : List Addr} {st' : State}
    (hg : σ.get p = some w) (hl : st.resolve p = some l) (hy : st.read l = some y) (hB : Rep st.heap.cell w y B)
    (hvar : st'.var = (st.write l y').var)
    (hcell : ∀ c, c < st.heap.next → c ∉ B → c ∉ E → st'.heap.cell c = (st.write l y').heap.cell c)
    (hq : σ.get q = some u) (hn : ¬ Inside q p) : st'.resolve q = st.resolve q := by
  obtain ⟨l1, y1, B1, p1, p2, p3, p4, p5, p6, p7, p8⟩ := H.place T hg
  rw [hl] at p1; cases p1
  rw [hy] at p2; cases p2
  have := p3.foot_unique hB; subst this
  obtain ⟨v, hv, hgv⟩ := get_some hg
  obtain ⟨x, hx, hr⟩ := H.rep _ _ hv
  obtain ⟨v', hv', hgq⟩ := get_some hq
  by_cases e : q.x = p.x
  · rw [e, hv] at hv'; cases hv'
    obtain ⟨hread, hag⟩ := H.agree hx p7 p8 hvar hcell
    rw [resolve_of hx] at hl
    have := hr.locate_stable (st' := st') (y' := y') (H.nodup _) (T _ _ hv) hgv hgq (l0 := .var p.x) hx var_not_in hl hy hB hag hread fun h => by
      exact Classical.byContradiction fun hne => hn ⟨e, h, fun h' => hne h'.symm⟩
    rw [resolve_of (st := st) (x := x) (by rw [e]; exact hx), resolve_of (st := st') (p := q) (by rw [e]; exact hread), e]; exact this
  · obtain ⟨h1, h2⟩ := H.untouched p7 p8 p4 hvar hcell e
    obtain ⟨xq, hxq, hrq⟩ := H.rep _ _ hv'
    rw [resolve_of hxq, resolve_of (st := st') (h1.trans hxq)]
    exact hrq.locate_frame (T _ _ hv') hgq (l0 := .var q.x) hxq (h1.trans hxq) h2

end

/-! ### Temporaries -/

/-- Allocation. -/
theorem SRep.grow {st : State} {σ : Store} {F : Nat → List Addr} (H : SRep st σ [] F) {g : Heap} {D : List Addr} (hg : Grown st.heap g D) :
    SRep (st.withHeap g) σ D F := by
  have hnew : ∀ x, ∀ a ∈ F x, a ∉ D := fun x a ha hd => by have := H.lt x a ha; have := (hg.fresh a hd).1; omega
  exact {
    absent := H.absent
    rep := fun x v hv => by
      obtain ⟨h, h1, h2⟩ := H.rep x v hv
      exact ⟨h, h1, h2.frame fun a ha => hg.old a (hnew x a ha)⟩
    nodup := H.nodup
    disj := H.disj
    extra := hg.nodup
    off := hnew
    lt := fun x a ha => Nat.lt_of_lt_of_le (H.lt x a ha) hg.next
    ltE := fun a ha => (hg.fresh a ha).2
    live := fun a ha => by
      by_cases hd : a ∈ D
      · exact .inl hd
      · simp only [State.withHeap, hg.old a hd] at ha
        rcases H.live a ha with h | h
        · simp at h
        · exact .inr h }

/-- A new variable takes over a temporary. -/
theorem SRep.adopt {st : State} {σ : Store} {E : List Addr} {F : Nat → List Addr} (H : SRep st σ E F) {x : Nat} {v : Value} {h : HVal} (hx : σ x = none)
    (hr : Rep st.heap.cell v h E) : Holds (st.write (.var x) h) (σ.put x (some v)) [] := by
  refine ⟨fun z => if z = x then E else F z, ?_⟩
  constructor
  · intro z hz
    by_cases e : z = x
    · subst e; simp [Store.put] at hz
    · simp only [Store.put, e, if_false, State.write] at hz ⊢; exact H.absent z hz
  · intro z u hz
    by_cases e : z = x
    · subst e; simp only [Store.put, if_true, Option.some.injEq, State.write] at hz ⊢; subst hz; exact ⟨h, rfl, hr⟩
    · simp only [Store.put, e, if_false, State.write] at hz ⊢; exact H.rep z u hz
  · intro z; by_cases e : z = x
    · simp only [e, if_true]; exact H.extra
    · simp only [e, if_false]; exact H.nodup z
  · intro z z' hzz a
    by_cases e : z = x
    · have e' : z' ≠ x := fun h => hzz (e.trans h.symm)
      simp only [e, if_true, e', if_false]; exact fun h1 h2 => H.off _ _ h2 h1
    · by_cases e' : z' = x
      · simp only [e, if_false, e', if_true]; exact fun h1 h2 => H.off _ _ h1 h2
      · simp only [e, e', if_false]; exact H.disj z z' hzz a
  · exact List.nodup_nil
  · intro z a _ h; simp at h
  · intro z a ha
    by_cases e : z = x
    · simp only [e, if_true] at ha; exact H.ltE a ha
    · simp only [e, if_false] at ha; exact H.lt z a ha
  · intro a h; simp at h
  · intro a ha
    rcases H.live a ha with h | ⟨z, h⟩
    · exact .inr ⟨x, by simp [h]⟩
    · refine .inr ⟨z, ?_⟩
      have : z ≠ x := fun e => by subst e; rw [(H.absent _ hx).2] at h; simp at h
      simp [this, h]

/-- The end of a variable leaves a temporary. -/
theorem SRep.release {st : State} {σ : Store} {F : Nat → List Addr} (H : SRep st σ [] F) {x : Nat} {v : Value} (hx : σ x = some v) :
    ∃ h, st.var x = some h ∧ Rep st.heap.cell v h (F x) ∧ Holds ⟨st.heap, fun y => if y = x then none else st.var y⟩ (σ.put x none) (F x) := by
  obtain ⟨h, h1, h2⟩ := H.rep x v hx
  refine ⟨h, h1, h2, fun z => if z = x then [] else F z, ?_⟩
  constructor
  · intro z hz
    by_cases e : z = x
    · simp [e]
    · simp only [Store.put, e, if_false] at hz ⊢; exact H.absent z hz
  · intro z u hz
    by_cases e : z = x
    · subst e; simp [Store.put] at hz
    · simp only [Store.put, e, if_false] at hz ⊢; exact H.rep z u hz
  · intro z; by_cases e : z = x
    · simp [e]
    · simp only [e, if_false]; exact H.nodup z
  · intro z z' hzz a
    by_cases e : z = x
    · simp [e]
    · by_cases e' : z' = x
      · simp [e']
      · simp only [e, e', if_false]; exact H.disj z z' hzz a
  · exact H.nodup x
  · intro z a ha
    by_cases e : z = x
    · simp [e] at ha
    · simp only [e, if_false] at ha; exact H.disj z x e a ha
  · intro z a ha
    by_cases e : z = x
    · simp [e] at ha
    · simp only [e, if_false] at ha; exact H.lt z a ha
  · exact H.lt x
  · intro a ha
    rcases H.live a ha with h | ⟨z, h⟩
    · simp at h
    · by_cases e : z = x
      · exact .inl (e ▸ h)
      · exact .inr ⟨z, by simp [e, h]⟩

/-- The end of a temporary. -/
theorem SRep.free {st : State} {σ : Store} {E : List Addr} {F : Nat → List Addr} (H : SRep st σ E F) {v : Value} {h : HVal} (hr : Rep st.heap.cell v h E) :
    ∃ g, destroyVal st.heap.fuel st.heap h = some g ∧ Holds (st.withHeap g) σ [] := by
  obtain ⟨g, h1, h2⟩ := hr.destroy H.extra (n := st.heap.fuel) (Nat.lt_succ_of_le (nodup_length_le H.extra H.ltE))
  refine ⟨g, h1, F, ?_⟩
  have hold : ∀ x, ∀ a ∈ F x, g.cell a = st.heap.cell a := fun x a ha => by rw [h2.2, if_neg (H.off x a ha)]
  exact {
    absent := H.absent
    rep := fun x u hu => by
      obtain ⟨k, k1, k2⟩ := H.rep x u hu
      exact ⟨k, k1, k2.frame (hold x)⟩
    nodup := H.nodup
    disj := H.disj
    extra := List.nodup_nil
    off := fun _ _ _ h => by simp at h
    lt := fun x a ha => by simp only [State.withHeap, h2.1]; exact H.lt x a ha
    ltE := fun a h => by simp at h
    live := fun a ha => by
      simp only [State.withHeap, h2.2] at ha
      split at ha
      · exact absurd rfl ha
      · next hn =>
        rcases H.live a ha with h | h
        · exact absurd h hn
        · exact .inr h }

/-- What a state that represents a store shows. -/
theorem SRep.value {st : State} {σ : Store} {E : List Addr} {F : Nat → List Addr} (H : SRep st σ E F) (x : Nat) : st.value x = σ x := by
  cases hx : σ x with
  | none => simp [State.value, (H.absent x hx).1]
  | some v =>
    obtain ⟨h, h1, h2⟩ := H.rep x v hx
    simp only [State.value, h1, Option.bind_some]
    exact h2.reify (Nat.lt_succ_of_le (nodup_length_le (H.nodup x) (H.lt x)))

end Meojson.Mem
