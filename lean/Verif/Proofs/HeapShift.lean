import Verif.Proofs.HeapMerge

/-! Statements that move values into containers, and all statements together. -/

set_option autoImplicit false

namespace Meojson.Stores
open Mem

theorem not_inside_of {p s : Place} (h : ¬ Within p s) : ¬ Inside p s := fun ⟨e, h', _⟩ => h ⟨e, h'⟩
theorem ne_of {p s : Place} (h : ¬ Within p s) : p ≠ s := fun e => h (by rw [e]; exact ⟨rfl, List.prefix_refl _⟩)

theorem apart_of' {p s : Place} (h : ¬ Within p s) (hi : ¬ Inside s p) : Apart p s := apart_of (ne_of h) (not_inside_of h) hi

theorem Apart.symm {p q : Place} (h : Apart p q) : Apart q p := ⟨fun ⟨e, h'⟩ => h.2 ⟨e.symm, h'⟩, fun ⟨e, h'⟩ => h.1 ⟨e.symm, h'⟩⟩

theorem apart_below {p q : Place} (ha : Apart p q) (c : Sel) : Apart ⟨p.x, p.path ++ [c]⟩ q := by
  refine ⟨fun ⟨e, h⟩ => ?_, fun ⟨e, h⟩ => ha.2 ⟨e, (List.prefix_append _ _).trans h⟩⟩
  rcases List.prefix_concat_iff.1 h with h | h
  · exact ha.2 ⟨e, by rw [h]; exact List.prefix_append _ _⟩
  · exact ha.1 ⟨e, h⟩

/-- An array before something is taken out of one of its elements. -/
theorem elems_before {σ : Store} (T : KeyedStore σ) {p s : Place} {u v w x : Value} {vs : List Value} (hp : σ.get p = some u) (hs : σ.get s = some w)
    (hn : ¬ Within p s) (hv : (σ.set s x).get p = some v) (he : Elems v vs) :
    ∃ vs0, Elems u vs0 ∧ (σ.set p (.arr .array vs0)).get s = some w ∧ ((σ.set p (.arr .array vs0)).set s x).get p = some (.arr .array vs) ∧
      ∀ z, ((σ.set p (.arr .array vs0)).set s x).set p z = (σ.set s x).set p z := by
  by_cases hi : Inside s p
  · have hh : ¬ Hollowable u := fun h => not_inside_of_hollowable hp h hs hi
    obtain ⟨r, hr, hne, hg⟩ := get_above (u := x) T hp hi
    rw [hg] at hv; cases hv
    obtain ⟨c, r, rfl⟩ := List.exists_cons_of_ne_nil hne
    have hgs : getAt u (c :: r) = some w := by
      obtain ⟨t, ht, hgt⟩ := get_some hp
      obtain ⟨t', ht', hgt'⟩ := get_some hs
      rw [hi.1, ht] at ht'; cases ht'
      rw [hr, getAt_append, hgt] at hgt'
      exact hgt'
    have htu := keyed_get T hp
    cases u with
    | str => cases c <;> simp [getAt] at hgs
    | arrNull => cases c <;> simp [getAt] at hgs
    | objNull => cases c <;> simp [getAt] at hgs
    | obj t ms =>
      cases c with
      | pos => simp [getAt] at hgs
      | key k =>
        exfalso
        rcases he with ⟨h, _⟩ | h
        · simp only [setAt] at h
          generalize hm : (ms.map fun m => if m.1 = k then (m.1, setAt m.2 r x) else m) = ms' at h
          obtain rfl := getAt_obj hgs
          cases h with
          | object => simp at hm; subst hm; simp [getAt] at hgs
        · cases h
    | arr t us =>
      cases c with
      | key => simp [getAt] at hgs
      | pos i =>
        obtain rfl := getAt_arr hgs
        have hvs : vs = us.modify i (setAt · r x) := by
          rcases he with ⟨h, h'⟩ | h
          · subst h'
            simp only [setAt] at h
            generalize hm : us.modify i (setAt · r x) = us' at h
            cases h; rfl
          · simp only [setAt] at h; cases h; rfl
        subst hvs
        refine ⟨us, .inr rfl, ?_, ?_, fun z => ?_⟩ <;> rw [set_get T hp]
        · exact hs
        · exact hg
  · have ha := apart_of' hn hi
    have : v = u := by rw [get_set_other hs ha.symm, hp] at hv; exact (Option.some.inj hv).symm
    subst this
    refine ⟨vs, he, by rw [get_set_other hp ha, hs], ?_, fun z => ?_⟩
    · rw [get_set_other (by rw [get_set_other hp ha, hs]) ha.symm, get_set hp]
    · rw [set_comm ha, set_set]

/-- An object before something is taken out of one of its members. -/
theorem members_before {σ : Store} (T : KeyedStore σ) {p s : Place} {u v w x : Value} {ms : List (Bytes × Value)} (hp : σ.get p = some u) (hs : σ.get s = some w)
    (hn : ¬ Within p s) (hv : (σ.set s x).get p = some v) (he : Members v ms) :
    ∃ ms0, Members u ms0 ∧ (σ.set p (.obj .object ms0)).get s = some w ∧ ((σ.set p (.obj .object ms0)).set s x).get p = some (.obj .object ms) ∧
      (∀ z, ((σ.set p (.obj .object ms0)).set s x).set p z = (σ.set s x).set p z) ∧ ∀ k, ms.lookup k = none → ms0.lookup k = none := by
  by_cases hi : Inside s p
  · have hh : ¬ Hollowable u := fun h => not_inside_of_hollowable hp h hs hi
    obtain ⟨r, hr, hne, hg⟩ := get_above (u := x) T hp hi
    rw [hg] at hv; cases hv
    obtain ⟨c, r, rfl⟩ := List.exists_cons_of_ne_nil hne
    have hgs : getAt u (c :: r) = some w := by
      obtain ⟨t, ht, hgt⟩ := get_some hp
      obtain ⟨t', ht', hgt'⟩ := get_some hs
      rw [hi.1, ht] at ht'; cases ht'
      rw [hr, getAt_append, hgt] at hgt'
      exact hgt'
    have htu := keyed_get T hp
    cases u with
    | str => cases c <;> simp [getAt] at hgs
    | arrNull => cases c <;> simp [getAt] at hgs
    | objNull => cases c <;> simp [getAt] at hgs
    | arr t us =>
      cases c with
      | key => simp [getAt] at hgs
      | pos i =>
        exfalso
        rcases he with ⟨h, _⟩ | h
        · simp only [setAt] at h
          generalize hm : us.modify i (setAt · r x) = us' at h
          obtain rfl := getAt_arr hgs
          cases h with
          | array => 
            have : us = [] := List.length_eq_zero_iff.1 (by rw [← List.length_modify (f := (setAt · r x)) (i := i), hm]; rfl)
            subst this; simp [getAt] at hgs
        · cases h
    | obj t us =>
      cases c with
      | pos => simp [getAt] at hgs
      | key k =>
        obtain rfl := getAt_obj hgs
        have hms : ms = us.map fun m => if m.1 = k then (m.1, setAt m.2 r x) else m := by
          rcases he with ⟨h, h'⟩ | h
          · subst h'
            simp only [setAt] at h
            generalize hm : (us.map fun m => if m.1 = k then (m.1, setAt m.2 r x) else m) = us' at h
            cases h; rfl
          · simp only [setAt] at h; cases h; rfl
        subst hms
        refine ⟨us, .inr rfl, ?_, ?_, fun z => ?_, fun k' hk => ?_⟩
        · rw [set_get T hp]; exact hs
        · rw [set_get T hp]; exact hg
        · rw [set_get T hp]
        · rw [lookup_map_if us k k' (setAt · r x)] at hk
          split at hk
          · simpa using hk
          · exact hk
  · have ha := apart_of' hn hi
    have : v = u := by rw [get_set_other hs ha.symm, hp] at hv; exact (Option.some.inj hv).symm
    subst this
    refine ⟨ms, he, by rw [get_set_other hp ha, hs], ?_, fun z => ?_, fun _ => id⟩
    · rw [get_set_other (by rw [get_set_other hp ha, hs]) ha.symm, get_set hp]
    · rw [set_comm ha, set_set]

end Meojson.Stores

namespace Meojson.Mem
open Stores

theorem read_bump (st : State) (l : Loc) : (st.withHeap st.heap.bump).read l = st.read l := by cases l <;> rfl

theorem locate_bump (st : State) : ∀ (q : List Sel) (l : Loc), (st.withHeap st.heap.bump).locate l q = st.locate l q
  | [], _ => rfl
  | s :: q, l => by
    simp only [State.locate, read_bump]
    cases st.read l with
    | none => rfl
    | some y =>
      show ((st.part y s).bind fun l => (st.withHeap st.heap.bump).locate l q) = (st.part y s).bind fun l => st.locate l q
      cases st.part y s with
      | none => rfl
      | some l' => exact locate_bump st q l'

theorem resolve_bump (st : State) (p : Place) : (st.withHeap st.heap.bump).resolve p = st.resolve p := by
  simp only [State.resolve, read_bump, locate_bump]

section
variable {st : State} {σ : Store} {F : Nat → List Addr} {E : List Addr}

/-- The array at a place gets elements that were held apart. -/
theorem SRep.extend (H : SRep st σ E F) (T : KeyedStore σ) {p : Place} {vs ws : List Value} {ys : List HVal} {l : Loc} {a : Addr}
    (hp : σ.get p = some (.arr .array vs)) (hl : st.resolve p = some l) (hy : st.read l = some ⟨.array, .arr (some a)⟩) (hE : RepL st.heap.cell ws ys E) :
    ∃ xs, st.heap.cell a = some (.arr xs) ∧ Holds (st.withHeap (st.heap.set a (some (.arr (xs ++ ys))))) (σ.set p (.arr .array (vs ++ ws))) [] := by
  obtain ⟨l', y, B, q1, q2, q3, q4, q5, q6, q7, q8⟩ := H.place T hp
  rw [hl] at q1; cases q1
  rw [hy] at q2; cases q2
  obtain ⟨a', xs, C, d1, d2, d3, d4⟩ := id q3
  simp at d1; subst d1 d4
  have halt := H.lt _ _ (q4 a (by simp))
  have hCa : ∀ c ∈ C, c ≠ a := fun c hc e => by subst e; exact (List.nodup_cons.1 q5).1 hc
  have hEa : ∀ c ∈ E, c ≠ a := fun c hc e => by subst e; exact H.off _ _ (q4 c (by simp)) hc
  have hfr : ∀ {c} (z : Option Cell), c ≠ a → (st.heap.set a z).cell c = st.heap.cell c := fun z hc => if_neg hc
  have hw := write_read hy
  refine ⟨xs, d2, (H.update T (st' := st.withHeap (st.heap.set a (some (.arr (xs ++ ys))))) (w' := .arr .array (vs ++ ws)) (y' := ⟨.array, .arr (some a)⟩) (E' := []) (B' := a :: (C ++ E)) hp hl hy q3 (by rw [hw]; rfl) (Nat.le_refl _) ?_
    ⟨a, xs ++ ys, C ++ E, rfl, if_pos rfl, (d3.frame fun c hc => hfr _ (hCa c hc)).append (hE.frame fun c hc => hfr _ (hEa c hc)), rfl⟩ ?_ ?_ ?_).1⟩
  · intro c _ hc _
    rw [hw]; exact hfr _ fun e => hc (by simp [e])
  · rw [List.append_nil, List.nodup_cons, List.nodup_append, List.mem_append]
    refine ⟨?_, (List.nodup_cons.1 q5).2, H.extra, fun c hc d hd e => ?_⟩
    · rintro (h | h)
      · exact hCa _ h rfl
      · exact hEa _ h rfl
    · subst e; exact H.off _ _ (q4 c (by simp [hc])) hd
  · intro b hb
    simp only [List.append_nil, List.mem_cons, List.mem_append] at hb
    show _ ∧ b < st.heap.next
    rcases hb with rfl | hb | hb
    · exact ⟨.inl (by simp), halt⟩
    · exact ⟨.inl (by simp [hb]), H.lt _ _ (q4 b (by simp [hb]))⟩
    · exact ⟨.inr (.inl hb), H.ltE b hb⟩
  · rintro c (h | h | h) hne
    · simp only [List.append_nil, List.mem_cons, List.mem_append] at h ⊢
      rcases h with h | h
      · exact .inl h
      · exact .inr (.inl h)
    · simp [h]
    · exfalso
      have hca : c ≠ a := by omega
      rw [show (st.withHeap (st.heap.set a (some (.arr (xs ++ ys))))).heap.cell c = st.heap.cell c from hfr _ hca] at hne
      rcases H.live c hne with h1 | ⟨z, h1⟩
      · have := H.ltE c h1; omega
      · have := H.lt z c h1; omega

/-- The object at a place gets a member that was held apart. -/
theorem SRep.insertTemp (H : SRep st σ E F) (T : KeyedStore σ) {p : Place} {ms : List (Bytes × Value)} {k : Bytes} {w : Value} {x : HVal} {l : Loc} {a : Addr}
    (hp : σ.get p = some (.obj .object ms)) (hl : st.resolve p = some l) (hy : st.read l = some ⟨.object, .obj (some a)⟩) (hE : Rep st.heap.cell w x E)
    (hk : ms.lookup k = none) :
    ∃ xs, st.heap.cell a = some (.obj xs) ∧
      Holds (st.withHeap (st.heap.set a (some (.obj (RawObject.emplace k x xs).1)))) (σ.set p (.obj .object (putMember k w ms))) [] ∧
      ∀ q u lq, σ.get q = some u → ¬ Inside q p → st.resolve q = some lq →
        (st.withHeap (st.heap.set a (some (.obj (RawObject.emplace k x xs).1)))).resolve q = some lq ∧
        (st.withHeap (st.heap.set a (some (.obj (RawObject.emplace k x xs).1)))).read lq = st.read lq := by
  obtain ⟨l', y, B, q1, q2, q3, q4, q5, q6, q7, q8⟩ := H.place T hp
  rw [hl] at q1; cases q1
  rw [hy] at q2; cases q2
  obtain ⟨a', xs, C, d1, d2, d3, d4⟩ := id q3
  simp at d1; subst d1 d4
  have hs := (keyed_get T hp).1
  have halt := H.lt _ _ (q4 a (by simp))
  have hCa : ∀ c ∈ C, c ≠ a := fun c hc e => by subst e; exact (List.nodup_cons.1 q5).1 hc
  have hEa : ∀ c ∈ E, c ≠ a := fun c hc e => by subst e; exact H.off _ _ (q4 c (by simp)) hc
  have hfr : ∀ {c} (z : Option Cell), c ≠ a → (st.heap.set a z).cell c = st.heap.cell c := fun z hc => if_neg hc
  have hw := write_read hy
  obtain ⟨A', r1, r2⟩ := RepM.insert (k := k) (h := (st.heap.set a (some (.obj (RawObject.emplace k x xs).1))).cell) (hE.frame fun c hc => hfr _ (hEa c hc))
    (d3.frame fun c hc => hfr _ (hCa c hc)) hs hk
  have hcell : ∀ c, c < st.heap.next → c ∉ a :: C → c ∉ E →
      (st.withHeap (st.heap.set a (some (.obj (RawObject.emplace k x xs).1)))).heap.cell c = (st.write l ⟨.object, .obj (some a)⟩).heap.cell c := by
    intro c _ hc _
    rw [hw]; exact hfr _ fun e => hc (by simp [e])
  refine ⟨xs, d2, (H.update T (st' := st.withHeap (st.heap.set a (some (.obj (RawObject.emplace k x xs).1)))) (w' := .obj .object (putMember k w ms)) (y' := ⟨.object, .obj (some a)⟩) (E' := []) (B' := a :: A') hp hl hy q3 (by rw [hw]; rfl)
    (Nat.le_refl _) hcell ⟨a, _, A', rfl, if_pos rfl, r1, rfl⟩ ?_ ?_ ?_).1, fun q u lq hq hn hlq => ⟨(H.stable T hp hl hy q3 (by rw [hw]; rfl) hcell hq hn).trans hlq, ?_⟩⟩
  · rw [List.append_nil, List.nodup_cons, r2.nodup_iff, r2.mem_iff, List.nodup_append, List.mem_append]
    refine ⟨?_, (List.nodup_cons.1 q5).2, H.extra, fun c hc d hd e => ?_⟩
    · rintro (h | h)
      · exact hCa _ h rfl
      · exact hEa _ h rfl
    · subst e; exact H.off _ _ (q4 c (by simp [hc])) hd
  · intro b hb
    rw [List.append_nil, List.mem_cons, r2.mem_iff, List.mem_append] at hb
    show _ ∧ b < st.heap.next
    rcases hb with rfl | hb | hb
    · exact ⟨.inl (by simp), halt⟩
    · exact ⟨.inl (by simp [hb]), H.lt _ _ (q4 b (by simp [hb]))⟩
    · exact ⟨.inr (.inl hb), H.ltE b hb⟩
  · intro c hc hne
    rw [List.append_nil, List.mem_cons, r2.mem_iff, List.mem_append]
    rcases hc with h | h | h
    · rcases List.mem_cons.1 h with h | h
      · exact .inl h
      · exact .inr (.inl h)
    · exact .inr (.inr h)
    · exfalso
      have hca : c ≠ a := by omega
      rw [show (st.withHeap (st.heap.set a (some (.obj (RawObject.emplace k x xs).1)))).heap.cell c = st.heap.cell c from hfr _ hca] at hne
      rcases H.live c hne with h1 | ⟨z, h1⟩
      · have := H.ltE c h1; omega
      · have := H.lt z c h1; omega
  · by_cases e : q = p
    · subst e; rw [hl] at hlq; cases hlq
      exact read_congr rfl fun b i e => hfr _ fun e' => q6 ⟨b, i, e, by simp [e']⟩
    · have h := H.elsewhere T hp hl hy q3 hq hlq hn e
      exact read_congr rfl fun b i e => hfr _ fun e' => (h.2 b i e).2 (by simp [e'])

theorem RepL.movedFrom {h g : Cells} : ∀ {vs : List Value} {xs : List HVal} {A : List Addr} (junk : Nat → Bytes), RepL h vs xs A →
    RepL g (hollowElems junk vs) (xs.mapIdx fun i x => x.movedFrom (junk i)) []
  | [], _, _, _, h => by rw [h.1]; exact ⟨rfl, rfl⟩
  | v :: vs, _, _, junk, h => by
    obtain ⟨x, xs, B, C, rfl, h2, h3, _⟩ := h
    simp only [hollowElems, List.mapIdx_cons]
    exact ⟨_, _, [], [], rfl, h2.movedFrom _ _, RepL.movedFrom (fun i => junk (i + 1)) h3, rfl⟩

/-- The elements of an array are moved out of it. -/
theorem SRep.hollowed (H : SRep st σ [] F) (T : KeyedStore σ) {s : Place} {ws : List Value} {l : Loc} {b : Addr} {ys : List HVal} {C : List Addr} (junk : Nat → Bytes)
    (hs : σ.get s = some (.arr .array ws)) (hl : st.resolve s = some l) (hy : st.read l = some ⟨.array, .arr (some b)⟩) (hc : st.heap.cell b = some (.arr ys))
    (hC : RepL st.heap.cell ws ys C) :
    Holds (st.withHeap (st.heap.set b (some (.arr (ys.mapIdx fun i w => w.movedFrom (junk i)))))) (σ.set s (.arr .array (hollowElems junk ws))) C ∧
    RepL (st.heap.set b (some (.arr (ys.mapIdx fun i w => w.movedFrom (junk i))))).cell ws ys C ∧
    ∀ q u lq, σ.get q = some u → ¬ Inside q s → st.resolve q = some lq →
      (st.withHeap (st.heap.set b (some (.arr (ys.mapIdx fun i w => w.movedFrom (junk i)))))).resolve q = some lq ∧
      (st.withHeap (st.heap.set b (some (.arr (ys.mapIdx fun i w => w.movedFrom (junk i)))))).read lq = st.read lq := by
  obtain ⟨l', y, B, q1, q2, q3, q4, q5, q6, q7, q8⟩ := H.place T hs
  rw [hl] at q1; cases q1
  rw [hy] at q2; cases q2
  have hB : Rep st.heap.cell (.arr .array ws) ⟨.array, .arr (some b)⟩ (b :: C) := ⟨b, ys, C, rfl, hc, hC, rfl⟩
  have := q3.foot_unique hB; subst this
  have hCb : ∀ c ∈ C, c ≠ b := fun c h e => (List.nodup_cons.1 q5).1 (e ▸ h)
  have hfr : ∀ {c} (z : Option Cell), c ≠ b → (st.heap.set b z).cell c = st.heap.cell c := fun z hc => if_neg hc
  have hw := write_read hy
  have hcell : ∀ c, c < st.heap.next → c ∉ b :: C → c ∉ ([] : List Addr) →
      (st.withHeap (st.heap.set b (some (.arr (ys.mapIdx fun i w => w.movedFrom (junk i)))))).heap.cell c = (st.write l ⟨.array, .arr (some b)⟩).heap.cell c := by
    intro c _ hc _
    rw [hw]; exact hfr _ fun e => hc (by simp [e])
  refine ⟨(H.update T (st' := st.withHeap (st.heap.set b (some (.arr (ys.mapIdx fun i w => w.movedFrom (junk i)))))) (w' := .arr .array (hollowElems junk ws)) (y' := ⟨.array, .arr (some b)⟩) (E' := C) (B' := [b]) hs hl hy hB (by rw [hw]; rfl)
    (Nat.le_refl _) hcell ⟨b, _, [], rfl, if_pos rfl, hC.movedFrom junk, rfl⟩ q5 ?_ ?_).1, hC.frame fun c hc => hfr _ (hCb c hc),
    fun q u lq hq hn hlq => ⟨(H.stable T hs hl hy hB (by rw [hw]; rfl) hcell hq hn).trans hlq, ?_⟩⟩
  · intro c hc
    exact ⟨.inl hc, H.lt _ _ (q4 c hc)⟩
  · rintro c (h | h | h) hne
    · exact h
    · simp at h
    · exfalso
      have hbc : c ≠ b := fun e => by have := H.lt _ _ (q4 b (by simp)); omega
      exact hne ((hfr _ hbc).trans (H.clean c h))
  · by_cases e : q = s
    · subst e; rw [hl] at hlq; cases hlq
      exact read_congr rfl fun c i e => hfr _ fun e' => q6 ⟨c, i, e, by simp [e']⟩
    · have h := H.elsewhere T hs hl hy hB hq hlq hn e
      exact read_congr rfl fun c i e => hfr _ fun e' => (h.2 c i e).2 (by simp [e'])

theorem asArray_ends (H : SRep st σ [] F) (T : KeyedStore σ) (oom : Addr → Bool) {p : Place} {v : Value} {vs : List Value} (hp : σ.get p = some v) (hv : Elems v vs) :
    Ends oom σ (.asArray p) (σ.set p (.arr .array vs)) (step oom st (.asArray p)) := by
  obtain ⟨l, _, _, p1, _⟩ := H.place T hp
  simp only [step, p1]
  rcases H.array T oom hp hv p1 _ with ⟨st', a, e1, e2, _⟩ | ⟨st', e1, e2, hh, e3⟩
  · rw [e1]; exact e2
  · rw [e1]; exact ⟨e2, _, .tag rfl hp hh, e3⟩

theorem asObject_ends (H : SRep st σ [] F) (T : KeyedStore σ) (oom : Addr → Bool) {p : Place} {v : Value} {ms : List (Bytes × Value)} (hp : σ.get p = some v)
    (hv : Members v ms) : Ends oom σ (.asObject p) (σ.set p (.obj .object ms)) (step oom st (.asObject p)) := by
  obtain ⟨l, _, _, p1, _⟩ := H.place T hp
  simp only [step, p1]
  rcases H.object T oom hp hv p1 _ with ⟨st', a, e1, e2, _⟩ | ⟨st', e1, e2, hh, e3⟩
  · rw [e1]; exact e2
  · rw [e1]; exact ⟨e2, _, .tag rfl hp hh, e3⟩

theorem emplaceBackMove_ends (H : SRep st σ [] F) (T : KeyedStore σ) (oom : Addr → Bool) {p s : Place} {u v w : Value} {vs : List Value} {junk : Bytes}
    (hp : σ.get p = some u) (hs : σ.get s = some w) (hn : ¬ Within p s) (hv : (σ.set s (hollow junk w)).get p = some v) (he : Elems v vs) :
    Ends oom σ (.emplaceBackMove p s junk) ((σ.set s (hollow junk w)).set p (.arr .array (vs ++ [w]))) (step oom st (.emplaceBackMove p s junk)) := by
  obtain ⟨l, _, _, p1, _⟩ := H.place T hp
  obtain ⟨ls, _, _, s1, _⟩ := H.place T hs
  simp only [step, p1, s1]
  obtain ⟨vs0, b1, b2, b3, b4⟩ := elems_before T hp hs hn hv he
  rcases H.array T oom hp b1 p1 _ with ⟨st', a, e1, ⟨F', e2⟩, e3, e4, e5, e6, _⟩ | ⟨st', e1, e2, hh, e3⟩
  · rw [e1]
    simp only [pushMove, Mem.grow]
    by_cases ho : oom st'.heap.next
    · rw [if_pos ho]; exact ⟨⟨_, ho⟩, _, e6 _ rfl, holds_grow e2 (Grown.bump _)⟩
    · rw [if_neg ho]
      have T' := keyed_set T hp (keyed_elems b1 (keyed_get T hp))
      have e2 := e2.grow (Grown.bump _)
      have hls := (resolve_bump st' s).trans ((e5 _ _ hs).trans s1)
      have hl := (resolve_bump st' p).trans e3
      have hy := (read_bump st' l).trans e4
      obtain ⟨ls', ys, B, q1, q2, q3, q4, q5, q6, q7, q8⟩ := e2.place T' b2
      rw [hls] at q1; cases q1
      simp only [takeFrom, q2]
      obtain ⟨⟨F1, H1⟩, hr⟩ := e2.moved T' junk b2 hls q2 q3 q5 q6 fun b hb => e2.lt _ _ (q4 b hb)
      have hm := e2.movedStable T' (y' := ys.movedFrom junk) b2 hls q2 q3 (get_set hp) (not_inside_of hn) (ne_of hn) hl
      have T1 := keyed_set T' b2 (keyed_hollow (keyed_get T' b2) junk)
      obtain ⟨xs, c1, c2⟩ := H1.extend T1 b3 hm.1 (hm.2.trans hy) (ws := [w]) (ys := [ys]) ⟨ys, [], B, [], rfl, hr, ⟨rfl, rfl⟩, by simp⟩
      simp only [c1]
      rw [b4] at c2
      exact c2
  · rw [e1]; exact ⟨e2, _, .tag rfl hp hh, e3⟩

/-- Moving the value at `q` into a new member of the object at `p`. -/
theorem SRep.insertMove (H : SRep st σ [] F) (T : KeyedStore σ) (oom : Addr → Bool) {p q : Place} {ms0 ms : List (Bytes × Value)} {k : Bytes} {w : Value} {l lq : Loc} {a : Addr}
    {junk : Bytes} (hp : σ.get p = some (.obj .object ms0)) (hl : st.resolve p = some l) (hy : st.read l = some ⟨.object, .obj (some a)⟩) (hq : σ.get q = some w)
    (hlq : st.resolve q = some lq) (hn : ¬ Within p q) (hms : (σ.set q (hollow junk w)).get p = some (.obj .object ms)) (hk0 : ms0.lookup k = none)
    (hk : ms.lookup k = none) :
    (∃ st', insertOrAssignMove oom junk st a k lq = .done st' ∧ Holds st' ((σ.set q (hollow junk w)).set p (.obj .object (putMember k w ms))) [] ∧
      ∀ r u lr, σ.get r = some u → ¬ Inside r p → ¬ Inside r q → r ≠ q → st.resolve r = some lr → st'.resolve r = some lr ∧ st'.read lr = st.read lr) ∨
    (∃ st', insertOrAssignMove oom junk st a k lq = .thrown st' ∧ (∃ a, oom a = true) ∧ Holds st' σ []) := by
  obtain ⟨xs, d2, _, hno, _⟩ := H.member T hp hl hy
  simp only [insertOrAssignMove, d2, hno k hk0, Mem.grow]
  by_cases ho : oom st.heap.next
  · rw [if_pos ho]; exact .inr ⟨_, rfl, ⟨_, ho⟩, holds_grow H (Grown.bump _)⟩
  · rw [if_neg ho]
    left
    have H' := H.grow (Grown.bump _)
    have hls := (resolve_bump st q).trans hlq
    have hl' := (resolve_bump st p).trans hl
    have hy' := (read_bump st l).trans hy
    obtain ⟨lq', ys, B, q1, q2, q3, q4, q5, q6, q7, q8⟩ := H'.place T hq
    rw [hls] at q1; cases q1
    simp only [takeFrom, q2]
    obtain ⟨⟨F1, H1⟩, hr⟩ := H'.moved T junk hq hls q2 q3 q5 q6 fun b hb => H'.lt _ _ (q4 b hb)
    have hm := H'.movedStable T (y' := ys.movedFrom junk) hq hls q2 q3 hp (not_inside_of hn) (ne_of hn) hl'
    have T1 := keyed_set T hq (keyed_hollow (keyed_get T hq) junk)
    obtain ⟨xs', c1, c2, c3⟩ := H1.insertTemp T1 hms hm.1 (hm.2.trans hy') hr hk
    simp only [c1]
    refine ⟨_, rfl, c2, fun r u lr hr h1 h2 h3 hlr => ?_⟩
    obtain ⟨u', hu'⟩ := get_still (w := hollow junk w) T hq hr h2 h3
    have hm' := H'.movedStable T (y' := ys.movedFrom junk) hq hls q2 q3 hr h2 h3 ((resolve_bump st r).trans hlr)
    have := c3 r u' lr hu' h1 hm'.1
    exact ⟨this.1, this.2.trans (hm'.2.trans (read_bump st lr))⟩

theorem emplaceKeyMove_ends (H : SRep st σ [] F) (T : KeyedStore σ) (oom : Addr → Bool) {p s : Place} {k : Bytes} {u v w : Value} {ms : List (Bytes × Value)} {junk : Bytes}
    (hp : σ.get p = some u) (hs : σ.get s = some w) (hn : ¬ Within p s) (hv : (σ.set s (hollow junk w)).get p = some v) (he : Members v ms) (hk : ms.lookup k = none) :
    Ends oom σ (.emplaceKeyMove p k s junk) ((σ.set s (hollow junk w)).set p (.obj .object (putMember k w ms))) (step oom st (.emplaceKeyMove p k s junk)) := by
  obtain ⟨l, _, _, p1, _⟩ := H.place T hp
  obtain ⟨ls, _, _, s1, _⟩ := H.place T hs
  simp only [step, p1, s1]
  obtain ⟨ms0, b1, b2, b3, b4, b5⟩ := members_before T hp hs hn hv he
  rcases H.object T oom hp b1 p1 _ with ⟨st', a, e1, ⟨F', e2⟩, e3, e4, e5, e6, _⟩ | ⟨st', e1, e2, hh, e3⟩
  · rw [e1]
    have T' := keyed_set T hp (keyed_members b1 (keyed_get T hp))
    rcases e2.insertMove T' oom (get_set hp) e3 e4 b2 ((e5 _ _ hs).trans s1) hn b3 (b5 k hk) hk with ⟨st2, c1, c2, _⟩ | ⟨st2, c1, c2, c3⟩
    · rw [c1]; rw [b4] at c2; exact c2
    · rw [c1]; exact ⟨c2, _, e6 _ rfl, c3⟩
  · rw [e1]; exact ⟨e2, _, .tag rfl hp hh, e3⟩

theorem moves_ends (H : SRep st σ [] F) (T : KeyedStore σ) (oom : Addr → Bool) {d s : Place} {junk : Bytes} {σ' : Store} (h : Step σ (.moveAssign d s junk) σ') :
    Ends oom σ (.moveAssign d s junk) σ' (step oom st (.moveAssign d s junk)) := by
  cases h with
  | moveAssign hd hs h1 h2 h3 => exact moveAssign_ends H T oom hd hs h1 h2 h3
  | moveAssignPart hd hs h1 h2 => exact moveAssignPart_ends H T oom hd hs h1 h2
  | moveAssignSelf hd => exact moveAssignSelf_ends H T oom hd

theorem moveSource {d s : Place} {junk : Bytes} {σ' : Store} (h : Step σ (.moveAssign d s junk) σ') : ∃ v, σ.get s = some v := by
  cases h with
  | moveAssign hd hs h1 h2 h3 => exact ⟨_, hs⟩
  | moveAssignPart hd hs h1 h2 => exact ⟨_, hs⟩
  | moveAssignSelf hd => exact ⟨_, hd⟩

theorem emplaceKeyMoveOld_ends (H : SRep st σ [] F) (T : KeyedStore σ) (oom : Addr → Bool) {p s : Place} {k : Bytes} {ms : List (Bytes × Value)} {old : Value} {junk : Bytes}
    {σ' : Store} (hp : σ.get p = some (.obj .object ms)) (hk : ms.lookup k = some old) (h : Step σ (.moveAssign ⟨p.x, p.path ++ [.key k]⟩ s junk) σ') :
    Ends oom σ (.emplaceKeyMove p k s junk) σ' (step oom st (.emplaceKeyMove p k s junk)) := by
  obtain ⟨l, _, _, p1, _⟩ := H.place T hp
  obtain ⟨w, hs⟩ := moveSource h
  obtain ⟨ls, _, _, s1, _⟩ := H.place T hs
  simp only [step, p1, s1]
  rcases H.object T oom hp (.inr rfl) p1 _ with ⟨st', a, e1, ⟨F', e2⟩, e3, e4, e5, e6, _⟩ | ⟨st', e1, e2, hh, e3⟩
  · rw [e1]
    rw [set_get T hp] at e2
    obtain ⟨xs, d2, _, _, hyes⟩ := e2.member T hp e3 e4
    obtain ⟨i, k1, k2⟩ := hyes k old hk
    have := moves_ends e2 T oom h
    simp only [step, k2, (e5 _ _ hs).trans s1] at this
    simp only [insertOrAssignMove, d2, k1]
    cases hm : Mem.moveAssign junk st' (.child a i) ls with
    | done st2 => rw [hm] at this; exact this
    | ub => rw [hm] at this; exact this
    | thrown st2 =>
      rw [hm] at this
      obtain ⟨h1, σ'', h2, h3⟩ := this
      cases h2 with
      | same h => cases h
      | tag h => cases h
      | array h => cases h
      | object h => cases h
  · cases hh; simp at hk

theorem keyed_hollowElems {vs : List Value} (h : Keyed (.arr .array vs)) (junk : Nat → Bytes) : Keyed (.arr .array (hollowElems junk vs)) :=
  keyedAll_iff.2 fun x hx => by
    simp only [hollowElems, List.mem_mapIdx] at hx
    obtain ⟨i, hi, rfl⟩ := hx
    exact keyed_hollow (keyedAll_iff.1 h _ (List.getElem_mem hi)) _

theorem appendMove_ends (H : SRep st σ [] F) (T : KeyedStore σ) (oom : Addr → Bool) {p s : Place} {u v : Value} {vs ws : List Value} {junk : Nat → Bytes}
    (hp : σ.get p = some u) (hs : σ.get s = some (.arr .array ws)) (hn : ¬ Within p s) (hv : (σ.set s (.arr .array (hollowElems junk ws))).get p = some v)
    (he : Elems v vs) :
    Ends oom σ (.appendMove p s junk) ((σ.set s (.arr .array (hollowElems junk ws))).set p (.arr .array (vs ++ ws))) (step oom st (.appendMove p s junk)) := by
  obtain ⟨l, _, _, p1, _⟩ := H.place T hp
  obtain ⟨ls, ys, _, s1, s2, s3, _⟩ := H.place T hs
  obtain ⟨b, _, _, rfl, _⟩ := s3
  simp only [step, p1, s1, constArray, s2, if_true]
  obtain ⟨vs0, b1, b2, b3, b4⟩ := elems_before T hp hs hn hv he
  rcases H.array T oom hp b1 p1 _ with ⟨st', a, e1, ⟨F', e2⟩, e3, e4, e5, e6, e7⟩ | ⟨st', e1, e2, hh, e3⟩
  · rw [e1]
    have T' := keyed_set T hp (keyed_elems b1 (keyed_get T hp))
    have hrs := (e5 _ _ hs).trans s1
    have hds := (e7 _ _ _ hs (.inl (Ne.symm (ne_of hn))) s1).trans s2
    have hab := e2.payload_ne T' (get_set hp) b2 e3 hrs e4 hds (.inl rfl) (.inl rfl) (ne_of hn)
    obtain ⟨_, _, _, q1, q2, q3, _⟩ := e2.place T' (get_set (w' := .arr .array vs0) hp)
    rw [e3] at q1; cases q1
    rw [e4] at q2; cases q2
    obtain ⟨a', xs, C, d1, d2, _⟩ := q3
    simp at d1; subst d1
    obtain ⟨_, _, _, r1, r2, r3, _⟩ := e2.place T' b2
    rw [hrs] at r1; cases r1
    rw [hds] at r2; cases r2
    obtain ⟨b', ys, C', c1, c2, c3, _⟩ := r3
    simp at c1; subst c1
    simp only [appendArrayMove, if_neg hab, d2, c2, Mem.grow]
    by_cases ho : oom st'.heap.next
    · rw [if_pos ho]; exact ⟨⟨_, ho⟩, _, e6 _ rfl, holds_grow e2 (Grown.bump _)⟩
    · rw [if_neg ho]
      have e2 := e2.grow (Grown.bump _)
      have hls := (resolve_bump st' s).trans hrs
      have hl := (resolve_bump st' p).trans e3
      have hy := (read_bump st' l).trans e4
      obtain ⟨⟨F1, H1⟩, hr, hst⟩ := e2.hollowed T' junk b2 hls ((read_bump st' ls).trans hds) c2 c3
      have hm := hst _ _ _ (get_set hp) (not_inside_of hn) hl
      have htw := keyed_get T' b2
      have T1 := keyed_set T' b2 (keyed_hollowElems htw junk)
      obtain ⟨xs', f1, f2⟩ := H1.extend T1 b3 hm.1 (hm.2.trans hy) hr
      have : xs' = xs := by
        have h : (if a = b then _ else st'.heap.cell a) = some (Cell.arr xs') := f1
        rw [if_neg hab, d2] at h; cases h; rfl
      subst this
      rw [b4] at f2
      exact f2
  · rw [e1]; exact ⟨e2, _, .tag rfl hp hh, e3⟩

/-- Moving the value at `q` into the object at `p`, which is apart from it. -/
theorem SRep.putMove (H : SRep st σ [] F) (T : KeyedStore σ) (oom : Addr → Bool) {p q : Place} {ms : List (Bytes × Value)} {k : Bytes} {w : Value} {l lq : Loc} {a : Addr}
    {junk : Bytes} (hp : σ.get p = some (.obj .object ms)) (hl : st.resolve p = some l) (hy : st.read l = some ⟨.object, .obj (some a)⟩) (hq : σ.get q = some w)
    (hlq : st.resolve q = some lq) (ha : Apart p q) :
    (∃ st', insertOrAssignMove oom junk st a k lq = .done st' ∧ Holds st' ((σ.set q (hollow junk w)).set p (.obj .object (putMember k w ms))) [] ∧
      ∀ r u lr, σ.get r = some u → ¬ Inside r p → ¬ Inside r q → r ≠ q → st.resolve r = some lr → st'.resolve r = some lr ∧ st'.read lr = st.read lr) ∨
    (∃ st', insertOrAssignMove oom junk st a k lq = .thrown st' ∧ (∃ a, oom a = true) ∧ Holds st' σ []) := by
  have hms : (σ.set q (hollow junk w)).get p = some (.obj .object ms) := by rw [get_set_other hq ha.symm, hp]
  cases hk : ms.lookup k with
  | none => exact H.insertMove T oom hp hl hy hq hlq ha.1 hms hk hk
  | some old =>
    left
    obtain ⟨xs, d2, _, _, hyes⟩ := H.member T hp hl hy
    obtain ⟨i, k1, k2⟩ := hyes k old hk
    have hgk : σ.get ⟨p.x, p.path ++ [.key k]⟩ = some old := by rw [get_key hp, hk]
    have had := apart_below ha (.key k)
    have hne : (⟨p.x, p.path ++ [.key k]⟩ : Place) ≠ q := ne_of had.1
    obtain ⟨st', e1, e2, e3⟩ := moveAssign_exact (junk := junk) H T hgk hq hne (not_inside_of had.1) (fun h => absurd ⟨h.1.symm, h.2.1⟩ had.2)
      (by rw [get_set_other hq had.symm, hgk]) k2 hlq
    have T1 := keyed_set T hq (keyed_hollow (keyed_get T hq) junk)
    simp only [insertOrAssignMove, d2, k1]
    refine ⟨st', e1, ?_, fun r u lr hr h1 h2 h3 hlr => e3 r u lr hr (fun h => h1 ?_) (fun h => h1 ?_) h2 h3 hlr⟩
    · rwa [set_key T1 hms, ← putMember_existing (keyed_get T hp).1 hk] at e2
    · exact ⟨h.1, (List.prefix_append _ _).trans h.2.1, fun e => by have := h.2.1.length_le; simp [e] at this; omega⟩
    · subst h; exact ⟨rfl, List.prefix_append _ _, by simp⟩

theorem hollow_next {ws1 ws2 : List (Bytes × Value)} {k : Bytes} {w : Value} {junk : Bytes → Bytes}
    (hs : (ws1 ++ (k, w) :: ws2).Pairwise fun a b => a.1 < b.1) :
    ((hollowMembers junk ws1 ++ (k, w) :: ws2).map fun m => if m.1 = k then (m.1, hollow (junk k) w) else m) = hollowMembers junk (ws1 ++ [(k, w)]) ++ ws2 := by
  rw [List.pairwise_append, List.pairwise_cons] at hs
  have h1 : ((hollowMembers junk ws1).map fun m => if m.1 = k then (m.1, hollow (junk k) w) else m) = hollowMembers junk ws1 := by
    conv => rhs; rw [← List.map_id (hollowMembers junk ws1)]
    refine List.map_congr_left fun m hm => if_neg fun e => ?_
    simp only [hollowMembers, List.mem_map] at hm
    obtain ⟨m', hm', rfl⟩ := hm
    have := hs.2.2 m' hm' (k, w) (by simp)
    simp only at e
    rw [e] at this
    exact bytes_irrefl _ this
  have h2 : (ws2.map fun m => if m.1 = k then (m.1, hollow (junk k) w) else m) = ws2 := by
    conv => rhs; rw [← List.map_id ws2]
    refine List.map_congr_left fun m hm => if_neg fun e => ?_
    have := hs.2.1.1 m hm
    rw [e] at this
    exact bytes_irrefl _ this
  rw [List.map_append, List.map_cons, h1, h2]
  simp [hollowMembers]

theorem keyed_hollowMembers {ws1 ws2 : List (Bytes × Value)} (h : Keyed (.obj .object (ws1 ++ ws2))) (junk : Bytes → Bytes) :
    Keyed (.obj .object (hollowMembers junk ws1 ++ ws2)) := by
  obtain ⟨h2, h3⟩ := h
  refine ⟨?_, keyedMembers_iff.2 fun m hm => ?_⟩
  · rw [List.pairwise_append] at h2 ⊢
    refine ⟨?_, h2.2.1, ?_⟩
    · rw [hollowMembers, List.pairwise_map]; exact h2.1
    · intro a ha b hb
      simp only [hollowMembers, List.mem_map] at ha
      obtain ⟨m, hm, rfl⟩ := ha
      exact h2.2.2 m hm b hb
  · rcases List.mem_append.1 hm with hm | hm
    · simp only [hollowMembers, List.mem_map] at hm
      obtain ⟨m, hm1, rfl⟩ := hm
      exact keyed_hollow (keyedMembers_iff.1 h3 m (List.mem_append_left _ hm1)) _
    · exact keyedMembers_iff.1 h3 m (by simp [hm])

/-- The loop of a merge that moves. -/
theorem mergeKeysMove_ends {σ : Store} (T : KeyedStore σ) (oom : Addr → Bool) {p s : Place} {v : Value} {ms ws : List (Bytes × Value)} {l ls : Loc} {a b : Addr}
    {junk : Bytes → Bytes} (hp : σ.get p = some v) (hv : Members v ms) (hs : σ.get s = some (.obj .object ws)) (ha : Apart p s) :
    ∀ {ws2 ws1 : List (Bytes × Value)} {st : State} {F : Nat → List Addr}, ws = ws1 ++ ws2 →
      SRep st ((σ.set s (.obj .object (hollowMembers junk ws1 ++ ws2))).set p (.obj .object (putMembers ws1 ms))) [] F →
      st.resolve p = some l → st.read l = some ⟨.object, .obj (some a)⟩ → st.resolve s = some ls → st.read ls = some ⟨.object, .obj (some b)⟩ →
      Ends oom σ (.mergeMove p s junk) ((σ.set s (.obj .object (hollowMembers junk ws))).set p (.obj .object (putMembers ws ms)))
        (mergeKeysMove oom junk a b st (ws2.map (·.1))) := by
  have ht := keyed_members hv (keyed_get T hp)
  have hts := keyed_get T hs
  have hsame : ∀ x, (σ.set s x).get p = some v := fun x => by rw [get_set_other hs ha.symm, hp]
  have hp1 : ∀ x y, ((σ.set s x).set p y).get p = some y := fun x y => get_set (hsame x)
  have hs1 : ∀ x y, ((σ.set s x).set p y).get s = some x := fun x y => by rw [get_set_other (hsame x) ha, get_set hs]
  intro ws2
  induction ws2 with
  | nil =>
    intro ws1 st F e H r1 r2 r3 r4
    rw [List.append_nil] at e H; subst e
    have T1 := keyed_set (keyed_set T hs (keyed_hollowMembers (ws2 := []) (by simpa using hts) junk)) (hsame _) (keyed_putMembers ht hts.2)
    rw [List.append_nil] at T1
    obtain ⟨xs, d2, _⟩ := H.member T1 (hs1 _ _) r3 r4
    simp only [List.map_nil, mergeKeysMove, d2, Option.isSome_some, if_true]
    exact ⟨F, H⟩
  | cons w ws2 ih =>
    intro ws1 st F e H r1 r2 r3 r4
    obtain ⟨k, w⟩ := w
    subst e
    have htw : KeyedMembers ws1 := keyedMembers_iff.2 fun m hm => keyedMembers_iff.1 hts.2 m (by simp [hm])
    have hth := keyed_hollowMembers hts junk
    have T1 := keyed_set (keyed_set T hs hth) (hsame _) (keyed_putMembers ht htw)
    obtain ⟨xs, d2, _, _, hyes⟩ := H.member T1 (hs1 _ _) r3 r4
    have hk : (hollowMembers junk ws1 ++ (k, w) :: ws2).lookup k = some w := lookup_of_mem hth.1 (by simp)
    obtain ⟨i, k1, k2⟩ := hyes k w hk
    simp only [List.map_cons, mergeKeysMove, d2, k1]
    have hgk := (get_key (k := k) (hs1 (.obj .object (hollowMembers junk ws1 ++ (k, w) :: ws2)) (.obj .object (putMembers ws1 ms)))).trans hk
    have hak := (apart_below ha.symm (.key k)).symm
    rcases H.putMove T1 oom (junk := junk k) (k := k) (hp1 _ _) r1 r2 hgk k2 hak with ⟨st', e1, ⟨F', e2⟩, e3⟩ | ⟨st', e1, e2, e3⟩
    · rw [e1]
      have hpp : putMember k w (putMembers ws1 ms) = putMembers (ws1 ++ [(k, w)]) ms := by rw [putMembers_append]; rfl
      rw [set_key T1 (hs1 _ _), hollow_next hts.1, set_comm ha, set_set, set_set, hpp] at e2
      have hr := e3 p _ l (hp1 _ _) (fun h => h.2.2 rfl) (not_inside_of hak.1) (ne_of hak.1) r1
      have hr' := e3 s _ ls (hs1 _ _) (fun h => ha.2 ⟨h.1.symm, h.2.1⟩) (fun h => by have := h.2.1.length_le; simp at this; omega)
        (fun h => by have := congrArg (·.path.length) h; simp at this) r3
      exact ih (by simp) e2 hr.1 (hr.2.trans r2) hr'.1 (hr'.2.trans r4)
    · rw [e1]
      exact ⟨e2, _, .mergeMove hp hv hs ha, e3⟩

theorem mergeMove_ends (H : SRep st σ [] F) (T : KeyedStore σ) (oom : Addr → Bool) {p s : Place} {v : Value} {ms ws : List (Bytes × Value)} {junk : Bytes → Bytes}
    (hp : σ.get p = some v) (hv : Members v ms) (hs : σ.get s = some (.obj .object ws)) (ha : Apart p s) :
    Ends oom σ (.mergeMove p s junk) ((σ.set s (.obj .object (hollowMembers junk ws))).set p (.obj .object (putMembers ws ms))) (step oom st (.mergeMove p s junk)) := by
  obtain ⟨l, _, _, p1, _⟩ := H.place T hp
  obtain ⟨ls, ys, _, s1, s2, s3, _⟩ := H.place T hs
  obtain ⟨b, _, _, rfl, _⟩ := s3
  simp only [step, p1, s1, constObject, s2, if_true]
  have ht := keyed_members hv (keyed_get T hp)
  rcases H.object T oom hp hv p1 _ with ⟨st', a, e1, ⟨F', e2⟩, e3, e4, e5, e6, e7⟩ | ⟨st', e1, e2, hh, e3⟩
  · rw [e1]
    have T' := keyed_set T hp ht
    have hrs := (e5 _ _ hs).trans s1
    have hds := (e7 _ _ _ hs (.inl (Ne.symm (ne_of ha.1))) s1).trans s2
    obtain ⟨xs, d2, d3, _⟩ := e2.member T' (by rw [get_set_other hp ha, hs]) hrs hds
    simp only [d2, d3]
    refine mergeKeysMove_ends T oom hp hv hs ha (ws1 := []) (F := F') rfl ?_ e3 e4 hrs hds
    show SRep st' ((σ.set s (.obj .object ws)).set p (.obj .object ms)) [] F'
    rwa [set_get T hs]
  · rw [e1]; exact ⟨e2, _, .tag rfl hp hh, e3⟩

/-! ### All statements -/

theorem step_ends (H : SRep st σ [] F) (T : KeyedStore σ) (oom : Addr → Bool) {op : Op} {σ' : Store} (h : Step σ op σ') : Ends oom σ op σ' (step oom st op) := by
  cases h with
  | init hx _ => exact init_ends H oom hx
  | copyInit hx hs hw => exact copyInit_ends H T oom hx hs hw
  | moveInit hx hs => exact moveInit_ends H T oom hx hs
  | copyAssign hd hs hw hin =>
    obtain ⟨ld, _, _, d1, _⟩ := H.place T hd
    obtain ⟨ls, _, _, s1, _⟩ := H.place T hs
    simp only [step, d1, s1]
    exact copyAssign_ends H T oom hd hs hw hin d1 s1
  | assign hd _ => exact assign_ends H T oom hd
  | moveAssign hd hs h1 h2 h3 => exact moveAssign_ends H T oom hd hs h1 h2 h3
  | moveAssignPart hd hs h1 h2 => exact moveAssignPart_ends H T oom hd hs h1 h2
  | moveAssignSelf hd => exact moveAssignSelf_ends H T oom hd
  | index hp hv => exact index_ends H T oom hp hv
  | emplaceBack hp hv hs hw hwh => exact emplaceBack_ends H T oom hp hv hs hw hwh (keyed_elems hv (keyed_get T hp))
  | emplaceKey hp hv hs hw hwh hin => exact emplaceKey_ends H T oom hp hv hs hw hwh hin
  | erasePos hp hv => exact erasePos_ends H T oom hp hv
  | eraseKey hp hv => exact eraseKey_ends H T oom hp hv
  | append hp hv hs hne hw hwh => exact append_ends H T oom hp hv hs hne hw hwh
  | merge hp hv hs ha hw => exact merge_ends H T oom hp hv hs ha hw
  | mergeSelf hp hne hw => exact mergeSelf_ends H T oom hp hne hw
  | asArray hp hv => exact asArray_ends H T oom hp hv
  | asObject hp hv => exact asObject_ends H T oom hp hv
  | emplaceBackMove hp hs hn hv he => exact emplaceBackMove_ends H T oom hp hs hn hv he
  | emplaceKeyMove hp hs hn hv he hk => exact emplaceKeyMove_ends H T oom hp hs hn hv he hk
  | emplaceKeyMoveOld hp hk h => exact emplaceKeyMoveOld_ends H T oom hp hk h
  | appendMove hp hs hn hv he => exact appendMove_ends H T oom hp hs hn hv he
  | mergeMove hp hv hs ha => exact mergeMove_ends H T oom hp hv hs ha
  | drop hx => exact drop_ends H oom hx

theorem keyed_append {vs ws : List Value} (h : Keyed (.arr .array vs)) (hw : Keyed (.arr .array ws)) : Keyed (.arr .array (vs ++ ws)) :=
  (keyedAll_iff.2 fun u hu => by
    rcases List.mem_append.1 hu with h' | h'
    · exact keyedAll_iff.1 h u h'
    · exact keyedAll_iff.1 hw u h')

theorem step_keyed (T : KeyedStore σ) {op : Op} {σ' : Store} (h : Step σ op σ') : KeyedStore σ' := by
  induction h with
  | init hx hv => exact keyed_put T (keyed_of_tagged hv)
  | copyInit hx hs hw => exact keyed_put T (keyed_get T hs)
  | moveInit hx hs => exact keyed_put (keyed_set T hs (keyed_hollow (keyed_get T hs) _)) (keyed_get T hs)
  | copyAssign hd hs hw hin => exact keyed_set T hd (keyed_get T hs)
  | assign hd hv => exact keyed_set T hd (keyed_of_tagged hv)
  | moveAssign hd hs h1 h2 h3 =>
    have ha := apart_of h1 h2 h3
    exact keyed_set (keyed_set T hs (keyed_hollow (keyed_get T hs) _))
      ((get_set_other hs ⟨fun ⟨e, h⟩ => ha.2 ⟨e.symm, h⟩, fun ⟨e, h⟩ => ha.1 ⟨e.symm, h⟩⟩).trans hd) (keyed_get T hs)
  | moveAssignPart hd hs h1 h2 => exact keyed_set T hd (keyed_get T hs)
  | moveAssignSelf hd =>
    refine keyed_set T hd ?_
    split
    · exact keyed_hollow (keyed_get T hd) _
    · exact keyed_get T hd
  | index hp hv =>
    have := keyed_members hv (keyed_get T hp)
    refine keyed_set T hp ?_
    split
    · exact this
    · exact keyed_putMember this _ (by trivial)
  | emplaceBack hp hv hs hw hwh =>
    have ht := keyed_elems hv (keyed_get T hp)
    exact keyed_set T hp (keyed_append ht ⟨keyed_get (keyed_set T hp ht) hw, trivial⟩)
  | emplaceKey hp hv hs hw hwh hin =>
    have ht := keyed_members hv (keyed_get T hp)
    exact keyed_set T hp (keyed_putMember ht _ (keyed_get (keyed_set T hp ht) hw))
  | erasePos hp hv =>
    have ht := keyed_elems hv (keyed_get T hp)
    exact keyed_set T hp (keyedAll_iff.2 fun u hu => keyedAll_iff.1 ht u (List.mem_of_mem_eraseIdx hu))
  | eraseKey hp hv =>
    have ht := keyed_members hv (keyed_get T hp)
    exact keyed_set T hp ⟨ht.1.filter _, keyedMembers_iff.2 fun u hu => keyedMembers_iff.1 ht.2 u ((List.mem_filter.1 hu).1)⟩
  | append hp hv hs hne hw hwh =>
    have ht := keyed_elems hv (keyed_get T hp)
    exact keyed_set T hp (keyed_append ht (keyed_get (keyed_set T hp ht) hw))
  | merge hp hv hs ha hw => exact keyed_set T hp (keyed_putMembers (keyed_members hv (keyed_get T hp)) (keyed_get T hs).2)
  | mergeSelf hp hne hw => exact T
  | asArray hp hv => exact keyed_set T hp (keyed_elems hv (keyed_get T hp))
  | asObject hp hv => exact keyed_set T hp (keyed_members hv (keyed_get T hp))
  | emplaceBackMove hp hs hn hv he =>
    have T1 := keyed_set T hs (keyed_hollow (keyed_get T hs) ‹_›)
    exact keyed_set T1 hv (keyed_append (keyed_elems he (keyed_get T1 hv)) ⟨keyed_get T hs, trivial⟩)
  | emplaceKeyMove hp hs hn hv he hk =>
    have T1 := keyed_set T hs (keyed_hollow (keyed_get T hs) ‹_›)
    exact keyed_set T1 hv (keyed_putMember (keyed_members he (keyed_get T1 hv)) _ (keyed_get T hs))
  | emplaceKeyMoveOld hp hk h ih => exact ih
  | appendMove hp hs hn hv he =>
    have T1 := keyed_set T hs (keyed_hollowElems (keyed_get T hs) ‹_›)
    exact keyed_set T1 hv (keyed_append (keyed_elems he (keyed_get T1 hv)) (keyed_get T hs))
  | mergeMove hp hv hs ha =>
    have T1 := keyed_set T hs (keyed_hollowMembers (ws2 := []) (by simpa using keyed_get T hs) ‹_›)
    rw [List.append_nil] at T1
    exact keyed_set T1 ((get_set_other hs ha.symm).trans hp) (keyed_putMembers (keyed_members hv (keyed_get T hp)) (keyed_get T hs).2)
  | drop hx => exact keyed_put_none T

theorem srep_init : SRep State.init Store.empty [] (fun _ => []) :=
  { absent := fun _ _ => ⟨rfl, rfl⟩
    rep := fun _ _ h => by cases h
    nodup := fun _ => List.nodup_nil
    disj := fun _ _ _ _ h => by cases h
    extra := List.nodup_nil
    off := fun _ _ h => by cases h
    lt := fun _ _ h => by cases h
    ltE := fun _ h => by cases h
    live := fun _ h => absurd rfl h }

theorem keyed_empty : KeyedStore Store.empty := fun _ _ h => by cases h

end

end Meojson.Mem
