import Verif.Proofs.HeapMove

/-! Appending and merging, and all statements together. -/

set_option autoImplicit false

namespace Meojson.Stores
open Mem

theorem putMembers_append (ws ws' ms : List (Bytes × Value)) : putMembers (ws ++ ws') ms = putMembers ws' (putMembers ws ms) := by
  simp [putMembers, List.foldl_append]

theorem keyed_putMembers {ws : List (Bytes × Value)} : ∀ {ms : List (Bytes × Value)}, Keyed (.obj .object ms) → KeyedMembers ws →
    Keyed (.obj .object (putMembers ws ms)) := by
  induction ws with
  | nil => intro ms h _; exact h
  | cons w ws ih => intro ms h hw; exact ih (keyed_putMember h w.1 hw.1) hw.2

/-- Members that are there already. -/
theorem putMember_same {ms : List (Bytes × Value)} (hs : ms.Pairwise fun a b => a.1 < b.1) {k : Bytes} {w : Value} (h : (k, w) ∈ ms) : putMember k w ms = ms := by
  induction ms with
  | nil => simp at h
  | cons m ms ih =>
    rw [List.pairwise_cons] at hs
    rcases List.mem_cons.1 h with rfl | h
    · have h1 : ms.filter (fun m => decide (m.1 < k)) = [] := by
        rw [List.filter_eq_nil_iff]; intro m hm; simpa using bytes_asymm (hs.1 m hm)
      have h2 : ms.filter (fun m => decide (k < m.1)) = ms := by
        rw [List.filter_eq_self]; intro m hm; simpa using hs.1 m hm
      simp [putMember, bytes_irrefl, h1, h2]
    · have := ih hs.2 h
      have hlt := hs.1 _ h
      simp only [putMember] at this ⊢
      simp [hlt, bytes_asymm hlt, this]

theorem putMembers_same {ms : List (Bytes × Value)} (hs : ms.Pairwise fun a b => a.1 < b.1) : ∀ {ws : List (Bytes × Value)}, (∀ w ∈ ws, w ∈ ms) → putMembers ws ms = ms := by
  intro ws
  induction ws with
  | nil => intro _; rfl
  | cons w ws ih =>
    intro h
    show putMembers ws (putMember w.1 w.2 ms) = ms
    rw [putMember_same hs (h w (by simp))]
    exact ih fun u hu => h u (by simp [hu])

theorem lookup_of_mem {ms : List (Bytes × Value)} (hs : ms.Pairwise fun a b => a.1 < b.1) {k : Bytes} {w : Value} (h : (k, w) ∈ ms) : ms.lookup k = some w := by
  induction ms with
  | nil => simp at h
  | cons m ms ih =>
    rw [List.pairwise_cons] at hs
    obtain ⟨k', u⟩ := m
    rcases List.mem_cons.1 h with h | h
    · cases h; simp
    · have hlt := hs.1 _ h
      have : (k == k') = false := by rw [beq_eq_false_iff_ne]; rintro rfl; exact bytes_irrefl _ hlt
      rw [List.lookup_cons, this]; exact ih hs.2 h

theorem wholeMembers_get {ms : List (Bytes × Value)} (h : WholeMembers ms) {k : Bytes} {v : Value} (hk : ms.lookup k = some v) : Whole v := by
  induction ms with
  | nil => simp at hk
  | cons m ms ih =>
    obtain ⟨k', u⟩ := m
    simp only [List.lookup_cons] at hk
    split at hk
    · cases hk; exact h.1
    · exact ih h.2 hk

theorem setAt_comm {a b : Value} : ∀ {p q : List Sel} {v : Value}, ¬ p <+: q → ¬ q <+: p → setAt (setAt v p a) q b = setAt (setAt v q b) p a
  | [], _, _, h, _ => absurd List.nil_prefix h
  | _ :: _, [], _, _, h => absurd List.nil_prefix h
  | s :: p, t :: q, v, h1, h2 => by
    have ih : s = t → ∀ u, setAt (setAt u p a) q b = setAt (setAt u q b) p a := fun e u => by
      subst e
      exact setAt_comm (fun h => h1 (List.prefix_cons_inj s |>.2 h)) fun h => h2 (List.prefix_cons_inj s |>.2 h)
    cases v with
    | str => cases s <;> cases t <;> rfl
    | arrNull => cases s <;> cases t <;> rfl
    | objNull => cases s <;> cases t <;> rfl
    | arr ty vs =>
      cases s with
      | key => cases t <;> rfl
      | pos i =>
        cases t with
        | key => rfl
        | pos j =>
          simp only [setAt]; congr 1
          apply List.ext_getElem?
          intro n
          simp only [List.getElem?_modify]
          by_cases e1 : i = n <;> by_cases e2 : j = n <;> simp [e1, e2]
          cases vs[n]? with
          | none => rfl
          | some u => simp [ih (by rw [e1, e2]) u]
    | obj ty ms =>
      cases s with
      | pos => cases t <;> rfl
      | key i =>
        cases t with
        | pos => rfl
        | key j =>
          simp only [setAt, List.map_map]; congr 1
          refine List.map_congr_left fun m _ => ?_
          obtain ⟨k, u⟩ := m
          simp only [Function.comp]
          by_cases e1 : k = i
          · by_cases e2 : k = j
            · simp [← e1, ← e2, ih (by rw [← e1, ← e2]) u]
            · subst e1; simp [e2]
          · by_cases e2 : k = j
            · subst e2; simp [e1]
            · simp [e1, e2]

theorem set_comm {σ : Store} {p q : Place} {a b : Value} (h : Apart p q) : (σ.set p a).set q b = (σ.set q b).set p a := by
  funext z
  simp only [Store.set, Store.put]
  by_cases e : p.x = q.x
  · by_cases hz : z = q.x
    · subst hz
      simp only [e, if_true]
      cases σ q.x with
      | none => rfl
      | some v => simp only [Option.map_some]; rw [setAt_comm (fun h' => h.2 ⟨e, h'⟩) fun h' => h.1 ⟨e, h'⟩]
    · simp [e, hz]
  · by_cases h1 : z = p.x <;> by_cases h2 : z = q.x <;> simp [h1, h2, e, Ne.symm e]

end Meojson.Stores

namespace Meojson.Mem
open Stores

theorem RepL.append {g : Cells} : ∀ {vs ws : List Value} {xs ys : List HVal} {A D : List Addr}, RepL g vs xs A → RepL g ws ys D →
    RepL g (vs ++ ws) (xs ++ ys) (A ++ D)
  | [], _, _, _, _, _, h1, h2 => by rw [h1.1, h1.2]; exact h2
  | v :: vs, ws, xs, ys, A, D, h1, h2 => by
    obtain ⟨z, zs, B, C, k1, k2, k3, k4⟩ := h1
    subst k1 k4
    exact ⟨z, zs ++ ys, B, C ++ D, rfl, k2, RepL.append k3 h2, by simp⟩

section
variable {st : State} {σ : Store} {F : Nat → List Addr}

theorem Rep.points {h : Cells} {v : Value} {x : HVal} {A : List Addr} (hr : Rep h v x A) {a : Addr} (hx : x.raw = .arr (some a) ∨ x.raw = .obj (some a)) : a ∈ A := by
  cases v with
  | str => rw [hr.1] at hx; simp at hx
  | arrNull => rw [hr.1] at hx; simp at hx
  | objNull => rw [hr.1] at hx; simp at hx
  | arr => obtain ⟨b, xs, B, e1, _, _, e4⟩ := hr; rw [e1] at hx; simp at hx; simp [e4, hx]
  | obj => obtain ⟨b, xs, B, e1, _, _, e4⟩ := hr; rw [e1] at hx; simp at hx; simp [e4, hx]

/-- Different places have different payloads. -/
theorem SRep.payload_ne' (H : SRep st σ [] F) (T : KeyedStore σ) {p q : Place} {w u : Value} {lp lq : Loc} {x y : HVal} {a b : Addr} (hp : σ.get p = some w)
    (hq : σ.get q = some u) (hlp : st.resolve p = some lp) (hlq : st.resolve q = some lq) (hx : st.read lp = some x) (hy : st.read lq = some y)
    (ha : x.raw = .arr (some a) ∨ x.raw = .obj (some a)) (hb : y.raw = .arr (some b) ∨ y.raw = .obj (some b)) (hne : q ≠ p) (hn : ¬ Inside q p) : a ≠ b := by
  obtain ⟨l1, x1, B, p1, p2, p3, p4, p5, p6, p7, p8⟩ := H.place T hp
  rw [hlp] at p1; cases p1
  rw [hx] at p2; cases p2
  have hlt := fun b hb => H.lt _ _ (p4 b hb)
  obtain ⟨⟨F', H'⟩, _⟩ := H.moved T [] hp hlp hx p3 p5 p6 hlt
  have hres : (st.write lp (x.movedFrom [])).resolve q = some lq :=
    (H.stable T (y' := x.movedFrom []) hp hlp hx p3 rfl (fun _ _ _ _ => rfl) hq hn).trans hlq
  have hrd : (st.write lp (x.movedFrom [])).read lq = some y := by
    rw [read_write_other (Ne.symm (H.elsewhere T hp hlp hx p3 hq hlq hn hne).1), hy]
  obtain ⟨u', hu'⟩ : ∃ u', (σ.set p (hollow [] w)).get q = some u' := by
    by_cases hi : Inside p q
    · obtain ⟨r, _, _, h⟩ := get_above (u := hollow [] w) T hq hi
      exact ⟨_, h⟩
    · exact ⟨u, by rw [get_set_other hp (apart_of (Ne.symm hne) hi hn), hq]⟩
  obtain ⟨l2, y2, C, q1, q2, q3, q4, _⟩ := H'.place (keyed_set T hp (keyed_hollow (keyed_get T hp) _)) hu'
  rw [hres] at q1; cases q1
  rw [hrd] at q2; cases q2
  intro e
  subst e
  exact H'.off _ _ (q4 _ (q3.points hb)) (p3.points ha)

theorem SRep.payload_ne (H : SRep st σ [] F) (T : KeyedStore σ) {p q : Place} {w u : Value} {lp lq : Loc} {x y : HVal} {a b : Addr} (hp : σ.get p = some w)
    (hq : σ.get q = some u) (hlp : st.resolve p = some lp) (hlq : st.resolve q = some lq) (hx : st.read lp = some x) (hy : st.read lq = some y)
    (ha : x.raw = .arr (some a) ∨ x.raw = .obj (some a)) (hb : y.raw = .arr (some b) ∨ y.raw = .obj (some b)) (hne : p ≠ q) : a ≠ b := by
  by_cases hn : Inside q p
  · refine Ne.symm (H.payload_ne' T hq hp hlq hlp hy hx hb ha hne fun h => ?_)
    exact hn.2.2 (h.2.1.eq_of_length (Nat.le_antisymm h.2.1.length_le hn.2.1.length_le))
  · exact H.payload_ne' T hp hq hlp hlq hx hy ha hb (Ne.symm hne) hn

theorem append_ends (H : SRep st σ [] F) (T : KeyedStore σ) (oom : Addr → Bool) {p s : Place} {v : Value} {vs us ws : List Value} (hp : σ.get p = some v)
    (hv : Elems v vs) (hs : σ.get s = some (.arr .array us)) (hne : p ≠ s) (hw : (σ.set p (.arr .array vs)).get s = some (.arr .array ws)) (hwh : WholeAll ws) :
    Ends oom σ (.append p s) (σ.set p (.arr .array (vs ++ ws))) (step oom st (.append p s)) := by
  obtain ⟨l, _, _, p1, _⟩ := H.place T hp
  obtain ⟨ls, ys, _, s1, s2, s3, _⟩ := H.place T hs
  obtain ⟨b, _, _, rfl, _⟩ := s3
  simp only [step, p1, s1, constArray, s2, if_true]
  have ht := keyed_elems hv (keyed_get T hp)
  rcases H.array T oom hp hv p1 _ with ⟨st', a, e1, ⟨F', e2⟩, e3, e4, e5, e6, e7⟩ | ⟨st', e1, e2, hh, e3⟩
  · rw [e1]
    have T' := keyed_set T hp ht
    have hp' := get_set (w' := .arr .array vs) hp
    have hrs := (e5 _ _ hs).trans s1
    have hds := (e7 _ _ _ hs (.inl (Ne.symm hne)) s1).trans s2
    have hab := e2.payload_ne T' hp' hw e3 hrs e4 hds (.inl rfl) (.inl rfl) hne
    obtain ⟨l', y, B, q1, q2, q3, q4, q5, q6, q7, q8⟩ := e2.place T' hp'
    rw [e3] at q1; cases q1
    rw [e4] at q2; cases q2
    obtain ⟨a', xs, C, d1, d2, d3, d4⟩ := q3
    simp at d1; subst d1 d4
    obtain ⟨l', y, B, r1, r2, r3, r4, r5, _⟩ := e2.place T' hw
    rw [hrs] at r1; cases r1
    rw [hds] at r2; cases r2
    obtain ⟨b', ys, C', c1, c2, c3, c4⟩ := r3
    simp at c1; subst c1 c4
    have hlt : ∀ c ∈ C', c < st'.heap.next := fun c hc => e2.lt _ _ (r4 c (by simp [hc]))
    have hcopy := c3.copy oom hwh e2.clean hlt (n := st'.heap.fuel) (Nat.lt_succ_of_le (nodup_length_le (List.nodup_cons.1 r5).2 hlt))
    simp only [appendArray, if_neg hab, d2, c2]
    cases hc : copyList (copyVal oom st'.heap.fuel) st'.heap ys with
    | ub => rw [hc] at hcopy; exact hcopy.elim
    | oom g => rw [hc] at hcopy; exact ⟨hcopy.2, _, e6 _ rfl, holds_grow e2 hcopy.1⟩
    | ok g zs =>
      rw [hc] at hcopy
      obtain ⟨D, f2, f3⟩ := hcopy
      have hold : ∀ c, c < st'.heap.next → g.cell c = st'.heap.cell c := fun c hc => f3.old c fun hD => by have := (f3.fresh c hD).1; omega
      have halt := e2.lt _ _ (q4 a (by simp))
      have hCa : ∀ c ∈ C, c ≠ a := fun c hc e => by subst e; exact (List.nodup_cons.1 q5).1 hc
      have hDa : ∀ c ∈ D, c ≠ a := fun c hc e => by have := (f3.fresh c hc).1; omega
      show Holds _ _ _
      rw [← set_set σ p (.arr .array vs)]
      refine (e2.remade T' (B' := a :: (C ++ D)) (st' := st'.withHeap (g.set a (some (.arr (xs ++ zs)))))
        hp' e3 e4 ⟨a, xs, C, rfl, d2, d3, rfl⟩ rfl f3.next ?_ ?_ ?_ ?_ ?_).1
      · intro c hc hcB
        show (if c = a then _ else g.cell c) = _
        rw [if_neg (fun e => hcB (by simp [e]))]; exact hold c hc
      · refine ⟨a, xs ++ zs, C ++ D, rfl, if_pos rfl, (d3.frame fun c hc => ?_).append (f2.frame fun c hc => ?_), rfl⟩
        · show (if c = a then _ else g.cell c) = _
          rw [if_neg (hCa c hc)]; exact hold c (e2.lt _ _ (q4 c (by simp [hc])))
        · show (if c = a then _ else g.cell c) = _
          rw [if_neg (hDa c hc)]
      · rw [List.nodup_cons, List.nodup_append, List.mem_append]
        refine ⟨?_, (List.nodup_cons.1 q5).2, f3.nodup, ?_⟩
        · rintro (h | h)
          · exact hCa _ h rfl
          · exact hDa _ h rfl
        · intro c hc d hd e
          subst e
          have := e2.lt _ _ (q4 c (by simp [hc])); have := (f3.fresh c hd).1; omega
      · intro b hb
        show _ ∧ b < g.next
        simp only [List.mem_cons, List.mem_append] at hb
        rcases hb with rfl | hb | hb
        · exact ⟨.inl (by simp), Nat.lt_of_lt_of_le halt f3.next⟩
        · exact ⟨.inl (by simp [hb]), Nat.lt_of_lt_of_le (e2.lt _ _ (q4 b (by simp [hb]))) f3.next⟩
        · exact ⟨.inr (f3.fresh b hb).1, (f3.fresh b hb).2⟩
      · rintro c (h | h) hne
        · simp only [List.mem_cons, List.mem_append] at h ⊢
          rcases h with h | h
          · exact .inl h
          · exact .inr (.inl h)
        · refine Classical.byContradiction fun hn => hne ?_
          simp only [List.mem_cons, List.mem_append, not_or] at hn
          show (if c = a then _ else g.cell c) = _
          rw [if_neg hn.1, f3.old c hn.2.2]; exact e2.clean c h
  · rw [e1]; exact ⟨e2, _, .tag rfl hp hh, e3⟩

/-- Where a member lies. -/
theorem SRep.member (H : SRep st σ [] F) (T : KeyedStore σ) {p : Place} {ms : List (Bytes × Value)} {l : Loc} {a : Addr} (hp : σ.get p = some (.obj .object ms))
    (hl : st.resolve p = some l) (hy : st.read l = some ⟨.object, .obj (some a)⟩) :
    ∃ xs, st.heap.cell a = some (.obj xs) ∧ xs.map (·.1) = ms.map (·.1) ∧ (∀ k, ms.lookup k = none → keyIndex k xs = none) ∧
      ∀ k w, ms.lookup k = some w → ∃ i, keyIndex k xs = some i ∧ st.resolve ⟨p.x, p.path ++ [.key k]⟩ = some (.child a i) := by
  obtain ⟨l', y, B, q1, q2, q3, _⟩ := H.place T hp
  rw [hl] at q1; cases q1
  rw [hy] at q2; cases q2
  obtain ⟨a', xs, C, d1, d2, d3, d4⟩ := q3
  simp at d1; subst d1
  have hs := (keyed_get T hp).1
  refine ⟨xs, d2, d3.keys, fun k hk => keyIndex_absent hs d3.keys hk, fun k w hk => ?_⟩
  obtain ⟨i, k1, _⟩ := keyIndex_of_lookup hs d3.keys hk
  refine ⟨i, k1, ?_⟩
  obtain ⟨v0, hv0, _⟩ := get_some hp
  obtain ⟨x0, hx0, _⟩ := H.rep _ _ hv0
  rw [resolve_of hx0] at hl
  simp only [State.resolve, State.read, hx0, Option.bind_some]
  rw [locate_append, hl]
  simp only [Option.bind_some, State.locate, hy, State.part, d2, k1, Option.map_some]

/-- Putting a copy of the value at `q` into the object at `p`. -/
theorem SRep.put (H : SRep st σ [] F) (T : KeyedStore σ) (oom : Addr → Bool) {p q : Place} {ms : List (Bytes × Value)} {k : Bytes} {w : Value} {l lq : Loc} {a : Addr}
    (hp : σ.get p = some (.obj .object ms)) (hl : st.resolve p = some l) (hy : st.read l = some ⟨.object, .obj (some a)⟩) (hq : σ.get q = some w)
    (hlq : st.resolve q = some lq) (hw : Whole w) (hin : ∀ old, ms.lookup k = some old → Inside ⟨p.x, p.path ++ [.key k]⟩ q → old.type = w.type) :
    (∃ st', insertOrAssign oom st a k lq = .done st' ∧ Holds st' (σ.set p (.obj .object (putMember k w ms))) [] ∧
      ∀ r u lr, σ.get r = some u → ¬ Inside r p → st.resolve r = some lr → st'.resolve r = some lr ∧ st'.read lr = st.read lr) ∨
    (∃ st', insertOrAssign oom st a k lq = .thrown st' ∧ (∃ a, oom a = true) ∧ (Holds st' σ [] ∨
      ∃ old, ms.lookup k = some old ∧ Holds st' (σ.set p (.obj .object (putMember k (old.setType w.type) ms))) [])) := by
  obtain ⟨xs, d2, _, hno, hyes⟩ := H.member T hp hl hy
  have hs := (keyed_get T hp).1
  simp only [insertOrAssign, d2]
  cases hk : ms.lookup k with
  | none =>
    simp only [hno k hk]
    rcases H.copied T oom hq hw hlq _ with ⟨g, x, D, f1, f2, f3⟩ | ⟨g, f1, f2, f3⟩
    · rw [f1]
      obtain ⟨xs', g1, _, g3, g4, g5⟩ := H.inserted T hp hl hy hk f2 f3
      refine .inl ⟨_, ?_, g4, g5⟩
      show (match g.cell a with | some (.obj ms) => _ | _ => _) = _
      rw [g1]; rfl
    · rw [f1]; exact .inr ⟨_, rfl, f3, .inl (holds_grow H f2)⟩
  | some old =>
    obtain ⟨i, k1, hrk⟩ := hyes k old hk
    simp only [k1]
    have hgk : σ.get ⟨p.x, p.path ++ [.key k]⟩ = some old := by rw [get_key hp, hk]
    rcases copyAssign_exact H T oom hgk hq hw (hin old hk) hrk hlq with ⟨st', e1, e2, e3⟩ | ⟨st', e1, e2, e3⟩
    · rw [set_key T hp, ← putMember_existing hs hk] at e2
      refine .inl ⟨st', e1, e2, fun r u lr hr hn hlr => e3 r u lr hr (fun h => hn ?_) (fun h => hn ?_) hlr⟩
      · exact ⟨h.1, (List.prefix_append _ _).trans h.2.1, fun e => by have := h.2.1.length_le; simp [e] at this; omega⟩
      · subst h; exact ⟨rfl, List.prefix_append _ _, by simp⟩
    · rw [set_key T hp, ← putMember_existing hs hk] at e3
      exact .inr ⟨st', e1, e2, .inr ⟨old, rfl, e3⟩⟩

/-- The loop of a merge. -/
theorem mergeKeys_ends {σ : Store} (T : KeyedStore σ) (oom : Addr → Bool) {p s : Place} {v : Value} {ms ws : List (Bytes × Value)} {l ls : Loc} {a b : Addr}
    (hp : σ.get p = some v) (hv : Members v ms) (hs : σ.get s = some (.obj .object ws)) (hwh : WholeMembers ws) (hin : ¬ Inside s p)
    (hinv : ∀ ws1 ws2, ws = ws1 ++ ws2 → (σ.set p (.obj .object (putMembers ws1 ms))).get s = some (.obj .object ws))
    (hkey : ∀ k, ¬ Inside ⟨p.x, p.path ++ [.key k]⟩ ⟨s.x, s.path ++ [.key k]⟩) :
    ∀ {ws2 ws1 : List (Bytes × Value)} {st : State} {F : Nat → List Addr}, ws = ws1 ++ ws2 → SRep st (σ.set p (.obj .object (putMembers ws1 ms))) [] F →
      st.resolve p = some l → st.read l = some ⟨.object, .obj (some a)⟩ → st.resolve s = some ls → st.read ls = some ⟨.object, .obj (some b)⟩ →
      Ends oom σ (.merge p s) (σ.set p (.obj .object (putMembers ws ms))) (mergeKeys oom a b st (ws2.map (·.1))) := by
  have ht := keyed_members hv (keyed_get T hp)
  have hts := keyed_get T hs
  intro ws2
  induction ws2 with
  | nil =>
    intro ws1 st F e H r1 r2 r3 r4
    rw [List.append_nil] at e; subst e
    have T1 := keyed_set T hp (keyed_putMembers ht hts.2)
    obtain ⟨xs, d2, _⟩ := H.member T1 (hinv _ [] (by simp)) r3 r4
    simp only [List.map_nil, mergeKeys, d2, Option.isSome_some, if_true]
    exact ⟨F, H⟩
  | cons w ws2 ih =>
    intro ws1 st F e H r1 r2 r3 r4
    obtain ⟨k, w⟩ := w
    have htw : KeyedMembers ws1 := keyedMembers_iff.2 fun m hm => keyedMembers_iff.1 hts.2 m (by simp [e, hm])
    have T1 := keyed_set T hp (keyed_putMembers ht htw)
    have hp1 := get_set (w' := .obj .object (putMembers ws1 ms)) hp
    have hs1 := hinv _ _ e
    obtain ⟨xs, d2, _, _, hyes⟩ := H.member T1 hs1 r3 r4
    have hk : ws.lookup k = some w := lookup_of_mem hts.1 (by simp [e])
    have hwk : Whole w := wholeMembers_get hwh hk
    obtain ⟨i, k1, k2⟩ := hyes k w hk
    simp only [List.map_cons, mergeKeys, d2, k1]
    have hgk : (σ.set p (.obj .object (putMembers ws1 ms))).get ⟨s.x, s.path ++ [.key k]⟩ = some w := by rw [get_key hs1, hk]
    rcases H.put T1 oom hp1 r1 r2 hgk k2 hwk (fun _ _ h => absurd h (hkey k)) with ⟨st', e1, ⟨F', e2⟩, e3⟩ | ⟨st', e1, e2, e3⟩
    · rw [e1]
      have hpp : putMember k w (putMembers ws1 ms) = putMembers (ws1 ++ [(k, w)]) ms := by rw [putMembers_append]; rfl
      rw [set_set, hpp] at e2
      have hr := e3 p _ l hp1 (fun h => h.2.2 rfl) r1
      have hr' := e3 s _ ls hs1 hin r3
      exact ih (by simp [e]) e2 hr.1 (hr.2.trans r2) hr'.1 (hr'.2.trans r4)
    · rw [e1]
      subst e
      rcases e3 with e3 | ⟨old, ho, e3⟩
      · exact ⟨e2, _, .merge hp hv hs, e3⟩
      · rw [set_set] at e3
        exact ⟨e2, _, .mergeTag hp hv hs ho, e3⟩

theorem merge_core (H : SRep st σ [] F) (T : KeyedStore σ) (oom : Addr → Bool) {p s : Place} {v : Value} {ms ws : List (Bytes × Value)} (hp : σ.get p = some v)
    (hv : Members v ms) (hs : σ.get s = some (.obj .object ws)) (hwh : WholeMembers ws) (hne : s ≠ p ∨ ¬ Hollowable v) (hin : ¬ Inside s p)
    (hinv : ∀ ws1 ws2, ws = ws1 ++ ws2 → (σ.set p (.obj .object (putMembers ws1 ms))).get s = some (.obj .object ws))
    (hkey : ∀ k, ¬ Inside ⟨p.x, p.path ++ [.key k]⟩ ⟨s.x, s.path ++ [.key k]⟩) :
    Ends oom σ (.merge p s) (σ.set p (.obj .object (putMembers ws ms))) (step oom st (.merge p s)) := by
  obtain ⟨l, _, _, p1, _⟩ := H.place T hp
  obtain ⟨ls, ys, _, s1, s2, s3, _⟩ := H.place T hs
  obtain ⟨b, _, _, rfl, _⟩ := s3
  simp only [step, p1, s1, constObject, s2, if_true]
  have ht := keyed_members hv (keyed_get T hp)
  rcases H.object T oom hp hv p1 _ with ⟨st', a, e1, ⟨F', e2⟩, e3, e4, e5, e6, e7⟩ | ⟨st', e1, e2, hh, e3⟩
  · rw [e1]
    have T' := keyed_set T hp ht
    have hrs := (e5 _ _ hs).trans s1
    have hds := (e7 _ _ _ hs hne s1).trans s2
    obtain ⟨xs, d2, d3, _⟩ := e2.member T' (hinv [] ws rfl) hrs hds
    simp only [d2, d3]
    exact mergeKeys_ends T oom hp hv hs hwh hin hinv hkey (ws1 := []) rfl e2 e3 e4 hrs hds
  · rw [e1]; exact ⟨e2, _, .tag rfl hp hh, e3⟩

theorem merge_ends (H : SRep st σ [] F) (T : KeyedStore σ) (oom : Addr → Bool) {p s : Place} {v : Value} {ms ws : List (Bytes × Value)} (hp : σ.get p = some v)
    (hv : Members v ms) (hs : σ.get s = some (.obj .object ws)) (ha : Apart p s) (hwh : WholeMembers ws) :
    Ends oom σ (.merge p s) (σ.set p (.obj .object (putMembers ws ms))) (step oom st (.merge p s)) := by
  refine merge_core H T oom hp hv hs hwh (.inl fun e => ha.1 (by subst e; exact ⟨rfl, List.prefix_refl _⟩)) (fun h => ha.2 ⟨h.1.symm, h.2.1⟩)
    (fun ws1 ws2 _ => by rw [get_set_other hp ha, hs]) fun k h => ?_
  obtain ⟨h1, h2, h3⟩ := h
  rcases List.prefix_concat_iff.1 h2 with h | h
  · exact h3 h.symm
  · exact ha.1 ⟨h1, (List.prefix_append _ _).trans h⟩

theorem mergeSelf_ends (H : SRep st σ [] F) (T : KeyedStore σ) (oom : Addr → Bool) {p : Place} {ms : List (Bytes × Value)} (hp : σ.get p = some (.obj .object ms))
    (hne : ms ≠ []) (hwh : WholeMembers ms) : Ends oom σ (.merge p p) σ (step oom st (.merge p p)) := by
  have hs := (keyed_get T hp).1
  have := merge_core H T oom hp (.inr rfl) hp hwh (.inr fun h => by cases h; exact hne rfl) (fun h => h.2.2 rfl)
    (fun ws1 ws2 e => by rw [putMembers_same hs fun w hw => by simp [e, hw], set_get T hp, hp]) fun k h => h.2.2 rfl
  rwa [putMembers_same hs fun w hw => hw, set_get T hp] at this

end

end Meojson.Mem
