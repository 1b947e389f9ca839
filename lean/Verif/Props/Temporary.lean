import Verif.Model.Temporary
import Verif.Props.Reference

/-!
# C85: what an expression hands out can be used in the next statement
-/

set_option autoImplicit false

namespace Meojson
open Mem Stores

/-- All statements complete. -/
inductive Runs : Store → List Op → Store → Prop
  | nil {σ} : Runs σ [] σ
  | cons {σ op σ' ops σ''} : Step σ op σ' → Runs σ' ops σ'' → Runs σ (op :: ops) σ''

/-- The expression denotes something: a value or an object with a value in it; for an expression of type array or object, an array or object. -/
def Found (σ : Store) (e : Denotes) : Prop :=
  match e.kind with
  | .array => ∃ vs, σ.get e.place = some (.arr .array vs)
  | .object => ∃ ms, σ.get e.place = some (.obj .object ms)
  | _ => (σ.get e.place).isSome

/-- `auto&& r = e;`, after any history, where `e` compiles and all its accessors find what they look for: what `r` denotes is there afterwards. -/
def C85Claim : Prop :=
  ∀ (pre : List Op) (σ σ' : Store) (s : Start) (as : List Accessor) (ops : List Op) (e : Denotes), Steps Store.empty pre σ → (∀ k c x, s = .name k c x → (σ x).isSome) →
    chain s.denotes as = some (ops, e) → Runs σ (s.ops ++ ops) σ' → Found σ' e →
    ∃ st st' st'' t, run ample State.init pre = .done st ∧ run ample st (s.ops ++ ops) = .done st' ∧ st'.target e = some t ∧ run ample st' ((ended s as e).map .drop) = .done st'' ∧
      st''.there t = true

/-! ### Which objects are destroyed -/

private theorem runs_steps : ∀ {ops : List Op} {σ σ' : Store}, Runs σ ops σ' → Steps σ ops σ'
  | _, _, _, .nil => .nil
  | _, _, _, .cons h1 h2 => .cons h1 (runs_steps h2)

private theorem runs_append : ∀ {ops rest : List Op} {σ σ'' : Store}, Runs σ (ops ++ rest) σ'' → ∃ σ', Runs σ ops σ' ∧ Runs σ' rest σ''
  | [], _, _, _, h => ⟨_, .nil, h⟩
  | _ :: _, _, _, _, .cons h1 h2 => by
    obtain ⟨σ', h3, h4⟩ := runs_append h2
    exact ⟨σ', .cons h1 h3, h4⟩

private theorem set_dom {σ : Store} {p : Place} {v : Value} {y : Nat} (h : (σ y).isSome) : ((σ.set p v) y).isSome := by
  simp only [Store.set, Store.put]
  split
  · next e => subst e; simpa using h
  · exact h

/-- One accessor: what it adds. -/
private theorem apply_makes {a : Accessor} {e e' : Denotes} {ops : List Op} {σ σ' : Store} (h : a.apply e = some (ops, e')) (hr : Runs σ ops σ') :
    (∀ y, (σ y).isSome → (σ' y).isSome) ∧ (∀ y ∈ a.makes, σ y = none ∧ (σ' y).isSome) ∧ a.makes.Nodup ∧
    (a.makes = [] → e'.place.x = e.place.x ∧ e'.fresh = false) ∧ (a.makes ≠ [] → e'.place.x ∈ a.makes ∧ e'.fresh = true) := by
  have none' : ∀ {σ σ' : Store}, Runs σ [] σ' → σ' = σ := by intro σ σ' h; cases h; rfl
  have one : ∀ {σ σ' : Store} {op : Op}, Runs σ [op] σ' → Step σ op σ' := by intro σ σ' op h; cases h with | cons h1 h2 => cases h2; exact h1
  have asA : ∀ {p : Place}, Runs σ [.asArray p] σ' → ∀ y, (σ y).isSome → (σ' y).isSome := by
    intro p h y hy; cases one h; exact set_dom hy
  have asO : ∀ {p : Place}, Runs σ [.asObject p] σ' → ∀ y, (σ y).isSome → (σ' y).isSome := by
    intro p h y hy; cases one h; exact set_dom hy
  have ix : ∀ {p : Place} {k : Bytes}, Runs σ [.index p k] σ' → ∀ y, (σ y).isSome → (σ' y).isSome := by
    intro p k h y hy; cases one h; exact set_dom hy
  have cp : ∀ {x : Nat} {p : Place}, Runs σ [.copyInit x p] σ' → σ x = none ∧ (σ' x).isSome ∧ ∀ y, (σ y).isSome → (σ' y).isSome := by
    intro x p h
    cases one h with
    | copyInit h1 h2 h3 =>
      refine ⟨h1, by simp [Store.put], fun y hy => ?_⟩
      simp only [Store.put]; split
      · rfl
      · exact hy
  cases a with
  | get s =>
    simp only [Accessor.apply] at h
    split at h <;> simp at h
    all_goals (obtain ⟨rfl, rfl⟩ := h; obtain rfl := none' hr; simp [Accessor.makes, Place.sub])
  | index s =>
    simp only [Accessor.apply] at h
    split at h <;> simp at h
    all_goals (obtain ⟨rfl, rfl⟩ := h)
    all_goals first
      | (obtain rfl := none' hr; simp [Accessor.makes, Place.sub]; done)
      | (refine ⟨asA hr, ?_⟩; simp [Accessor.makes, Place.sub]; done)
      | (refine ⟨ix hr, ?_⟩; simp [Accessor.makes, Place.sub])
  | asArray =>
    simp only [Accessor.apply] at h
    split at h <;> simp at h
    obtain ⟨rfl, rfl⟩ := h
    split at hr
    · obtain rfl := none' hr; simp [Accessor.makes]
    · refine ⟨asA hr, ?_⟩; simp [Accessor.makes]
  | asObject =>
    simp only [Accessor.apply] at h
    split at h <;> simp at h
    obtain ⟨rfl, rfl⟩ := h
    split at hr
    · obtain rfl := none' hr; simp [Accessor.makes]
    · refine ⟨asO hr, ?_⟩; simp [Accessor.makes]
  | findValue s =>
    simp only [Accessor.apply] at h
    split at h <;> simp at h
    all_goals (obtain ⟨rfl, rfl⟩ := h; obtain rfl := none' hr; simp [Accessor.makes, Place.sub])
  | find s x =>
    simp only [Accessor.apply] at h
    split at h <;> simp at h
    all_goals
      obtain ⟨rfl, rfl⟩ := h
      obtain ⟨h1, h2, h3⟩ := cp hr
      exact ⟨h3, by simp [Accessor.makes, h1, h2], by simp [Accessor.makes], by simp [Accessor.makes], by simp [Accessor.makes]⟩
  | star =>
    simp only [Accessor.apply] at h
    split at h <;> simp at h
    all_goals (obtain ⟨rfl, rfl⟩ := h; obtain rfl := none' hr; simp [Accessor.makes])
  | copy x =>
    simp only [Accessor.apply] at h
    split at h <;> simp at h
    obtain ⟨rfl, rfl⟩ := h
    obtain ⟨h1, h2, h3⟩ := cp hr
    exact ⟨h3, by simp [Accessor.makes, h1, h2], by simp [Accessor.makes], by simp [Accessor.makes], by simp [Accessor.makes]⟩

private theorem chain_makes : ∀ {as : List Accessor} {e e' : Denotes} {ops : List Op} {σ σ' : Store}, chain e as = some (ops, e') → Runs σ ops σ' →
    (∀ y, (σ y).isSome → (σ' y).isSome) ∧ (∀ y ∈ as.flatMap Accessor.makes, σ y = none ∧ (σ' y).isSome) ∧ (as.flatMap Accessor.makes).Nodup ∧
    ((∀ a ∈ as, a.makes = []) → e'.place.x = e.place.x) ∧ ((∃ a ∈ as, a.makes ≠ []) → e'.place.x ∈ as.flatMap Accessor.makes) ∧
    (∀ a, as.getLast? = some a → (e'.fresh = true ↔ a.makes ≠ [])) ∧ (as = [] → e' = e)
  | [], e, e', ops, σ, σ', h, hr => by
    simp [chain] at h
    obtain ⟨rfl, rfl⟩ := h
    cases hr
    simp
  | a :: as, e, e', ops, σ, σ', h, hr => by
    simp only [chain] at h
    obtain ⟨⟨o1, e1⟩, h1, h⟩ := Option.bind_eq_some_iff.1 h
    obtain ⟨⟨o2, e2⟩, h2, h⟩ := Option.map_eq_some_iff.1 h
    simp at h
    obtain ⟨rfl, rfl⟩ := h
    obtain ⟨σ1, r1, r2⟩ := runs_append hr
    obtain ⟨p1, p2, p3, p4, p5⟩ := apply_makes h1 r1
    obtain ⟨q1, q2, q3, q4, q5, q6, q7⟩ := chain_makes h2 r2
    refine ⟨fun y hy => q1 y (p1 y hy), ?_, ?_, ?_, ?_, ?_, by simp⟩
    · intro y hy
      rw [List.flatMap_cons, List.mem_append] at hy
      rcases hy with hy | hy
      · exact ⟨(p2 y hy).1, q1 y (p2 y hy).2⟩
      · refine ⟨?_, (q2 y hy).2⟩
        cases hn : σ y with
        | none => rfl
        | some v => have := p1 y (by simp [hn]); rw [(q2 y hy).1] at this; simp at this
    · rw [List.flatMap_cons, List.nodup_append]
      refine ⟨p3, q3, ?_⟩
      rintro y hy z hz rfl
      have := (p2 y hy).2
      rw [(q2 y hz).1] at this
      simp at this
    · intro hall
      rw [q4 fun b hb => hall b (by simp [hb])]
      exact (p4 (hall a (by simp))).1
    · rintro ⟨b, hb, hne⟩
      rw [List.flatMap_cons, List.mem_append]
      by_cases hex : ∃ c ∈ as, c.makes ≠ []
      · exact .inr (q5 hex)
      · have hall : ∀ c ∈ as, c.makes = [] := fun c hc => Classical.byContradiction fun h => hex ⟨c, hc, h⟩
        have hba : b = a := by
          rcases List.mem_cons.1 hb with h | h
          · exact h
          · exact absurd (hall b h) hne
        subst hba
        rw [q4 hall]
        exact .inl (p5 hne).1
    · intro b hb
      cases as with
      | nil =>
        simp at hb
        subst hb
        rw [q7 rfl]
        cases hm : a.makes with
        | nil => simp [(p4 hm).2]
        | cons x l => simp [(p5 (by simp [hm])).2]
      | cons c as => exact q6 b (by simpa [List.getLast?_cons_cons] using hb)

/-- An expression whose result outlives it: it is an object itself, or no step creates an object. -/
def Lasting (s : Start) (as : List Accessor) : Prop :=
  as = [] ∨ (∃ i x, as.getLast? = some (.find i x)) ∨ (∃ x, as.getLast? = some (.copy x)) ∨
    ((∃ k c x, s = .name k c x) ∧ ∀ a ∈ as, (∀ i x, a ≠ .find i x) ∧ ∀ x, a ≠ .copy x)

private theorem makes_nil (a : Accessor) : a.makes = [] ↔ (∀ i x, a ≠ .find i x) ∧ ∀ x, a ≠ .copy x := by cases a <;> simp [Accessor.makes]

private theorem ended_spec {s : Start} {as : List Accessor} {e : Denotes} {ops : List Op} {σ σ' : Store} (hs : ∀ k c x, s = .name k c x → (σ x).isSome)
    (hc : chain s.denotes as = some (ops, e)) (hr : Runs σ (s.ops ++ ops) σ') :
    (ended s as e).Nodup ∧ (∀ x ∈ ended s as e, (σ' x).isSome) ∧ (e.place.x ∉ ended s as e ↔ Lasting s as) := by
  obtain ⟨σ1, r1, r2⟩ := runs_append hr
  obtain ⟨q1, q2, q3, q4, q5, q6, q7⟩ := chain_makes hc r2
  have start : s.makes.Nodup ∧ (∀ x ∈ s.makes, (σ1 x).isSome) := by
    cases s with
    | name => simp [Start.makes]
    | call k x v =>
      simp only [Start.ops] at r1
      cases r1 with
      | cons h1 h2 => cases h2; cases h1; simp [Start.makes, Store.put]
  have disj : ∀ y ∈ s.makes, y ∉ as.flatMap Accessor.makes := by
    intro y hy hy'
    have := start.2 y hy
    rw [(q2 y hy').1] at this
    simp at this
  refine ⟨?_, ?_, ?_⟩
  · refine (List.reverse_perm _).nodup_iff.2 (List.Pairwise.filter _ ?_)
    show List.Nodup _
    rw [List.nodup_append]
    exact ⟨start.1, q3, fun y hy z hz h => disj y hy (h ▸ hz)⟩
  · intro x hx
    simp only [ended, List.mem_reverse, List.mem_filter, List.mem_append] at hx
    rcases hx.1 with h | h
    · exact q1 x (start.2 x h)
    · exact (q2 x h).2
  · have mem : e.place.x ∈ ended s as e ↔ e.place.x ∈ s.makes ++ as.flatMap Accessor.makes ∧ e.fresh = false := by
      simp only [ended, List.mem_reverse, List.mem_filter]
      cases e.fresh <;> simp
    rw [mem]
    cases hl : as.getLast? with
    | none =>
      have : as = [] := by simpa using hl
      subst this
      have := q7 rfl
      subst this
      constructor
      · exact fun _ => .inl rfl
      · intro _ h
        cases s <;> simp [Start.makes, Start.denotes] at h
    | some a =>
      have hne : as ≠ [] := by rintro rfl; simp at hl
      have hf := q6 a hl
      by_cases ha : a.makes = []
      · have hfr : e.fresh = false := by cases h : e.fresh with | false => rfl | true => exact absurd ha (hf.1 h)
        have hn : ¬ ((∃ i x, as.getLast? = some (Accessor.find i x)) ∨ ∃ x, as.getLast? = some (Accessor.copy x)) := by
          rw [hl]
          rintro (⟨i, x, h⟩ | ⟨x, h⟩) <;> cases h <;> simp [Accessor.makes] at ha
        simp only [hfr, and_true]
        constructor
        · intro hnot
          refine .inr (.inr (.inr ⟨?_, ?_⟩))
          · cases s with
            | name k c x => exact ⟨k, c, x, rfl⟩
            | call k x v =>
              exfalso; apply hnot
              rw [List.mem_append]
              by_cases hex : ∃ c ∈ as, c.makes ≠ []
              · exact .inr (q5 hex)
              · left
                rw [q4 fun c hc => Classical.byContradiction fun h => hex ⟨c, hc, h⟩]
                simp [Start.denotes, Start.makes]
          · intro b hb
            rw [← makes_nil]
            exact Classical.byContradiction fun h => hnot (List.mem_append_right _ (q5 ⟨b, hb, h⟩))
        · rintro (h | h | h | ⟨⟨k, c, x, rfl⟩, hall⟩) hin
          · exact hne h
          · exact hn (.inl h)
          · exact hn (.inr h)
          · have hz : ∀ b ∈ as, b.makes = [] := fun b hb => (makes_nil b).2 (hall b hb)
            have : as.flatMap Accessor.makes = [] := by simpa using hz
            simp [Start.makes, this] at hin
      · have hfr : e.fresh = true := hf.2 ha
        simp only [hfr]
        constructor
        · intro _
          cases a <;> simp [Accessor.makes] at ha
          · exact .inr (.inl ⟨_, _, hl⟩)
          · exact .inr (.inr (.inl ⟨_, hl⟩))
        · simp

/-! ### What that does in memory -/

/-- Objects are destroyed: their cells are gone, the others are as before. -/
private theorem drops_effect : ∀ {xs : List Nat} {st : State} {σ : Store} {F : Nat → List Nat}, SRep st σ [] F → xs.Nodup → (∀ x ∈ xs, (σ x).isSome) →
    ∃ st', run ample st (xs.map .drop) = .done st' ∧ (∀ x ∈ xs, st'.var x = none) ∧ (∀ x, x ∉ xs → st'.var x = st.var x) ∧
      (∀ a, (∃ x ∈ xs, a ∈ F x) → st'.heap.cell a = none) ∧ (∀ a, (∀ x ∈ xs, a ∉ F x) → st'.heap.cell a = st.heap.cell a) ∧ st'.heap.next = st.heap.next
  | [], st, σ, F, H, _, _ => ⟨st, rfl, by simp, by simp, by simp, by simp, rfl⟩
  | x :: xs, st, σ, F, H, nd, hx => by
    obtain ⟨v, hv⟩ := Option.isSome_iff_exists.1 (hx x (by simp))
    obtain ⟨h, h1, h2⟩ := H.rep x v hv
    obtain ⟨g, g1, g2⟩ := h2.destroy (H.nodup x) (n := st.heap.fuel) (Nat.lt_succ_of_le (nodup_length_le (H.nodup x) (H.lt x)))
    rw [List.nodup_cons] at nd
    have hs : step ample st (.drop x) = .done ⟨g, fun y => if y = x then none else st.var y⟩ := by
      simp only [step, h1, dispose, g1]; rfl
    have hold : ∀ y, y ≠ x → ∀ a ∈ F y, g.cell a = st.heap.cell a := fun y hy a ha => by rw [g2.2, if_neg (H.disj y x hy a ha)]
    have H1 : SRep ⟨g, fun y => if y = x then none else st.var y⟩ (σ.put x none) [] (fun y => if y = x then [] else F y) := by
      constructor
      · intro z hz
        by_cases e : z = x
        · simp [e]
        · simp only [Store.put, e, if_false] at hz ⊢; exact H.absent z hz
      · intro z u hz
        by_cases e : z = x
        · subst e; simp [Store.put] at hz
        · simp only [Store.put, e, if_false] at hz ⊢
          obtain ⟨k, k1, k2⟩ := H.rep z u hz
          exact ⟨k, k1, k2.frame (hold z e)⟩
      · intro z; by_cases e : z = x
        · simp [e]
        · simp only [e, if_false]; exact H.nodup z
      · intro y z hyz a ha
        by_cases e1 : y = x
        · simp [e1] at ha
        · by_cases e2 : z = x
          · simp [e2]
          · simp only [e1, e2, if_false] at ha ⊢; exact H.disj y z hyz a ha
      · exact List.nodup_nil
      · intro _ _ _ h; simp at h
      · intro z a ha
        by_cases e : z = x
        · simp [e] at ha
        · simp only [e, if_false] at ha; show a < g.next; rw [g2.1]; exact H.lt z a ha
      · intro a ha; simp at ha
      · intro a ha
        right
        have ha : g.cell a ≠ none := ha
        rw [g2.2] at ha
        split at ha
        · exact absurd rfl ha
        · next hn =>
          rcases H.live a ha with h | ⟨z, h⟩
          · simp at h
          · refine ⟨z, ?_⟩
            have : z ≠ x := by rintro rfl; exact hn h
            simp only [this, if_false]; exact h
    obtain ⟨st', e1, e2, e3, e4, e5, e6⟩ := drops_effect H1 nd.2 fun y hy => by
      have : y ≠ x := by rintro rfl; exact nd.1 hy
      simp only [Store.put, this, if_false]
      exact hx y (by simp [hy])
    have off : ∀ a, a ∈ F x → ∀ y ∈ xs, a ∉ (if y = x then [] else F y) := by
      intro a ha y hy
      have : y ≠ x := by rintro rfl; exact nd.1 hy
      simp only [this, if_false]
      exact H.disj x y (Ne.symm this) a ha
    refine ⟨st', by simp only [List.map_cons, run, hs]; exact e1, ?_, ?_, ?_, ?_, by rw [e6]; exact g2.1⟩
    · intro y hy
      by_cases h : y ∈ xs
      · exact e2 y h
      · have : y = x := by rcases List.mem_cons.1 hy with h' | h'; exact h'; exact absurd h' h
        rw [e3 y h]; simp [this]
    · intro y hy
      rw [List.mem_cons, not_or] at hy
      rw [e3 y hy.2]; simp [hy.1]
    · rintro a ⟨y, hy, ha⟩
      by_cases h : a ∈ F x
      · rw [e5 a (off a h)]; show g.cell a = none; rw [g2.2, if_pos h]
      · refine e4 a ⟨y, ?_, ?_⟩
        · rcases List.mem_cons.1 hy with rfl | h'
          · exact absurd ha h
          · exact h'
        · have : y ≠ x := by rintro rfl; exact h ha
          simp only [this, if_false]; exact ha
    · intro a ha
      rw [e5 a fun y hy => by
        have : y ≠ x := by rintro rfl; exact nd.1 hy
        simp only [this, if_false]; exact ha y (by simp [hy])]
      show g.cell a = _
      rw [g2.2, if_neg (ha x (by simp))]

private theorem elem_slot {st : State} {a i b j : Nat} (h : st.slot (.elem a i) = some (.child b j)) : b = a := by
  simp only [State.slot] at h
  repeat' split at h
  all_goals first | (simp at h; done) | (simp at h; exact h.1.symm)

private theorem member_slot {st : State} {a b j : Nat} {k : Bytes} (h : st.slot (.member a k) = some (.child b j)) : b = a := by
  simp only [State.slot] at h
  split at h
  · cases hk : keyIndex k _ <;> rw [hk] at h <;> simp at h
    exact h.1.symm
  · simp at h

/-- A reference designates something in an object that is destroyed, or not. -/
private theorem value_after {st : State} {σ : Store} {F : Nat → List Nat} (H : SRep st σ [] F) (T : KeyedStore σ) {p : Place} {v : Value} (hp : σ.get p = some v) {xs : List Nat}
    (nd : xs.Nodup) (hx : ∀ x ∈ xs, (σ x).isSome) :
    ∃ r st', st.refer p = some r ∧ run ample st (xs.map .drop) = .done st' ∧ (p.x ∈ xs → st'.deref r = none) ∧
      (p.x ∉ xs → (st'.deref r).bind (reify st'.heap st'.heap.fuel) = some v) := by
  obtain ⟨l, y, B, p1, p2, p3, p4, p5, p6, p7, p8⟩ := H.place T hp
  obtain ⟨r, e1, e2⟩ := refer_resolve p1
  obtain ⟨st', d1, d2, d3, d4, d5, d6⟩ := drops_effect H nd hx
  have keep : p.x ∉ xs → ∀ a ∈ F p.x, st'.heap.cell a = st.heap.cell a := fun h a ha => d5 a fun x hx' => H.disj p.x x (by rintro rfl; exact h hx') a ha
  refine ⟨r, st', e1, d1, ?_, ?_⟩
  · intro hin
    by_cases hpath : p.path = []
    · have := p7 hpath
      subst this
      have hr : r = .var p.x := by
        have : st.refer p = some (.var p.x) := by
          simp only [State.refer, hpath, State.follow]
          rw [if_pos]
          have hv : (st.var p.x).isSome := by rw [show st.var p.x = some y from p2]; rfl
          simp [State.deref, State.slot, hv, State.read]
        rw [this] at e1; cases e1; rfl
      subst hr
      simp [State.deref, State.slot, d2 p.x hin]
    · obtain ⟨a, i, rfl, ha⟩ := p8 hpath
      have hn := d4 a ⟨p.x, hin, ha⟩
      cases r with
      | var z => simp [State.slot] at e2
      | elem b j => have := elem_slot e2; subst this; simp [State.deref, State.slot, hn]
      | member b k => have := member_slot e2; subst this; simp [State.deref, State.slot, hn]
  · intro hout
    have hd : st'.deref r = some y := by
      by_cases hpath : p.path = []
      · have := p7 hpath
        subst this
        have hs : st'.slot r = some (.var p.x) := by
          rw [← e2]
          cases r with
          | var z =>
            simp only [State.slot] at e2
            split at e2 <;> simp at e2
            subst e2
            simp only [State.slot, d3 p.x hout]
          | elem b j => simp only [State.slot] at e2; repeat' split at e2 <;> simp at e2
          | member b k => simp only [State.slot] at e2; repeat' split at e2 <;> simp at e2
        rw [deref_of hs, ← p2]
        simp only [State.read, d3 p.x hout]
      · obtain ⟨a, i, rfl, ha⟩ := p8 hpath
        have hc := keep hout a ha
        have hs : st'.slot r = some (.child a i) := by
          rw [← e2]
          cases r with
          | var z => simp [State.slot] at e2
          | elem b j => have := elem_slot e2; subst this; simp only [State.slot, hc]
          | member b k => have := member_slot e2; subst this; simp only [State.slot, hc]
        rw [deref_of hs, ← p2]
        simp only [State.read, hc]
    rw [hd]
    have p3' : Rep st'.heap.cell v y B := p3.frame fun b hb => keep hout b (p4 b hb)
    exact p3'.reify (Nat.lt_succ_of_le (nodup_length_le p5 fun b hb => by rw [d6]; exact H.lt _ _ (p4 b hb)))

/-- The same for the array or object in a value. -/
private theorem container_after {st : State} {σ : Store} {F : Nat → List Nat} (H : SRep st σ [] F) (T : KeyedStore σ) {p : Place} {v : Value} (hp : σ.get p = some v)
    (hv : (∃ vs, v = .arr .array vs) ∨ ∃ ms, v = .obj .object ms) {xs : List Nat} (nd : xs.Nodup) (hx : ∀ x ∈ xs, (σ x).isSome) :
    ∃ a st', st.containerAt p = some a ∧ run ample st (xs.map .drop) = .done st' ∧ (st'.alive a = true ↔ p.x ∉ xs) := by
  obtain ⟨l, y, B, p1, p2, p3, p4, p5, p6, p7, p8⟩ := H.place T hp
  obtain ⟨r, e1, e2⟩ := refer_resolve p1
  obtain ⟨st', d1, d2, d3, d4, d5, d6⟩ := drops_effect H nd hx
  obtain ⟨a, hy, ha, hl⟩ : ∃ a, y.container = some a ∧ a ∈ B ∧ (st.heap.cell a).isSome := by
    rcases hv with ⟨vs, rfl⟩ | ⟨ms, rfl⟩
    · obtain ⟨a, xs, B', h1, h2, h3, h4⟩ := p3
      subst h1 h4
      exact ⟨a, rfl, by simp, by simp [h2]⟩
    · obtain ⟨a, xs, B', h1, h2, h3, h4⟩ := p3
      subst h1 h4
      exact ⟨a, rfl, by simp, by simp [h2]⟩
  refine ⟨a, st', by simp [State.containerAt, e1, (deref_of e2).trans p2, hy], d1, ?_⟩
  constructor
  · intro h hin
    rw [State.alive, d4 a ⟨p.x, hin, p4 a ha⟩] at h
    simp at h
  · intro hout
    rw [State.alive, d5 a fun x hx' => H.disj p.x x (by rintro rfl; exact hout hx') a (p4 a ha)]
    exact hl

/-- Full statement: what is denoted is there. Proved: it is exactly if the expression is an object itself or no step of it creates one; and then it is the value that the expression
denoted. -/
theorem C85_exact_partial (pre : List Op) (σ σ' : Store) (s : Start) (as : List Accessor) (ops : List Op) (e : Denotes) (hpre : Steps Store.empty pre σ)
    (hs : ∀ k c x, s = .name k c x → (σ x).isSome) (hc : chain s.denotes as = some (ops, e)) (hr : Runs σ (s.ops ++ ops) σ') (hf : Found σ' e) :
    ∃ st st' st'' t, run ample State.init pre = .done st ∧ run ample st (s.ops ++ ops) = .done st' ∧ st'.target e = some t ∧
      run ample st' ((ended s as e).map .drop) = .done st'' ∧ (st''.there t = true ↔ Lasting s as) ∧
      (Lasting s as → ∀ r, t = .value r → (st''.deref r).bind (reify st''.heap st''.heap.fuel) = σ'.get e.place) := by
  obtain ⟨st, F, h1, H, T⟩ := steps_run srep_init keyed_empty hpre
  obtain ⟨st', F', h2, H', T'⟩ := steps_run H T (runs_steps hr)
  obtain ⟨nd, hx, hl⟩ := ended_spec hs hc hr
  have value : (∃ v, σ'.get e.place = some v) → (e.kind ≠ .array ∧ e.kind ≠ .object) → ∃ st'' t, st'.target e = some t ∧
      run ample st' ((ended s as e).map .drop) = .done st'' ∧ (st''.there t = true ↔ Lasting s as) ∧
      (Lasting s as → ∀ r, t = .value r → (st''.deref r).bind (reify st''.heap st''.heap.fuel) = σ'.get e.place) := by
    rintro ⟨v, hv⟩ hk
    obtain ⟨r, st'', e1, e2, e3, e4⟩ := value_after H' T' hv nd hx
    refine ⟨st'', .value r, ?_, e2, ?_, ?_⟩
    · unfold State.target
      split
      · next h => exact absurd h hk.1
      · next h => exact absurd h hk.2
      · simp [e1]
    · rw [← hl]
      constructor
      · intro h hin
        simp [State.there, e3 hin] at h
      · intro hout
        have := e4 hout
        simp only [State.there]
        cases hd : st''.deref r with
        | none => simp [hd] at this
        | some y => rfl
    · intro h r' hr'
      cases hr'
      rw [e4 (hl.2 h), hv]
  have cont : (∃ v, σ'.get e.place = some v ∧ ((∃ vs, v = .arr .array vs) ∨ ∃ ms, v = .obj .object ms)) → (e.kind = .array ∨ e.kind = .object) → ∃ st'' t, st'.target e = some t ∧
      run ample st' ((ended s as e).map .drop) = .done st'' ∧ (st''.there t = true ↔ Lasting s as) ∧
      (Lasting s as → ∀ r, t = .value r → (st''.deref r).bind (reify st''.heap st''.heap.fuel) = σ'.get e.place) := by
    rintro ⟨v, hv, hty⟩ hk
    obtain ⟨a, st'', e1, e2, e3⟩ := container_after H' T' hv hty nd hx
    refine ⟨st'', .container a, ?_, e2, by rw [← hl]; exact e3, by intro _ r h; cases h⟩
    rcases hk with hk | hk <;> simp [State.target, hk, e1]
  have key : ∃ st'' t, st'.target e = some t ∧
      run ample st' ((ended s as e).map .drop) = .done st'' ∧ (st''.there t = true ↔ Lasting s as) ∧
      (Lasting s as → ∀ r, t = .value r → (st''.deref r).bind (reify st''.heap st''.heap.fuel) = σ'.get e.place) := by
    unfold Found at hf
    split at hf
    · next h => obtain ⟨vs, hv⟩ := hf; exact cont ⟨_, hv, .inl ⟨vs, rfl⟩⟩ (.inl h)
    · next h => obtain ⟨ms, hv⟩ := hf; exact cont ⟨_, hv, .inr ⟨ms, rfl⟩⟩ (.inr h)
    · next h1 h2 => exact value (Option.isSome_iff_exists.1 hf) ⟨h1, h2⟩
  obtain ⟨st'', t, k1, k2, k3, k4⟩ := key
  exact ⟨st, st', st'', t, h1, h2, k1, k2, k3, k4⟩

private def parsed : Start := .call .optional 0 (.arr .array [.ofInt 1])

private theorem parsed_tagged : Tagged (.arr .array [.ofInt 1]) := by simp [Tagged, TaggedAll, Value.ofInt]

private theorem parsed_runs : Runs Store.empty (parsed.ops ++ [.asArray ⟨0, []⟩]) ((Store.empty.put 0 (some (.arr .array [.ofInt 1]))).set ⟨0, []⟩ (.arr .array [.ofInt 1])) :=
  .cons (.init rfl parsed_tagged) (.cons (.asArray rfl (.inr rfl)) .nil)

/-- `for (auto& x : json::parse("[1]")->as_array())` before C++23: the range refers to an array that has been destroyed when the loop begins. -/
theorem C85_refuted : ¬ C85Claim := by
  intro h
  have hc : chain parsed.denotes [.star, .asArray] = some ([.asArray ⟨0, []⟩], ⟨.array, false, false, ⟨0, []⟩⟩) := rfl
  have hs : ∀ k c x, parsed = .name k c x → (Store.empty x).isSome := by intro k c x h; cases h
  have hf : Found ((Store.empty.put 0 (some (.arr .array [.ofInt 1]))).set ⟨0, []⟩ (.arr .array [.ofInt 1])) ⟨.array, false, false, ⟨0, []⟩⟩ := ⟨_, rfl⟩
  obtain ⟨st, st', st'', t, h1, h2, h3, h4, h5⟩ := h [] _ _ parsed [.star, .asArray] _ _ .nil hs hc parsed_runs hf
  obtain ⟨st1, st1', st1'', t1, g1, g2, g3, g4, g5, -⟩ := C85_exact_partial [] _ _ parsed [.star, .asArray] _ _ .nil hs hc parsed_runs hf
  rw [h1] at g1; cases g1
  rw [h2] at g2; cases g2
  rw [h3] at g3; cases g3
  rw [h4] at g4; cases g4
  have := g5.1 h5
  simp [Lasting, parsed] at this

/-- Until the end of the full expression everything is there. With C++23 that includes the loop in `for (auto& x : e)`. -/
theorem C85_within (pre : List Op) (σ σ' : Store) (s : Start) (as : List Accessor) (ops : List Op) (e : Denotes) (hpre : Steps Store.empty pre σ)
    (hc : chain s.denotes as = some (ops, e)) (hr : Runs σ (s.ops ++ ops) σ') (hf : Found σ' e) :
    ∃ st st' t, run ample State.init pre = .done st ∧ run ample st (s.ops ++ ops) = .done st' ∧ st'.target e = some t ∧ st'.there t = true ∧
      ∀ r, t = .value r → (st'.deref r).bind (reify st'.heap st'.heap.fuel) = σ'.get e.place := by
  have _ := hc
  obtain ⟨st, F, h1, H, T⟩ := steps_run srep_init keyed_empty hpre
  obtain ⟨st', F', h2, H', T'⟩ := steps_run H T (runs_steps hr)
  have key : ∃ t, st'.target e = some t ∧ st'.there t = true ∧ ∀ r, t = .value r → (st'.deref r).bind (reify st'.heap st'.heap.fuel) = σ'.get e.place := by
    have cont : (∃ v, σ'.get e.place = some v ∧ ((∃ vs, v = .arr .array vs) ∨ ∃ ms, v = .obj .object ms)) → (e.kind = .array ∨ e.kind = .object) →
        ∃ t, st'.target e = some t ∧ st'.there t = true ∧ ∀ r, t = .value r → (st'.deref r).bind (reify st'.heap st'.heap.fuel) = σ'.get e.place := by
      rintro ⟨v, hv, hty⟩ hk
      obtain ⟨a, st'', e1, e2, e3⟩ := container_after H' T' hv hty (xs := []) List.nodup_nil (by simp)
      cases e2
      exact ⟨.container a, by rcases hk with hk | hk <;> simp [State.target, hk, e1], e3.2 (by simp), by intro r h; cases h⟩
    unfold Found at hf
    split at hf
    · next h => obtain ⟨vs, hv⟩ := hf; exact cont ⟨_, hv, .inl ⟨vs, rfl⟩⟩ (.inl h)
    · next h => obtain ⟨ms, hv⟩ := hf; exact cont ⟨_, hv, .inr ⟨ms, rfl⟩⟩ (.inr h)
    · next k1 k2 =>
      obtain ⟨v, hv⟩ := Option.isSome_iff_exists.1 hf
      obtain ⟨r, st'', e1, e2, -, e4⟩ := value_after H' T' hv (xs := []) List.nodup_nil (by simp)
      cases e2
      have e4 := e4 (by simp)
      refine ⟨.value r, ?_, ?_, ?_⟩
      · unfold State.target
        split
        · next h => exact absurd h k1
        · next h => exact absurd h k2
        · simp [e1]
      · simp only [State.there]
        cases hd : st'.deref r with
        | none => simp [hd] at e4
        | some y => rfl
      · intro r' h; cases h; rw [e4, hv]
  obtain ⟨t, k1, k2, k3⟩ := key
  exact ⟨st, st', t, h1, h2, k1, k2, k3⟩

/-- What `at` and `find_value` hand out is const whatever they are called on, so `v.at("k")["x"]` does not compile; `[]` with a key compiles exactly on a value or object that is not. -/
theorem C85_const (e : Denotes) (i : Sel) (k : Bytes) :
    (∀ ops e', (Accessor.get i).apply e = some (ops, e') → ops = [] ∧ e'.const = true) ∧
    (∀ ops e', (Accessor.findValue i).apply e = some (ops, e') → ops = [] ∧ ∃ e'', Accessor.star.apply e' = some ([], e'') ∧ e''.const = true ∧ e''.kind = .value) ∧
    ((Accessor.index (.key k)).apply e ≠ none ↔ e.const = false ∧ (e.kind = .value ∨ e.kind = .object)) := by
  refine ⟨?_, ?_, ?_⟩
  · intro ops e' h
    simp only [Accessor.apply] at h
    split at h <;> simp at h
    all_goals (obtain ⟨rfl, rfl⟩ := h; simp)
  · intro ops e' h
    simp only [Accessor.apply] at h
    split at h <;> simp at h
    all_goals (obtain ⟨rfl, rfl⟩ := h; simp [Accessor.apply])
  · obtain ⟨kind, c, f, p⟩ := e
    cases kind <;> cases c <;> simp [Accessor.apply]

/-- The declarations of the headers: the type of the expression, whether it is `const`, what is called, and the type that is returned with whether it is `const`. -/
inductive Declared : Kind → Bool → Accessor → Kind → Bool → Prop
  /-- `const value& at(size_t) const`, `const value& at(const std::string&) const` -/
  | atValue {c s} : Declared .value c (.get s) .value true
  | atArray {c i} : Declared .array c (.get (.pos i)) .value true
  | atObject {c k} : Declared .object c (.get (.key k)) .value true
  /-- `const value& operator[](size_t) const` -/
  | posConst {i} : Declared .value true (.index (.pos i)) .value true
  | posConstArray {i} : Declared .array true (.index (.pos i)) .value true
  /-- `value& operator[](size_t)` -/
  | pos {i} : Declared .value false (.index (.pos i)) .value false
  | posArray {i} : Declared .array false (.index (.pos i)) .value false
  /-- `value& operator[](const std::string&)` -/
  | key {k} : Declared .value false (.index (.key k)) .value false
  | keyObject {k} : Declared .object false (.index (.key k)) .value false
  /-- `const array& as_array() const`, `array& as_array()` -/
  | asArray {c} : Declared .value c .asArray .array c
  /-- `const object& as_object() const`, `object& as_object()` -/
  | asObject {c} : Declared .value c .asObject .object c
  /-- `const value* find_value(size_t) const`, `const value* find_value(const std::string&) const` -/
  | findValue {c s} : Declared .value c (.findValue s) .pointer true
  | findValueArray {c i} : Declared .array c (.findValue (.pos i)) .pointer true
  | findValueObject {c k} : Declared .object c (.findValue (.key k)) .pointer true
  /-- `std::optional<value> find(size_t) const`, `std::optional<value> find(const std::string&) const` -/
  | find {c s x} : Declared .value c (.find s x) .optional false
  | findArray {c i x} : Declared .array c (.find (.pos i) x) .optional false
  | findObject {c k x} : Declared .object c (.find (.key k) x) .optional false
  /-- `*` of a `const value*` -/
  | starPointer {c} : Declared .pointer c .star .value true
  /-- `*` of a `std::optional<value>`, `const` or not -/
  | starOptional {c} : Declared .optional c .star .value c
  /-- The copy constructor of `value`. -/
  | copy {c x} : Declared .value c (.copy x) .value false

/-- An expression compiles exactly if the headers declare what it calls, and has the type that they say. -/
theorem C85_declared (e : Denotes) (a : Accessor) (k : Kind) (c : Bool) :
    (∃ ops e', a.apply e = some (ops, e') ∧ e'.kind = k ∧ e'.const = c) ↔ Declared e.kind e.const a k c := by
  obtain ⟨kind, const, fresh, place⟩ := e
  constructor
  · rintro ⟨ops, e', h, rfl, rfl⟩
    cases a with
    | get s => cases kind <;> cases s <;> simp [Accessor.apply] at h <;> (obtain ⟨-, rfl⟩ := h; constructor)
    | index s => cases kind <;> cases s <;> cases const <;> simp [Accessor.apply] at h <;> (obtain ⟨-, rfl⟩ := h; constructor)
    | asArray => cases kind <;> simp [Accessor.apply] at h; obtain ⟨-, rfl⟩ := h; constructor
    | asObject => cases kind <;> simp [Accessor.apply] at h; obtain ⟨-, rfl⟩ := h; constructor
    | findValue s => cases kind <;> cases s <;> simp [Accessor.apply] at h <;> (obtain ⟨-, rfl⟩ := h; constructor)
    | find s x => cases kind <;> cases s <;> simp [Accessor.apply] at h <;> (obtain ⟨-, rfl⟩ := h; constructor)
    | star => cases kind <;> simp [Accessor.apply] at h <;> (obtain ⟨-, rfl⟩ := h; constructor)
    | copy x => cases kind <;> simp [Accessor.apply] at h; obtain ⟨-, rfl⟩ := h; constructor
  · intro h
    dsimp only at h
    cases h <;> exact ⟨_, _, rfl, rfl, rfl⟩

/-- Which part an accessor goes to. -/
def selected : Accessor → List Sel
  | .get s | .index s | .findValue s => [s]
  | _ => []

private theorem apply_place {a : Accessor} {e e' : Denotes} {ops : List Op} (h : a.apply e = some (ops, e')) :
    (a.makes = [] → e'.fresh = false ∧ e'.place.x = e.place.x ∧ e'.place.path = e.place.path ++ selected a) ∧ (∀ x, a.makes = [x] → e'.fresh = true ∧ e'.place = ⟨x, []⟩) := by
  obtain ⟨kind, const, fresh, place⟩ := e
  cases a <;> simp only [Accessor.apply] at h <;> split at h <;> simp at h <;> (obtain ⟨-, rfl⟩ := h; simp [Accessor.makes, selected, Place.sub])

private theorem chain_append : ∀ {as bs : List Accessor} {e e' : Denotes} {ops : List Op}, chain e (as ++ bs) = some (ops, e') →
    ∃ o₁ e₁ o₂, chain e as = some (o₁, e₁) ∧ chain e₁ bs = some (o₂, e') ∧ ops = o₁ ++ o₂
  | [], _, e, _, _, h => ⟨[], e, _, rfl, h, rfl⟩
  | a :: as, bs, e, e', ops, h => by
    simp only [List.cons_append, chain, Option.bind_eq_some_iff, Option.map_eq_some_iff] at h
    obtain ⟨⟨o, e₀⟩, h1, ⟨o', e''⟩, h2, h3⟩ := h
    cases h3
    obtain ⟨o₁, e₁, o₂, g1, g2, g3⟩ := chain_append h2
    refine ⟨o ++ o₁, e₁, o₂, ?_, g2, ?_⟩
    · simp [chain, h1, g1]
    · subst g3; simp

private theorem chain_place : ∀ {as : List Accessor} {e e' : Denotes} {ops : List Op}, chain e as = some (ops, e') → (∀ a ∈ as, a.makes = []) →
    e'.place.x = e.place.x ∧ e'.place.path = e.place.path ++ as.flatMap selected ∧ (e'.fresh = true ↔ as = [] ∧ e.fresh = true)
  | [], e, _, _, h, _ => by cases h; simp
  | a :: as, e, e', ops, h, hm => by
    simp only [chain, Option.bind_eq_some_iff, Option.map_eq_some_iff] at h
    obtain ⟨⟨o, e₀⟩, h1, ⟨o', e''⟩, h2, h3⟩ := h
    cases h3
    obtain ⟨p1, p2, p3⟩ := chain_place h2 fun b hb => hm b (List.mem_cons_of_mem _ hb)
    obtain ⟨q1, q2, q3⟩ := (apply_place h1).1 (hm a (by simp))
    simp only at p1 p2 p3 q1 q2 q3
    exact ⟨by rw [p1, q2], by simp [p2, q3], by simp [p3, q1]⟩

/-- Where the result lies: in the object that was created last, or in the one the expression starts at if none is, at the end of the path that the accessors after that take; and it is that object
itself exactly if none comes after. -/
theorem C85_place (s : Start) (as : List Accessor) (ops : List Op) (e : Denotes) (hc : chain s.denotes as = some (ops, e)) :
    ((∀ a ∈ as, a.makes = []) → (∀ k c x, s = .name k c x → e.fresh = false ∧ e.place = ⟨x, as.flatMap selected⟩) ∧
      ∀ k x v, s = .call k x v → (e.fresh = true ↔ as = []) ∧ e.place = ⟨x, as.flatMap selected⟩) ∧
    ∀ before a after x, as = before ++ a :: after → a.makes = [x] → (∀ b ∈ after, b.makes = []) → (e.fresh = true ↔ after = []) ∧ e.place = ⟨x, after.flatMap selected⟩ := by
  have pl : ∀ {p : Place} {x : Nat} {l : List Sel}, p.x = x → p.path = l → p = ⟨x, l⟩ := by rintro ⟨_, _⟩ _ _ rfl rfl; rfl
  refine ⟨fun hm => ⟨?_, ?_⟩, ?_⟩
  · rintro k c x rfl
    obtain ⟨p1, p2, p3⟩ := chain_place hc hm
    exact ⟨by simpa [Start.denotes] using p3, pl p1 (by simpa [Start.denotes] using p2)⟩
  · rintro k x v rfl
    obtain ⟨p1, p2, p3⟩ := chain_place hc hm
    exact ⟨by simpa [Start.denotes] using p3, pl p1 (by simpa [Start.denotes] using p2)⟩
  · rintro before a after x rfl ha hm
    obtain ⟨o₁, e₁, o₂, g1, g2, -⟩ := chain_append hc
    simp only [chain, Option.bind_eq_some_iff, Option.map_eq_some_iff] at g2
    obtain ⟨⟨o, e₀⟩, h1, ⟨o', e''⟩, h2, h3⟩ := g2
    cases h3
    obtain ⟨p1, p2, p3⟩ := chain_place h2 hm
    obtain ⟨q1, q2⟩ := (apply_place h1).2 x ha
    simp only at p1 p2 p3 q1 q2
    exact ⟨by simp [p3, q1], pl (by rw [p1, q2]) (by simp [p2, q2])⟩

/-- On what is `const` an accessor changes nothing, it makes a copy at most; `as_array()` and `as_object()` on what is not end with an array or object there. -/
theorem C85_effect (e e' : Denotes) (a : Accessor) (ops : List Op) (h : a.apply e = some (ops, e')) :
    (e.const = true → ∀ op ∈ ops, ∃ x p, op = .copyInit x p) ∧
    (e.const = false → a = .asArray ∨ a = .asObject → ∀ σ σ', Runs σ ops σ' → Found σ' e') := by
  obtain ⟨kind, const, fresh, place⟩ := e
  refine ⟨?_, ?_⟩
  · rintro rfl
    cases a <;> simp only [Accessor.apply] at h <;> split at h <;> simp_all <;> (obtain ⟨rfl, -⟩ := h; simp)
  · rintro rfl (rfl | rfl) σ σ' hr
    · cases kind <;> simp [Accessor.apply] at h
      obtain ⟨rfl, rfl⟩ := h
      cases hr with
      | cons h1 h2 => cases h2; cases h1 with | asArray g1 g2 => exact ⟨_, get_set g1⟩
    · cases kind <;> simp [Accessor.apply] at h
      obtain ⟨rfl, rfl⟩ := h
      cases hr with
      | cons h1 h2 => cases h2; cases h1 with | asObject g1 g2 => exact ⟨_, get_set g1⟩

/-! ### Non-vacuity -/

/-- `v.at("k").find("l")->as_array()`; `as_object()` of a value that is null. -/
example : (∃ ops, chain (Start.name .value true 0).denotes [.get (.key [0x6b]), .find (.key [0x6c]) 1, .star, .asArray, .index (.pos 2)] = some (ops, ⟨.value, false, false, ⟨1, [.pos 2]⟩⟩)) ∧
    Runs (Store.empty.put 0 (some (.str .null []))) [.asObject ⟨0, []⟩] ((Store.empty.put 0 (some (.str .null []))).set ⟨0, []⟩ (.obj .object [])) :=
  ⟨⟨_, rfl⟩, .cons (.asObject rfl (.inl ⟨.null, rfl⟩)) .nil⟩

/-- The README: `for (auto&& [name, homepage] : (json::object)value["author"])`. The cast makes an object, which the loop keeps. -/
example : Lasting (.call .object 1 (.obj .object [])) [] ∧ chain (Start.call .object 1 (.obj .object [])).denotes [] = some ([], ⟨.object, false, true, ⟨1, []⟩⟩) := ⟨.inl rfl, rfl⟩

/-- `v.as_object().find("k")` and `v["k"]` last, `json::parse(s)->at(0)` and `*v.find("k")` do not. -/
example : Lasting (.name .value false 0) [.asObject, .find (.key [0x6b]) 1] ∧ Lasting (.name .value false 0) [.index (.key [0x6b])] ∧
    ¬ Lasting parsed [.star, .get (.pos 0)] ∧ ¬ Lasting (.name .value false 0) [.find (.key [0x6b]) 1, .star] := by
  refine ⟨.inr (.inl ⟨_, _, rfl⟩), .inr (.inr (.inr ⟨⟨_, _, _, rfl⟩, by simp⟩)), by simp [Lasting, parsed], by simp [Lasting]⟩

example : Steps Store.empty [] Store.empty ∧ (∀ k c x, parsed = .name k c x → (Store.empty x).isSome) ∧
    chain parsed.denotes [.star, .asArray] = some ([.asArray ⟨0, []⟩], ⟨.array, false, false, ⟨0, []⟩⟩) ∧
    Runs Store.empty (parsed.ops ++ [.asArray ⟨0, []⟩]) ((Store.empty.put 0 (some (.arr .array [.ofInt 1]))).set ⟨0, []⟩ (.arr .array [.ofInt 1])) ∧
    Found ((Store.empty.put 0 (some (.arr .array [.ofInt 1]))).set ⟨0, []⟩ (.arr .array [.ofInt 1])) ⟨.array, false, false, ⟨0, []⟩⟩ :=
  ⟨.nil, fun _ _ _ h => (nomatch h), rfl, parsed_runs, _, rfl⟩

end Meojson
