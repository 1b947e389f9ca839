import Verif.Proofs.HeapTotal

/-! Programs with handlers, and bodies without. -/

set_option autoImplicit false

namespace Meojson.Mem
open Stores

theorem keyed_setType {v : Value} (h : Keyed v) (t : VType) : Keyed (v.setType t) := by cases v <;> exact h

theorem keyedMembers_lookup {ms : List (Bytes × Value)} {k : Bytes} {w : Value} (h : Keyed (.obj .object ms)) (hk : ms.lookup k = some w) : Keyed w :=
  keyed_getAt (p := [.key k]) h (by simp [getAt, hk])

theorem aborted_keyed {σ σ'' : Store} {op : Op} (T : KeyedStore σ) (h : Aborted σ op σ'') : KeyedStore σ'' := by
  cases h with
  | same => exact T
  | copyInit => exact T
  | tag hc hp hv => exact keyed_set T hp (keyed_setType (keyed_get T hp) _)
  | array hc hp hv => exact keyed_set T hp trivial
  | object hc hp hv => exact keyed_set T hp ⟨.nil, trivial⟩
  | copyAssign hd hs => exact keyed_set T hd (keyed_setType (keyed_get T hd) _)
  | emplaceKey hp hk hs => exact keyed_set T hp (keyed_putMember (keyed_get T hp) _ (keyed_setType (keyedMembers_lookup (keyed_get T hp) hk) _))
  | merge hp hv hs =>
    refine keyed_set T hp (keyed_putMembers (keyed_members hv (keyed_get T hp)) ?_)
    exact keyedMembers_iff.2 fun m hm => keyedMembers_iff.1 (keyed_get T hs).2 m (by simp [hm])
  | @mergeTag p s v ms ws ws' k w u hp hv hs hk =>
    have h1 : Keyed (.obj .object (putMembers ws ms)) :=
      keyed_putMembers (keyed_members hv (keyed_get T hp)) (keyedMembers_iff.2 fun m hm => keyedMembers_iff.1 (keyed_get T hs).2 m (by simp [hm]))
    exact keyed_set T hp (keyed_putMember h1 _ (keyed_setType (keyedMembers_lookup h1 hk) _))
  | @mergeMove p s v ms ws ws' junk hp hv hs ha =>
    have h1 : KeyedMembers (ws ++ ws') := (keyed_get T hs).2
    refine keyed_set (keyed_set T hs (keyed_hollowMembers (keyed_get T hs) junk)) ((get_set_other hs ha.symm).trans hp) ?_
    exact keyed_putMembers (keyed_members hv (keyed_get T hp)) (keyedMembers_iff.2 fun m hm => keyedMembers_iff.1 h1 m (by simp [hm]))

/-- A program within the specification. -/
theorem handled_exec (oom : Addr → Bool) {p : Prog} {σ : Store} (h : Handled σ p) : ∀ {st : State} {F : Nat → List Addr}, SRep st σ [] F → KeyedStore σ →
    ∃ st' τ F', exec oom st p = .done st' ∧ Ending σ p τ ∧ SRep st' τ [] F' := by
  induction h with
  | stop => exact fun {st F} H _ => ⟨st, _, F, rfl, .stop, H⟩
  | @step σ op σ' p q hs _ _ ihp ihq =>
    intro st F H T
    have := step_ends H T oom hs
    simp only [exec]
    cases e : step oom st op with
    | done st1 =>
      rw [e] at this
      obtain ⟨F1, H1⟩ := this
      obtain ⟨st', τ, F', h1, h2, h3⟩ := ihp H1 (step_keyed T hs)
      exact ⟨st', τ, F', h1, .step hs h2, h3⟩
    | thrown st1 =>
      rw [e] at this
      obtain ⟨_, σ'', ha, F1, H1⟩ := this
      obtain ⟨st', τ, F', h1, h2, h3⟩ := ihq σ'' ha H1 (aborted_keyed T ha)
      exact ⟨st', τ, F', h1, .aborted hs ha h2, h3⟩
    | ub => rw [e] at this; exact this.elim
  | refused hr _ ih =>
    intro st F H T
    simp only [exec, refused_throws H T oom hr]
    obtain ⟨st', τ, F', h1, h2, h3⟩ := ih H T
    exact ⟨st', τ, F', h1, .refused hr h2, h3⟩

theorem SRep.empty {st : State} {F : Nat → List Addr} (H : SRep st Store.empty [] F) (a : Addr) : st.heap.cell a = none := by
  cases e : st.heap.cell a with
  | none => rfl
  | some c =>
    rcases H.live a (by rw [e]; simp) with h | ⟨x, h⟩
    · cases h
    · rw [(H.absent x rfl).2] at h; cases h

theorem handled_leave : ∀ {xs : List Nat} {σ : Store}, xs.Nodup → (∀ x ∈ xs, (σ x).isSome) → Handled σ (leave xs)
  | [], _, _, _ => .stop
  | x :: xs, σ, nd, h => by
    obtain ⟨v, hv⟩ := Option.isSome_iff_exists.1 (h x (by simp))
    have nd := List.nodup_cons.1 nd
    refine .step (.drop hv) (handled_leave nd.2 fun y hy => ?_) fun _ _ => .stop
    have hne : y ≠ x := fun e => nd.1 (e ▸ hy)
    rw [Store.put, if_neg hne]
    exact h y (by simp [hy])

theorem ending_leave : ∀ {xs : List Nat} {σ τ : Store}, xs.Nodup → (∀ x, x ∈ xs ↔ (σ x).isSome) → Ending σ (leave xs) τ → τ = Store.empty
  | [], σ, τ, _, h, he => by
    cases he
    funext x
    cases e : σ x with
    | none => rfl
    | some v => exact absurd ((h x).2 (by simp [e])) (by simp)
  | x :: xs, σ, τ, nd, h, he => by
    have nd := List.nodup_cons.1 nd
    cases he with
    | step hs he =>
      cases hs
      refine ending_leave nd.2 (fun y => ?_) he
      rw [Store.put]
      split
      · next e => subst e; simp [nd.1]
      · next e => rw [← h y]; simp [e]
    | aborted hs ha he =>
      cases ha with
      | same h => cases h
      | tag h => cases h
      | array h => cases h
      | object h => cases h
    | refused hr he =>
      cases hr with
      | absent _ _ h => cases h

theorem set_alive {σ : Store} {p : Place} {w : Value} (x : Nat) : ((σ.set p w) x).isSome = (σ x).isSome := by
  simp only [Store.set, Store.put]
  split
  · next e => subst e; simp
  · rfl

theorem step_scope {σ σ' : Store} {op : Op} {xs : List Nat} (nd : xs.Nodup) (h : ∀ x, x ∈ xs ↔ (σ x).isSome) (hs : Step σ op σ') :
    (scope xs op).Nodup ∧ ∀ x, x ∈ scope xs op ↔ (σ' x).isSome := by
  have put : ∀ {σ : Store} {x : Nat} {v : Value}, (∀ x, x ∈ xs ↔ (σ x).isSome) → σ x = none →
      (x :: xs).Nodup ∧ ∀ y, y ∈ x :: xs ↔ ((σ.put x (some v)) y).isSome := by
    intro σ x v h hx
    refine ⟨List.nodup_cons.2 ⟨fun hm => ?_, nd⟩, fun y => ?_⟩
    · have := (h x).1 hm; rw [hx] at this; cases this
    · rw [Store.put]
      split
      · next e => simp [e]
      · next e => rw [← h y]; simp [e]
  induction hs with
  | init hx hv => exact put h hx
  | copyInit hx hs hw => exact put h hx
  | @moveInit x s v junk hx hs =>
    refine put (fun y => by rw [set_alive]; exact h y) ?_
    have := set_alive (σ := σ) (p := s) (w := hollow junk v) x
    rw [hx] at this
    simpa using this
  | drop hx =>
    refine ⟨nd.erase _, fun y => ?_⟩
    rw [Store.put]
    split
    · next e => subst e; simp [scope, nd.mem_erase_iff]
    · next e => rw [← h y]; simp [scope, nd.mem_erase_iff, e]
  | emplaceKeyMoveOld hp hk _ ih => exact ih
  | mergeSelf => exact ⟨nd, h⟩
  | moveAssign | emplaceBackMove | emplaceKeyMove | appendMove | mergeMove => exact ⟨nd, fun y => by rw [set_alive, set_alive]; exact h y⟩
  | _ => exact ⟨nd, fun y => by rw [set_alive]; exact h y⟩

theorem aborted_scope {σ σ'' : Store} {op : Op} (h : Aborted σ op σ'') (x : Nat) : (σ'' x).isSome = (σ x).isSome := by
  cases h with
  | same | copyInit => rfl
  | mergeMove => rw [set_alive, set_alive]
  | _ => rw [set_alive]

theorem handled_body : ∀ {ops : List Op} {xs : List Nat} {σ σ' : Store}, xs.Nodup → (∀ x, x ∈ xs ↔ (σ x).isSome) → Steps σ ops σ' → Handled σ (body xs ops)
  | [], _, _, _, nd, h, _ => handled_leave nd fun x hx => (h x).1 hx
  | op :: ops, xs, σ, σ', nd, h, hs => by
    cases hs with
    | cons h1 h2 =>
      obtain ⟨nd', h'⟩ := step_scope nd h h1
      refine .step h1 (handled_body nd' h' h2) fun σ'' ha => handled_leave nd fun x hx => ?_
      rw [aborted_scope ha]; exact (h x).1 hx
    | refused h1 _ => exact .refused h1 (handled_leave nd fun x hx => (h x).1 hx)

theorem ending_body : ∀ {ops : List Op} {xs : List Nat} {σ τ : Store}, xs.Nodup → (∀ x, x ∈ xs ↔ (σ x).isSome) → Ending σ (body xs ops) τ → τ = Store.empty
  | [], _, _, _, nd, h, he => ending_leave nd h he
  | op :: ops, xs, σ, τ, nd, h, he => by
    cases he with
    | step h1 he =>
      obtain ⟨nd', h'⟩ := step_scope nd h h1
      exact ending_body nd' h' he
    | aborted h1 ha he => exact ending_leave nd (fun x => by rw [aborted_scope ha]; exact h x) he
    | refused _ he => exact ending_leave nd h he

end Meojson.Mem
