import Verif.Props.Heap

/-!
# C69: moving, erasing and ending a lifetime need no memory

`heap.next` (Model/Heap.lean) counts the allocations that were asked for; `oom` says which of them fail.
-/

set_option autoImplicit false

namespace Meojson.Stores
open Mem

/-- `value x = std::move(s);`, `d = std::move(s);`, `p.erase(i);`, `p.erase(k);` and the end of a lifetime. -/
inductive Frugal : Op → Prop
  | moveInit {x s junk} : Frugal (.moveInit x s junk)
  | moveAssign {d s junk} : Frugal (.moveAssign d s junk)
  | erasePos {p i} : Frugal (.erasePos p i)
  | eraseKey {p k} : Frugal (.eraseKey p k)
  | drop {x} : Frugal (.drop x)

/-- The claim: after every history, and however little memory is left, such a statement does what it should and asks for no memory. -/
def C69Claim : Prop := ∀ (ops : List Op) (σ σ' : Store) (op : Op) (oom : Nat → Bool), Steps Store.empty ops σ → Frugal op → Step σ op σ' →
  ∃ st st', run ample State.init ops = .done st ∧ step oom st op = .done st' ∧ (∀ x, st'.value x = σ' x) ∧ st'.heap.next = st.heap.next

/-- `json::value v; v.erase(0);`: `erase` goes through `as_array()`, which makes an array of a value that is empty (value_impl.hpp:640-645). -/
theorem C69_refuted : ¬ C69Claim := fun h => by
  obtain ⟨st, st', h1, h2, _, _⟩ := h [.init 0 .null] _ _ (.erasePos ⟨0, []⟩ 0) (fun _ => true) (.cons (.init rfl (by simp [Tagged, Value.null])) .nil) .erasePos
    (.erasePos (vs := []) rfl (.inl ⟨.null, rfl⟩))
  have e : run ample State.init [.init 0 .null] = .done st := h1
  cases e
  cases h2

private theorem list_next {f : Heap → HVal → Option Heap} (hf : ∀ h v g, f h v = some g → g.next = h.next) :
    ∀ (vs : List HVal) (h g : Heap), destroyList f h vs = some g → g.next = h.next := by
  intro vs
  induction vs with
  | nil => intro h g e; cases e; rfl
  | cons v vs ih =>
    intro h g e
    cases h1 : f h v with
    | none => rw [destroyList, h1] at e; cases e
    | some k => rw [destroyList, h1] at e; exact (ih k g e).trans (hf h v k h1)

private theorem destroy_next : ∀ (n : Nat) (h : Heap) (v : HVal) (g : Heap), destroyVal n h v = some g → g.next = h.next := by
  intro n
  induction n with
  | zero => intro h v g e; cases e
  | succ n ih =>
    intro h v g e
    obtain ⟨t, r⟩ := v
    have fin : ∀ (a : Addr) (vs : List HVal), ((destroyList (destroyVal n) h vs).bind fun h => some (h.set a none)) = some g → g.next = h.next := by
      intro a vs e
      cases h1 : destroyList (destroyVal n) h vs with
      | none => rw [h1] at e; cases e
      | some k => rw [h1] at e; cases e; exact (list_next ih vs h k h1 :)
    rcases r with s | _ | _
    · cases e; rfl
    · rename_i a
      cases a with
      | none => cases e; rfl
      | some a =>
        simp only [destroyVal] at e
        split at e
        · exact fin _ _ e
        · cases e
    · rename_i a
      cases a with
      | none => cases e; rfl
      | some a =>
        simp only [destroyVal] at e
        split at e
        · exact fin _ _ e
        · cases e

private theorem dispose_next {st st' : State} {v : HVal} (h : dispose st v = .done st') : st'.heap.next = st.heap.next := by
  unfold dispose at h
  cases e : destroyVal st.heap.fuel st.heap v with
  | none => rw [e] at h; cases h
  | some g => rw [e] at h; cases h; exact destroy_next _ _ _ _ e

private theorem replace_next {st st' : State} {l : Loc} {v : HVal} (h : Mem.replace st l v = .done st') : st'.heap.next = st.heap.next := by
  unfold Mem.replace at h
  split at h
  · cases h
  · split at h
    · rename_i e
      cases h
      exact (destroy_next _ _ _ _ e).trans (write_next ..)
    · cases h

private theorem moveAssign_next {st st' : State} {d s : Loc} {junk : Bytes} (h : Mem.moveAssign junk st d s = .done st') : st'.heap.next = st.heap.next := by
  unfold Mem.moveAssign at h
  split at h
  · dsimp only at h
    split at h
    · split at h
      · cases h; simp
      · simpa using replace_next h
    · split at h
      · cases h
      · rename_i e
        split at h
        · cases h
        · cases h
          have := destroy_next _ _ _ _ e
          simp only [write_next] at this ⊢
          exact this
  · cases h

section
variable {st : State} {σ : Store} {F : Nat → List Addr}

private theorem solid_array (H : SRep st σ [] F) (T : KeyedStore σ) {p : Place} {v : Value} {vs : List Value} {l : Loc} (hg : σ.get p = some v) (hv : Elems v vs)
    (hh : ¬ Hollowable v) (hl : st.resolve p = some l) (oom : Addr → Bool) : ∃ a, ∀ k, asArray oom st l k = k st a := by
  obtain ⟨l1, y, B, p1, p2, p3, _⟩ := H.place T hg
  rw [hl] at p1; cases p1
  rcases hv with h | h
  · exact absurd h.1 hh
  · subst h
    obtain ⟨a, xs, C, e1, e2, e3, e4⟩ := id p3
    subst e1
    have hne : xs.isEmpty = false := by
      cases xs with
      | nil =>
        cases vs with
        | nil => exact absurd .array hh
        | cons => have := e3.length; simp at this
      | cons => rfl
    exact ⟨a, fun k => by simp [asArray, p2, State.blank, e2, hne]⟩

private theorem solid_object (H : SRep st σ [] F) (T : KeyedStore σ) {p : Place} {v : Value} {ms : List (Bytes × Value)} {l : Loc} (hg : σ.get p = some v) (hv : Members v ms)
    (hh : ¬ Hollowable v) (hl : st.resolve p = some l) (oom : Addr → Bool) : ∃ a, ∀ k, asObject oom st l k = k st a := by
  obtain ⟨l1, y, B, p1, p2, p3, _⟩ := H.place T hg
  rw [hl] at p1; cases p1
  rcases hv with h | h
  · exact absurd h.1 hh
  · subst h
    obtain ⟨a, xs, C, e1, e2, e3, e4⟩ := id p3
    subst e1
    have hne : xs.isEmpty = false := by
      cases xs with
      | nil =>
        cases ms with
        | nil => exact absurd .object hh
        | cons => obtain ⟨_, _, _, _, e, _⟩ := e3; cases e
      | cons => rfl
    exact ⟨a, fun k => by simp [asObject, p2, State.blank, e2, hne]⟩
end

/-- It holds unless something is erased from a value that is null or empty; that asks for memory once. -/
theorem C69_partial {ops : List Op} {σ σ' : Store} {op : Op} {oom : Nat → Bool} (h : Steps Store.empty ops σ) (hop : Frugal op) (hs : Step σ op σ')
    (he : ∀ p t v, container op = some (p, t) → σ.get p = some v → ¬ Hollowable v) :
    ∃ st st', run ample State.init ops = .done st ∧ step oom st op = .done st' ∧ (∀ x, st'.value x = σ' x) ∧ st'.heap.next = st.heap.next := by
  obtain ⟨st, F, h1, H, T, h4⟩ := histories h
  have hk := keyedStore_of_tagged T
  have hends := step_ends H hk oom hs
  suffices hn : ∃ st', step oom st op = .done st' ∧ st'.heap.next = st.heap.next by
    obtain ⟨st', e, hn⟩ := hn
    rw [e] at hends
    obtain ⟨F', hF⟩ := hends
    exact ⟨st, st', h1, e, hF.value, hn⟩
  have done : (∀ st', step oom st op ≠ .thrown st') → (∀ st', step oom st op = .done st' → st'.heap.next = st.heap.next) →
      ∃ st', step oom st op = .done st' ∧ st'.heap.next = st.heap.next := by
    intro ht hd
    cases e : step oom st op with
    | done st' => exact ⟨st', rfl, hd st' e⟩
    | thrown st' => exact absurd e (ht st')
    | ub => rw [e] at hends; exact hends.elim
  have calm : container op = none → (∀ x s, op ≠ .copyInit x s) → (∀ d s, op ≠ .copyAssign d s) → ∀ st', step oom st op ≠ .thrown st' := by
    intro hc h2 h3 st' e
    rw [e] at hends
    obtain ⟨_, _, ha, _⟩ := hends
    cases ha <;> simp_all [container]
  cases hop with
  | moveInit =>
    refine done (calm rfl (by simp) (by simp)) fun st' e => ?_
    simp only [step] at e
    split at e
    · split at e
      · cases e; simp
      · cases e
    · simp only [State.missing] at e; split at e <;> cases e
    · cases e
  | moveAssign =>
    refine done (calm rfl (by simp) (by simp)) fun st' e => ?_
    simp only [step] at e
    split at e
    · exact moveAssign_next e
    · simp only [State.missing] at e; split at e <;> cases e
  | drop =>
    refine done (calm rfl (by simp) (by simp)) fun st' e => ?_
    simp only [step] at e
    split at e
    · exact (dispose_next e :)
    · cases e
  | erasePos =>
    cases hs with
    | erasePos hg hv =>
      obtain ⟨l, _, _, p1, _⟩ := H.place hk hg
      obtain ⟨a, ha⟩ := solid_array H hk hg hv (he _ _ _ rfl hg) p1 oom
      simp only [step, p1, ha] at hends ⊢
      split at hends
      · split at hends
        · unfold dispose at hends ⊢
          split at hends
          · rename_i e
            exact ⟨_, rfl, (destroy_next _ _ _ _ e :)⟩
          · exact hends.elim
        · exact ⟨_, rfl, rfl⟩
      · exact hends.elim
  | eraseKey =>
    cases hs with
    | eraseKey hg hv =>
      obtain ⟨l, _, _, p1, _⟩ := H.place hk hg
      obtain ⟨a, ha⟩ := solid_object H hk hg hv (he _ _ _ rfl hg) p1 oom
      simp only [step, p1, ha] at hends ⊢
      split at hends
      · split at hends
        · unfold dispose at hends ⊢
          split at hends
          · rename_i e
            exact ⟨_, rfl, (destroy_next _ _ _ _ e :)⟩
          · exact hends.elim
        · exact ⟨_, rfl, rfl⟩
      · exact hends.elim

-- Not vacuous: an element that is an array is moved out, moved over another value, and erased, without memory.
example : ∃ st st1 st2 st3, run ample State.init [.init 0 (.arr .array [.arr .array [.ofInt 1], .null])] = .done st ∧
    step (fun _ => true) st (.moveInit 1 ⟨0, [.pos 0]⟩ []) = .done st1 ∧ step (fun _ => true) st1 (.moveAssign ⟨0, [.pos 1]⟩ ⟨1, []⟩ []) = .done st2 ∧
    step (fun _ => true) st2 (.erasePos ⟨0, []⟩ 0) = .done st3 ∧ st3.value 0 = some (.arr .array [.arr .array [.ofInt 1]]) :=
  ⟨_, _, _, _, rfl, rfl, rfl, rfl, by decide +kernel⟩

/-- Erasing from a null or empty value asks for memory once. If it gets none, the exception leaves the value with the tag of a container and its old payload (C65 says what that can do). -/
theorem C69_erase {ops : List Op} {σ : Store} {oom : Nat → Bool} {p : Place} {v : Value} (h : Steps Store.empty ops σ) (hp : σ.get p = some v) (hv : Hollowable v)
    (i : Nat) (k : Bytes) :
    ∃ st, run ample State.init ops = .done st ∧
      (if oom st.heap.next then (∃ st', step oom st (.erasePos p i) = .thrown st' ∧ ∀ x, st'.value x = σ.set p (v.setType .array) x) ∧
          ∃ st', step oom st (.eraseKey p k) = .thrown st' ∧ ∀ x, st'.value x = σ.set p (v.setType .object) x
        else (∃ st', step oom st (.erasePos p i) = .done st' ∧ (∀ x, st'.value x = σ.set p (.arr .array []) x) ∧ st'.heap.next = st.heap.next + 1) ∧
          ∃ st', step oom st (.eraseKey p k) = .done st' ∧ (∀ x, st'.value x = σ.set p (.obj .object []) x) ∧ st'.heap.next = st.heap.next + 1) := by
  obtain ⟨st, F, h1, H, T, h4⟩ := histories h
  refine ⟨st, h1, ?_⟩
  have hk := keyedStore_of_tagged T
  obtain ⟨l, y, B, p1, p2, p3, _⟩ := H.place hk hp
  obtain ⟨⟨sa, a1, a2, a3, a4, _⟩, a6⟩ := H.coerce hk (w' := .arr .array []) (t := .array) (r := .arr (some st.heap.next)) (c := .arr []) hp hv p1 p2 p3
    (fun g hgc => ⟨_, [], [], rfl, hgc, ⟨rfl, rfl⟩, rfl⟩)
  obtain ⟨⟨so, o1, o2, o3, o4, _⟩, o6⟩ := H.coerce hk (w' := .obj .object []) (t := .object) (r := .obj (some st.heap.next)) (c := .obj []) hp hv p1 p2 p3
    (fun g hgc => ⟨_, [], [], rfl, hgc, ⟨rfl, rfl⟩, rfl⟩)
  have na := replace_next a1
  have no := replace_next o1
  split
  · rename_i ho
    constructor
    · obtain ⟨G, hG⟩ := a6
      refine ⟨_, ?_, hG.value⟩
      simp only [step, p1, asArray, p2, blank_of_hollowable p3 hv, write_next, ho, if_true]
    · obtain ⟨G, hG⟩ := o6
      refine ⟨_, ?_, hG.value⟩
      simp only [step, p1, asObject, p2, blank_of_hollowable p3 hv, write_next, ho, if_true]
  · rename_i ho
    constructor
    · obtain ⟨G, hG⟩ := a2
      refine ⟨sa, ?_, hG.value, ?_⟩
      · obtain ⟨l', y', B', q1, q2, q3, _⟩ := hG.place (keyed_set hk hp (w' := .arr .array []) (by simp [Keyed, KeyedAll])) (get_set (w' := .arr .array []) hp)
        rw [a3] at q1; cases q1
        rw [a4] at q2; cases q2
        obtain ⟨a', xs, C, d1, d2, d3, d4⟩ := q3
        simp at d1; subst d1
        obtain ⟨rfl, _⟩ := d3
        rw [write_next] at a1
        simp only [step, p1, asArray, p2, blank_of_hollowable p3 hv, write_next, ho, a1, Fin.bind, d2]
        rfl
      · rw [na]
        show (st.write l ⟨.array, y.raw⟩).heap.next + 1 = _
        rw [write_next]
    · obtain ⟨G, hG⟩ := o2
      refine ⟨so, ?_, hG.value, ?_⟩
      · obtain ⟨l', y', B', q1, q2, q3, _⟩ := hG.place (keyed_set hk hp (w' := .obj .object []) (by simp [Keyed, KeyedMembers])) (get_set (w' := .obj .object []) hp)
        rw [o3] at q1; cases q1
        rw [o4] at q2; cases q2
        obtain ⟨a', xs, C, d1, d2, d3, d4⟩ := q3
        simp at d1; subst d1
        obtain ⟨rfl, _⟩ := d3
        rw [write_next] at o1
        simp only [step, p1, asObject, p2, blank_of_hollowable p3 hv, write_next, ho, o1, Fin.bind, d2]
        rfl
      · rw [no]
        show (st.write l ⟨.object, y.raw⟩).heap.next + 1 = _
        rw [write_next]

example : ∃ st st', run ample State.init [.init 0 (.arr .array [])] = .done st ∧ step (fun _ => true) st (.eraseKey ⟨0, []⟩ [0x6b]) = .thrown st' ∧
    st'.value 0 = some (.arr .object []) := ⟨_, _, rfl, rfl, by decide +kernel⟩

end Meojson.Stores
