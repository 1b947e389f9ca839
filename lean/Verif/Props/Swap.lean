import Verif.Model.Swap
import Verif.Props.Reference
import Verif.Proofs.Parts

/-!
# C90: `std::swap` exchanges two values
-/

set_option autoImplicit false

namespace Meojson
open Mem Stores

section
variable {st : State} {σ : Store}

private theorem stepFits (A : Fits st σ) {op : Op} {σ' : Store} (h : Step σ op σ') : ∃ st', step ample st op = .done st' ∧ Fits st' σ' := by
  obtain ⟨⟨F, H⟩, T⟩ := A
  have := step_ends H T ample h
  cases hs : step ample st op with
  | done st' => rw [hs] at this; exact ⟨st', rfl, this, step_keyed T h⟩
  | thrown st' => rw [hs] at this; obtain ⟨⟨a, ha⟩, _⟩ := this; cases ha
  | ub => rw [hs] at this; exact this.elim

private theorem putSelf {σ : Store} {t : Nat} (h : σ t = none) : σ.put t none = σ := by
  funext y
  simp only [Store.put]
  split
  · next e => rw [e, h]
  · rfl

private theorem setPut {σ : Store} {p : Place} {t : Nat} {w : Value} {v : Option Value} (h : p.x ≠ t) : (σ.put t v).set p w = (σ.set p w).put t v := by
  funext y
  simp only [Store.set, Store.put, h, if_false]
  by_cases h1 : y = p.x
  · subst h1; simp [h]
  · simp [h1]

private theorem putSet {σ : Store} {t : Nat} {a : Option Value} {w : Value} : ((σ.put t a).set ⟨t, []⟩ w).put t none = σ.put t none := by
  funext y
  simp only [Store.set, Store.put]
  by_cases h1 : y = t <;> simp [h1]

private theorem getPut {σ : Store} {p : Place} {t : Nat} {v : Option Value} (h : p.x ≠ t) : (σ.put t v).get p = σ.get p := by
  simp [Store.get, Store.put, h]

private theorem ne_of_get {p : Place} {t : Nat} {v : Value} (ht : σ t = none) (h : σ.get p = some v) : p.x ≠ t := by
  rintro rfl
  simp [Store.get, ht] at h

private theorem get_set_same {p : Place} {v w : Value} (h : σ.get p = some v) : (σ.set p w).get p = some w := by
  obtain ⟨u, hu, hg⟩ := get_some h
  rw [get_of (set_at hu w)]
  exact getAt_setAt hg

private theorem get_below {p : Place} {v : Value} {path : List Sel} (h : σ.get p = some v) : σ.get (Place.below p path) = getAt v path := by
  obtain ⟨u, hu, hg⟩ := get_some h
  rw [get_of (p := Place.below p path) hu]
  simp only [Place.below, getAt_append, hg, Option.bind_some]

/-- Replacing what is at a place keeps the places outside it. -/
private theorem set_outside {p q : Place} {a b : Value} (hi : ¬ Inside q p) (hp : σ.get p = some a) (hq : (σ.get q).isSome) : ((σ.set p b).get q).isSome := by
  by_cases hi' : Within p q
  · obtain ⟨e, r, hr⟩ := hi'
    obtain ⟨y, hy⟩ := Option.isSome_iff_exists.1 hq
    obtain ⟨z, hz, hg⟩ := get_some hy
    rw [get_of (p := q) (by rw [← e]; exact set_at (by rw [e]; exact hz) b), ← hr, getAt_setAt_above hg]; rfl
  · rw [get_set_other hp ⟨fun e => hi' e, fun e => ?_⟩]
    · exact hq
    · exact hi ⟨e.1.symm, e.2, fun e' => hi' ⟨e.1, by rw [e']; exact List.prefix_refl _⟩⟩

/-- The four statements of a swap one after the other, where the references still designate the two places. -/
private theorem swap_steps {p q : Place} {v w : Value} {t : Nat} {j₁ j₂ j₃ : Bytes} {σ₁ σ₂ σ₃ : Store} (A : Fits st σ) (hp : σ.get p = some v) (hq : σ.get q = some w) (ht : σ t = none)
    (h1 : Step σ (.moveInit t p j₁) σ₁) (s1 : Stays σ (.moveInit t p j₁) p p) (s1' : Stays σ (.moveInit t p j₁) q q) (g1 : (σ₁.get p).isSome) (g1' : (σ₁.get q).isSome)
    (h2 : Step σ₁ (.moveAssign p q j₂) σ₂) (s2 : Stays σ₁ (.moveAssign p q j₂) p p) (s2' : Stays σ₁ (.moveAssign p q j₂) q q) (g2 : (σ₂.get p).isSome) (g2' : (σ₂.get q).isSome)
    (h3 : Step σ₂ (.moveAssign q ⟨t, []⟩ j₃) σ₃) (s3 : Stays σ₂ (.moveAssign q ⟨t, []⟩ j₃) p p) (s3' : Stays σ₂ (.moveAssign q ⟨t, []⟩ j₃) q q)
    (g3 : (σ₃.get p).isSome) (g3' : (σ₃.get q).isSome) {v' : Value} (h4 : σ₃ t = some v') (ep : p.x ≠ t) (eq : q.x ≠ t) :
    ∃ st₁ st₂ st₃ st₄, step ample st (.moveInit t p j₁) = .done st₁ ∧ step ample st₁ (.moveAssign p q j₂) = .done st₂ ∧ step ample st₂ (.moveAssign q ⟨t, []⟩ j₃) = .done st₃ ∧
      step ample st₃ (.drop t) = .done st₄ ∧ Fits st₁ σ₁ ∧ Fits st₂ σ₂ ∧ Fits st₃ σ₃ ∧ Fits st₄ (σ₃.put t none) ∧
      swapPlaces j₁ j₂ j₃ t st p q = .done st₄ ∧ st₄.refer p = st.refer p ∧ st₄.refer q = st.refer q := by
  obtain ⟨st₁, e1, A1⟩ := stepFits A h1
  obtain ⟨st₂, e2, A2⟩ := stepFits A1 h2
  obtain ⟨st₃, e3, A3⟩ := stepFits A2 h3
  obtain ⟨st₄, e4, A4⟩ := stepFits A3 (Step.drop h4)
  obtain ⟨u1, g1⟩ := Option.isSome_iff_exists.1 g1
  obtain ⟨u1', g1'⟩ := Option.isSome_iff_exists.1 g1'
  obtain ⟨u2, g2⟩ := Option.isSome_iff_exists.1 g2
  obtain ⟨u2', g2'⟩ := Option.isSome_iff_exists.1 g2'
  obtain ⟨u3, g3⟩ := Option.isSome_iff_exists.1 g3
  obtain ⟨u3', g3'⟩ := Option.isSome_iff_exists.1 g3'
  have r1 := stays A ample h1 e1 hp g1 s1
  have r1' := stays A ample h1 e1 hq g1' s1'
  have r2 := stays A1 ample h2 e2 g1 g2 s2
  have r2' := stays A1 ample h2 e2 g1' g2' s2'
  have r3 := stays A2 ample h3 e3 g2 g3 s3
  have r3' := stays A2 ample h3 e3 g2' g3' s3'
  have r4 := stays A3 ample (Step.drop h4) e4 g3 ((getPut ep).trans g3) (.drop ep)
  have r4' := stays A3 ample (Step.drop h4) e4 g3' ((getPut eq).trans g3') (.drop eq)
  obtain ⟨r, hr⟩ := A.refer hp
  obtain ⟨s, hs⟩ := A.refer hq
  refine ⟨st₁, st₂, st₃, st₄, e1, e2, e3, e4, A1, A2, A3, A4, ?_, by rw [r4, r3, r2, r1], by rw [r4', r3', r2', r1']⟩
  have vt : st.var t = none := by obtain ⟨⟨F, H⟩, _⟩ := A; exact (H.absent t ht).1
  obtain ⟨l, y, a1, a2, a3, a4⟩ := refer_slot hr
  obtain ⟨l1, y1, b1, b2, b3, b4⟩ := refer_slot (r1.trans hr)
  obtain ⟨m1, z1, c1, c2, c3, c4⟩ := refer_slot (r1'.trans hs)
  obtain ⟨m2, z2, d1, d2, d3, d4⟩ := refer_slot ((r2'.trans r1').trans hs)
  have vt2 : ∃ u, st₂.var t = some u := by
    have : σ₂ t ≠ none := by
      cases h3 with
      | moveAssign _ h => obtain ⟨u, hu, _⟩ := get_some h; rw [hu]; simp
      | moveAssignPart _ h => obtain ⟨u, hu, _⟩ := get_some h; rw [hu]; simp
      | moveAssignSelf => exact absurd rfl eq
    obtain ⟨⟨F, H⟩, _⟩ := A2
    cases hu : σ₂ t with
    | none => exact absurd hu this
    | some u => obtain ⟨h, hh, _⟩ := H.rep t u hu; exact ⟨h, hh⟩
  have rt : st₂.resolve ⟨t, []⟩ = some (.var t) := by
    obtain ⟨u, hu⟩ := vt2
    simp [State.resolve, State.read, hu, State.locate]
  simp only [step, vt, a4, a2] at e1
  cases e1
  simp only [step, b4, c4] at e2
  simp only [step, d4, rt] at e3
  simp only [swapPlaces, hr, hs, swapRefs, vt, a1, takeFrom, a2, b1, c1, e2, Fin.bind, d1, e3]
  simp only [step] at e4
  cases hv : st₃.var t with
  | some u => rw [hv] at e4; exact e4
  | none => rw [hv] at e4; cases e4

end

/-- `std::swap` of two values neither of which is part of the other: each place then holds what the other held and nothing else changes; references to parts of the two values
have gone along with them, all others designate the same places as before. -/
theorem C90_swap_partial {st : State} {σ : Store} (hst : Holds st σ []) (hk : KeyedStore σ) {p q : Place} {v w : Value} (hp : σ.get p = some v) (hq : σ.get q = some w)
    (ha : Apart p q) {t : Nat} (ht : σ t = none) (j₁ j₂ j₃ : Bytes) :
    ∃ st', swapPlaces j₁ j₂ j₃ t st p q = .done st' ∧ Holds st' ((σ.set p w).set q v) [] ∧ KeyedStore ((σ.set p w).set q v) ∧
      (∀ x, st'.value x = ((σ.set p w).set q v) x) ∧
      (∀ o, (σ.get o).isSome → ¬ Inside o p → ¬ Inside o q → st'.refer o = st.refer o) ∧
      ∀ path, path ≠ [] →
        ((σ.get (Place.below p path)).isSome → st'.refer (Place.below q path) = st.refer (Place.below p path)) ∧
        ((σ.get (Place.below q path)).isSome → st'.refer (Place.below p path) = st.refer (Place.below q path)) := by
  have A : Fits st σ := ⟨hst, hk⟩
  have ep := ne_of_get ht hp
  have eq := ne_of_get ht hq
  have hpq : p ≠ q := fun h => by subst h; exact ha.1 ⟨rfl, List.prefix_refl _⟩
  have ha' : Apart q p := ⟨fun h => ha.2 ⟨h.1.symm, h.2⟩, fun h => ha.1 ⟨h.1.symm, h.2⟩⟩
  have ni : ∀ {a b : Place}, Apart a b → ¬ Inside a b := fun h i => h.1 ⟨i.1, i.2.1⟩
  have nx : ∀ {a b : Place}, a.x ≠ b.x → ¬ Inside a b := fun h i => h i.1
  -- the three stores
  let σ₁ := (σ.set p (hollow j₁ v)).put t (some v)
  have p1 : σ₁.get p = some (hollow j₁ v) := (getPut ep).trans (get_set_same hp)
  have q1 : σ₁.get q = some w := by rw [getPut eq, get_set_other hp ha, hq]
  have t1 : σ₁.get ⟨t, []⟩ = some v := by simp [σ₁, Store.get, Store.put, getAt]
  let σ₂ := (σ₁.set q (hollow j₂ w)).set p w
  have q1' : (σ₁.set q (hollow j₂ w)).get p = some (hollow j₁ v) := by rw [get_set_other q1 ha', p1]
  have p2 : σ₂.get p = some w := get_set_same q1'
  have q2 : σ₂.get q = some (hollow j₂ w) := by rw [get_set_other q1' ha, get_set_same q1]
  have at_ : ∀ {d : Place} (path : List Sel), d.x ≠ t → Apart d ⟨t, path⟩ := fun path h => ⟨fun e => h e.1, fun e => h e.1⟩
  have t2 : σ₂.get ⟨t, []⟩ = some v := by rw [get_set_other q1' (at_ [] ep), get_set_other q1 (at_ [] eq), t1]
  let σ₃ := (σ₂.set ⟨t, []⟩ (hollow j₃ v)).set q v
  have t2' : (σ₂.set ⟨t, []⟩ (hollow j₃ v)).get q = some (hollow j₂ w) := by rw [get_set_other t2 ⟨fun e => eq e.1.symm, fun e => eq e.1.symm⟩, q2]
  have q3 : σ₃.get q = some v := get_set_same t2'
  have p3 : σ₃.get p = some w := by rw [get_set_other t2' ha', get_set_other t2 ⟨fun e => ep e.1.symm, fun e => ep e.1.symm⟩, p2]
  have t3 : σ₃.get ⟨t, []⟩ = some (hollow j₃ v) := by rw [get_set_other t2' (at_ [] eq), get_set_same t2]
  have h1 : Step σ (.moveInit t p j₁) σ₁ := .moveInit ht hp
  have h2 : Step σ₁ (.moveAssign p q j₂) σ₂ := .moveAssign p1 q1 hpq (ni ha) (ni ha')
  have h3 : Step σ₂ (.moveAssign q ⟨t, []⟩ j₃) σ₃ := .moveAssign q2 t2 (fun e => eq (congrArg Place.x e)) (nx eq) (nx (Ne.symm eq))
  have h4 : σ₃ t = some (hollow j₃ v) := by
    obtain ⟨u, hu, hg⟩ := get_some t3
    cases hg; exact hu
  obtain ⟨st₁, st₂, st₃, st₄, e1, e2, e3, e4, A1, A2, A3, A4, hs, rp, rq⟩ := swap_steps A hp hq ht h1 (.moveInit not_inside_self) (.moveInit (ni ha')) (by rw [p1]; rfl) (by rw [q1]; rfl)
    h2 (.moveAssign not_inside_self (ni ha)) (.moveAssign (ni ha') not_inside_self) (by rw [p2]; rfl) (by rw [q2]; rfl)
    h3 (.moveAssign (ni ha) (nx ep)) (.moveAssign not_inside_self (nx eq)) (by rw [p3]; rfl) (by rw [q3]; rfl) h4 ep eq
  have fin : σ₃.put t none = (σ.set p w).set q v := by
    have a1 : σ₁.set q (hollow j₂ w) = ((σ.set p (hollow j₁ v)).set q (hollow j₂ w)).put t (some v) := setPut eq
    have a2 : σ₂ = ((σ.set q (hollow j₂ w)).set p w).put t (some v) := by
      show (σ₁.set q (hollow j₂ w)).set p w = _
      rw [a1, setPut ep, set_comm ha, set_set]
    show ((σ₂.set ⟨t, []⟩ (hollow j₃ v)).set q v).put t none = _
    rw [← setPut eq, a2, putSet, setPut eq, set_comm ha', set_set]
    refine putSelf ?_
    rw [set_off (Ne.symm eq), set_off (Ne.symm ep), ht]
  rw [fin] at A4
  refine ⟨st₄, hs, A4.1, A4.2, fun x => ?_, fun o ho hop hoq => ?_, fun path hne => ⟨fun g => ?_, fun g => ?_⟩⟩
  · obtain ⟨⟨F, H⟩, _⟩ := A4
    exact H.value x
  · obtain ⟨u, hu⟩ := Option.isSome_iff_exists.1 ho
    have eo := ne_of_get ht hu
    obtain ⟨w1, b1⟩ := Option.isSome_iff_exists.1 (show (σ₁.get o).isSome by rw [getPut eo]; exact set_outside hop hp ho)
    obtain ⟨w2, b2⟩ := Option.isSome_iff_exists.1 (show (σ₂.get o).isSome from set_outside hop q1' (set_outside hoq q1 (by rw [b1]; rfl)))
    obtain ⟨w3, b3⟩ := Option.isSome_iff_exists.1 (show (σ₃.get o).isSome from set_outside hoq t2' (set_outside (nx eo) t2 (by rw [b2]; rfl)))
    have c1 := stays A ample h1 e1 hu b1 (.moveInit hop)
    have c2 := stays A1 ample h2 e2 b1 b2 (.moveAssign hop hoq)
    have c3 := stays A2 ample h3 e3 b2 b3 (.moveAssign hoq (nx eo))
    have c4 := stays A3 ample (Step.drop h4) e4 b3 ((getPut eo).trans b3) (.drop eo)
    rw [c4, c3, c2, c1]
  · obtain ⟨u, hu⟩ := Option.isSome_iff_exists.1 g
    rw [get_below hp] at hu
    have b1 : σ₁.get ⟨t, path⟩ = some u := (get_below t1 (path := path)).trans hu
    have b2 : σ₂.get ⟨t, path⟩ = some u := (get_below t2 (path := path)).trans hu
    have b3 : σ₃.get (Place.below q path) = some u := (get_below q3).trans hu
    have c1 := stays A ample h1 e1 ((get_below hp).trans hu) b1 (.moveInitBelow hne)
    have c2 := stays A1 ample h2 e2 b1 b2 (.moveAssign (nx (Ne.symm ep)) (nx (Ne.symm eq)))
    have c3 := stays A2 ample h3 e3 (q := Place.below ⟨t, []⟩ path) b2 b3 (.moveAssignBelow hne)
    have c4 := stays A3 ample (Step.drop h4) e4 b3 ((getPut (p := Place.below q path) eq).trans b3) (.drop eq)
    rw [c4, c3]
    exact c2.trans c1
  · obtain ⟨u, hu⟩ := Option.isSome_iff_exists.1 g
    rw [get_below hq] at hu
    have b0 : σ.get (Place.below q path) = some u := (get_below hq).trans hu
    have b1 : σ₁.get (Place.below q path) = some u := (get_below q1).trans hu
    have b2 : σ₂.get (Place.below p path) = some u := (get_below p2).trans hu
    have b3 : σ₃.get (Place.below p path) = some u := (get_below p3).trans hu
    have ab : ¬ Inside (Place.below q path) p := fun i => (apart_below ha path).2 ⟨i.1.symm, i.2.1⟩
    have ab' : ¬ Inside (Place.below p path) q := fun i => (apart_below ha' path).2 ⟨i.1.symm, i.2.1⟩
    have c1 := stays A ample h1 e1 b0 b1 (.moveInit ab)
    have c2 := stays A1 ample h2 e2 b1 b2 (.moveAssignBelow hne)
    have c3 := stays A2 ample h3 e3 b2 b3 (.moveAssign ab' (nx ep))
    have c4 := stays A3 ample (Step.drop h4) e4 b3 ((getPut (p := Place.below p path) ep).trans b3) (.drop ep)
    rw [c4, c3, c2, c1]

/-- `std::swap(v, v)` leaves everything as it was. -/
theorem C90_self {st : State} {σ : Store} (hst : Holds st σ []) (hk : KeyedStore σ) {p : Place} (hp : (σ.get p).isSome) {t : Nat} (ht : σ t = none) (j₁ j₂ j₃ : Bytes) :
    ∃ st', swapPlaces j₁ j₂ j₃ t st p p = .done st' ∧ Holds st' σ [] ∧ (∀ x, st'.value x = σ x) ∧ ∀ q, (σ.get q).isSome → st'.refer q = st.refer q := by
  obtain ⟨v, hp⟩ := Option.isSome_iff_exists.1 hp
  have A : Fits st σ := ⟨hst, hk⟩
  have ep := ne_of_get ht hp
  have nx : ∀ {a b : Place}, a.x ≠ b.x → ¬ Inside a b := fun h i => h i.1
  let σ₁ := (σ.set p (hollow j₁ v)).put t (some v)
  have p1 : σ₁.get p = some (hollow j₁ v) := (getPut ep).trans (get_set_same hp)
  have t1 : σ₁.get ⟨t, []⟩ = some v := by simp [σ₁, Store.get, Store.put, getAt]
  let u := if payloadKind (hollow j₁ v) = 0 then hollow j₂ (hollow j₁ v) else hollow j₁ v
  let σ₂ := σ₁.set p u
  have p2 : σ₂.get p = some u := get_set_same p1
  have at_ : ∀ {d : Place} (path : List Sel), d.x ≠ t → Apart d ⟨t, path⟩ := fun path h => ⟨fun e => h e.1, fun e => h e.1⟩
  have t2 : σ₂.get ⟨t, []⟩ = some v := by rw [get_set_other p1 (at_ [] ep), t1]
  let σ₃ := (σ₂.set ⟨t, []⟩ (hollow j₃ v)).set p v
  have t2' : (σ₂.set ⟨t, []⟩ (hollow j₃ v)).get p = some u := by rw [get_set_other t2 ⟨fun e => ep e.1.symm, fun e => ep e.1.symm⟩, p2]
  have p3 : σ₃.get p = some v := get_set_same t2'
  have t3 : σ₃.get ⟨t, []⟩ = some (hollow j₃ v) := by rw [get_set_other t2' (at_ [] ep), get_set_same t2]
  have h1 : Step σ (.moveInit t p j₁) σ₁ := .moveInit ht hp
  have h2 : Step σ₁ (.moveAssign p p j₂) σ₂ := .moveAssignSelf p1
  have h3 : Step σ₂ (.moveAssign p ⟨t, []⟩ j₃) σ₃ := .moveAssign p2 t2 (fun e => ep (congrArg Place.x e)) (nx ep) (nx (Ne.symm ep))
  have h4 : σ₃ t = some (hollow j₃ v) := by
    obtain ⟨u, hu, hg⟩ := get_some t3
    cases hg; exact hu
  obtain ⟨st₁, st₂, st₃, st₄, e1, e2, e3, e4, A1, A2, A3, A4, hs, rp, _⟩ := swap_steps A hp hp ht h1 (.moveInit not_inside_self) (.moveInit not_inside_self) (by rw [p1]; rfl) (by rw [p1]; rfl)
    h2 (.moveAssign not_inside_self not_inside_self) (.moveAssign not_inside_self not_inside_self) (by rw [p2]; rfl) (by rw [p2]; rfl)
    h3 (.moveAssign not_inside_self (nx ep)) (.moveAssign not_inside_self (nx ep)) (by rw [p3]; rfl) (by rw [p3]; rfl) h4 ep ep
  have fin : σ₃.put t none = σ := by
    have a2 : σ₂ = (σ.set p u).put t (some v) := by
      show σ₁.set p u = _
      rw [setPut ep, set_set]
    show ((σ₂.set ⟨t, []⟩ (hollow j₃ v)).set p v).put t none = _
    rw [← setPut ep, a2, putSet, setPut ep, set_set, set_get hk hp, putSelf ht]
  rw [fin] at A4
  refine ⟨st₄, hs, A4.1, fun x => ?_, fun q hq => ?_⟩
  · obtain ⟨⟨F, H⟩, _⟩ := A4
    exact H.value x
  · obtain ⟨w, hw⟩ := Option.isSome_iff_exists.1 hq
    have eq := ne_of_get ht hw
    by_cases hi : Inside q p
    · obtain ⟨path, hne, rfl⟩ : ∃ path, path ≠ [] ∧ q = Place.below p path := by
        obtain ⟨h1, ⟨r, h2⟩, h3⟩ := hi
        refine ⟨r, ?_, ?_⟩
        · rintro rfl; exact h3 (by simp [← h2])
        · cases q; simp only [Place.below] at *; simp [h1, h2]
      rw [get_below hp] at hw
      have b1 : σ₁.get ⟨t, path⟩ = some w := (get_below t1 (path := path)).trans hw
      have b2 : σ₂.get ⟨t, path⟩ = some w := (get_below t2 (path := path)).trans hw
      have b3 : σ₃.get (Place.below p path) = some w := (get_below p3).trans hw
      have c1 := stays A ample h1 e1 ((get_below hp).trans hw) b1 (.moveInitBelow hne)
      have c2 := stays A1 ample h2 e2 b1 b2 (.moveAssign (nx (Ne.symm ep)) (nx (Ne.symm ep)))
      have c3 := stays A2 ample h3 e3 (q := Place.below ⟨t, []⟩ path) b2 b3 (.moveAssignBelow hne)
      have c4 := stays A3 ample (Step.drop h4) e4 b3 ((getPut (p := Place.below p path) ep).trans b3) (.drop ep)
      rw [c4, c3]
      exact c2.trans c1
    · have b1 : (σ₁.get q).isSome := by rw [getPut eq]; exact set_outside hi hp hq
      have b2 : (σ₂.get q).isSome := set_outside hi p1 b1
      have b3 : (σ₃.get q).isSome := set_outside hi t2' (by rw [get_set_other t2 ⟨fun e => eq e.1.symm, fun e => eq e.1.symm⟩]; exact b2)
      obtain ⟨w1, b1⟩ := Option.isSome_iff_exists.1 b1
      obtain ⟨w2, b2⟩ := Option.isSome_iff_exists.1 b2
      obtain ⟨w3, b3⟩ := Option.isSome_iff_exists.1 b3
      have c1 := stays A ample h1 e1 hw b1 (.moveInit hi)
      have c2 := stays A1 ample h2 e2 b1 b2 (.moveAssign hi hi)
      have c3 := stays A2 ample h3 e3 b2 b3 (.moveAssign hi (nx eq))
      have c4 := stays A3 ample (Step.drop h4) e4 b3 ((getPut eq).trans b3) (.drop eq)
      rw [c4, c3, c2, c1]

/-- Of any program. -/
theorem C90_history_partial {ops : List Op} {σ : Store} (h : Steps Store.empty ops σ) {p q : Place} {v w : Value} (hp : σ.get p = some v) (hq : σ.get q = some w) (ha : Apart p q)
    {t : Nat} (ht : σ t = none) (j₁ j₂ j₃ : Bytes) :
    ∃ st st', run ample State.init ops = .done st ∧ swapPlaces j₁ j₂ j₃ t st p q = .done st' ∧ ∀ x, st'.value x = ((σ.set p w).set q v) x := by
  obtain ⟨st, F, h1, H, T⟩ := steps_run srep_init keyed_empty h
  obtain ⟨st', e1, _, _, e2, _⟩ := C90_swap_partial ⟨F, H⟩ T hp hq ha ht j₁ j₂ j₃
  exact ⟨st, st', h1, e1, e2⟩

/-- A value and a part of it cannot be swapped: the part takes the place of the whole, and the rest of the whole is lost and its memory leaks, as in
`json::value v = {{"k", {1}}}; std::swap(v, v["k"]);`, in either order. -/
theorem C90_refuted : ∃ st, run ample State.init [.init 0 (.obj .object [([0x6b], .arr .array [.ofInt 1])])] = .done st ∧
    ∀ pq ∈ [(Place.mk 0 [], Place.mk 0 [.key [0x6b]]), (⟨0, [.key [0x6b]]⟩, ⟨0, []⟩)], ∃ st' st'', swapPlaces [] [] [] 1 st pq.1 pq.2 = .done st' ∧
      st'.value 0 = some (.arr .array [.ofInt 1]) ∧ run ample st' [.drop 0] = .done st'' ∧ ∃ a, st''.heap.cell a ≠ none := by
  refine ⟨_, rfl, fun pq h => ?_⟩
  simp only [List.mem_cons, List.not_mem_nil, or_false] at h
  rcases h with rfl | rfl
  · exact ⟨_, _, rfl, by decide +kernel, rfl, 1, by decide +kernel⟩
  · exact ⟨_, _, rfl, by decide +kernel, rfl, 1, by decide +kernel⟩

section
variable {σ : Store}

private theorem set_part (T : KeyedStore σ) {p : Place} {u w : Value} {path : List Sel} (h : σ.get p = some u) : σ.set (Place.below p path) w = σ.set p (setAt u path w) := by
  obtain ⟨x, hx, hg⟩ := get_some h
  funext y
  by_cases hy : y = p.x
  · subst hy
    rw [set_at hx]
    have := set_at (d := Place.below p path) hx w
    simp only [Place.below] at this ⊢
    rw [this, setAt_append (T _ _ hx) hg]
  · rw [set_off hy, set_off (d := Place.below p path) hy]

private theorem set_elem (T : KeyedStore σ) {p : Place} {us : List Value} {i : Nat} {w : Value} (h : σ.get p = some (.arr .array us)) :
    σ.set (Place.below p [.pos i]) w = σ.set p (.arr .array (us.set i w)) := by
  rw [set_part T h]
  congr 2
  simp [setAt, List.modify_eq_set]

/-- The elements from the ends inwards exchanged. -/
private def turned : Nat → List Value → Nat → Nat → List Value
  | 0, us, _, _ => us
  | k + 1, us, i, j =>
    match us[i]?, us[j]? with
    | some x, some y => turned k ((us.set i y).set j x) (i + 1) (j - 1)
    | _, _ => us

private theorem turned_get : ∀ {k : Nat} {us : List Value} {i j : Nat}, i + 2 * k ≤ j + 1 → j < us.length → ∀ m,
    (turned k us i j)[m]? = if (i ≤ m ∧ m < i + k) ∨ (j < m + k ∧ m ≤ j) then us[i + j - m]? else us[m]?
  | 0, us, i, j, _, _, m => by
    rw [if_neg (by omega)]; rfl
  | k + 1, us, i, j, h, hj, m => by
    have hi : i < us.length := by omega
    simp only [turned, List.getElem?_eq_getElem hi, List.getElem?_eq_getElem hj]
    rw [turned_get (by omega) (by simp; omega)]
    have e : i + 1 + (j - 1) - m = i + j - m := by omega
    rw [e]
    simp only [List.getElem?_set, List.length_set]
    by_cases h1 : m = i
    · subst h1
      rw [if_neg (by omega), if_neg (by omega), if_pos rfl, if_pos hi, if_pos (by omega)]
      rw [show m + j - m = j by omega, List.getElem?_eq_getElem hj]
    · by_cases h2 : m = j
      · subst h2
        rw [if_neg (by omega), if_pos rfl, if_pos hj, if_pos (by omega)]
        rw [show i + m - m = i by omega, List.getElem?_eq_getElem hi]
      · rw [if_neg (c := j = m) (by omega), if_neg (c := i = m) (by omega)]
        by_cases h3 : (i ≤ m ∧ m < i + (k + 1)) ∨ (j < m + (k + 1) ∧ m ≤ j)
        · rw [if_pos h3, if_pos (by omega), if_neg (by omega), if_neg (by omega)]
        · rw [if_neg h3, if_neg (by omega)]

private theorem turned_reverse (vs : List Value) : turned (vs.length / 2) vs 0 (vs.length - 1) = vs.reverse := by
  apply List.ext_getElem?
  intro m
  by_cases hz : vs.length = 0
  · obtain rfl := List.length_eq_zero_iff.1 hz; simp [turned]
  · rw [turned_get (by omega) (by omega)]
    by_cases hm : m < vs.length
    · rw [List.getElem?_reverse hm]
      split
      · congr 1; omega
      · congr 1; omega
    · rw [if_neg (by omega), List.getElem?_eq_none (by omega), List.getElem?_eq_none (by simp; omega)]

private theorem turned_length : ∀ (k : Nat) (us : List Value) (i j : Nat), (turned k us i j).length = us.length
  | 0, _, _, _ => rfl
  | k + 1, us, i, j => by
    simp only [turned]
    split
    · rw [turned_length]; simp
    · rfl

private theorem loop {t : Nat} {p : Place} {a : Addr} (junk : Nat → Bytes × Bytes × Bytes) : ∀ {k : Nat} {st : State} {σ : Store} {us : List Value} {i j : Nat}, Holds st σ [] → KeyedStore σ →
    σ t = none → σ.get p = some (.arr .array us) → (∀ m, m < us.length → st.refer (Place.below p [.pos m]) = some (.elem a m)) → i + 2 * k ≤ j + 1 → j < us.length →
    ∃ st', reverseLoop junk t a k st i j = .done st' ∧ Holds st' (σ.set p (.arr .array (turned k us i j))) [] ∧
      (∀ m, m < us.length → st'.refer (Place.below p [.pos m]) = some (.elem a m))
  | 0, st, σ, us, i, j, hst, T, _, hp, hr, _, _ => ⟨st, rfl, by rw [turned, set_get T hp]; exact hst, hr⟩
  | k + 1, st, σ, us, i, j, hst, T, ht, hp, hr, hk, hj => by
    have hi : i < us.length := by omega
    have hij : i ≠ j := by omega
    have gi : σ.get (Place.below p [.pos i]) = some us[i] := by rw [get_below hp]; simp [getAt, List.getElem?_eq_getElem hi]
    have gj : σ.get (Place.below p [.pos j]) = some us[j] := by rw [get_below hp]; simp [getAt, List.getElem?_eq_getElem hj]
    have ap : ∀ {m n : Nat}, m ≠ n → Apart (Place.below p [.pos m]) (Place.below p [.pos n]) := by
      intro m n h
      constructor <;> rintro ⟨_, e⟩ <;> simp only [Place.below, List.prefix_append_right_inj] at e <;> simp at e <;> omega
    obtain ⟨st₁, e1, e2, e3, _, e4, _⟩ := C90_swap_partial hst T gi gj (ap hij) ht (junk i).1 (junk i).2.1 (junk i).2.2
    have ep := ne_of_get ht hp
    have es : (σ.set (Place.below p [.pos i]) us[j]).set (Place.below p [.pos j]) us[i] = σ.set p (.arr .array ((us.set i us[j]).set j us[i])) := by
      have kj : Keyed us[j] := by
        obtain ⟨x, hx, hg⟩ := get_some gj
        exact keyed_getAt (T _ _ hx) hg
      have T' := keyed_set T gi kj
      rw [set_elem T hp] at T' ⊢
      rw [set_elem T' (get_set hp), set_set]
    rw [es] at e2 e3
    have ht' : (σ.set p (.arr .array ((us.set i us[j]).set j us[i]))) t = none := by rw [set_off (Ne.symm ep), ht]
    have hr' : ∀ m, m < ((us.set i us[j]).set j us[i]).length → st₁.refer (Place.below p [.pos m]) = some (.elem a m) := by
      intro m hm
      simp only [List.length_set] at hm
      rw [e4 _ (by rw [get_below hp]; simp [getAt, List.getElem?_eq_getElem hm]) ?_ ?_, hr m hm]
      · by_cases h : m = i
        · subst h; exact not_inside_self
        · exact fun h' => (ap h).1 ⟨h'.1, h'.2.1⟩
      · by_cases h : m = j
        · subst h; exact not_inside_self
        · exact fun h' => (ap h).1 ⟨h'.1, h'.2.1⟩
    obtain ⟨st', f1, f2, f3⟩ := loop junk e2 e3 ht' (get_set hp) hr' (i := i + 1) (j := j - 1) (k := k) (by omega) (by simp; omega)
    refine ⟨st', ?_, ?_, fun m hm => f3 m (by simpa using hm)⟩
    · simp only [swapPlaces, hr i hi, hr j hj] at e1
      simp only [reverseLoop, e1, Fin.bind, f1]
    · rw [set_set] at f2
      simpa only [turned, List.getElem?_eq_getElem hi, List.getElem?_eq_getElem hj] using f2

end

/-- `std::reverse` on the elements of an array reverses them; the elements stay where they are in memory, their values move. -/
theorem C90_reverse {st : State} {σ : Store} (hst : Holds st σ []) (hk : KeyedStore σ) {p : Place} {vs : List Value} (hp : σ.get p = some (.arr .array vs)) {t : Nat} (ht : σ t = none)
    (junk : Nat → Bytes × Bytes × Bytes) :
    ∃ st', reverseArray junk t st p = .done st' ∧ Holds st' (σ.set p (.arr .array vs.reverse)) [] ∧ (∀ x, st'.value x = (σ.set p (.arr .array vs.reverse)) x) ∧
      ∀ m, m < vs.length → st'.refer (Place.below p [.pos m]) = st.refer (Place.below p [.pos m]) := by
  have A : Fits st σ := ⟨hst, hk⟩
  obtain ⟨r, hr⟩ := A.refer hp
  obtain ⟨l, y, a1, a2, a3, a4⟩ := refer_slot hr
  obtain ⟨F, H⟩ := hst
  obtain ⟨l', y', B, b1, b2, b3, _⟩ := H.place hk hp
  rw [a4] at b1; cases b1
  rw [a2] at b2; cases b2
  obtain ⟨a, xs, C, rfl, c2, c3, _⟩ := b3
  have hrr : ∀ m, m < vs.length → st.refer (Place.below p [.pos m]) = some (.elem a m) := by
    intro m hm
    rw [refer_under a4 a2 (c := .pos m) rfl, deref_elem c2, List.getElem?_eq_getElem (by rw [c3.length]; exact hm)]; rfl
  have hrun : reverseArray junk t st p = reverseLoop junk t a (vs.length / 2) st 0 (vs.length - 1) := by
    simp only [reverseArray, hr, Option.bind_some, a3, c2, c3.length]
  by_cases hz : vs.length = 0
  · obtain rfl := List.length_eq_zero_iff.1 hz
    refine ⟨st, by rw [hrun]; rfl, ?_, ?_, fun _ _ => rfl⟩
    · rw [List.reverse_nil, set_get hk hp]; exact ⟨F, H⟩
    · rw [List.reverse_nil, set_get hk hp]; exact H.value
  · obtain ⟨st', e1, e2, e3⟩ := loop junk ⟨F, H⟩ hk ht hp hrr (k := vs.length / 2) (i := 0) (j := vs.length - 1) (by omega) (by omega)
    rw [turned_reverse] at e2
    refine ⟨st', by rw [hrun, e1], e2, fun x => ?_, fun m hm => by rw [e3 m hm, hrr m hm]⟩
    obtain ⟨F', H'⟩ := e2
    exact H'.value x

/-! Not vacuous. -/

-- `std::swap(v[0], v[1]["k"])`: values of different kinds in one array.
example : ∃ σ : Store, Steps Store.empty [.init 0 (.arr .array [.ofInt 1, .obj .object [([0x6b], .arr .array [.ofInt 2])]])] σ ∧
    σ.get ⟨0, [.pos 0]⟩ = some (.ofInt 1) ∧ σ.get ⟨0, [.pos 1, .key [0x6b]]⟩ = some (.arr .array [.ofInt 2]) ∧ σ 1 = none ∧
    ((σ.set ⟨0, [.pos 0]⟩ (.arr .array [.ofInt 2])).set ⟨0, [.pos 1, .key [0x6b]]⟩ (.ofInt 1)) 0 = some (.arr .array [.arr .array [.ofInt 2], .obj .object [([0x6b], .ofInt 1)]]) :=
  ⟨_, .cons (.init rfl (by simp [Tagged, TaggedAll, TaggedMembers, Value.ofInt])) .nil, by decide +kernel⟩
example : Apart ⟨0, [.pos 0]⟩ ⟨0, [.pos 1, .key [0x6b]]⟩ := by constructor <;> (rintro ⟨_, h⟩; revert h; decide)
example : ∃ st st', run ample State.init [.init 0 (.arr .array [.ofInt 1, .obj .object [([0x6b], .arr .array [.ofInt 2])]])] = .done st ∧
    swapPlaces [0x37] [] [] 1 st ⟨0, [.pos 0]⟩ ⟨0, [.pos 1, .key [0x6b]]⟩ = .done st' ∧
    st'.value 0 = some (.arr .array [.arr .array [.ofInt 2], .obj .object [([0x6b], .ofInt 1)]]) ∧
    st.refer ⟨0, [.pos 1, .key [0x6b], .pos 0]⟩ = some (.elem 0 0) ∧ st'.refer ⟨0, [.pos 0, .pos 0]⟩ = some (.elem 0 0) := ⟨_, _, rfl, rfl, by decide +kernel⟩
-- `[1, [2], 3]` reversed.
example : ∃ st st', run ample State.init [.init 0 (.arr .array [.ofInt 1, .arr .array [.ofInt 2], .ofInt 3])] = .done st ∧ reverseArray (fun _ => ([0x37], [], [0x38])) 1 st ⟨0, []⟩ = .done st' ∧
    st'.value 0 = some (.arr .array [.ofInt 3, .arr .array [.ofInt 2], .ofInt 1]) := ⟨_, _, rfl, rfl, by decide +kernel⟩

end Meojson
