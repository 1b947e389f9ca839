import Verif.Proofs.Schedule
import Verif.Proofs.Stays

/-! Threads that work on different parts of one value. -/

set_option autoImplicit false

namespace Meojson.Mem
open Stores

/-! ### Values -/

theorem getAt_setAt_above {w : Value} {r : List Sel} : ∀ {p : List Sel} {v u : Value}, getAt v p = some u → getAt (setAt v (p ++ r) w) p = some (setAt u r w)
  | [], _, _, h => by cases h; rfl
  | s :: p, v, u, h => by
    cases v with
    | str => cases s <;> simp [getAt] at h
    | arrNull => cases s <;> simp [getAt] at h
    | objNull => cases s <;> simp [getAt] at h
    | arr t vs =>
      cases s with
      | key k => simp [getAt] at h
      | pos i =>
        cases t <;> simp only [getAt, reduceCtorEq] at h
        obtain ⟨v1, h1, h2⟩ := Option.bind_eq_some_iff.1 h
        simp only [List.cons_append, setAt, getAt, List.getElem?_modify, h1, if_true]
        exact getAt_setAt_above h2
    | obj t ms =>
      cases s with
      | pos k => simp [getAt] at h
      | key k =>
        cases t <;> simp only [getAt, reduceCtorEq] at h
        obtain ⟨v1, h1, h2⟩ := Option.bind_eq_some_iff.1 h
        simp only [List.cons_append, setAt, getAt, lookup_map_if ms k k (fun u => setAt u (p ++ r) w), if_true, h1, Option.map_some, Option.bind_some]
        exact getAt_setAt_above h2

theorem missing_get : ∀ {p : List Sel} {v : Value}, Missing v p → getAt v p = none := by
  intro p v h
  induction h with
  | text => rename_i sel _; cases sel <;> rfl
  | arrayKey => rfl
  | objectPos => rfl
  | pos h => simp [getAt, List.getElem?_eq_none h]
  | key h => simp [getAt, h]
  | inPos h _ ih => simp [getAt, h, ih]
  | inKey h _ ih => simp [getAt, h, ih]

theorem missing_append {r : List Sel} : ∀ {p : List Sel} {v u : Value}, getAt v p = some u → (Missing v (p ++ r) ↔ Missing u r)
  | [], _, _, h => by cases h; exact Iff.rfl
  | s :: p, v, u, h => by
    cases v with
    | str => cases s <;> simp [getAt] at h
    | arrNull => cases s <;> simp [getAt] at h
    | objNull => cases s <;> simp [getAt] at h
    | arr t vs =>
      cases s with
      | key k => simp [getAt] at h
      | pos i =>
        cases t <;> simp only [getAt, reduceCtorEq] at h
        obtain ⟨v1, h1, h2⟩ := Option.bind_eq_some_iff.1 h
        rw [← missing_append h2]
        refine ⟨fun hm => ?_, fun hm => .inPos h1 hm⟩
        cases hm with
        | pos h => rw [List.getElem?_eq_none h] at h1; cases h1
        | inPos h3 h4 => rw [h1] at h3; cases h3; exact h4
    | obj t ms =>
      cases s with
      | pos k => simp [getAt] at h
      | key k =>
        cases t <;> simp only [getAt, reduceCtorEq] at h
        obtain ⟨v1, h1, h2⟩ := Option.bind_eq_some_iff.1 h
        rw [← missing_append h2]
        refine ⟨fun hm => ?_, fun hm => .inKey h1 hm⟩
        cases hm with
        | key h => rw [h] at h1; cases h1
        | inKey h3 h4 => rw [h1] at h3; cases h3; exact h4

theorem missing_pos {vs : List Value} {i : Nat} {q : List Sel} : Missing (.arr .array vs) (.pos i :: q) ↔ vs.length ≤ i ∨ ∃ v, vs[i]? = some v ∧ Missing v q :=
  ⟨fun h => by cases h with
    | pos h => exact .inl h
    | inPos h1 h2 => exact .inr ⟨_, h1, h2⟩, fun h => by
    rcases h with h | ⟨v, h1, h2⟩
    · exact .pos h
    · exact .inPos h1 h2⟩

theorem missing_key {ms : List (Bytes × Value)} {k : Bytes} {q : List Sel} : Missing (.obj .object ms) (.key k :: q) ↔
    ms.lookup k = none ∨ ∃ v, ms.lookup k = some v ∧ Missing v q :=
  ⟨fun h => by cases h with
    | key h => exact .inl h
    | inKey h1 h2 => exact .inr ⟨_, h1, h2⟩, fun h => by
    rcases h with h | ⟨v, h1, h2⟩
    · exact .key h
    · exact .inKey h1 h2⟩

theorem missing_setAt_other {w' : Value} : ∀ {p q : List Sel} {v w : Value}, getAt v p = some w → ¬ p <+: q → ¬ q <+: p → (Missing (setAt v p w') q ↔ Missing v q)
  | [], _, _, _, _, h, _ => absurd List.nil_prefix h
  | _ :: _, [], _, _, _, _, h => absurd List.nil_prefix h
  | s :: p, t :: q, v, w, h, h1, h2 => by
    have h1' : s = t → ¬ p <+: q := fun e h => h1 (List.cons_prefix_cons.2 ⟨e, h⟩)
    have h2' : s = t → ¬ q <+: p := fun e h => h2 (List.cons_prefix_cons.2 ⟨e.symm, h⟩)
    cases v with
    | str => cases s <;> simp [getAt] at h
    | arrNull => cases s <;> simp [getAt] at h
    | objNull => cases s <;> simp [getAt] at h
    | arr ty vs =>
      cases s with
      | key k => simp [getAt] at h
      | pos i =>
        cases ty <;> simp only [getAt, reduceCtorEq] at h
        obtain ⟨v1, e1, e2⟩ := Option.bind_eq_some_iff.1 h
        cases t with
        | key k => exact ⟨fun _ => .arrayKey, fun _ => .arrayKey⟩
        | pos j =>
          simp only [setAt, missing_pos, List.getElem?_modify, List.length_modify]
          by_cases hij : i = j
          · subst hij
            simp only [e1, if_true, Option.map_eq_map, Option.map_some, Option.some.injEq, exists_eq_left', missing_setAt_other e2 (h1' rfl) (h2' rfl)]
          · simp [hij]
    | obj ty ms =>
      cases s with
      | pos k => simp [getAt] at h
      | key k =>
        cases ty <;> simp only [getAt, reduceCtorEq] at h
        obtain ⟨v1, e1, e2⟩ := Option.bind_eq_some_iff.1 h
        cases t with
        | pos k => exact ⟨fun _ => .objectPos, fun _ => .objectPos⟩
        | key k' =>
          simp only [setAt, missing_key, lookup_map_if ms k k' (fun u => setAt u p w')]
          by_cases hk : k' = k
          · subst hk
            simp only [e1, if_true, Option.map_some, Option.some.injEq, exists_eq_left', missing_setAt_other e2 (h1' rfl) (h2' rfl), reduceCtorEq]
          · simp [hk]

/-! ### Stores -/

/-- Two stores agree at some places. -/
structure SameAt (P : Place → Prop) (σ τ : Store) : Prop where
  get : ∀ p, P p → τ.get p = σ.get p
  absent : ∀ p, P p → (Absent τ p ↔ Absent σ p)

theorem absent_get {σ : Store} {p : Place} (h : Absent σ p) : σ.get p = none := by
  obtain ⟨v, h1, h2⟩ := h; rw [get_of h1]; exact missing_get h2

theorem absent_of {σ : Store} {p : Place} {v : Value} (h : σ p.x = some v) : Absent σ p ↔ Missing v p.path :=
  ⟨fun ⟨u, h1, h2⟩ => by rw [h] at h1; cases h1; exact h2, fun h1 => ⟨v, h, h1⟩⟩

theorem set_at {σ : Store} {d : Place} {v : Value} (h : σ d.x = some v) (w : Value) : σ.set d w d.x = some (setAt v d.path w) := by simp [Store.set, Store.put, h]
theorem set_off {σ : Store} {d : Place} {x : Nat} (h : x ≠ d.x) (w : Value) : σ.set d w x = σ x := by simp [Store.set, Store.put, h]

theorem absent_set_other {σ : Store} {d p : Place} {w w' : Value} (h : σ.get d = some w) (ha : Apart d p) : Absent (σ.set d w') p ↔ Absent σ p := by
  obtain ⟨v, hv, hg⟩ := get_some h
  by_cases e : p.x = d.x
  · rw [absent_of (σ := σ.set d w') (v := setAt v d.path w') (by rw [e, set_at hv]), absent_of (σ := σ) (v := v) (by rw [e, hv])]
    exact missing_setAt_other hg (fun h => ha.2 ⟨e.symm, h⟩) fun h => ha.1 ⟨e.symm, h⟩
  · simp only [Absent, set_off e]

theorem SameAt.set {P : Place → Prop} {σ τ : Store} (H : SameAt P σ τ) {d : Place} (hd : P d) {u : Value} (hu : σ.get d = some u) (w : Value) :
    SameAt P (σ.set d w) (τ.set d w) := by
  have hu' := (H.get d hd).trans hu
  obtain ⟨v, hv, hg⟩ := get_some hu
  obtain ⟨v', hv', hg'⟩ := get_some hu'
  have key : ∀ p, P p → (τ.set d w).get p = (σ.set d w).get p ∧ (Absent (τ.set d w) p ↔ Absent (σ.set d w) p) := by
    intro p hp
    by_cases h1 : d.x = p.x ∧ d.path <+: p.path
    · obtain ⟨e, r, hr⟩ := h1
      have a1 : (σ.set d w) p.x = some (setAt v d.path w) := by rw [← e, set_at hv]
      have a2 : (τ.set d w) p.x = some (setAt v' d.path w) := by rw [← e, set_at hv']
      rw [absent_of a1, absent_of a2, get_of a1, get_of a2, ← hr, getAt_append, getAt_append, getAt_setAt hg, getAt_setAt hg', missing_append (getAt_setAt hg),
        missing_append (getAt_setAt hg')]
      exact ⟨rfl, Iff.rfl⟩
    · by_cases h2 : d.x = p.x ∧ p.path <+: d.path
      · obtain ⟨e, r, hr⟩ := h2
        have a1 : (σ.set d w) p.x = some (setAt v d.path w) := by rw [← e, set_at hv]
        have a2 : (τ.set d w) p.x = some (setAt v' d.path w) := by rw [← e, set_at hv']
        have b1 : σ.get p = getAt v p.path := get_of (by rw [← e, hv])
        have b2 : τ.get p = getAt v' p.path := get_of (by rw [← e, hv'])
        rw [← hr, getAt_append] at hg
        obtain ⟨z, hz, _⟩ := Option.bind_eq_some_iff.1 hg
        have hz' : getAt v' p.path = some z := by rw [← b2, H.get p hp, b1, hz]
        have g1 : (σ.set d w).get p = some (setAt z r w) := by rw [get_of a1, ← hr, getAt_setAt_above hz]
        have g2 : (τ.set d w).get p = some (setAt z r w) := by rw [get_of a2, ← hr, getAt_setAt_above hz']
        refine ⟨g2.trans g1.symm, fun h => ?_, fun h => ?_⟩
        · rw [absent_get h] at g2; cases g2
        · rw [absent_get h] at g1; cases g1
      · have ha : Apart d p := ⟨h2, h1⟩
        rw [get_set_other hu ha, get_set_other hu' ha, absent_set_other hu ha, absent_set_other hu' ha]
        exact ⟨H.get p hp, H.absent p hp⟩
  exact ⟨fun p hp => (key p hp).1, fun p hp => (key p hp).2⟩

theorem SameAt.put {P : Place → Prop} {σ τ : Store} (H : SameAt P σ τ) (x : Nat) (v : Option Value) : SameAt P (σ.put x v) (τ.put x v) := by
  have key : ∀ p, P p → (τ.put x v).get p = (σ.put x v).get p ∧ (Absent (τ.put x v) p ↔ Absent (σ.put x v) p) := by
    intro p hp
    have hg := H.get p hp
    have hb := H.absent p hp
    simp only [Store.get, Absent, Store.put] at hg hb ⊢
    split
    · exact ⟨rfl, Iff.rfl⟩
    · exact ⟨hg, hb⟩
  exact ⟨fun p hp => (key p hp).1, fun p hp => (key p hp).2⟩

theorem SameAt.var {P : Place → Prop} {σ τ : Store} (H : SameAt P σ τ) {x : Nat} (hx : P ⟨x, []⟩) : τ x = σ x := by
  have := H.get _ hx
  simpa [Store.get, getAt] using this

theorem apart_below {p q : Place} (h : Apart q p) (r : List Sel) : Apart q ⟨p.x, p.path ++ r⟩ := by
  refine ⟨fun ⟨e, h1⟩ => h.1 ⟨e, (List.prefix_append _ _).trans h1⟩, fun ⟨e, h1⟩ => ?_⟩
  rcases List.prefix_or_prefix_of_prefix h1 (List.prefix_append p.path r) with h2 | h2
  · exact h.2 ⟨e, h2⟩
  · exact h.1 ⟨e, h2⟩

section
variable {P : Place → Prop} {σ τ : Store}

/-- A statement of the specification reads and writes only the places it mentions. -/
theorem step_same_at {op : Op} {σ' : Store} (h : Step σ op σ') (hb : ∀ p r, P p → P ⟨p.x, p.path ++ r⟩) (hP : ∀ p ∈ touches op ++ places op, P p) (hs : SameAt P σ τ) :
    ∃ τ', Step τ op τ' ∧ SameAt P σ' τ' := by
  have hp : ∀ p ∈ places op, P p := fun p h => hP _ (by simp [h])
  have hw : ∀ p ∈ touches op, P p := fun p h => hP _ (by simp [h])
  clear hP
  induction h with
  | @init x v hx hv => exact ⟨_, .init ((hs.var (hw ⟨x, []⟩ (by simp [touches]))).trans hx) hv, hs.put _ _⟩
  | @copyInit x s v hx hg hwv =>
    have ps := hp s (by simp [places])
    exact ⟨_, .copyInit ((hs.var (hw ⟨x, []⟩ (by simp [touches]))).trans hx) ((hs.get _ ps).trans hg) hwv, hs.put _ _⟩
  | @moveInit x s v junk hx hg =>
    have ps := hp s (by simp [places])
    exact ⟨_, .moveInit ((hs.var (hw ⟨x, []⟩ (by simp [touches]))).trans hx) ((hs.get _ ps).trans hg), (hs.set ps hg _).put _ _⟩
  | @copyAssign d s w v hd hg hwv hin =>
    have pd := hp d (by simp [places])
    have ps := hp s (by simp [places])
    exact ⟨_, .copyAssign ((hs.get _ pd).trans hd) ((hs.get _ ps).trans hg) hwv hin, hs.set pd hd _⟩
  | @assign d w v hd hv =>
    have pd := hp d (by simp [places])
    exact ⟨_, .assign ((hs.get _ pd).trans hd) hv, hs.set pd hd _⟩
  | @moveAssign d s w v junk hd hg h1 h2 h3 =>
    have pd := hp d (by simp [places])
    have ps := hp s (by simp [places])
    exact ⟨_, .moveAssign ((hs.get _ pd).trans hd) ((hs.get _ ps).trans hg) h1 h2 h3,
      (hs.set ps hg _).set pd ((get_set_other hg (apart_of h1 h2 h3).symm).trans hd) _⟩
  | @moveAssignPart d s w v junk hd hg h1 h2 =>
    have pd := hp d (by simp [places])
    have ps := hp s (by simp [places])
    exact ⟨_, .moveAssignPart ((hs.get _ pd).trans hd) ((hs.get _ ps).trans hg) h1 h2, hs.set pd hd _⟩
  | @moveAssignSelf d v junk hd =>
    have pd := hp d (by simp [places])
    exact ⟨_, .moveAssignSelf ((hs.get _ pd).trans hd), hs.set pd hd _⟩
  | @index p k v ms hg hm =>
    have pd := hp p (by simp [places])
    exact ⟨_, .index ((hs.get _ pd).trans hg) hm, hs.set pd hg _⟩
  | @emplaceBack p s v vs w hg hm hi hg2 hwv =>
    have pd := hp p (by simp [places])
    have ps := hp s (by simp [places])
    exact ⟨_, .emplaceBack ((hs.get _ pd).trans hg) hm ((hs.get _ ps) ▸ hi) (((hs.set pd hg _).get _ ps).trans hg2) hwv, hs.set pd hg _⟩
  | @emplaceKey p k s v ms w hg hm hi hg2 hwv hin =>
    have pd := hp p (by simp [places])
    have ps := hp s (by simp [places])
    exact ⟨_, .emplaceKey ((hs.get _ pd).trans hg) hm ((hs.get _ ps) ▸ hi) (((hs.set pd hg _).get _ ps).trans hg2) hwv hin, hs.set pd hg _⟩
  | @erasePos p i v vs hg hm =>
    have pd := hp p (by simp [places])
    exact ⟨_, .erasePos ((hs.get _ pd).trans hg) hm, hs.set pd hg _⟩
  | @eraseKey p k v ms hg hm =>
    have pd := hp p (by simp [places])
    exact ⟨_, .eraseKey ((hs.get _ pd).trans hg) hm, hs.set pd hg _⟩
  | @append p s v vs us ws hg hm hg2 hne hg3 hwv =>
    have pd := hp p (by simp [places])
    have ps := hp s (by simp [places])
    exact ⟨_, .append ((hs.get _ pd).trans hg) hm ((hs.get _ ps).trans hg2) hne (((hs.set pd hg _).get _ ps).trans hg3) hwv, hs.set pd hg _⟩
  | @merge p s v ms ws hg hm hg2 hap hwv =>
    have pd := hp p (by simp [places])
    have ps := hp s (by simp [places])
    exact ⟨_, .merge ((hs.get _ pd).trans hg) hm ((hs.get _ ps).trans hg2) hap hwv, hs.set pd hg _⟩
  | @mergeSelf p ms hg hne hwv =>
    have pd := hp p (by simp [places])
    exact ⟨_, .mergeSelf ((hs.get _ pd).trans hg) hne hwv, hs⟩
  | @asArray p v vs hg hm =>
    have pd := hp p (by simp [places])
    exact ⟨_, .asArray ((hs.get _ pd).trans hg) hm, hs.set pd hg _⟩
  | @asObject p v ms hg hm =>
    have pd := hp p (by simp [places])
    exact ⟨_, .asObject ((hs.get _ pd).trans hg) hm, hs.set pd hg _⟩
  | @emplaceBackMove p s u v vs w junk hg hg2 hn hg3 hm =>
    have pd := hp p (by simp [places])
    have ps := hp s (by simp [places])
    exact ⟨_, .emplaceBackMove ((hs.get _ pd).trans hg) ((hs.get _ ps).trans hg2) hn (((hs.set ps hg2 _).get _ pd).trans hg3) hm, (hs.set ps hg2 _).set pd hg3 _⟩
  | @emplaceKeyMove p k s u v ms w junk hg hg2 hn hg3 hm hl =>
    have pd := hp p (by simp [places])
    have ps := hp s (by simp [places])
    exact ⟨_, .emplaceKeyMove ((hs.get _ pd).trans hg) ((hs.get _ ps).trans hg2) hn (((hs.set ps hg2 _).get _ pd).trans hg3) hm hl, (hs.set ps hg2 _).set pd hg3 _⟩
  | @emplaceKeyMoveOld σ' p k s ms old junk hg hl h ih =>
    have pd := hp p (by simp [places])
    have ps := hp s (by simp [places])
    have pk := hb p [.key k] pd
    obtain ⟨τ', h2, h3⟩ := ih (by simpa [places] using ⟨pk, ps⟩) (by simpa [touches] using ⟨pk, ps⟩)
    exact ⟨τ', .emplaceKeyMoveOld ((hs.get _ pd).trans hg) hl h2, h3⟩
  | @appendMove p s u v vs ws junk hg hg2 hn hg3 hm =>
    have pd := hp p (by simp [places])
    have ps := hp s (by simp [places])
    exact ⟨_, .appendMove ((hs.get _ pd).trans hg) ((hs.get _ ps).trans hg2) hn (((hs.set ps hg2 _).get _ pd).trans hg3) hm, (hs.set ps hg2 _).set pd hg3 _⟩
  | @mergeMove p s v ms ws junk hg hm hg2 hap =>
    have pd := hp p (by simp [places])
    have ps := hp s (by simp [places])
    exact ⟨_, .mergeMove ((hs.get _ pd).trans hg) hm ((hs.get _ ps).trans hg2) hap, (hs.set ps hg2 _).set pd ((get_set_other hg2 hap.symm).trans hg) _⟩
  | @drop x v hx => exact ⟨_, .drop ((hs.var (hw ⟨x, []⟩ (by simp [touches]))).trans hx), hs.put _ _⟩

theorem put_same_at {x : Nat} {v : Option Value} : SameAt (fun p => Apart ⟨x, []⟩ p) σ (σ.put x v) := by
  have key : ∀ p : Place, Apart ⟨x, []⟩ p → (σ.put x v) p.x = σ p.x := by
    intro p h
    simp only [Store.put]
    split
    · next e => exact absurd ⟨e.symm, List.nil_prefix⟩ h.2
    · rfl
  exact ⟨fun p h => by simp only [Store.get, key p h], fun p h => by simp only [Absent, key p h]⟩

theorem set_same_at {d : Place} {u w : Value} (h : σ.get d = some u) : SameAt (fun p => Apart d p) σ (σ.set d w) :=
  ⟨fun _ ha => get_set_other h ha, fun _ ha => absent_set_other h ha⟩

theorem SameAt.mono {Q : Place → Prop} (H : SameAt P σ τ) (h : ∀ p, Q p → P p) : SameAt Q σ τ := ⟨fun p hp => H.get p (h p hp), fun p hp => H.absent p (h p hp)⟩
theorem SameAt.trans {ρ : Store} (H : SameAt P σ τ) (K : SameAt P τ ρ) : SameAt P σ ρ :=
  ⟨fun p hp => (K.get p hp).trans (H.get p hp), fun p hp => (K.absent p hp).trans (H.absent p hp)⟩

/-- What is apart from the places that a statement changes stays as it is. -/
theorem step_frame_at {op : Op} {σ' : Store} (h : Step σ op σ') : SameAt (fun p => ∀ q ∈ touches op, Apart q p) σ σ' := by
  have one : ∀ {σ : Store} {d : Place} {u w : Value} {l : List Place}, σ.get d = some u → d ∈ l → SameAt (fun p => ∀ q ∈ l, Apart q p) σ (σ.set d w) :=
    fun h hd => (set_same_at h).mono fun p hp => hp _ hd
  induction h with
  | init | copyInit | drop => exact put_same_at.mono fun p hp => hp _ (by simp [touches])
  | copyAssign h | assign h | moveAssignPart h | moveAssignSelf h | index h | emplaceBack h | emplaceKey h | erasePos h | eraseKey h | append h | merge h | asArray h | asObject h =>
    exact one h (by simp [touches])
  | mergeSelf => exact ⟨fun _ _ => rfl, fun _ _ => Iff.rfl⟩
  | moveInit _ h => exact (one h (by simp [touches])).trans (put_same_at.mono fun p hp => hp _ (by simp [touches]))
  | moveAssign hd hg h1 h2 h3 =>
    exact (one hg (by simp [touches])).trans (one ((get_set_other hg (apart_of h1 h2 h3).symm).trans hd) (by simp [touches]))
  | emplaceBackMove _ hg _ hv | emplaceKeyMove _ hg _ hv | appendMove _ hg _ hv => exact (one hg (by simp [touches])).trans (one hv (by simp [touches]))
  | mergeMove hd _ hg ha => exact (one hg (by simp [touches])).trans (one ((get_set_other hg ha.symm).trans hd) (by simp [touches]))
  | emplaceKeyMoveOld _ _ _ ih =>
    refine ih.mono fun p hp => ?_
    simp only [touches, List.mem_cons, List.not_mem_nil, or_false, forall_eq_or_imp, forall_eq] at hp ⊢
    exact ⟨(apart_below hp.1.symm _).symm, hp.2⟩

theorem refused_same_at {op : Op} (h : Refused σ op) (hP : ∀ p ∈ touches op ++ places op, P p) (hs : SameAt P σ τ) : Refused τ op := by
  have hp : ∀ p ∈ places op, P p := fun p h => hP _ (by simp [h])
  have hw : ∀ p ∈ touches op, P p := fun p h => hP _ (by simp [h])
  have hg : ∀ p ∈ places op, τ.get p = σ.get p := fun p h => hs.get p (hp p h)
  have habs : ∀ p ∈ places op, Absent σ p → Absent τ p := fun p h => (hs.absent p (hp p h)).2
  cases h with
  | @absent _ p h1 h2 h3 h4 =>
    refine .absent (fun x hx => (hs.var ?_).trans (h1 x hx)) (fun q hq => ?_) h3 (habs p h3 h4)
    · cases op <;> simp only [declares, Option.some.injEq, reduceCtorEq] at hx <;> subst hx <;> exact hw ⟨_, []⟩ (by simp [touches])
    · rcases h2 q hq with h | h
      · exact Or.inl (hg q hq ▸ h)
      · exact Or.inr (habs q hq h)
  | emplaceBack h1 h2 h3 => exact .emplaceBack ((hg _ (by simp [places])).trans h1) h2 (by rw [hg _ (by simp [places])]; exact h3)
  | erasePos h1 h2 => exact .erasePos ((hg _ (by simp [places])).trans h1) h2
  | index h1 h2 => exact .index ((hg _ (by simp [places])).trans h1) h2
  | emplaceKey h1 h2 h3 => exact .emplaceKey ((hg _ (by simp [places])).trans h1) h2 (by rw [hg _ (by simp [places])]; exact h3)
  | eraseKey h1 h2 => exact .eraseKey ((hg _ (by simp [places])).trans h1) h2
  | append h1 h2 h3 => exact .append ((hg _ (by simp [places])).trans h1) h2 ((hg _ (by simp [places])).trans h3)
  | appendNone h1 h2 h3 => exact .appendNone (by rw [hg _ (by simp [places])]; exact h1) ((hg _ (by simp [places])).trans h2) h3
  | merge h1 h2 h3 => exact .merge ((hg _ (by simp [places])).trans h1) h2 ((hg _ (by simp [places])).trans h3)
  | mergeNone h1 h2 h3 => exact .mergeNone (by rw [hg _ (by simp [places])]; exact h1) ((hg _ (by simp [places])).trans h2) h3
  | asArray h1 h2 => exact .asArray ((hg _ (by simp [places])).trans h1) h2
  | asObject h1 h2 => exact .asObject ((hg _ (by simp [places])).trans h1) h2
  | emplaceBackMove h1 h2 h3 => exact .emplaceBackMove ((hg _ (by simp [places])).trans h1) h2 (by rw [hg _ (by simp [places])]; exact h3)
  | emplaceKeyMove h1 h2 h3 => exact .emplaceKeyMove ((hg _ (by simp [places])).trans h1) h2 (by rw [hg _ (by simp [places])]; exact h3)
  | appendMove h1 h2 h3 => exact .appendMove ((hg _ (by simp [places])).trans h1) h2 ((hg _ (by simp [places])).trans h3)
  | appendMoveNone h1 h2 h3 => exact .appendMoveNone (by rw [hg _ (by simp [places])]; exact h1) ((hg _ (by simp [places])).trans h2) h3
  | mergeMove h1 h2 h3 => exact .mergeMove ((hg _ (by simp [places])).trans h1) h2 ((hg _ (by simp [places])).trans h3)
  | mergeMoveNone h1 h2 h3 => exact .mergeMoveNone (by rw [hg _ (by simp [places])]; exact h1) ((hg _ (by simp [places])).trans h2) h3

end

theorem steps_same_at {P : Place → Prop} (hb : ∀ p r, P p → P ⟨p.x, p.path ++ r⟩) : ∀ {ops : List Op} {σ τ σ' : Store}, Steps σ ops σ' →
    (∀ op ∈ ops, ∀ p ∈ touches op ++ places op, P p) → SameAt P σ τ → ∃ τ', Steps τ ops τ' ∧ SameAt P σ' τ'
  | _, _, _, _, .nil, _, hs => ⟨_, .nil, hs⟩
  | _, _, _, _, .cons h1 h2, hP, hs => by
    obtain ⟨τ1, h3, h4⟩ := step_same_at h1 hb (hP _ (by simp)) hs
    obtain ⟨τ2, h5, h6⟩ := steps_same_at hb h2 (fun op h => hP op (by simp [h])) h4
    exact ⟨τ2, .cons h3 h5, h6⟩
  | _, _, _, _, .refused h1 h2, hP, hs => by
    obtain ⟨τ2, h5, h6⟩ := steps_same_at hb h2 (fun op h => hP op (by simp [h])) hs
    exact ⟨τ2, .refused (refused_same_at h1 (hP _ (by simp)) hs) h5, h6⟩

theorem schedules_at : ∀ (sched : List (Nat × Op)) (σ : Store) (τ : Nat → Store),
    (∀ i o1 j o2, (i, o1) ∈ sched → (j, o2) ∈ sched → i ≠ j → NoClash o1 o2) → (∀ i, Steps σ (thread i sched) (τ i)) →
    ∃ σ', Steps σ (sched.map (·.2)) σ' ∧ ∀ i p, (∀ j o, (j, o) ∈ sched → j ≠ i → ∀ q ∈ touches o, Apart q p) → σ'.get p = (τ i).get p
  | [], σ, τ, _, h => ⟨σ, .nil, fun i x _ => by have := h i; simp only [thread, List.filter_nil, List.map_nil] at this; cases this; rfl⟩
  | (i, op) :: rest, σ, τ, hn, h => by
    have hi := h i
    rw [thread_cons_same] at hi
    have hn' : ∀ i o1 j o2, (i, o1) ∈ rest → (j, o2) ∈ rest → i ≠ j → NoClash o1 o2 :=
      fun i o1 j o2 h1 h2 => hn i o1 j o2 (by simp [h1]) (by simp [h2])
    have key : ∀ σ1, SameAt (fun p => ∀ q ∈ touches op, Apart q p) σ σ1 → Steps σ1 (thread i rest) (τ i) →
        ∃ σ', Steps σ1 (rest.map (·.2)) σ' ∧ ∀ j p, (∀ k o, (k, o) ∈ (i, op) :: rest → k ≠ j → ∀ q ∈ touches o, Apart q p) → σ'.get p = (τ j).get p := by
      intro σ1 hfr hst
      have hτ : ∀ j, ∃ τ', Steps σ1 (thread j rest) τ' ∧ (j = i → τ' = τ i) ∧ (j ≠ i → ∀ p, (∀ q ∈ touches op, Apart q p) → τ'.get p = (τ j).get p) := by
        intro j
        by_cases hj : j = i
        · subst hj; exact ⟨_, hst, fun _ => rfl, fun h => absurd rfl h⟩
        · have hsj := h j
          rw [thread_cons_other (fun e => hj e.symm)] at hsj
          obtain ⟨τ', h1, h2⟩ := steps_same_at (P := fun p => ∀ q ∈ touches op, Apart q p) (fun p r hp q hq => apart_below (hp q hq) r) hsj (fun o ho p hp q hq =>
            (hn i op j o (by simp) (by simp [mem_thread ho]) (fun e => hj e.symm)).1 q hq p hp) hfr
          exact ⟨τ', h1, fun e => absurd e hj, fun _ p hp => h2.get p hp⟩
      obtain ⟨σ', h1, h2⟩ := schedules_at rest σ1 (fun j => Classical.choose (hτ j)) hn' fun j => (Classical.choose_spec (hτ j)).1
      refine ⟨σ', h1, fun j p hp => ?_⟩
      rw [h2 j p fun k o hk => hp k o (by simp [hk])]
      obtain ⟨_, a, c⟩ := Classical.choose_spec (hτ j)
      by_cases hj : j = i
      · rw [a hj, hj]
      · exact c hj p (hp i op (by simp) fun e => hj e.symm)
    cases hi with
    | cons h1 h2 =>
      obtain ⟨σ', h3, h4⟩ := key _ (step_frame_at h1) h2
      exact ⟨σ', .cons h1 h3, h4⟩
    | refused h1 h2 =>
      obtain ⟨σ', h3, h4⟩ := key _ ⟨fun _ _ => rfl, fun _ _ => Iff.rfl⟩ h2
      exact ⟨σ', .refused h1 h3, h4⟩

/-! ### Memory -/

/-- The memory below some slots, and what is free. -/
def Under (st : State) (U : Loc → Prop) (a : Nat) : Prop := st.heap.next ≤ a ∨ ∃ l, U l ∧ Below st l a

theorem under_cell {st : State} {U : Loc → Prop} (hf : Fresh st) {a : Nat} {c : Cell} (h : Under st U a) (e : st.heap.cell a = some c) : c.In (Under st U) := by
  rcases h with h | ⟨l, hl, h⟩
  · rw [hf a h] at e; cases e
  · exact fun v hv b hb => Or.inr ⟨l, hl, .child h e hv hb⟩

def regsAt (st : State) (U V : Loc → Prop) (huv : ∀ l, U l → V l) : Regs where
  W x := U (.var x)
  X x := V (.var x)
  R := Under st U
  Q := Under st V
  L a i := U (.child a i) ∧ ¬ Under st U a
  M a i := V (.child a i) ∧ ¬ Under st U a
  lm _ _ h := ⟨huv _ h.1, h.2⟩
  mr _ _ h := h.2
  wx _ h := huv _ h
  rq _ h := h.imp id fun ⟨l, hl, h⟩ => ⟨l, huv l hl, h⟩

theorem agrees_srel {st st' : State} {U V : Loc → Prop} {huv : ∀ l, U l → V l} (hf : Fresh st) (hf' : Fresh st') (A : Agrees V st st') :
    SRel (regsAt st U V huv) st st' st st' where
  heap := {
    r := fun a c h e => under_cell hf h e
    q := fun a c h e => under_cell hf h e
    new := fun a h => Or.inl h
    next := A.next
    agree := fun a h => by
      rcases h with h | ⟨l, hl, h⟩
      · rw [hf a h, hf' a (A.next ▸ h)]
      · exact A.cell l hl a h
    kept := fun _ _ => sameBut_refl _
    kept' := fun _ _ => sameBut_refl _
    slot := fun a i h => A.slot (.child a i) h.1
    l := fun a i v h e b hb => Or.inr ⟨.child a i, h.1, .root e hb⟩
    m := fun a i v h e b hb => Or.inr ⟨.child a i, h.1, .root e hb⟩ }
  w x v hx e a ha := Or.inr ⟨.var x, hx, .root e ha⟩
  x x v hx e a ha := Or.inr ⟨.var x, hx, .root e ha⟩
  var x hx := A.slot (.var x) hx
  kept _ _ := rfl
  kept' _ _ := rfl

theorem lost_of_locate {st : State} : ∀ {path : List Sel} {l m : Loc}, st.locate l path = some m → st.lost l path = false
  | [], _, _, _ => rfl
  | s :: path, l, m, h => by
    simp only [State.locate] at h
    obtain ⟨v, h1, h⟩ := Option.bind_eq_some_iff.1 h
    obtain ⟨l', h2, h⟩ := Option.bind_eq_some_iff.1 h
    simp only [State.lost, h1, h2]
    exact lost_of_locate h

theorem lost_of_resolve {st : State} {p : Place} {l : Loc} (h : st.resolve p = some l) : ((st.read (.var p.x)).isNone || st.lost (.var p.x) p.path) = false := by
  obtain ⟨v, h1, h2⟩ := Option.bind_eq_some_iff.1 h
  simp [h1, lost_of_locate h2]

theorem rd_at {st : State} {U V : Loc → Prop} {huv : ∀ l, U l → V l} {l : Loc} (h : V l) : l.Rd (regsAt st U V huv) := by
  cases l with
  | var x => exact h
  | child a i =>
    by_cases hr : Under st U a
    · exact .inl ((regsAt st U V huv).rq a hr)
    · exact .inr ⟨h, hr⟩

theorem wr_at {st : State} {U V : Loc → Prop} {huv : ∀ l, U l → V l} {l : Loc} (h : U l) : l.Wr (regsAt st U V huv) := by
  cases l with
  | var x => exact h
  | child a i =>
    by_cases hr : Under st U a
    · exact .inl hr
    · exact .inr ⟨h, hr⟩

theorem srel_below {G : Regs} {B B' s s' : State} (H : SRel G B B' s s') {l : Loc} {a : Nat} (hl : l.Rd G) (h : Below s l a) : G.Q a := by
  induction h with
  | root e p => exact H.inQ hl e _ p
  | child _ e m p ih => exact H.heap.q _ _ ih e _ m _ p

theorem sameBut_mono {P Q : Nat → Prop} {c d : Option Cell} (h : SameBut P c d) (hpq : ∀ i, P i → Q i) : SameBut Q c d := by
  cases c <;> cases d <;> simp only [SameBut] at h ⊢
  exact ⟨h.1, fun i hi => h.2 i fun hp => hi (hpq i hp)⟩

theorem binds_touches {op : Op} {x : Nat} (h : x ∈ binds op) : ⟨x, []⟩ ∈ touches op := by
  cases op <;> simp [binds] at h <;> simp [touches, h]

theorem written_used {st : State} {op : Op} (l : Loc) : Written st op l → Used st op l := fun ⟨p, hp, h⟩ => ⟨p, by simp [hp], h⟩

theorem step_private_at {st st' : State} (hf : Fresh st) (hf' : Fresh st') (oom : Nat → Bool) (op : Op)
    (hp : ∀ p ∈ places op, (st.resolve p).isSome ∧ st'.resolve p = st.resolve p) (A : Agrees (Used st op) st st') :
    SameEnd (fun s s' => Agrees (Used st op) s s' ∧ KeptBut (Written st op) st s ∧ KeptBut (Written st op) st' s') (step oom st op) (step oom st' op) := by
  have up : ∀ l, Written st op l → ∀ a, Below st l a → Below st' l a := by
    intro l hl a h
    have hl' := written_used l hl
    induction h with
    | root e p => exact .root ((A.slot l hl').trans e) p
    | child hb e m p ih => exact .child ih ((A.cell l hl' _ hb).trans e) m p
  have hr := step_rel_at (agrees_srel (huv := written_used) hf hf' A) oom op (fun x hx => ⟨⟨x, []⟩, binds_touches hx, .inl ⟨rfl, rfl⟩⟩)
    (fun p h => by
      obtain ⟨l, hl⟩ := Option.isSome_iff_exists.1 (hp p h).1
      exact ⟨(hp p h).2, by rw [lost_of_resolve hl, lost_of_resolve ((hp p h).2.trans hl)], fun m hm => rd_at ⟨p, by simp [h], .inr hm⟩⟩)
    (fun p h ht l hl => wr_at ⟨p, ht, .inr hl⟩)
  refine sameEnd_imp (fun s s' H => ⟨⟨H.heap.next, fun l hl => H.read (rd_at hl), fun l hl a h => H.heap.agree a (srel_below H (rd_at hl) h)⟩,
    ⟨H.kept, fun a ha ho => sameBut_mono (H.heap.kept a fun h => ?_) fun _ h => h.1⟩, ⟨H.kept', fun a ha ho => sameBut_mono (H.heap.kept' a fun h => ?_) fun _ h => h.1⟩⟩) hr
  · rcases h with h | ⟨l, hl, h⟩
    · omega
    · exact ho l hl h
  · rcases h with h | ⟨l, hl, h⟩
    · rw [A.next] at ha; omega
    · exact ho l hl (up l hl a h)

/-! ### Different places lie in different memory -/

theorem Rep.disjoint {st : State} : ∀ {p q : List Sel} {v w u : Value} {x : HVal} {A : List Addr} {l0 lp lq : Loc}, Rep st.heap.cell v x A → A.Nodup → Keyed v →
    getAt v p = some w → getAt v q = some u → st.read l0 = some x → ¬ l0.In A → st.locate l0 p = some lp → st.locate l0 q = some lq →
    ¬ q <+: p → ¬ p <+: q → ∀ y z B C, st.read lp = some y → Rep st.heap.cell w y B → st.read lq = some z → Rep st.heap.cell u z C → ∀ b ∈ B, b ∉ C
  | _, [], _, _, _, _, _, _, _, _, _, _, _, _, _, _, _, _, _, hn, _ => absurd (List.nil_prefix) hn
  | [], _, _, _, _, _, _, _, _, _, _, _, _, _, _, _, _, _, _, _, hn => absurd (List.nil_prefix) hn
  | s :: p, t :: q, v, w, u, x, A, l0, lp, lq, hr, nd, ht, hp, hq, h0, hoff, hlp, hlq, hn, hn' => by
    obtain ⟨a, c, i, v1, y, A1, Ai, A2, hx, ha, hi, hps, hg1, ht1, hr1, hA, hv, _, others⟩ := hr.child ht hp
    subst hA
    have nd' := nd
    rw [List.nodup_cons, List.nodup_append, List.nodup_append] at nd'
    obtain ⟨na, ⟨ndA1, ndAi, dis1⟩, ndA2, dis2⟩ := nd'
    have off : ¬ (Loc.child a i).In Ai := by
      rintro ⟨b, j, e, hb⟩; cases e; exact na (by simp [hb])
    have hi' : st.read (.child a i) = some y := by simp [State.read, ha, hi]
    simp only [State.locate, h0, Option.bind_some, hps] at hlp
    by_cases hst : t = s
    · subst hst
      simp only [State.locate, h0, Option.bind_some, hps] at hlq
      obtain ⟨a', c', i', u1, y', A1', Ai', A2', _, ha', hi'', hps', hgu, htu, hru, hA', hv1', _⟩ := hr.child ht hq
      rw [hps] at hps'; cases hps'
      have : u1 = v1 := by
        rw [hv] at hv1'; exact (Option.some.inj hv1').symm
      subst this
      exact Rep.disjoint hr1 ndAi ht1 hg1 hgu hi' off hlp hlq (fun h => hn (List.cons_prefix_cons.2 ⟨rfl, h⟩)) fun h => hn' (List.cons_prefix_cons.2 ⟨rfl, h⟩)
    · obtain ⟨j, u1, z, Aj, hji, hj, hpt, hgu, htu, hru, hsub⟩ := others t q u hst hq
      simp only [State.locate, h0, Option.bind_some, hpt] at hlq
      have hdis : ∀ b ∈ Aj, b ∉ Ai := fun b hb hAi => by
        rcases List.mem_append.1 (hsub.subset hb) with h | h
        · exact dis1 _ h _ hAi rfl
        · exact dis2 _ (by simp [hAi]) _ h rfl
      have naj : a ∉ Aj := fun h => na (by have := hsub.subset h; simp only [List.mem_append] at this ⊢; rcases this with h | h <;> simp [h])
      have ndj : Aj.Nodup := by
        have : (A1 ++ A2).Nodup := List.nodup_append.2 ⟨ndA1, ndA2, fun b hb b' hb' => dis2 b (by simp [hb]) b' hb'⟩
        exact this.sublist hsub
      obtain ⟨z1, B1, w1, w2, w3, _⟩ := hr1.where_ ndAi ht1 hg1 hi' off hlp
      have offj : ¬ (Loc.child a j).In Aj := by
        rintro ⟨b, j, e, hb⟩; cases e; exact naj hb
      obtain ⟨z2, B2, x1, x2, x3, _⟩ := hru.where_ ndj htu hgu (by simp [State.read, ha, hj]) offj hlq
      intro y z B C hy hB hz hC b hb hc
      rw [w1] at hy; cases hy
      rw [x1] at hz; cases hz
      rw [hB.foot_unique w2] at hb
      rw [hC.foot_unique x2] at hc
      exact hdis b (x3 b hc) (w3 b hb)

theorem Rep.below {st : State} {l : Loc} {y : HVal} {w : Value} {B : List Addr} (hl : st.read l = some y) (hr : Rep st.heap.cell w y B) {a : Nat} (h : Below st l a) : a ∈ B := by
  obtain ⟨h1, h2⟩ := hr.closed
  induction h with
  | root e p => rw [hl] at e; cases e; exact h1 _ p
  | child _ e m p ih => exact h2 _ ih _ e _ m _ p

section
variable {st : State} {σ : Store} {E : List Addr} {F : Nat → List Addr}

/-- What is written at one place is neither on the way to a place that does not lie inside it, nor, if that does not contain it either, below that. -/
theorem SRep.away (H : SRep st σ E F) (T : KeyedStore σ) {p r : Place} {u w : Value} {l m : Loc} (hp : σ.get p = some w) (hr : σ.get r = some u)
    (hl : st.resolve p = some l) (hm : st.resolve r = some m) (hn : ¬ (r.x = p.x ∧ p.path <+: r.path)) :
    m ≠ l ∧ (∀ a i, m = .child a i → ¬ Below st l a) ∧ (¬ (r.x = p.x ∧ r.path <+: p.path) → ∀ a, Below st m a → ¬ Below st l a ∧ ∀ i, l ≠ .child a i) := by
  obtain ⟨l', y, B, p1, p2, p3, p4, _⟩ := H.place T hp
  rw [hl] at p1; cases p1
  obtain ⟨m', z, C, q1, q2, q3, q4, _⟩ := H.place T hr
  rw [hm] at q1; cases q1
  obtain ⟨h1, h2⟩ := H.apart T hr hp hm hl p2 p3 hn
  refine ⟨h1, fun a i e hb => h2 ⟨a, i, e, p3.below p2 hb⟩, fun hn' a ha => ⟨fun hb => ?_, fun i e => ?_⟩⟩
  · by_cases e : r.x = p.x
    · obtain ⟨v, hv, hg⟩ := get_some hp
      obtain ⟨v', hv', hg'⟩ := get_some hr
      rw [e, hv] at hv'; cases hv'
      obtain ⟨x, hx, hrep⟩ := H.rep _ _ hv
      rw [resolve_of hx] at hl
      rw [resolve_of (e ▸ hx), e] at hm
      exact hrep.disjoint (H.nodup _) (T _ _ hv) hg hg' (l0 := .var p.x) hx var_not_in hl hm (fun h => hn' ⟨e, h⟩) (fun h => hn ⟨e, h⟩) y z B C p2 p3 q2 q3 a
        (p3.below p2 hb) (q3.below q2 ha)
    · exact H.disj _ _ e a (q4 a (q3.below q2 ha)) (p4 a (p3.below p2 hb))
  · exact (H.apart T hp hr hl hm q2 q3 fun h => hn' ⟨h.1.symm, h.2⟩).2 ⟨a, i, e, q3.below q2 ha⟩

theorem SRep.names (H : SRep st σ [] F) (T : KeyedStore σ) {p : Place} {l : Loc} (h : Names st p l) :
    (∃ w, σ.get p = some w ∧ st.resolve p = some l) ∨ (l = .var p.x ∧ st.var p.x = none) := by
  rcases h with ⟨h1, rfl⟩ | h
  · cases e : σ p.x with
    | none => exact .inr ⟨rfl, (H.absent _ e).1⟩
    | some v =>
      obtain ⟨y, hy, _⟩ := H.rep _ _ e
      refine .inl ⟨v, by rw [get_of e, h1]; rfl, ?_⟩
      rw [resolve_of hy, h1]; rfl
  · obtain ⟨r, hr, _⟩ := refer_resolve h
    obtain ⟨u, hu⟩ := Fits.get ⟨⟨F, H⟩, T⟩ hr
    exact .inl ⟨u, hu, h⟩

theorem below_none {x : Nat} {a : Nat} (h : st.var x = none) (hb : Below st (.var x) a) : False := by
  induction hb with
  | root e _ => simp only [State.read] at e; rw [h] at e; cases e
  | child _ _ _ _ ih => exact ih

theorem SRep.away_names (H : SRep st σ [] F) (T : KeyedStore σ) {p r : Place} {l m : Loc} (hl : Names st p l) (hm : Names st r m) (hn : ¬ Within r p) :
    m ≠ l ∧ (∀ a i, m = .child a i → ¬ Below st l a) ∧ (¬ Within p r → ∀ a, Below st m a → ¬ Below st l a ∧ ∀ i, l ≠ .child a i) := by
  rcases H.names T hl with ⟨w, hw, hl⟩ | ⟨rfl, hl'⟩
  · rcases H.names T hm with ⟨u, hu, hm⟩ | ⟨rfl, hm'⟩
    · obtain ⟨h1, h2, h3⟩ := H.away T hw hu hl hm hn
      exact ⟨h1, h2, fun h => h3 fun h' => h ⟨h'.1.symm, h'.2⟩⟩
    · refine ⟨?_, fun _ _ e => (nomatch e), fun _ a ha => (below_none hm' ha).elim⟩
      rintro rfl
      obtain ⟨l', y, B, p1, p2, _⟩ := H.place T hw
      rw [hl] at p1; cases p1
      simp only [State.read] at p2
      rw [hm'] at p2; cases p2
  · refine ⟨?_, fun _ _ _ hb => below_none hl' hb, fun _ a _ => ⟨fun hb => below_none hl' hb, fun _ e => (nomatch e)⟩⟩
    rintro rfl
    rcases hl with ⟨h1, _⟩ | hl
    · rcases hm with ⟨h3, h4⟩ | hm
      · injection h4 with h4
        exact hn ⟨h4.symm, by rw [h1]; exact List.nil_prefix⟩
      · rcases H.names T (.inr hm) with ⟨u, hu, hm⟩ | ⟨h3, _⟩
        · obtain ⟨l', y, B, p1, p2, _⟩ := H.place T hu
          rw [hm] at p1; cases p1
          simp only [State.read] at p2
          rw [hl'] at p2; cases p2
        · injection h3 with h3
          exact hn ⟨h3.symm, by rw [h1]; exact List.nil_prefix⟩
    · rcases H.names T (.inr hl) with ⟨u, hu, hm⟩ | ⟨h3, _⟩
      · obtain ⟨l', y, B, p1, p2, _⟩ := H.place T hu
        rw [hm] at p1; cases p1
        simp only [State.read] at p2
        rw [hl'] at p2; cases p2
      · have := Option.bind_eq_some_iff.1 hl
        obtain ⟨v, hv, _⟩ := this
        simp only [State.read] at hv
        rw [hl'] at hv; cases hv

theorem part_shape {st st' : State} {v : HVal} {s : Sel} {a i : Nat} {P : Nat → Prop} (h : st.part v s = some (.child a i))
    (hs : SameBut P (st.heap.cell a) (st'.heap.cell a)) : st'.part v s = some (.child a i) := by
  unfold State.part at h ⊢
  cases s with
  | pos j =>
    simp only at h ⊢
    split at h
    · next b =>
      split at h
      · next vs e =>
        split at h
        · cases h
          rw [e] at hs
          cases e' : st'.heap.cell a with
          | none => rw [e'] at hs; exact hs.elim
          | some d =>
            rw [e'] at hs
            cases d with
            | obj _ => simp [SameBut, shape] at hs
            | arr ws =>
              have : ws.length = vs.length := by simpa [shape] using hs.1
              simp only [this]
              rw [if_pos (by assumption)]
        · cases h
      · cases h
    · cases h
  | key k =>
    simp only at h ⊢
    split at h
    · next b =>
      split at h
      · next ms e =>
        obtain ⟨j, hj, e2⟩ := Option.map_eq_some_iff.1 h
        cases e2
        rw [e] at hs
        cases e' : st'.heap.cell a with
        | none => rw [e'] at hs; exact hs.elim
        | some d =>
          rw [e'] at hs
          cases d with
          | arr _ => simp [SameBut, shape] at hs
          | obj ns =>
            have hk : ns.map (·.1) = ms.map (·.1) := by simpa [shape] using hs.1
            simp only [keyIndex_congr (k := k) hk, hj, Option.map_some]
      · cases h
    · cases h

theorem locate_kept {st st' : State} : ∀ {path : List Sel} {l n : Loc}, st.locate l path = some n →
    (∀ pre m, pre <+: path → st.locate l pre = some m → st'.read m = st.read m ∧ ∀ a i, m = .child a i → ∃ P, SameBut P (st.heap.cell a) (st'.heap.cell a)) →
    st'.locate l path = some n
  | [], _, _, h, _ => h
  | s :: path, l, n, h, K => by
    simp only [State.locate] at h ⊢
    obtain ⟨v, h1, h⟩ := Option.bind_eq_some_iff.1 h
    obtain ⟨l', h2, h⟩ := Option.bind_eq_some_iff.1 h
    have step : ∀ pre m, st.locate l' pre = some m → st.locate l (s :: pre) = some m := fun pre m e => by simp [State.locate, h1, h2, e]
    obtain ⟨a, i, rfl, _⟩ := part_child h2
    obtain ⟨P, hP⟩ := (K [s] (.child a i) ⟨path, rfl⟩ (step [] _ rfl)).2 a i rfl
    rw [(K [] l List.nil_prefix rfl).1, h1, Option.bind_some, part_shape h2 hP, Option.bind_some]
    exact locate_kept h fun pre m hp hm => K (s :: pre) m (List.cons_prefix_cons.2 ⟨rfl, hp⟩) (step pre m hm)

/-- What one statement changes is not seen by a statement that does not clash with it. -/
theorem SRep.unseen (H : SRep st σ [] F) (T : KeyedStore σ) {o1 o2 : Op} (hn : NoClash o1 o2) {st' : State} (K : KeptBut (Written st o1) st st') :
    (∀ p l, p ∈ places o2 → st.resolve p = some l → st'.resolve p = some l) ∧
    (∀ l, Used st o2 l → st'.read l = st.read l ∧ ∀ a, Below st l a → st'.heap.cell a = st.heap.cell a) := by
  have way : ∀ q ∈ touches o2 ++ places o2, ∀ r m, Within q r → Names st r m →
      st'.read m = st.read m ∧ ∀ a i, m = .child a i → st.read m ≠ none → ∃ P, SameBut P (st.heap.cell a) (st'.heap.cell a) := by
    intro q hq r m hr hm
    have off : ∀ l, Written st o1 l → m ≠ l ∧ ∀ a i, m = .child a i → ¬ Below st l a := by
      rintro l ⟨p, hp, hl⟩
      have := H.away_names T hl hm (fun h => (hn.1 p hp q hq).2 ⟨(hr.1.trans h.1).symm, h.2.trans hr.2⟩)
      exact ⟨this.1, this.2.1⟩
    cases m with
    | var x => exact ⟨K.var x fun h => (off _ h).1 rfl, fun _ _ e => (nomatch e)⟩
    | child a i =>
      by_cases ha : a < st.heap.next
      · have hs := K.cell a ha fun l hl => (off l hl).2 a i rfl
        refine ⟨?_, fun b j e _ => by cases e; exact ⟨_, hs⟩⟩
        simp only [State.read]
        cases e1 : st.heap.cell a <;> cases e2 : st'.heap.cell a <;> rw [e1, e2] at hs <;> simp only [SameBut] at hs
        · exact hs.2 i fun h => (off _ h).1 rfl
      · have hc : st.heap.cell a = none := H.clean a (by omega)
        rcases hm with ⟨_, e⟩ | hm
        · cases e
        · rcases H.names T (.inr hm) with ⟨u, hu, _⟩ | ⟨e, _⟩
          · obtain ⟨l', y, B, p1, p2, _⟩ := H.place T hu
            rw [hm] at p1; cases p1
            simp [State.read, hc] at p2
          · cases e
  refine ⟨fun p l hp hl => ?_, fun l ⟨p, hp, hl⟩ => ⟨(way p hp p l ⟨rfl, List.prefix_refl _⟩ hl).1, fun a ha => ?_⟩⟩
  · rcases H.names T (.inr hl) with ⟨u, hu, _⟩ | ⟨rfl, h2⟩
    · obtain ⟨v, hv, hg⟩ := get_some hu
      obtain ⟨y, hy, _⟩ := H.rep _ _ hv
      have hy' : st'.var p.x = some y := by
        have := (way p (by simp [hp]) ⟨p.x, []⟩ (.var p.x) ⟨rfl, List.nil_prefix⟩ (.inl ⟨rfl, rfl⟩)).1
        simpa [State.read, hy] using this
      rw [resolve_of hy] at hl
      rw [resolve_of hy']
      refine locate_kept hl fun pre m hpre hm => ?_
      have hm' : st.resolve ⟨p.x, pre⟩ = some m := by rw [resolve_of (p := ⟨p.x, pre⟩) hy]; exact hm
      have := way p (by simp [hp]) ⟨p.x, pre⟩ m ⟨rfl, hpre⟩ (.inr hm')
      refine ⟨this.1, fun a i e => this.2 a i e ?_⟩
      rcases H.names T (.inr hm') with ⟨u, hu, _⟩ | ⟨e2, _⟩
      · obtain ⟨l', y, B, p1, p2, _⟩ := H.place T hu
        rw [hm'] at p1; cases p1
        rw [p2]; simp
      · rw [e] at e2; cases e2
    · obtain ⟨v, hv, _⟩ := Option.bind_eq_some_iff.1 hl
      simp only [State.read] at hv
      rw [h2] at hv; cases hv
  · have off : ∀ l', Written st o1 l' → ¬ Below st l' a ∧ ∀ i, l' ≠ .child a i := by
      rintro l' ⟨q, hq, hl'⟩
      have h := hn.1 q hq p hp
      exact (H.away_names T hl' hl fun h' => h.2 ⟨h'.1.symm, h'.2⟩).2.2 (fun h' => h.1 h') a ha
    by_cases hlt : a < st.heap.next
    · exact sameBut_eq (K.cell a hlt fun l' hl' => (off l' hl').1) fun i hi => (off _ hi).2 i rfl
    · exfalso
      rcases H.names T hl with ⟨u, hu, hl⟩ | ⟨rfl, h2⟩
      · obtain ⟨l', y, B, p1, p2, p3, p4, _⟩ := H.place T hu
        rw [hl] at p1; cases p1
        exact hlt (H.lt _ _ (p4 a (p3.below p2 ha)))
      · exact below_none h2 ha

end

end Meojson.Mem
