import Verif.Proofs.HeapShift

/-! Statements that throw, and whole histories. -/

set_option autoImplicit false

namespace Meojson.Mem
open Stores

theorem Rep.sees {st : State} {v : Value} {x : HVal} {A : List Addr} (hr : Rep st.heap.cell v x A) (hv : (∃ t s, v = .str t s) ∨ (∃ t vs, v = .arr t vs) ∨ ∃ t ms, v = .obj t ms) :
    st.sees x = true := by
  rcases hv with ⟨t, s, rfl⟩ | ⟨t, vs, rfl⟩ | ⟨t, ms, rfl⟩
  · rw [hr.1]; rfl
  · obtain ⟨a, xs, B, e, h1, _⟩ := hr; rw [e]; simp [State.sees, h1]
  · obtain ⟨a, xs, B, e, h1, _⟩ := hr; rw [e]; simp [State.sees, h1]

theorem _root_.Meojson.Stores.Plain.text {v : Value} : Plain v → ∃ t s, v = .str t s := fun ⟨t, s, h, _⟩ => ⟨t, s, h⟩

/-- Evaluating an expression that names nothing. -/
theorem Rep.missing {st : State} {path : List Sel} {v : Value} (hm : Missing v path) : ∀ {x : HVal} {A : List Addr} {l : Loc}, Rep st.heap.cell v x A → Keyed v →
    st.read l = some x → st.locate l path = none ∧ st.lost l path = false := by
  have stop : ∀ {v : Value} {x : HVal} {A : List Addr} {l : Loc} {s : Sel} {path : List Sel}, Rep st.heap.cell v x A → st.read l = some x → st.part x s = none →
      ((∃ t s, v = .str t s) ∨ (∃ t vs, v = .arr t vs) ∨ ∃ t ms, v = .obj t ms) → st.locate l (s :: path) = none ∧ st.lost l (s :: path) = false := by
    intro v x A l s path hr h0 hp hv
    simp [State.locate, State.lost, h0, hp, hr.sees hv]
  have down : ∀ {v v1 : Value} {x : HVal} {A : List Addr} {l : Loc} {s : Sel} {path : List Sel}, Rep st.heap.cell v x A → Keyed v → st.read l = some x →
      getAt v [s] = some v1 → (∀ {x : HVal} {A : List Addr} {l : Loc}, Rep st.heap.cell v1 x A → Keyed v1 →
        st.read l = some x → st.locate l path = none ∧ st.lost l path = false) → st.locate l (s :: path) = none ∧ st.lost l (s :: path) = false := by
    intro v v1 x A l s path hr ht h0 hg ih
    obtain ⟨a, c, i, v2, y, A1, Ai, A2, hx, ha, hi, hp, hg1, ht1, hr1, hA, _⟩ := hr.child ht hg
    simp only [getAt, Option.some.injEq] at hg1
    subst hg1
    have := ih hr1 ht1 (l := .child a i) (by simp [State.read, ha, hi])
    simp [State.locate, State.lost, h0, hp, this.1, this.2]
  induction hm with
  | text => intro x A l hr ht h0; exact stop hr h0 (by rename_i sel _; rw [hr.1]; cases sel <;> simp [State.part]) (.inl ⟨_, _, rfl⟩)
  | arrayKey => intro x A l hr ht h0; exact stop hr h0 (by obtain ⟨a, xs, B, e, _⟩ := hr; rw [e]; simp [State.part]) (.inr (.inl ⟨_, _, rfl⟩))
  | objectPos => intro x A l hr ht h0; exact stop hr h0 (by obtain ⟨a, xs, B, e, _⟩ := hr; rw [e]; simp [State.part]) (.inr (.inr ⟨_, _, rfl⟩))
  | pos hi =>
    intro x A l hr ht h0
    refine stop hr h0 ?_ (.inr (.inl ⟨_, _, rfl⟩))
    obtain ⟨a, xs, B, e, h1, h2, _⟩ := hr
    rw [e]; simp [State.part, h1, h2.length]; omega
  | key hk =>
    intro x A l hr ht h0
    refine stop hr h0 ?_ (.inr (.inr ⟨_, _, rfl⟩))
    obtain ⟨a, xs, B, e, h1, h2, _⟩ := hr
    rw [e]; simp [State.part, h1, keyIndex_absent ht.1 h2.keys hk]
  | inPos hi _ ih => intro x A l hr ht h0; exact down hr ht h0 (by simp [getAt, hi]) ih
  | inKey hk _ ih => intro x A l hr ht h0; exact down hr ht h0 (by simp [getAt, hk]) ih

theorem Rep.present {st : State} : ∀ {path : List Sel} {v w : Value} {x : HVal} {A : List Addr} {l : Loc}, Rep st.heap.cell v x A → Keyed v →
    getAt v path = some w → st.read l = some x → st.lost l path = false
  | [], _, _, _, _, _, _, _, _, _ => rfl
  | s :: path, v, w, x, A, l, hr, ht, hg, h0 => by
    obtain ⟨a, c, i, v2, y, A1, Ai, A2, hx, ha, hi, hp, hg1, ht1, hr1, hA, _⟩ := hr.child ht hg
    simp only [State.lost, h0, hp]
    exact Rep.present hr1 ht1 hg1 (by simp [State.read, ha, hi])

section
variable {st : State} {σ : Store} {F : Nat → List Addr}

theorem SRep.absentPlace (H : SRep st σ [] F) (T : KeyedStore σ) {p : Place} (hp : Absent σ p) : st.resolve p = none := by
  obtain ⟨v, hv, hm⟩ := hp
  obtain ⟨x, hx, hr⟩ := H.rep _ _ hv
  rw [resolve_of hx]
  exact (Rep.missing hm hr (T _ _ hv) (l := .var p.x) hx).1

theorem SRep.fine (H : SRep st σ [] F) (T : KeyedStore σ) {p : Place} (hp : (σ.get p).isSome ∨ Absent σ p) :
    ((st.read (.var p.x)).isNone || st.lost (.var p.x) p.path) = false := by
  rcases hp with h | ⟨v, hv, hm⟩
  · obtain ⟨w, hw⟩ := Option.isSome_iff_exists.1 h
    obtain ⟨v, hv, hg⟩ := get_some hw
    obtain ⟨x, hx, hr⟩ := H.rep _ _ hv
    simp only [State.read, hx, Option.isNone_some, Bool.false_or]
    exact hr.present (T _ _ hv) hg (l := .var p.x) hx
  · obtain ⟨x, hx, hr⟩ := H.rep _ _ hv
    simp only [State.read, hx, Option.isNone_some, Bool.false_or]
    exact (Rep.missing hm hr (T _ _ hv) (l := .var p.x) hx).2

theorem SRep.missing_throws (H : SRep st σ [] F) (T : KeyedStore σ) {ps : List Place} (hp : ∀ q ∈ ps, (σ.get q).isSome ∨ Absent σ q) :
    st.missing ps = .thrown st := by
  simp only [State.missing]
  rw [if_neg]
  rw [Bool.not_eq_true, List.any_eq_false]
  intro q hq
  rw [Bool.not_eq_true]
  exact H.fine T (hp q hq)

theorem SRep.notArray (H : SRep st σ [] F) (T : KeyedStore σ) (oom : Addr → Bool) {p : Place} {v : Value} {l : Loc} (hp : σ.get p = some v) (hv : NotArray v)
    (hl : st.resolve p = some l) (k : State → Addr → Fin) : asArray oom st l k = .thrown st := by
  obtain ⟨l', y, B, q1, q2, q3, _⟩ := H.place T hp
  rw [hl] at q1; cases q1
  simp only [asArray, q2]
  obtain ⟨hn, ⟨t, s, rfl, ht⟩ | ⟨ms, rfl⟩⟩ := hv
  · rw [q3.1]
    cases t with
    | null => exact absurd .null hn
    | string => cases s with
      | nil => exact absurd .string hn
      | cons => simp [State.blank]
    | array => exact absurd rfl ht.1
    | object => exact absurd rfl ht.2
    | _ => simp [State.blank]
  · obtain ⟨a, xs, C, e1, e2, e3, e4⟩ := q3
    cases ms with
    | nil => exact absurd .object hn
    | cons m ms =>
      have : xs.isEmpty = false := by
        have := e3.keys
        cases xs with
        | nil => simp at this
        | cons => rfl
      rw [e1]; simp [State.blank, e2, this]

theorem SRep.notObject (H : SRep st σ [] F) (T : KeyedStore σ) (oom : Addr → Bool) {p : Place} {v : Value} {l : Loc} (hp : σ.get p = some v) (hv : NotObject v)
    (hl : st.resolve p = some l) (k : State → Addr → Fin) : asObject oom st l k = .thrown st := by
  obtain ⟨l', y, B, q1, q2, q3, _⟩ := H.place T hp
  rw [hl] at q1; cases q1
  simp only [asObject, q2]
  obtain ⟨hn, ⟨t, s, rfl, ht⟩ | ⟨vs, rfl⟩⟩ := hv
  · rw [q3.1]
    cases t with
    | null => exact absurd .null hn
    | string => cases s with
      | nil => exact absurd .string hn
      | cons => simp [State.blank]
    | array => exact absurd rfl ht.1
    | object => exact absurd rfl ht.2
    | _ => simp [State.blank]
  · obtain ⟨a, xs, C, e1, e2, e3, e4⟩ := q3
    cases vs with
    | nil => exact absurd .array hn
    | cons m ms =>
      have : xs.isEmpty = false := by
        have := e3.length
        cases xs with
        | nil => simp at this
        | cons => rfl
      rw [e1]; simp [State.blank, e2, this]

theorem refused_throws (H : SRep st σ [] F) (T : KeyedStore σ) (oom : Addr → Bool) {op : Op} (h : Refused σ op) : step oom st op = .thrown st := by
  cases h with
  | @absent _ p hd hn hp hm =>
    have hM := H.missing_throws T hn
    have hR := H.absentPlace T hm
    cases op with
    | init => simp [places] at hp
    | drop => simp [places] at hp
    | copyInit x s =>
      obtain rfl : p = s := by simpa [places] using hp
      simp only [step, H.var_none (hd x rfl), hR]; exact hM
    | moveInit x s junk =>
      obtain rfl : p = s := by simpa [places] using hp
      simp only [step, H.var_none (hd x rfl), hR]; exact hM
    | assign d v =>
      obtain rfl : p = d := by simpa [places] using hp
      simp only [step, hR]; exact hM
    | index d v =>
      obtain rfl : p = d := by simpa [places] using hp
      simp only [step, hR]; exact hM
    | erasePos d v =>
      obtain rfl : p = d := by simpa [places] using hp
      simp only [step, hR]; exact hM
    | eraseKey d v =>
      obtain rfl : p = d := by simpa [places] using hp
      simp only [step, hR]; exact hM
    | asArray d =>
      obtain rfl : p = d := by simpa [places] using hp
      simp only [step, hR]; exact hM
    | asObject d =>
      obtain rfl : p = d := by simpa [places] using hp
      simp only [step, hR]; exact hM
    | emplaceBackMove d s junk =>
      rcases (by simpa [places] using hp : p = d ∨ p = s) with rfl | rfl
      · simp only [step, hR]; exact hM
      · simp only [step, hR]; cases st.resolve d <;> exact hM
    | emplaceKeyMove d k s junk =>
      rcases (by simpa [places] using hp : p = d ∨ p = s) with rfl | rfl
      · simp only [step, hR]; exact hM
      · simp only [step, hR]; cases st.resolve d <;> exact hM
    | appendMove d s junk =>
      rcases (by simpa [places] using hp : p = d ∨ p = s) with rfl | rfl
      · simp only [step, hR]; exact hM
      · simp only [step, hR]; cases st.resolve d <;> exact hM
    | mergeMove d s junk =>
      rcases (by simpa [places] using hp : p = d ∨ p = s) with rfl | rfl
      · simp only [step, hR]; exact hM
      · simp only [step, hR]; cases st.resolve d <;> exact hM
    | copyAssign d s =>
      rcases (by simpa [places] using hp : p = d ∨ p = s) with rfl | rfl
      · simp only [step, hR]; exact hM
      · simp only [step, hR]; cases st.resolve d <;> exact hM
    | moveAssign d s junk =>
      rcases (by simpa [places] using hp : p = d ∨ p = s) with rfl | rfl
      · simp only [step, hR]; exact hM
      · simp only [step, hR]; cases st.resolve d <;> exact hM
    | emplaceBack d s =>
      rcases (by simpa [places] using hp : p = d ∨ p = s) with rfl | rfl
      · simp only [step, hR]; exact hM
      · simp only [step, hR]; cases st.resolve d <;> exact hM
    | append d s =>
      rcases (by simpa [places] using hp : p = d ∨ p = s) with rfl | rfl
      · simp only [step, hR]; exact hM
      · simp only [step, hR]; cases st.resolve d <;> exact hM
    | merge d s =>
      rcases (by simpa [places] using hp : p = d ∨ p = s) with rfl | rfl
      · simp only [step, hR]; exact hM
      · simp only [step, hR]; cases st.resolve d <;> exact hM
    | emplaceKey d k s =>
      rcases (by simpa [places] using hp : p = d ∨ p = s) with rfl | rfl
      · simp only [step, hR]; exact hM
      · simp only [step, hR]; cases st.resolve d <;> exact hM
  | emplaceBack hp hv hs =>
    obtain ⟨u, hu⟩ := Option.isSome_iff_exists.1 hs
    obtain ⟨l, _, _, p1, _⟩ := H.place T hp
    obtain ⟨ls, _, _, s1, _⟩ := H.place T hu
    simp only [step, p1, s1]; exact H.notArray T oom hp hv p1 _
  | erasePos hp hv =>
    obtain ⟨l, _, _, p1, _⟩ := H.place T hp
    simp only [step, p1]; exact H.notArray T oom hp hv p1 _
  | index hp hv =>
    obtain ⟨l, _, _, p1, _⟩ := H.place T hp
    simp only [step, p1]; exact H.notObject T oom hp hv p1 _
  | emplaceKey hp hv hs =>
    obtain ⟨u, hu⟩ := Option.isSome_iff_exists.1 hs
    obtain ⟨l, _, _, p1, _⟩ := H.place T hp
    obtain ⟨ls, _, _, s1, _⟩ := H.place T hu
    simp only [step, p1, s1]; exact H.notObject T oom hp hv p1 _
  | eraseKey hp hv =>
    obtain ⟨l, _, _, p1, _⟩ := H.place T hp
    simp only [step, p1]; exact H.notObject T oom hp hv p1 _
  | append hp hv hs =>
    obtain ⟨l, _, _, p1, _⟩ := H.place T hp
    obtain ⟨ls, _, _, s1, s2, s3, _⟩ := H.place T hs
    obtain ⟨b, _, _, rfl, _⟩ := s3
    simp only [step, p1, s1, constArray, s2, if_true]; exact H.notArray T oom hp hv p1 _
  | merge hp hv hs =>
    obtain ⟨l, _, _, p1, _⟩ := H.place T hp
    obtain ⟨ls, _, _, s1, s2, s3, _⟩ := H.place T hs
    obtain ⟨b, _, _, rfl, _⟩ := s3
    simp only [step, p1, s1, constObject, s2, if_true]; exact H.notObject T oom hp hv p1 _
  | appendNone hp hs hv =>
    obtain ⟨u, hp⟩ := Option.isSome_iff_exists.1 hp
    obtain ⟨l, _, _, p1, _⟩ := H.place T hp
    obtain ⟨ls, y, _, s1, s2, s3, _⟩ := H.place T hs
    simp only [step, p1, s1, constArray, s2]
    rw [s3.sees (hv.imp Plain.text fun ⟨ms, h⟩ => .inr ⟨_, ms, h⟩), if_neg, if_pos rfl]
    rw [s3.ty]
    rcases hv with ⟨t, x, rfl, ht⟩ | ⟨ms, rfl⟩
    · exact ht.1
    · exact fun h => by cases h
  | mergeNone hp hs hv =>
    obtain ⟨u, hp⟩ := Option.isSome_iff_exists.1 hp
    obtain ⟨l, _, _, p1, _⟩ := H.place T hp
    obtain ⟨ls, y, _, s1, s2, s3, _⟩ := H.place T hs
    simp only [step, p1, s1, constObject, s2]
    rw [s3.sees (hv.imp Plain.text fun ⟨vs, h⟩ => .inl ⟨_, vs, h⟩), if_neg, if_pos rfl]
    rw [s3.ty]
    rcases hv with ⟨t, x, rfl, ht⟩ | ⟨ms, rfl⟩
    · exact ht.2
    · exact fun h => by cases h
  | emplaceBackMove hp hv hs =>
    obtain ⟨u, hu⟩ := Option.isSome_iff_exists.1 hs
    obtain ⟨l, _, _, p1, _⟩ := H.place T hp
    obtain ⟨ls, _, _, s1, _⟩ := H.place T hu
    simp only [step, p1, s1]; exact H.notArray T oom hp hv p1 _
  | asArray hp hv =>
    obtain ⟨l, _, _, p1, _⟩ := H.place T hp
    simp only [step, p1]; exact H.notArray T oom hp hv p1 _
  | emplaceKeyMove hp hv hs =>
    obtain ⟨u, hu⟩ := Option.isSome_iff_exists.1 hs
    obtain ⟨l, _, _, p1, _⟩ := H.place T hp
    obtain ⟨ls, _, _, s1, _⟩ := H.place T hu
    simp only [step, p1, s1]; exact H.notObject T oom hp hv p1 _
  | asObject hp hv =>
    obtain ⟨l, _, _, p1, _⟩ := H.place T hp
    simp only [step, p1]; exact H.notObject T oom hp hv p1 _
  | appendMove hp hv hs =>
    obtain ⟨l, _, _, p1, _⟩ := H.place T hp
    obtain ⟨ls, _, _, s1, s2, s3, _⟩ := H.place T hs
    obtain ⟨b, _, _, rfl, _⟩ := s3
    simp only [step, p1, s1, constArray, s2, if_true]; exact H.notArray T oom hp hv p1 _
  | mergeMove hp hv hs =>
    obtain ⟨l, _, _, p1, _⟩ := H.place T hp
    obtain ⟨ls, _, _, s1, s2, s3, _⟩ := H.place T hs
    obtain ⟨b, _, _, rfl, _⟩ := s3
    simp only [step, p1, s1, constObject, s2, if_true]; exact H.notObject T oom hp hv p1 _
  | appendMoveNone hp hs hv =>
    obtain ⟨u, hp⟩ := Option.isSome_iff_exists.1 hp
    obtain ⟨l, _, _, p1, _⟩ := H.place T hp
    obtain ⟨ls, y, _, s1, s2, s3, _⟩ := H.place T hs
    simp only [step, p1, s1, constArray, s2]
    rw [s3.sees (hv.imp Plain.text fun ⟨ms, h⟩ => .inr ⟨_, ms, h⟩), if_neg, if_pos rfl]
    rw [s3.ty]
    rcases hv with ⟨t, x, rfl, ht⟩ | ⟨ms, rfl⟩
    · exact ht.1
    · exact fun h => by cases h
  | mergeMoveNone hp hs hv =>
    obtain ⟨u, hp⟩ := Option.isSome_iff_exists.1 hp
    obtain ⟨l, _, _, p1, _⟩ := H.place T hp
    obtain ⟨ls, y, _, s1, s2, s3, _⟩ := H.place T hs
    simp only [step, p1, s1, constObject, s2]
    rw [s3.sees (hv.imp Plain.text fun ⟨vs, h⟩ => .inl ⟨_, vs, h⟩), if_neg, if_pos rfl]
    rw [s3.ty]
    rcases hv with ⟨t, x, rfl, ht⟩ | ⟨ms, rfl⟩
    · exact ht.2
    · exact fun h => by cases h

/-! ### Histories -/

theorem steps_run : ∀ {ops : List Op} {σ σ' : Store} {st : State} {F : Nat → List Addr}, SRep st σ [] F → KeyedStore σ → Steps σ ops σ' →
    ∃ st' F', run (fun _ => false) st ops = .done st' ∧ SRep st' σ' [] F' ∧ KeyedStore σ'
  | [], _, _, st, F, H, T, h => by cases h; exact ⟨st, F, rfl, H, T⟩
  | op :: ops, σ, σ'', st, F, H, T, h => by
    cases h with
    | cons h1 h2 =>
      have := step_ends H T (fun _ => false) h1
      simp only [run]
      cases hs : step (fun _ => false) st op with
      | done st1 =>
        rw [hs] at this
        obtain ⟨F1, H1⟩ := this
        exact steps_run H1 (step_keyed T h1) h2
      | thrown st1 => rw [hs] at this; obtain ⟨⟨a, ha⟩, _⟩ := this; cases ha
      | ub => rw [hs] at this; exact this.elim
    | refused h1 h2 =>
      simp only [run, refused_throws H T _ h1]
      exact steps_run H T h2

end

end Meojson.Mem
