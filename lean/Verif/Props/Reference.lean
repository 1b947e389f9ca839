import Verif.Proofs.Stays
import Verif.Props.Heap

/-!
# C70: references to values

A reference obtained from `at` or `operator[]` is expected to designate the same value for as long as that value is there.
-/

set_option autoImplicit false

namespace Meojson
open Mem Stores

/-- One statement that completes (other allocations may have failed before): the reference to the value at `q` is the reference to the value at `q'` afterwards, and what is
read through it is the value at `q'`. -/
theorem C70_statement {st st' : State} {σ σ' : Store} (hst : Holds st σ []) (hk : KeyedStore σ) (oom : Addr → Bool) {op : Op} (hstep : Step σ op σ') (h : step oom st op = .done st')
    {q q' : Place} (hq : (σ.get q).isSome) (hq' : (σ'.get q').isSome) (hs : Stays σ op q q') :
    ∃ r, st.refer q = some r ∧ st'.refer q' = some r ∧ (st'.deref r).bind (reify st'.heap st'.heap.fuel) = σ'.get q' := by
  obtain ⟨u, hu⟩ := Option.isSome_iff_exists.1 hq
  obtain ⟨u', hu'⟩ := Option.isSome_iff_exists.1 hq'
  have A : Fits st σ := ⟨hst, hk⟩
  have hs := stays A oom hstep h hu hu' hs
  obtain ⟨r, hr⟩ := A.refer hu
  refine ⟨r, hr, hs.trans hr, ?_⟩
  obtain ⟨F, H⟩ := hst
  have := step_ends H hk oom hstep
  rw [h] at this
  obtain ⟨F', H'⟩ := this
  obtain ⟨l, y, B, p1, p2, p3, p4, p5, _⟩ := H'.place (step_keyed hk hstep) hu'
  obtain ⟨r', e1, e2⟩ := refer_resolve p1
  rw [hs, hr] at e1; cases e1
  rw [deref_of e2, p2, hu']
  exact p3.reify (Nat.lt_succ_of_le (nodup_length_le p5 fun b hb => H'.lt _ _ (p4 b hb)))

theorem read_place {st : State} {σ : Store} {F : Nat → List Addr} (H : SRep st σ [] F) (T : KeyedStore σ) {q : Place} (hq : (σ.get q).isSome) :
    ∃ r, st.refer q = some r ∧ (st.deref r).bind (reify st.heap st.heap.fuel) = σ.get q := by
  obtain ⟨u, hu⟩ := Option.isSome_iff_exists.1 hq
  obtain ⟨l, y, B, p1, p2, p3, p4, p5, _⟩ := H.place T hu
  obtain ⟨r, e1, e2⟩ := refer_resolve p1
  refine ⟨r, e1, ?_⟩
  rw [deref_of e2, p2, hu]
  exact p3.reify (Nat.lt_succ_of_le (nodup_length_le p5 fun b hb => H.lt _ _ (p4 b hb)))

theorem staysAll_run : ∀ {ops : List Op} {σ σ' : Store} {q q' : Place} {st : State} {F : Nat → List Addr}, SRep st σ [] F → KeyedStore σ → (σ.get q).isSome →
    StaysAll σ ops σ' q q' → ∃ st' F' r, run ample st ops = .done st' ∧ SRep st' σ' [] F' ∧ KeyedStore σ' ∧ (σ'.get q').isSome ∧ st.refer q = some r ∧ st'.refer q' = some r
  | [], _, _, _, _, st, F, H, T, hq, h => by
    cases h
    obtain ⟨r, hr, _⟩ := read_place H T hq
    exact ⟨st, F, r, rfl, H, T, hq, hr, hr⟩
  | op :: ops, σ, σ'', q, q'', st, F, H, T, hq, h => by
    cases h with
    | cons h1 h2 h3 h4 =>
      have := step_ends H T ample h1
      simp only [run]
      cases hs : step ample st op with
      | done st1 =>
        rw [hs] at this
        obtain ⟨F1, H1⟩ := this
        obtain ⟨r, r1, r2, _⟩ := C70_statement ⟨F, H⟩ T ample h1 hs hq h3 h2
        obtain ⟨st', F', r', f1, f2, f3, f4, f5, f6⟩ := staysAll_run H1 (step_keyed T h1) h3 h4
        rw [r2] at f5; cases f5
        exact ⟨st', F', r, f1, f2, f3, f4, r1, f6⟩
      | thrown st1 => rw [hs] at this; obtain ⟨⟨a, ha⟩, _⟩ := this; cases ha
      | ub => rw [hs] at this; exact this.elim
    | refused h1 h2 =>
      simp only [run, refused_throws H T _ h1]
      exact staysAll_run H T hq h2

/-- A reference obtained after any history designates, after any further history during which the value stays, the value that the specification says it should. -/
theorem C70_history {ops more : List Op} {σ σ' : Store} {q q' : Place} (h : Steps Store.empty ops σ) (hq : (σ.get q).isSome) (hs : StaysAll σ more σ' q q') :
    ∃ st st' r, run ample State.init ops = .done st ∧ run ample st more = .done st' ∧ st.refer q = some r ∧ st'.refer q' = some r ∧
      (st'.deref r).bind (reify st'.heap st'.heap.fuel) = σ'.get q' := by
  obtain ⟨st, F, h1, H, T⟩ := steps_run srep_init keyed_empty h
  obtain ⟨st', F', r, e1, H', T', e2, e3, e4⟩ := staysAll_run H T hq hs
  obtain ⟨r', f1, f2⟩ := read_place H' T' e2
  rw [e4] at f1; cases f1
  exact ⟨st, st', r, h1, e1, e3, e4, f2⟩

/-- Different expressions refer to different values. -/
theorem C70_distinct {ops : List Op} {σ : Store} (h : Steps Store.empty ops σ) :
    ∃ st, run ample State.init ops = .done st ∧ ∀ p q, (σ.get p).isSome → (σ.get q).isSome → st.refer p = st.refer q → p = q := by
  obtain ⟨st, F, h1, H, T⟩ := steps_run srep_init keyed_empty h
  refine ⟨st, h1, fun p q hp hq he => ?_⟩
  obtain ⟨r, hr, _⟩ := read_place H T hp
  exact Fits.inj ⟨⟨F, H⟩, T⟩ hr (he ▸ hr)

theorem container_of_refer {st : State} {q : Place} {c : Sel} {r : Ref} (h : st.refer (Place.below q [c]) = some r) : st.containerAt q = r.cell := by
  rw [refer_below] at h
  obtain ⟨P, hP, h⟩ := Option.bind_eq_some_iff.1 h
  simp only [State.follow] at h
  obtain ⟨y, hy, h⟩ := Option.bind_eq_some_iff.1 h
  obtain ⟨r1, hr1, h⟩ := Option.bind_eq_some_iff.1 h
  split at h <;> cases h
  simp only [State.containerAt, hP, hy, Option.bind_some]
  cases c with
  | pos i => obtain ⟨a, rfl, rfl⟩ := under_pos hr1; rfl
  | key k => obtain ⟨a, rfl, rfl⟩ := under_key hr1; rfl

/-- A reference to the array or object in a value, as `as_array()` and `as_object()` return it: it stays valid as long as some element or member stays. -/
theorem C70_container_partial {ops more : List Op} {σ σ' : Store} {q q' : Place} {c c' : Sel} (h : Steps Store.empty ops σ) (hq : (σ.get (Place.below q [c])).isSome)
    (hs : StaysAll σ more σ' (Place.below q [c]) (Place.below q' [c'])) :
    ∃ st st' a, run ample State.init ops = .done st ∧ run ample st more = .done st' ∧ st.containerAt q = some a ∧ st'.containerAt q' = some a ∧ st'.alive a = true := by
  obtain ⟨st, F, h1, H, T⟩ := steps_run srep_init keyed_empty h
  obtain ⟨st', F', r, e1, H', T', e2, e3, e4⟩ := staysAll_run H T hq hs
  have k1 := container_of_refer e3
  have k2 := container_of_refer e4
  obtain ⟨l, y, f1, f2, f3, _⟩ := refer_slot e4
  cases hr : r.cell with
  | none =>
    cases r with
    | var x =>
      exfalso
      rw [refer_below] at e4
      obtain ⟨P, hP, h⟩ := Option.bind_eq_some_iff.1 e4
      simp only [State.follow] at h
      obtain ⟨y, hy, h⟩ := Option.bind_eq_some_iff.1 h
      obtain ⟨r1, hr1, h⟩ := Option.bind_eq_some_iff.1 h
      split at h <;> cases h
      cases c' with
      | pos i => obtain ⟨a, _, e⟩ := under_pos hr1; cases e
      | key k => obtain ⟨a, _, e⟩ := under_key hr1; cases e
    | elem => cases hr
    | member => cases hr
  | some a =>
    refine ⟨st, st', a, h1, e1, k1.trans hr, k2.trans hr, ?_⟩
    simp only [State.alive]
    cases hc : st'.heap.cell a with
    | some c => rfl
    | none => rw [deref_none hc hr] at f3; cases f3

/-! ### References to empty arrays and objects -/

theorem destroyVal_dead {n : Nat} {h g : Heap} {v : HVal} {a : Addr} (hv : v.raw = .arr (some a) ∨ v.raw = .obj (some a)) (hd : destroyVal n h v = some g) : g.cell a = none := by
  cases n with
  | zero => cases hd
  | succ n =>
    simp only [destroyVal] at hd
    rcases hv with e | e
    all_goals
      simp only [e] at hd
      split at hd
      · obtain ⟨h', _, e2⟩ := Option.bind_eq_some_iff.1 hd
        cases e2
        simp [Heap.set]
      · cases hd

theorem replace_dead {st st' : State} {d : Loc} {x old : HVal} {a : Addr} (ho : st.read d = some old) (hv : old.raw = .arr (some a) ∨ old.raw = .obj (some a))
    (h : replace st d x = .done st') : st'.alive a = false := by
  simp only [replace, ho] at h
  split at h
  · next g hg => cases h; simp only [State.alive, State.withHeap, destroyVal_dead hv hg]; rfl
  · cases h

theorem read_after_tag {st : State} {l : Loc} {y : HVal} (cl : st.heap.Clean) (hl : st.read l = some y) (z : HVal) (c : Option Cell) :
    ((st.write l z).withHeap ((st.write l z).heap.bump.set (st.write l z).heap.next c)).read l = some z := by
  have hw := read_write_same (x := z) hl
  cases l with
  | var x => exact hw
  | child b i =>
    have hb : b ≠ (st.write (.child b i) z).heap.next := by
      rw [write_next]
      rintro rfl
      simp only [State.read, cl _ (Nat.le_refl _)] at hl
      cases hl
    simp only [State.read, State.withHeap, Heap.set, Heap.bump, if_neg hb] at hw ⊢
    exact hw

/-- `json::array& a = v.as_array(); v.as_array();`: if the array is empty, the second call replaces it by a new one, and `a` dangles. -/
theorem C70_as_array_dangles {st st' : State} {σ : Store} (hst : Holds st σ []) (hk : KeyedStore σ) (oom : Addr → Bool) {p : Place} {a : Addr}
    (hp : σ.get p = some (.arr .array []) ∨ σ.get p = some (.obj .object [])) (ha : st.containerAt p = some a) (h : step oom st (.asArray p) = .done st') : st'.alive a = false := by
  obtain ⟨F, H⟩ := hst
  obtain ⟨u, hu, hh⟩ : ∃ u, σ.get p = some u ∧ Hollowable u := by
    rcases hp with h | h
    · exact ⟨_, h, .array⟩
    · exact ⟨_, h, .object⟩
  obtain ⟨l, y, B, p1, p2, p3, _⟩ := H.place hk hu
  obtain ⟨r, r1, r2⟩ := refer_resolve p1
  have hy : y.raw = .arr (some a) ∨ y.raw = .obj (some a) := by
    simp only [State.containerAt, r1, deref_of r2, p2, Option.bind_some, HVal.container] at ha
    split at ha <;> cases ha <;> simp
  simp only [step, p1, asArray, p2, blank_of_hollowable p3 hh] at h
  split at h
  · cases h
  · simp only [Fin.bind] at h
    split at h
    · next st1 h1 => cases h; exact replace_dead (read_after_tag H.clean p2 ⟨.array, y.raw⟩ _) hy h1
    · cases h
    · cases h

/-- The same with `as_object()`. -/
theorem C70_as_object_dangles {st st' : State} {σ : Store} (hst : Holds st σ []) (hk : KeyedStore σ) (oom : Addr → Bool) {p : Place} {a : Addr}
    (hp : σ.get p = some (.arr .array []) ∨ σ.get p = some (.obj .object [])) (ha : st.containerAt p = some a) (h : step oom st (.asObject p) = .done st') : st'.alive a = false := by
  obtain ⟨F, H⟩ := hst
  obtain ⟨u, hu, hh⟩ : ∃ u, σ.get p = some u ∧ Hollowable u := by
    rcases hp with h | h
    · exact ⟨_, h, .array⟩
    · exact ⟨_, h, .object⟩
  obtain ⟨l, y, B, p1, p2, p3, _⟩ := H.place hk hu
  obtain ⟨r, r1, r2⟩ := refer_resolve p1
  have hy : y.raw = .arr (some a) ∨ y.raw = .obj (some a) := by
    simp only [State.containerAt, r1, deref_of r2, p2, Option.bind_some, HVal.container] at ha
    split at ha <;> cases ha <;> simp
  simp only [step, p1, asObject, p2, blank_of_hollowable p3 hh] at h
  split at h
  · cases h
  · simp only [Fin.bind] at h
    split at h
    · next st1 h1 => cases h; exact replace_dead (read_after_tag H.clean p2 ⟨.object, y.raw⟩ _) hy h1
    · cases h
    · cases h

/-- The claim: while a statement leaves the value as it is, references to the array or object in it stay valid. -/
def C70Claim : Prop := ∀ (st st' : State) (σ : Store) (op : Op) (p : Place) (a : Addr), Holds st σ [] → KeyedStore σ → Step σ op σ → step ample st op = .done st' →
  st.containerAt p = some a → st'.alive a = true

/-- `json::value v; json::array& a = v.as_array(); v.as_array(); a.emplace_back(1);` uses an array that has been destroyed. -/
theorem C70_refuted : ¬ C70Claim := by
  intro h
  obtain ⟨st, F, h1, H, T⟩ := steps_run (ops := [.init 0 .null, .asArray ⟨0, []⟩]) srep_init keyed_empty (.cons (.init rfl (by simp [Tagged, Value.null]))
    (.cons (.asArray rfl (.inl ⟨.null, rfl⟩)) .nil))
  have h2 := C70_as_array_dangles ⟨F, H⟩ T ample (p := ⟨0, []⟩) (a := 0) (.inl rfl) (by cases h1; decide +kernel) (by cases h1; rfl)
  have hs := Step.asArray (σ := (Store.empty.put 0 (some .null)).set ⟨0, []⟩ (.arr .array [])) (p := ⟨0, []⟩) (vs := []) rfl (.inr rfl)
  rw [set_get T rfl] at hs
  have h3 := h st _ _ (.asArray ⟨0, []⟩) ⟨0, []⟩ 0 ⟨F, H⟩ T hs (by cases h1; rfl) (by cases h1; decide +kernel)
  rw [h2] at h3
  cases h3

/-- `auto& o = v.as_object(); v["k"];` and `auto& a = v.as_array(); v.emplace(1);` and `v.erase(0)` do the same. -/
theorem C70_others_dangle :
    (∃ st st' a, run ample State.init [.init 0 (.obj .object [])] = .done st ∧ step ample st (.index ⟨0, []⟩ [0x6b]) = .done st' ∧ st.containerAt ⟨0, []⟩ = some a ∧ st'.alive a = false) ∧
    (∃ st st' a, run ample State.init [.init 0 (.arr .array []), .init 1 (.ofInt 1)] = .done st ∧ step ample st (.emplaceBack ⟨0, []⟩ ⟨1, []⟩) = .done st' ∧
      st.containerAt ⟨0, []⟩ = some a ∧ st'.alive a = false) ∧
    (∃ st st' a, run ample State.init [.init 0 (.arr .array [])] = .done st ∧ step ample st (.erasePos ⟨0, []⟩ 0) = .done st' ∧ st.containerAt ⟨0, []⟩ = some a ∧ st'.alive a = false) :=
  ⟨⟨_, _, 0, rfl, rfl, by decide +kernel⟩, ⟨_, _, 0, rfl, rfl, by decide +kernel⟩, _, _, 0, rfl, rfl, by decide +kernel⟩

/-! ### References that should not be used any more -/

/-- `auto& r = a["k"]; a = 1;`, `auto& r = a[0]; a.erase(0)` (one element), a reference into a variable that is gone, and one into the target of a move: they dangle. -/
theorem C70_gone :
    (∃ st st' r, run ample State.init [.init 0 (.obj .object [([0x6b], .ofInt 1)])] = .done st ∧ step ample st (.assign ⟨0, []⟩ (.ofInt 1)) = .done st' ∧
      st.refer ⟨0, [.key [0x6b]]⟩ = some r ∧ (st'.deref r).isNone) ∧
    (∃ st st' r, run ample State.init [.init 0 (.arr .array [.ofInt 1])] = .done st ∧ step ample st (.erasePos ⟨0, []⟩ 0) = .done st' ∧
      st.refer ⟨0, [.pos 0]⟩ = some r ∧ (st'.deref r).isNone) ∧
    (∃ st st' r, run ample State.init [.init 0 (.arr .array [.ofInt 1])] = .done st ∧ step ample st (.drop 0) = .done st' ∧ st.refer ⟨0, [.pos 0]⟩ = some r ∧ (st'.deref r).isNone) ∧
    (∃ st st' r, run ample State.init [.init 0 (.arr .array [.ofInt 1]), .init 1 (.arr .array [.ofInt 2])] = .done st ∧ step ample st (.moveAssign ⟨0, []⟩ ⟨1, []⟩ []) = .done st' ∧
      st.refer ⟨0, [.pos 0]⟩ = some r ∧ (st'.deref r).isNone) :=
  ⟨⟨_, _, .member 0 [0x6b], rfl, rfl, by decide +kernel⟩, ⟨_, _, .elem 0 0, rfl, rfl, by decide +kernel⟩, ⟨_, _, .elem 0 0, rfl, rfl, by decide +kernel⟩,
    _, _, .elem 0 0, rfl, rfl, by decide +kernel⟩

/-! ### Non-vacuity -/

/-- `a = {"k": {"n": 1}}`; a reference to `a["k"]["n"]` survives adding members before and after `"k"`, moving `a` to `b`, and erasing another member. -/
def c70_first : List Op := [.init 0 (.obj .object [([0x6b], .obj .object [([0x6e], .ofInt 1)])]), .init 1 (.ofInt 7)]
def c70_more : List Op := [.emplaceKey ⟨0, []⟩ [0x61] ⟨1, []⟩, .index ⟨0, []⟩ [0x7a], .moveInit 2 ⟨0, []⟩ [], .eraseKey ⟨2, []⟩ [0x61], .drop 0]

example : ∃ σ σ', Steps Store.empty c70_first σ ∧ (σ.get ⟨0, [.key [0x6b], .key [0x6e]]⟩).isSome ∧
    StaysAll σ c70_more σ' ⟨0, [.key [0x6b], .key [0x6e]]⟩ ⟨2, [.key [0x6b], .key [0x6e]]⟩ := by
  refine ⟨_, _, .cons (.init rfl ?_) (.cons (.init rfl ?_) .nil), by decide +kernel,
    .cons (.emplaceKey rfl (.inr rfl) rfl rfl trivial (fun _ h => by cases h)) (.emplaceKey ?_) (by decide +kernel)
      (.cons (.index rfl (.inr rfl)) .index (by decide +kernel)
        (.cons (.moveInit rfl rfl) (.moveInitBelow (s := ⟨0, []⟩) (path := [.key [0x6b], .key [0x6e]]) (by simp)) (by decide +kernel)
          (.cons (.eraseKey rfl (.inr rfl)) (.eraseKey ?_) (by decide +kernel)
            (.cons (.drop rfl) (.drop (by decide)) (by decide +kernel) .nil))))⟩
  · simp [Tagged, TaggedMembers, Value.ofInt]
  · simp [Tagged, Value.ofInt]
  · rintro ⟨_, h, _⟩; revert h; decide
  · rintro ⟨_, h⟩; revert h; decide

example : ∃ st st', run ample State.init c70_first = .done st ∧ run ample st c70_more = .done st' ∧ st.refer ⟨0, [.key [0x6b], .key [0x6e]]⟩ = some (.member 0 [0x6e]) ∧
    st'.refer ⟨2, [.key [0x6b], .key [0x6e]]⟩ = some (.member 0 [0x6e]) ∧ (st'.deref (.member 0 [0x6e])).isSome := ⟨_, _, rfl, rfl, by decide +kernel⟩

end Meojson
