import Verif.Proofs.Reference

/-! References stay valid where they should. -/

set_option autoImplicit false

namespace Meojson.Mem
open Stores

/-- The memory is in the state that the store describes. -/
def Fits (st : State) (σ : Store) : Prop := Holds st σ [] ∧ KeyedStore σ

section
variable {st st' : State} {σ σ' : Store}

theorem Fits.clean (A : Fits st σ) : st.heap.Clean := by obtain ⟨⟨F, H⟩, _⟩ := A; exact H.clean

theorem refer_slot {q : Place} {r : Ref} (h : st.refer q = some r) : ∃ l y, st.slot r = some l ∧ st.read l = some y ∧ st.deref r = some y ∧ st.resolve q = some l := by
  obtain ⟨l, hl⟩ := follow_slot h
  obtain ⟨y, hy⟩ := slot_read hl
  exact ⟨l, y, hl, hy, (deref_of hl).trans hy, resolve_refer h hl⟩

theorem Fits.refer (A : Fits st σ) {q : Place} {u : Value} (h : σ.get q = some u) : ∃ r, st.refer q = some r := by
  obtain ⟨⟨F, H⟩, T⟩ := A
  obtain ⟨l, _, _, h1, _⟩ := H.place T h
  obtain ⟨r, h2, _⟩ := refer_resolve h1
  exact ⟨r, h2⟩

theorem lookup_of_find {ms : List (Bytes × Value)} (hs : ms.Pairwise fun a b => a.1 < b.1) {xs : List (Bytes × HVal)} (hk : xs.map (·.1) = ms.map (·.1)) {k : Bytes} {y : HVal}
    (h : RawObject.find k xs = some y) : ∃ (v : Value) (i : Nat), ms.lookup k = some v ∧ ms[i]? = some (k, v) ∧ xs[i]? = some (k, y) := by
  rw [← find_keyIndex] at h
  obtain ⟨i, hi, h⟩ := Option.bind_eq_some_iff.1 h
  obtain ⟨⟨k', y'⟩, hx, rfl⟩ := Option.map_eq_some_iff.1 h
  have hki := keyIndex_key hi
  rw [hx] at hki
  obtain rfl : k' = k := by simpa using hki
  have : (ms.map (·.1))[i]? = some k' := by rw [← hk, List.getElem?_map, hx]; rfl
  rw [List.getElem?_map] at this
  obtain ⟨⟨k2, v⟩, hm, rfl⟩ := Option.map_eq_some_iff.1 this
  exact ⟨v, i, lookup_of_mem hs (List.mem_of_getElem? hm), hm, hx⟩

theorem follow_deref {path : List Sel} {r r' : Ref} (h : st.follow r path = some r') : ∃ x, st.deref r = some x := by
  cases hd : st.deref r with
  | some x => exact ⟨x, rfl⟩
  | none => cases path <;> simp [State.follow, hd] at h

theorem under_pos {x : HVal} {i : Nat} {r : Ref} (h : x.under (.pos i) = some r) : ∃ a, x = ⟨.array, .arr (some a)⟩ ∧ r = .elem a i := by
  simp only [HVal.under] at h
  split at h <;> cases h
  exact ⟨_, rfl, rfl⟩

theorem under_key {x : HVal} {k : Bytes} {r : Ref} (h : x.under (.key k) = some r) : ∃ a, x = ⟨.object, .obj (some a)⟩ ∧ r = .member a k := by
  simp only [HVal.under] at h
  split at h <;> cases h
  exact ⟨_, rfl, rfl⟩

theorem Rep.get_follow : ∀ {path : List Sel} {v : Value} {x : HVal} {A : List Addr} {r r' : Ref}, Rep st.heap.cell v x A → Keyed v → st.deref r = some x →
    st.follow r path = some r' → ∃ w, getAt v path = some w
  | [], v, _, _, _, _, _, _, _, _ => ⟨v, rfl⟩
  | .pos i :: path, v, x, A, r, r', hr, ht, hd, hf => by
    simp only [State.follow, hd, Option.bind_some] at hf
    obtain ⟨r1, h1, hf⟩ := Option.bind_eq_some_iff.1 hf
    obtain ⟨a, rfl, rfl⟩ := under_pos h1
    cases v with
    | str => cases hr.1
    | arrNull => cases hr.1
    | objNull => cases hr.1
    | obj => obtain ⟨_, _, _, e, _⟩ := hr; cases e
    | arr t vs =>
      obtain ⟨a', xs, B, e, e2, e3, _⟩ := hr
      cases e
      obtain ⟨y, hy⟩ := follow_deref hf
      have hxi := hy
      rw [deref_elem e2] at hxi
      have hlt : i < vs.length := by rw [← e3.length]; exact (List.getElem?_eq_some_iff.1 hxi).1
      obtain ⟨x1, A1, Ai, A2, f1, f2, _⟩ := e3.nth (List.getElem?_eq_getElem hlt)
      rw [hxi] at f1; cases f1
      obtain ⟨w, hw⟩ := Rep.get_follow f2 (keyedAll_get ht (List.getElem?_eq_getElem hlt)) hy hf
      exact ⟨w, by simp only [getAt, List.getElem?_eq_getElem hlt, Option.bind_some, hw]⟩
  | .key k :: path, v, x, A, r, r', hr, ht, hd, hf => by
    simp only [State.follow, hd, Option.bind_some] at hf
    obtain ⟨r1, h1, hf⟩ := Option.bind_eq_some_iff.1 hf
    obtain ⟨a, rfl, rfl⟩ := under_key h1
    cases v with
    | str => cases hr.1
    | arrNull => cases hr.1
    | objNull => cases hr.1
    | arr => obtain ⟨_, _, _, e, _⟩ := hr; cases e
    | obj t ms =>
      obtain ⟨a', xs, B, e, e2, e3, _⟩ := hr
      cases e
      obtain ⟨y, hy⟩ := follow_deref hf
      have hxi := hy
      rw [deref_member e2] at hxi
      obtain ⟨v1, i, g1, g2, g3⟩ := lookup_of_find ht.1 e3.keys hxi
      obtain ⟨x1, A1, Ai, A2, f1, f2, _⟩ := e3.nth g2
      rw [g3] at f1; cases f1
      obtain ⟨w, hw⟩ := Rep.get_follow f2 (keyedMembers_get ht.2 g2) hy hf
      exact ⟨w, by simp only [getAt, g1, Option.bind_some, hw]⟩

theorem Fits.get (A : Fits st σ) {q : Place} {r : Ref} (h : st.refer q = some r) : ∃ u, σ.get q = some u := by
  obtain ⟨⟨F, H⟩, T⟩ := A
  obtain ⟨x, hx⟩ := follow_deref h
  have hx' := hx
  rw [deref_var] at hx'
  cases hs : σ q.x with
  | none => rw [(H.absent _ hs).1] at hx'; cases hx'
  | some v =>
    obtain ⟨x', h1, h2⟩ := H.rep _ _ hs
    rw [hx'] at h1; cases h1
    obtain ⟨w, hw⟩ := h2.get_follow (T _ _ hs) hx h
    exact ⟨w, by rw [get_of hs, hw]⟩

/-- Different places are different objects. -/
theorem Fits.inj (A : Fits st σ) {p q : Place} {r : Ref} (hp : st.refer p = some r) (hq : st.refer q = some r) : p = q := by
  obtain ⟨u, hu⟩ := A.get hp
  obtain ⟨w, hw⟩ := A.get hq
  obtain ⟨⟨F, H⟩, T⟩ := A
  obtain ⟨l, y, l1, l2, _, l3⟩ := refer_slot hp
  obtain ⟨l', y', l1', _, _, l3'⟩ := refer_slot hq
  rw [l1] at l1'; cases l1'
  have key : ∀ {p q : Place} {u w : Value}, σ.get p = some u → σ.get q = some w → st.resolve p = some l → st.resolve q = some l → p.x = q.x ∧ q.path <+: p.path := by
    intro p q u w hu hw hp hq
    obtain ⟨l0, z, B, e1, e2, e3, _⟩ := H.place T hw
    rw [hq] at e1; cases e1
    exact Classical.byContradiction fun hn => (H.apart T hu hw hp hq e2 e3 hn).1 rfl
  obtain ⟨h1, h2⟩ := key hu hw l3 l3'
  obtain ⟨_, h3⟩ := key hw hu l3' l3
  cases p; cases q
  simp only at h1 h2 h3
  rw [h1, h3.eq_of_length_le h2.length_le]

theorem Fits.hit (A : Fits st σ) {p q : Place} {l : Loc} {r : Ref} (hp : st.resolve p = some l) (hq : st.refer q = some r) (h : st.hits l r) : q = p := by
  obtain ⟨r', h1, h2⟩ := refer_resolve hp
  obtain ⟨l', _, h3, _⟩ := refer_slot hq
  have := hits_slot h h3; subst this
  exact A.inj hq (slot_inj h2 h3 ▸ h1)

theorem refer_under {p : Place} {l : Loc} {y : HVal} {c : Sel} {r : Ref} (hp : st.resolve p = some l) (hy : st.read l = some y) (hc : y.under c = some r) :
    st.refer (Place.below p [c]) = if (st.deref r).isSome then some r else none := by
  obtain ⟨rp, h1, h2⟩ := refer_resolve hp
  rw [refer_below, h1]
  simp only [Option.bind_some, State.follow, deref_of h2, hy, hc]

theorem Fits.under (A : Fits st σ) {p q : Place} {l : Loc} {y : HVal} {c : Sel} {r : Ref} (hp : st.resolve p = some l) (hy : st.read l = some y) (hc : y.under c = some r)
    (hq : st.refer q = some r) : q = Place.below p [c] := by
  refine A.inj hq ?_
  obtain ⟨_, z, _, _, hz, _⟩ := refer_slot hq
  rw [refer_under hp hy hc, hz]; rfl

theorem inside_below (p : Place) (c : Sel) (path : List Sel) : Inside (Place.below p (c :: path)) p :=
  ⟨rfl, List.prefix_append _ _, fun h => by have := congrArg List.length h; simp [Place.below] at this⟩

theorem below_below (p : Place) (q r : List Sel) : Place.below (Place.below p q) r = Place.below p (q ++ r) := by simp [Place.below]

theorem not_inside_self {p : Place} : ¬ Inside p p := fun h => h.2.2 rfl

theorem below_ne {p : Place} {c : Sel} {path : List Sel} : Place.below p (c :: path) ≠ p := fun h => by
  have := inside_below p c path; rw [h] at this; exact not_inside_self this

/-- A place below which nothing was changed, nor at it. -/
theorem Fits.keeps (A : Fits st σ) (A' : Fits st' σ') {S : Ref → Prop} (B : Back st st' S) {q : Place} {r : Ref} {u' : Value} (hq : st.refer q = some r)
    (hq' : σ'.get q = some u') (hS : ∀ q1 r1, Inside q q1 → st.refer q1 = some r1 → ¬ S r1) : st'.refer q = some r := by
  obtain ⟨r', h⟩ := A'.refer hq'
  have := B.follow A.clean (path := q.path) (r := .var q.x) (fun pre c post r0 e h0 => hS ⟨q.x, pre⟩ r0 (by
    refine ⟨rfl, by simp [e], fun h => ?_⟩
    have := congrArg List.length h
    simp [e] at this) h0) hq h
  rw [h, this]

/-- Below a value that was moved. -/
theorem Fits.carries (A : Fits st σ) (A' : Fits st' σ') {S : Ref → Prop} (B : Back st st' S) {s d : Place} {rs rd : Ref} {y : HVal} {c : Sel} {path : List Sel} {r : Ref} {u' : Value}
    (hs : st.refer s = some rs) (hy : st.deref rs = some y) (hd : st'.refer d = some rd) (hy' : st'.deref rd = some y)
    (hq : st.refer (Place.below s (c :: path)) = some r) (hq' : σ'.get (Place.below d (c :: path)) = some u')
    (hS : ∀ pre c' post r1, path = pre ++ c' :: post → st.refer (Place.below s (c :: pre)) = some r1 → ¬ S r1) :
    st'.refer (Place.below d (c :: path)) = some r := by
  obtain ⟨r', h⟩ := A'.refer hq'
  rw [h]
  rw [refer_below, hs] at hq
  rw [refer_below, hd] at h
  simp only [Option.bind_some, State.follow, hy] at hq
  simp only [Option.bind_some, State.follow, hy'] at h
  obtain ⟨r1, h1, hq⟩ := Option.bind_eq_some_iff.1 hq
  obtain ⟨r2, h2, h⟩ := Option.bind_eq_some_iff.1 h
  rw [h1] at h2; cases h2
  rw [B.follow A.clean (fun pre c' post r0 e h0 => hS pre c' post r0 e ?_) hq h]
  rw [refer_below, hs]
  simp only [Option.bind_some, State.follow, hy, h1]
  exact h0

/-- What is at a place that stays. -/
theorem Back.at_place {S : Ref → Prop} (B : Back st st' S) (cl : st.heap.Clean) {r : Ref} {q : Place} {y : HVal} (hy : st.deref r = some y) (h : st'.refer q = some r) (hn : ¬ S r) :
    st'.deref r = some y := by
  obtain ⟨_, y', _, _, h', _⟩ := refer_slot h
  have := B.2 r y' (deref_old cl hy) hn h'
  rw [hy] at this; cases this; exact h'

/-! ### Using a value as an array or object -/

theorem refer_of_reads {p : Place} {v : Value} (hp : σ.get p = some v) (A : Fits st σ) (h1 : ∀ q u, σ.get q = some u → st'.resolve q = st.resolve q)
    (h2 : ∀ q u lq, σ.get q = some u → (q ≠ p ∨ ¬ Hollowable v) → st.resolve q = some lq → st'.read lq = st.read lq) {q : Place} {u : Value} (hq : σ.get q = some u) :
    st'.refer q = st.refer q := by
  obtain ⟨r, hr⟩ := A.refer hq
  obtain ⟨lq, y, e1, e2, e3, e4⟩ := refer_slot hr
  obtain ⟨r', hr', e1'⟩ := refer_resolve ((h1 q u hq).trans e4)
  rcases List.eq_nil_or_concat q.path with hnil | ⟨pre, c, hpath⟩
  · have f1 : st.refer q = if (st.deref (.var q.x)).isSome then some (.var q.x) else none := by simp [State.refer, hnil, State.follow]
    have f2 : st'.refer q = if (st'.deref (.var q.x)).isSome then some (.var q.x) else none := by simp [State.refer, hnil, State.follow]
    rw [hr] at f1
    rw [hr'] at f2
    split at f1 <;> cases f1
    split at f2 <;> cases f2
    rw [hr, hr']
  · have hqe : q = Place.below ⟨q.x, pre⟩ [c] := by cases q; simp only at hpath; simp [Place.below, hpath]
    have key : ∀ {s : State} {rq : Ref}, s.refer q = some rq → ∃ P y, s.refer ⟨q.x, pre⟩ = some P ∧ s.deref P = some y ∧ y.under c = some rq := by
      intro s rq h
      rw [hqe, refer_below] at h
      obtain ⟨P, hP, h⟩ := Option.bind_eq_some_iff.1 h
      simp only [State.follow] at h
      obtain ⟨y, hy, h⟩ := Option.bind_eq_some_iff.1 h
      obtain ⟨r1, hr1, h⟩ := Option.bind_eq_some_iff.1 h
      split at h <;> cases h
      exact ⟨P, y, hP, hy, hr1⟩
    obtain ⟨P, y, k1, k2, k3⟩ := key hr
    obtain ⟨P', y', k1', k2', k3'⟩ := key hr'
    obtain ⟨w, hw⟩ := A.get k1
    obtain ⟨lP, z, f1, f2, f3, f4⟩ := refer_slot k1
    obtain ⟨lP', z', f1', f2', f3', f4'⟩ := refer_slot k1'
    rw [h1 _ _ hw, f4] at f4'; cases f4'
    have hin : Inside q ⟨q.x, pre⟩ := by
      have := inside_below ⟨q.x, pre⟩ c []
      rwa [← hqe] at this
    have hne : (⟨q.x, pre⟩ : Place) ≠ p ∨ ¬ Hollowable v := by
      by_cases e : (⟨q.x, pre⟩ : Place) = p
      · exact .inr fun hv => not_inside_of_hollowable hp hv hq (e ▸ hin)
      · exact .inl e
    rw [h2 _ _ _ hw hne f4, f2] at f2'
    cases f2'
    rw [k2] at f3; cases f3
    rw [k2'] at f3'; cases f3'
    rw [hr, hr', ← k3, ← k3']

theorem Fits.array (A : Fits st σ) {oom : Addr → Bool} {p : Place} {v : Value} {vs : List Value} {l : Loc} (hg : σ.get p = some v) (hv : Elems v vs) (hl : st.resolve p = some l)
    {k : State → Addr → Fin} (h : asArray oom st l k = .done st') :
    ∃ st1 a xs, k st1 a = .done st' ∧ Fits st1 (σ.set p (.arr .array vs)) ∧ st1.resolve p = some l ∧ st1.read l = some ⟨.array, .arr (some a)⟩ ∧
      st1.heap.cell a = some (.arr xs) ∧ xs.length = vs.length ∧ (∀ q u, σ.get q = some u → st1.refer q = st.refer q) ∧
      (∀ q u, σ.get q = some u → st1.resolve q = st.resolve q) ∧
      ∀ q u lq, σ.get q = some u → (q ≠ p ∨ ¬ Hollowable v) → st.resolve q = some lq → st1.read lq = st.read lq := by
  obtain ⟨⟨F, H⟩, T⟩ := id A
  rcases H.array T oom hg hv hl k with ⟨st1, a, e1, ⟨F1, e2⟩, e3, e4, e5, _, e7⟩ | ⟨st1, e1, _⟩
  · have T1 := keyed_set T hg (keyed_elems hv (keyed_get T hg))
    obtain ⟨l', y, B, q1, q2, q3, _⟩ := e2.place T1 (get_set hg)
    rw [e3] at q1; cases q1
    rw [e4] at q2; cases q2
    obtain ⟨a', xs, C, c1, c2, c3, _⟩ := q3
    cases c1
    exact ⟨st1, a, xs, e1 ▸ h, ⟨⟨F1, e2⟩, T1⟩, e3, e4, c2, c3.length, fun q u hq => refer_of_reads hg A e5 e7 hq, e5, e7⟩
  · rw [e1] at h; cases h

theorem Fits.object (A : Fits st σ) {oom : Addr → Bool} {p : Place} {v : Value} {ms : List (Bytes × Value)} {l : Loc} (hg : σ.get p = some v) (hv : Members v ms)
    (hl : st.resolve p = some l) {k : State → Addr → Fin} (h : asObject oom st l k = .done st') :
    ∃ st1 a xs, k st1 a = .done st' ∧ Fits st1 (σ.set p (.obj .object ms)) ∧ st1.resolve p = some l ∧ st1.read l = some ⟨.object, .obj (some a)⟩ ∧
      st1.heap.cell a = some (.obj xs) ∧ xs.map (·.1) = ms.map (·.1) ∧ (∀ q u, σ.get q = some u → st1.refer q = st.refer q) ∧
      (∀ q u, σ.get q = some u → st1.resolve q = st.resolve q) ∧
      ∀ q u lq, σ.get q = some u → (q ≠ p ∨ ¬ Hollowable v) → st.resolve q = some lq → st1.read lq = st.read lq := by
  obtain ⟨⟨F, H⟩, T⟩ := id A
  rcases H.object T oom hg hv hl k with ⟨st1, a, e1, ⟨F1, e2⟩, e3, e4, e5, _, e7⟩ | ⟨st1, e1, _⟩
  · have T1 := keyed_set T hg (keyed_members hv (keyed_get T hg))
    obtain ⟨l', y, B, q1, q2, q3, _⟩ := e2.place T1 (get_set hg)
    rw [e3] at q1; cases q1
    rw [e4] at q2; cases q2
    obtain ⟨a', xs, C, c1, c2, c3, _⟩ := q3
    cases c1
    exact ⟨st1, a, xs, e1 ▸ h, ⟨⟨F1, e2⟩, T1⟩, e3, e4, c2, c3.keys, fun q u hq => refer_of_reads hg A e5 e7 hq, e5, e7⟩
  · rw [e1] at h; cases h

/-! ### The statements -/

theorem pointer_of_under {y : HVal} {c : Sel} {r : Ref} (h : y.under c = some r) : y.pointer := by
  intro t ht
  cases c with
  | pos i => obtain ⟨a, rfl, _⟩ := under_pos h; cases ht
  | key k => obtain ⟨a, rfl, _⟩ := under_key h; cases ht

theorem under_of_refer {s : Place} {rs r : Ref} {y : HVal} {c : Sel} {path : List Sel} (hs : st.refer s = some rs) (hy : st.deref rs = some y)
    (h : st.refer (Place.below s (c :: path)) = some r) : ∃ r1, y.under c = some r1 := by
  rw [refer_below, hs] at h
  simp only [Option.bind_some, State.follow, hy] at h
  obtain ⟨r1, h1, _⟩ := Option.bind_eq_some_iff.1 h
  exact ⟨r1, h1⟩

theorem refer_above {s : Place} {r : Ref} {path : List Sel} (h : st.refer (Place.below s path) = some r) : ∃ rs y, st.refer s = some rs ∧ st.deref rs = some y := by
  rw [refer_below] at h
  obtain ⟨rs, h1, _⟩ := Option.bind_eq_some_iff.1 h
  obtain ⟨_, y, _, _, h2, _⟩ := refer_slot h1
  exact ⟨rs, y, h1, h2⟩

theorem not_vacant {q : Place} {r : Ref} {a : Addr} (h : st.refer q = some r) : ¬ st.vacant a r := fun hv => by
  obtain ⟨_, y, _, _, h2, _⟩ := refer_slot h
  rw [hv.2] at h2; cases h2

theorem Elems.unique {v : Value} {vs ws : List Value} (h1 : Elems v vs) (h2 : Elems v ws) : vs = ws := by
  rcases h1 with ⟨h, rfl⟩ | rfl
  · rcases h2 with ⟨_, rfl⟩ | rfl
    · rfl
    · cases h; rfl
  · rcases h2 with ⟨h, rfl⟩ | h
    · cases h; rfl
    · cases h; rfl

/-- A reference names the place before and the other place after. -/
theorem moveInit_stays (A : Fits st σ) (A' : Fits st' σ') {x : Nat} {s : Place} {junk : Bytes} {oom : Addr → Bool} (hx : σ x = none) {v : Value} (hs : σ.get s = some v)
    (h : step oom st (.moveInit x s junk) = .done st') :
    ∃ S, Back st st' S ∧ (∀ q r, st.refer q = some r → S r → q = s) ∧ st'.refer ⟨x, []⟩ = some (.var x) ∧ ∃ rs y, st.refer s = some rs ∧ st.deref rs = some y ∧
      st'.deref (.var x) = some y := by
  have hvx : st.var x = none := by obtain ⟨⟨F, H⟩, _⟩ := A; exact H.var_none hx
  obtain ⟨rs, hrs⟩ := A.refer hs
  obtain ⟨l, y, l1, l2, l3, l4⟩ := refer_slot hrs
  simp only [step, hvx, l4, l2] at h
  cases h
  have hd : ((st.write l (y.movedFrom junk)).write (.var x) y).deref (.var x) = some y := by rw [deref_var]; simp [State.write]
  refine ⟨fun r => st.hits l r ∨ r = .var x, (Back.write st l _).trans (Back.declare x y) (fun _ _ h => .inl h) fun _ _ h => .inr h, fun q r hq hS => ?_, ?_, rs, y, hrs, l3, hd⟩
  · rcases hS with h | rfl
    · exact A.hit l4 hq h
    · obtain ⟨_, y, _, _, h2, _⟩ := refer_slot hq
      rw [deref_var, hvx] at h2; cases h2
  · simp [State.refer, State.follow, hd]

theorem erasePos_stays (A : Fits st σ) {oom : Addr → Bool} {p : Place} {i : Nat} {v : Value} {vs : List Value} (hp : σ.get p = some v) (hv : Elems v vs)
    (h : step oom st (.erasePos p i) = .done st') :
    ∃ st1 σ1 l a, Fits st1 σ1 ∧ (∀ q u, σ.get q = some u → st1.refer q = st.refer q) ∧ st1.resolve p = some l ∧ st1.read l = some ⟨.array, .arr (some a)⟩ ∧
      Back st1 st' (fun r => ∃ j, i ≤ j ∧ r = .elem a j) ∧
      ∀ j y, i ≤ j → st'.deref (.elem a j) = some y → (∃ z, st1.deref (.elem a (j + 1)) = some z) → st1.deref (.elem a (j + 1)) = some y := by
  obtain ⟨rp, hrp⟩ := A.refer hp
  obtain ⟨l, y, l1, l2, l3, l4⟩ := refer_slot hrp
  simp only [step, l4] at h
  obtain ⟨st1, a, xs, h, A1, p1, p2, p3, p4, p5, p6, p7⟩ := A.array hp hv l4 h
  refine ⟨st1, _, l, a, A1, p5, p1, p2, ?_⟩
  simp only [p3] at h
  split at h
  · next v hv =>
    have h1 := dispose_back h
    refine ⟨(Back.eraseIdx p3 i).trans h1.back (fun _ _ h => h) fun _ _ h => h.elim, fun j y hij hd _ => ?_⟩
    have ha : a < st1.heap.next := Nat.lt_of_not_le fun hn => by rw [A1.clean a hn] at p3; cases p3
    have := h1.deref (r := .elem a j) (fun b hb => by cases hb; exact ha) hd
    rw [deref_elem (cell_set ..), List.getElem?_eraseIdx, if_neg (by omega)] at this
    rw [deref_elem p3, this]
  · next hn =>
    cases h
    refine ⟨.refl _, fun j y hij hd ⟨z, hz⟩ => ?_⟩
    rw [deref_elem p3] at hz
    have h1 := (List.getElem?_eq_some_iff.1 hz).1
    have h2 := List.getElem?_eq_none_iff.1 hn
    omega

theorem Fits.sorted (A : Fits st σ) {p : Place} {ms : List (Bytes × Value)} (hp : σ.get p = some (.obj .object ms)) {xs : List (Bytes × HVal)} (hk : xs.map (·.1) = ms.map (·.1)) :
    RawObject.Sorted xs := by
  have h : (ms.map (·.1)).Pairwise (· < ·) := List.pairwise_map.2 (keyed_get A.2 hp).1
  rw [← hk] at h
  exact List.pairwise_map.1 h

theorem within_below (p : Place) (path : List Sel) : Within (Place.below p path) p := ⟨rfl, List.prefix_append _ _⟩

theorem Within.trans {p q r : Place} (h1 : Within p q) (h2 : Within q r) : Within p r := ⟨h1.1.trans h2.1, h2.2.trans h1.2⟩

theorem within_of_inside {p q : Place} (h : Inside p q) : Within p q := ⟨h.1, h.2.1⟩

theorem inside_of_within {p q : Place} {c : Sel} (h : Within p (Place.below q [c])) : Inside p q :=
  ⟨h.1, (List.prefix_append _ _).trans h.2, fun e => by have := h.2.length_le; rw [e] at this; simp [Place.below] at this; omega⟩

theorem not_within_below {p : Place} {c : Sel} : ¬ Within p (Place.below p [c]) := fun h => not_inside_self (inside_of_within h)

/-- The reference to a place that is not involved. -/
theorem Fits.kept (A : Fits st σ) (A' : Fits st' σ') {st1 : State} {σ1 : Store} (A1 : Fits st1 σ1) (he : ∀ q u, σ.get q = some u → st1.refer q = st.refer q) {S : Ref → Prop} (B : Back st1 st' S)
    {q : Place} {u u' : Value} (hq : σ.get q = some u) (hq' : σ'.get q = some u') (hS : ∀ q1 r1, Inside q q1 → st1.refer q1 = some r1 → ¬ S r1) : st'.refer q = st.refer q := by
  obtain ⟨r, hr⟩ := A.refer hq
  rw [hr]
  exact A1.keeps A' B ((he _ _ hq).trans hr) hq' hS

/-- The reference to a place below one that was moved. -/
theorem Fits.brought (A : Fits st σ) (A' : Fits st' σ') {st1 : State} {σ1 : Store} (A1 : Fits st1 σ1) (he : ∀ q u, σ.get q = some u → st1.refer q = st.refer q) {S : Ref → Prop} (B : Back st1 st' S)
    {s d : Place} {rd : Ref} {path : List Sel} {u u' : Value} (hpath : path ≠ []) (hq : σ.get (Place.below s path) = some u) (hq' : σ'.get (Place.below d path) = some u')
    (hd : st'.refer d = some rd) (hy : ∀ rs y y', st1.refer s = some rs → st1.deref rs = some y → y.pointer → st'.deref rd = some y' → y' = y)
    (hS : ∀ q1 r1, Inside q1 s → st1.refer q1 = some r1 → ¬ S r1) : st'.refer (Place.below d path) = st.refer (Place.below s path) := by
  obtain ⟨r, hr⟩ := A.refer hq
  rw [hr]
  have h1 := (he _ _ hq).trans hr
  obtain ⟨rs, y, h2, h3⟩ := refer_above h1
  obtain ⟨_, y', _, _, h4, _⟩ := refer_slot hd
  cases path with
  | nil => exact absurd rfl hpath
  | cons c path =>
    obtain ⟨_, h5⟩ := under_of_refer h2 h3 h1
    have := hy rs y y' h2 h3 (pointer_of_under h5) h4
    subst this
    exact A1.carries A' B h2 h3 hd h4 h1 hq' fun pre c' post r1 _ => hS _ _ (inside_below ..)

theorem moveAssign_stays (A : Fits st σ) {oom : Addr → Bool} {d s : Place} {junk : Bytes} {w v : Value} (hd : σ.get d = some w) (hs : σ.get s = some v)
    (h : step oom st (.moveAssign d s junk) = .done st') :
    ∃ S rd, Back st st' S ∧ (∀ q r, st.refer q = some r → S r → q = d ∨ q = s) ∧ st.refer d = some rd ∧
      ∀ rs y y', st.refer s = some rs → st.deref rs = some y → y.pointer → st'.deref rd = some y' → y' = y := by
  obtain ⟨rd, hrd⟩ := A.refer hd
  obtain ⟨l, yd, l1, l2, l3, l4⟩ := refer_slot hrd
  obtain ⟨rs, hrs⟩ := A.refer hs
  obtain ⟨l', ys, l1', l2', l3', l4'⟩ := refer_slot hrs
  simp only [step, l4, l4'] at h
  obtain ⟨B, B'⟩ := moveAssign_back h
  refine ⟨_, rd, B, fun q r hq hS => hS.imp (A.hit l4 hq) (A.hit l4' hq), hrd, fun rs2 y y' e1 e2 hp e3 => ?_⟩
  rw [hrs] at e1; cases e1
  rw [l3'] at e2; cases e2
  obtain ⟨sv, f1, f2⟩ := B' rd y' (deref_old A.clean l3) (hits_of_slot l1) e3
  rw [l2'] at f1; cases f1
  exact f2 (.inl hp)

theorem moveAssign_not_inside {d s : Place} {junk : Bytes} (h : Step σ (.moveAssign d s junk) σ') : ¬ Inside d s ∧ (∃ w, σ.get d = some w) ∧ ∃ v, σ.get s = some v := by
  cases h with
  | moveAssign hd hs h1 h2 h3 => exact ⟨h2, ⟨_, hd⟩, _, hs⟩
  | moveAssignPart hd hs h1 h2 =>
    exact ⟨fun h => h.2.2 (h1.2.1.eq_of_length_le h.2.1.length_le), ⟨_, hd⟩, _, hs⟩
  | moveAssignSelf hd => exact ⟨not_inside_self, ⟨_, hd⟩, _, hd⟩

theorem same_refer (q : Place) (u : Value) (_ : σ.get q = some u) : st.refer q = st.refer q := rfl

theorem stays_moveAssign (A : Fits st σ) (A' : Fits st' σ') {oom : Addr → Bool} {d s : Place} {junk : Bytes} (hstep : Step σ (.moveAssign d s junk) σ')
    (h : step oom st (.moveAssign d s junk) = .done st') {q q' : Place} {u u' : Value} (hq : σ.get q = some u) (hq' : σ'.get q' = some u')
    (hst : Stays σ (.moveAssign d s junk) q q') : st'.refer q' = st.refer q := by
  obtain ⟨hn, ⟨w, hd⟩, v, hs⟩ := moveAssign_not_inside hstep
  obtain ⟨S, rd, B, hS, hrd, hy⟩ := moveAssign_stays A hd hs h
  cases hst with
  | moveAssign h1 h2 =>
    refine A.kept A' A same_refer B hq hq' fun q1 r1 hin hr h => ?_
    rcases hS _ _ hr h with rfl | rfl
    · exact h1 hin
    · exact h2 hin
  | @moveAssignBelow _ _ _ path hpath =>
    obtain ⟨r2, hr2⟩ := A'.refer hq'
    obtain ⟨rd', _, hrd', _⟩ := refer_above hr2
    obtain ⟨ud, hud⟩ := A'.get hrd'
    have hkeep : st'.refer d = some rd := A.keeps A' B hrd hud fun q1 r1 hin hr h => by
      rcases hS _ _ hr h with rfl | rfl
      · exact not_inside_self hin
      · exact hn hin
    refine A.brought A' A same_refer B hpath hq hq' hkeep hy fun q1 r1 hin hr h => ?_
    rcases hS _ _ hr h with rfl | rfl
    · exact hn hin
    · exact not_inside_self hin

/-- What statements that use the value at `p` as an object and move a value into the member `k` do. -/
theorem insertMove_stays (A : Fits st σ) (A' : Fits st' σ') {oom : Addr → Bool} {p s : Place} {k junk : Bytes} {v w : Value} {ms : List (Bytes × Value)} (hp : σ.get p = some v)
    (hv : Members v ms) (hs : σ.get s = some w) (hn : ¬ Inside (Place.below p [.key k]) s) (h : step oom st (.emplaceKeyMove p k s junk) = .done st') {q q' : Place} {u u' : Value}
    (hq : σ.get q = some u) (hq' : σ'.get q' = some u') (hst : Stays σ (.emplaceKeyMove p k s junk) q q') : st'.refer q' = st.refer q := by
  have hps : ¬ Within p s := fun h => hn ⟨h.1, h.2.trans (List.prefix_append _ _), fun e => by
    have h1 := h.2.length_le
    have h2 := congrArg List.length e
    simp [Place.below] at h2
    omega⟩
  obtain ⟨rp, hrp⟩ := A.refer hp
  obtain ⟨l, y, l1, l2, l3, l4⟩ := refer_slot hrp
  obtain ⟨rs, hrs⟩ := A.refer hs
  obtain ⟨ls, ys, s1, s2, s3, s4⟩ := refer_slot hrs
  simp only [step, l4, s4] at h
  obtain ⟨st1, a, xs, h, A1, p1, p2, p3, p4, p5, p6, p7⟩ := A.object hp hv l4 h
  have hls := (p6 _ _ hs).trans s4
  obtain ⟨B, B'⟩ := insertOrAssignMove_back h
  cases hst with
  | emplaceKeyMove h1 h2 =>
    refine A.kept A' A1 p5 B hq hq' fun q1 r1 hin hr hS => ?_
    rcases hS with hS | rfl
    · exact h1 (A1.hit hls hr hS ▸ hin)
    · exact h2 (A1.under (c := .key k) p1 p2 rfl hr ▸ hin)
  | @emplaceKeyMoveBelow _ _ _ _ path hpath =>
    have hq2 : σ'.get (Place.below (Place.below p [.key k]) path) = some u' := by rw [below_below]; exact hq'
    obtain ⟨r2, hr2⟩ := A'.refer hq2
    obtain ⟨rk, yk, hrk, hyk⟩ := refer_above hr2
    obtain ⟨rp', yp, hrp', hyp⟩ := refer_above hrk
    obtain ⟨up, hup⟩ := A'.get hrp'
    have hrp1 := (p5 _ _ hp).trans hrp
    have hkeep : st'.refer p = some rp := A1.keeps A' B hrp1 hup fun q1 r1 hin hr hS => by
      rcases hS with hS | rfl
      · exact hps (within_of_inside (A1.hit hls hr hS ▸ hin))
      · exact not_within_below (within_of_inside (A1.under (c := .key k) p1 p2 rfl hr ▸ hin))
    have hdp : st1.deref rp = some ⟨.object, .obj (some a)⟩ := by
      obtain ⟨l', _, e1, e2, e3, e4⟩ := refer_slot hrp1
      rw [p1] at e4; cases e4; rw [deref_of e1, p2]
    have hdp' := B.at_place A1.clean hdp hkeep fun hS => by
      rcases hS with hS | rfl
      · exact hps ((A1.hit hls hrp1 hS) ▸ ⟨rfl, List.prefix_refl _⟩)
      · have := A1.under (c := .key k) p1 p2 rfl hrp1; exact below_ne this.symm
    have hmem : st'.refer (Place.below p [.key k]) = some (.member a k) := by
      rw [refer_below, hkeep] at hrk ⊢
      simp only [Option.bind_some, State.follow, hdp', HVal.under] at hrk ⊢
      split at hrk
      · next e => rw [if_pos e]
      · cases hrk
    rw [show Place.below p (.key k :: path) = Place.below (Place.below p [.key k]) path by rw [below_below]; rfl]
    refine A.brought A' A1 p5 B hpath hq hq2 hmem (fun rs2 y y' e1 e2 hpo e3 => ?_) fun q1 r1 hin hr hS => ?_
    · have ha : a < st1.heap.next := Nat.lt_of_not_le fun hn => by rw [A1.clean a hn] at p3; cases p3
      obtain ⟨sv, f1, f2⟩ := B' y' ha e3
      obtain ⟨l', _, g1, g2, g3, g4⟩ := refer_slot e1
      rw [hls] at g4; cases g4
      rw [f1] at g2; cases g2
      rw [e2] at g3; cases g3
      exact f2 (.inl hpo)
    · rcases hS with hS | rfl
      · exact not_inside_self (A1.hit hls hr hS ▸ hin)
      · exact hn (A1.under (c := .key k) p1 p2 rfl hr ▸ hin)

theorem constArray_read {l : Loc} {b : Addr} {k : Addr → Fin} (h : st.read l = some ⟨.array, .arr (some b)⟩) : constArray st l k = k b := by simp [constArray, h]
theorem constObject_read {l : Loc} {b : Addr} {k : Addr → Fin} (h : st.read l = some ⟨.object, .obj (some b)⟩) : constObject st l k = k b := by simp [constObject, h]

theorem Fits.arrayAt (A : Fits st σ) {s : Place} {ws : List Value} (hs : σ.get s = some (.arr .array ws)) :
    ∃ l b, st.resolve s = some l ∧ st.read l = some ⟨.array, .arr (some b)⟩ := by
  obtain ⟨⟨F, H⟩, T⟩ := A
  obtain ⟨l, y, B, h1, h2, h3, _⟩ := H.place T hs
  obtain ⟨b, xs, C, rfl, _⟩ := h3
  exact ⟨l, b, h1, h2⟩

theorem Fits.objectAt (A : Fits st σ) {s : Place} {ws : List (Bytes × Value)} (hs : σ.get s = some (.obj .object ws)) :
    ∃ l b, st.resolve s = some l ∧ st.read l = some ⟨.object, .obj (some b)⟩ ∧ ∃ xs, st.heap.cell b = some (.obj xs) ∧ xs.map (·.1) = ws.map (·.1) := by
  obtain ⟨⟨F, H⟩, T⟩ := A
  obtain ⟨l, y, B, h1, h2, h3, _⟩ := H.place T hs
  obtain ⟨b, xs, C, rfl, h4, h5, _⟩ := h3
  exact ⟨l, b, h1, h2, xs, h4, h5.keys⟩

/-- A place that was there, is there, and lies in the container at `p`. -/
theorem kept_child (A1 : Fits st σ) (A' : Fits st' σ') {S : Ref → Prop} (B : Back st st' S) {p : Place} {rp : Ref} {y : HVal} {c : Sel} {r0 : Ref} {path : List Sel} {u' : Value}
    (hp : st.refer p = some rp) (hy : st.deref rp = some y) (hc : y.under c = some r0) (hq' : σ'.get (Place.below (Place.below p [c]) path) = some u')
    (hS : ∀ q1 r1, Inside p q1 → st.refer q1 = some r1 → ¬ S r1) (hSp : ¬ S rp) : st'.refer (Place.below p [c]) = some r0 := by
  obtain ⟨r2, hr2⟩ := A'.refer hq'
  obtain ⟨rk, yk, hrk, hyk⟩ := refer_above hr2
  obtain ⟨rp', yp, hrp', hyp⟩ := refer_above hrk
  obtain ⟨up, hup⟩ := A'.get hrp'
  have hkeep : st'.refer p = some rp := A1.keeps A' B hp hup hS
  have hdp' := B.at_place A1.clean hy hkeep hSp
  rw [refer_below, hkeep] at hrk ⊢
  simp only [Option.bind_some, State.follow, hdp', hc] at hrk ⊢
  split at hrk
  · next e => rw [if_pos e]
  · cases hrk

theorem cons_below (p : Place) (c : Sel) (path : List Sel) : Place.below p (c :: path) = Place.below (Place.below p [c]) path := by rw [below_below]; rfl

/-- A reference names the place before and the other place after. -/
theorem stays (A : Fits st σ) (oom : Addr → Bool) {op : Op} (hstep : Step σ op σ') (h : step oom st op = .done st') {q q' : Place} {u u' : Value}
    (hq : σ.get q = some u) (hq' : σ'.get q' = some u') (hst : Stays σ op q q') : st'.refer q' = st.refer q := by
  have A' : Fits st' σ' := by
    obtain ⟨⟨F, H⟩, T⟩ := A
    have := step_ends H T oom hstep
    rw [h] at this
    exact ⟨this, step_keyed T hstep⟩
  cases hstep with
  | @init x v hx hv =>
    cases hst
    have hvx : st.var x = none := by obtain ⟨⟨F, H⟩, _⟩ := A; exact H.var_none hx
    simp only [step, hvx] at h
    cases h
    refine A.kept A' A same_refer ((build_shrinks st.heap v).state.back.trans (Back.declare x _) (fun _ _ h => h.elim) fun _ _ h => h) hq hq' fun q1 r1 _ hr hS => ?_
    subst hS
    obtain ⟨_, y, _, _, h2, _⟩ := refer_slot hr
    rw [deref_var, hvx] at h2; cases h2
  | @copyInit x s v hx hs hw =>
    cases hst
    have hvx : st.var x = none := by obtain ⟨⟨F, H⟩, _⟩ := A; exact H.var_none hx
    obtain ⟨rs, hrs⟩ := A.refer hs
    obtain ⟨l, y, l1, l2, l3, l4⟩ := refer_slot hrs
    simp only [step, hvx, l4] at h
    obtain ⟨g, v', hg, h⟩ := copyFrom_back h
    cases h
    refine A.kept A' A same_refer (hg.shrinks.state.back.trans (Back.declare x _) (fun _ _ h => h.elim) fun _ _ h => h) hq hq' fun q1 r1 _ hr hS => ?_
    subst hS
    obtain ⟨_, y, _, _, h2, _⟩ := refer_slot hr
    rw [deref_var, hvx] at h2; cases h2
  | moveInit hx hs =>
    obtain ⟨S, B, hS, hx', rs, y, e1, e2, e3⟩ := moveInit_stays A A' hx hs h
    cases hst with
    | moveInit hn => exact A.kept A' A same_refer B hq hq' fun q1 r1 hin hr h => hn (hS _ _ hr h ▸ hin)
    | moveInitBelow hpath =>
      refine A.brought A' A same_refer B (d := ⟨_, []⟩) hpath hq hq' hx' (fun rs2 y2 y' f1 f2 _ f3 => ?_) fun q1 r1 hin hr h => not_inside_self (hS _ _ hr h ▸ hin)
      rw [e1] at f1; cases f1
      rw [e2] at f2; cases f2
      rw [e3] at f3; cases f3; rfl
  | copyAssign hd hs hw hin =>
    cases hst with
    | copyAssign hn =>
      obtain ⟨rd, hrd⟩ := A.refer hd
      obtain ⟨l, y, l1, l2, l3, l4⟩ := refer_slot hrd
      obtain ⟨rs, hrs⟩ := A.refer hs
      obtain ⟨ls, ys, s1, s2, s3, s4⟩ := refer_slot hrs
      simp only [step, l4, s4] at h
      exact A.kept A' A same_refer (copyAssign_back h) hq hq' fun q1 r1 hin hr h => hn (A.hit l4 hr h ▸ hin)
  | @assign d w v hd hv =>
    cases hst with
    | assign hn =>
      obtain ⟨rd, hrd⟩ := A.refer hd
      obtain ⟨l, y, l1, l2, l3, l4⟩ := refer_slot hrd
      simp only [step, l4] at h
      have hb := (build_shrinks st.heap v).state
      refine A.kept A' A same_refer (hb.back.trans (S := st.hits l) (write_shrinks_back (replace_back h)) (fun _ _ h => h.elim) fun r ho h => hb.hits ho h) hq hq' fun q1 r1 hin hr h => ?_
      exact hn (A.hit l4 hr h ▸ hin)
  | moveAssign hd hs h1 h2 h3 => exact stays_moveAssign A A' (.moveAssign hd hs h1 h2 h3) h hq hq' hst
  | moveAssignPart hd hs h1 h2 => exact stays_moveAssign A A' (.moveAssignPart hd hs h1 h2) h hq hq' hst
  | moveAssignSelf hd => exact stays_moveAssign A A' (.moveAssignSelf hd) h hq hq' hst
  | @index p k v ms hp hv =>
    cases hst
    obtain ⟨rp, hrp⟩ := A.refer hp
    obtain ⟨l, y, l1, l2, l3, l4⟩ := refer_slot hrp
    simp only [step, l4] at h
    obtain ⟨st1, a, xs, h, A1, p1, p2, p3, p4, p5, p6, p7⟩ := A.object hp hv l4 h
    obtain ⟨st2, a2, xs2, h, A2, r1, r2, r3, r4, r5, r6, r7⟩ := A1.object (get_set hp) (.inr rfl) p1 h
    refine A.kept A' A2 (fun q u hq => ?_) (mapIndex_back h) hq hq' fun q1 r1 _ hr h => not_vacant hr h
    obtain ⟨r, hr⟩ := A.refer hq
    obtain ⟨u1, hu1⟩ := A1.get ((p5 _ _ hq).trans hr)
    rw [r5 _ _ hu1, p5 _ _ hq]
  | emplaceBack hp hv hs hw hwh =>
    cases hst
    obtain ⟨rp, hrp⟩ := A.refer hp
    obtain ⟨l, y, l1, l2, l3, l4⟩ := refer_slot hrp
    obtain ⟨us, hs⟩ := Option.isSome_iff_exists.1 hs
    obtain ⟨rs, hrs⟩ := A.refer hs
    obtain ⟨ls, ys, s1, s2, s3, s4⟩ := refer_slot hrs
    simp only [step, l4, s4] at h
    obtain ⟨st1, a, xs, h, A1, p1, p2, p3, p4, p5, p6, p7⟩ := A.array hp hv l4 h
    exact A.kept A' A1 p5 (emplaceBack_back h) hq hq' fun q1 r1 _ hr h => not_vacant hr h
  | @emplaceKey p k s v ms w hp hv hs hw hwh hin =>
    cases hst with
    | emplaceKey hn =>
      obtain ⟨rp, hrp⟩ := A.refer hp
      obtain ⟨l, y, l1, l2, l3, l4⟩ := refer_slot hrp
      obtain ⟨us, hs⟩ := Option.isSome_iff_exists.1 hs
      obtain ⟨rs, hrs⟩ := A.refer hs
      obtain ⟨ls, ys, s1, s2, s3, s4⟩ := refer_slot hrs
      simp only [step, l4, s4] at h
      obtain ⟨st1, a, xs, h, A1, p1, p2, p3, p4, p5, p6, p7⟩ := A.object hp hv l4 h
      refine A.kept A' A1 p5 (insertOrAssign_back h) hq hq' fun q1 r1 hin hr h => ?_
      subst h
      exact hn (A1.under (c := .key k) p1 p2 rfl hr ▸ hin)
  | @erasePos p i v vs hp hv =>
    obtain ⟨st1, σ1, l, a, A1, he, p1, p2, B, hB⟩ := erasePos_stays A hp hv h
    cases hst with
    | erasePos hn =>
      refine A.kept A' A1 he B hq hq' fun q1 r1 hin hr hS => ?_
      obtain ⟨j, hj, rfl⟩ := hS
      exact hn j hj (within_of_inside (A1.under (c := .pos j) p1 p2 rfl hr ▸ hin))
    | @erasePosBelow _ _ j path hj hpath =>
      rw [cons_below] at hq hq' ⊢
      rw [cons_below p (.pos (j + 1))]
      obtain ⟨rp, hrp1, hsl⟩ := refer_resolve p1
      have hdp : st1.deref rp = some ⟨.array, .arr (some a)⟩ := (deref_of hsl).trans p2
      have hmem := kept_child A1 A' B (c := .pos j) hrp1 hdp rfl hq' (fun q1 r1 hin hr ⟨j', _, e⟩ => by
        subst e
        exact not_within_below (within_of_inside (A1.under (c := .pos j') p1 p2 rfl hr ▸ hin))) fun ⟨j', _, e⟩ => by
        subst e
        exact below_ne (A1.under (c := .pos j') p1 p2 rfl hrp1).symm
      refine A.brought A' A1 he B hpath hq hq' hmem (fun rs y y' e1 e2 _ e3 => ?_) fun q1 r1 hin hr ⟨j', _, e⟩ => ?_
      · rw [refer_under p1 p2 (c := .pos (j + 1)) rfl] at e1
        split at e1 <;> cases e1
        have := hB j y' hj e3 ⟨y, e2⟩
        rw [e2] at this; cases this; rfl
      · subst e
        have := A1.under (c := .pos j') p1 p2 rfl hr
        subst this
        have := hin.2.1.eq_of_length (by simp [Place.below])
        exact hin.2.2 this.symm
  | @eraseKey p k v ms hp hv =>
    cases hst
    obtain ⟨rp, hrp⟩ := A.refer hp
    obtain ⟨l, y, l1, l2, l3, l4⟩ := refer_slot hrp
    simp only [step, l4] at h
    obtain ⟨st1, a, xs, h, A1, p1, p2, p3, p4, p5, p6, p7⟩ := A.object hp hv l4 h
    simp only [p3] at h
    split at h
    · exact A.kept A' A1 p5 (((Back.erase p3 (A1.sorted (get_set hp) p4) k).trans (dispose_back h).back (fun _ _ h => h) fun _ _ h => h)) hq hq' fun _ _ _ _ h => h
    · cases h
      exact A.kept A' A1 p5 (S := fun _ => False) (.refl _) hq hq' fun _ _ _ _ h => h
  | append hp hv hs hne hw hwh =>
    cases hst
    obtain ⟨rp, hrp⟩ := A.refer hp
    obtain ⟨l, y, l1, l2, l3, l4⟩ := refer_slot hrp
    obtain ⟨ls, b, s1, s2⟩ := A.arrayAt hs
    simp only [step, l4, s1, constArray_read s2] at h
    obtain ⟨st1, a, xs, h, A1, p1, p2, p3, p4, p5, p6, p7⟩ := A.array hp hv l4 h
    exact A.kept A' A1 p5 (appendArray_back h) hq hq' fun q1 r1 _ hr h => not_vacant hr h
  | @merge p s v ms ws hp hv hs ha hw =>
    cases hst with
    | merge hs' hn =>
      rw [hs] at hs'; cases hs'
      obtain ⟨rp, hrp⟩ := A.refer hp
      obtain ⟨l, y, l1, l2, l3, l4⟩ := refer_slot hrp
      obtain ⟨ls, b, s1, s2, _⟩ := A.objectAt hs
      simp only [step, l4, s1, constObject_read s2] at h
      obtain ⟨st1, a, xs, h, A1, p1, p2, p3, p4, p5, p6, p7⟩ := A.object hp hv l4 h
      obtain ⟨ls', b', t1, t2, ys, t3, t4⟩ := A1.objectAt ((get_set_other hp ha).trans hs)
      rw [p6 _ _ hs, s1] at t1; cases t1
      rw [p7 _ _ _ hs (.inl (Ne.symm (ne_of ha.1))) s1, s2] at t2; cases t2
      simp only [t3] at h
      refine A.kept A' A1 p5 (mergeKeys_back h) hq hq' fun q1 r1 hin hr ⟨k, hk, e⟩ => ?_
      subst e
      rw [t4] at hk
      obtain ⟨w, hw, rfl⟩ := List.mem_map.1 hk
      exact hn w hw (A1.under (c := .key w.1) p1 p2 rfl hr ▸ hin)
  | @mergeSelf p ms hp hne hw =>
    cases hst with
    | merge hs' hn =>
      rw [hp] at hs'; cases hs'
      obtain ⟨ls, b, s1, s2, _⟩ := A.objectAt hp
      simp only [step, s1, constObject_read s2] at h
      obtain ⟨st1, a, xs, h, A1, p1, p2, p3, p4, p5, p6, p7⟩ := A.object hp (.inr rfl) s1 h
      have : ¬ Hollowable (.obj .object ms) := fun h => by cases h; exact hne rfl
      rw [p7 _ _ _ hp (.inr this) s1, s2] at p2
      cases p2
      simp only [p3] at h
      have p2 := (p7 _ _ _ hp (.inr this) s1).trans s2
      refine A.kept A' A1 p5 (mergeKeys_back h) hq hq' fun q1 r1 hin hr ⟨k, hk, e⟩ => ?_
      subst e
      rw [p4] at hk
      obtain ⟨w, hw, rfl⟩ := List.mem_map.1 hk
      exact hn w hw (A1.under (c := .key w.1) p1 p2 rfl hr ▸ hin)
  | asArray hp hv =>
    cases hst
    obtain ⟨rp, hrp⟩ := A.refer hp
    obtain ⟨l, y, l1, l2, l3, l4⟩ := refer_slot hrp
    simp only [step, l4] at h
    obtain ⟨st1, a, xs, h, A1, p1, p2, p3, p4, p5, p6, p7⟩ := A.array hp hv l4 h
    cases h
    exact p5 _ _ hq
  | asObject hp hv =>
    cases hst
    obtain ⟨rp, hrp⟩ := A.refer hp
    obtain ⟨l, y, l1, l2, l3, l4⟩ := refer_slot hrp
    simp only [step, l4] at h
    obtain ⟨st1, a, xs, h, A1, p1, p2, p3, p4, p5, p6, p7⟩ := A.object hp hv l4 h
    cases h
    exact p5 _ _ hq
  | @emplaceBackMove p s u v vs w junk hp hs hn hv he =>
    obtain ⟨vs0, hv0, _⟩ := elems_before A.2 hp hs hn hv he
    obtain ⟨rp, hrp⟩ := A.refer hp
    obtain ⟨l, y, l1, l2, l3, l4⟩ := refer_slot hrp
    obtain ⟨rs, hrs⟩ := A.refer hs
    obtain ⟨ls, ys, s1, s2, s3, s4⟩ := refer_slot hrs
    simp only [step, l4, s4] at h
    obtain ⟨st1, a, xs, h, A1, p1, p2, p3, p4, p5, p6, p7⟩ := A.array hp hv0 l4 h
    have hls := (p6 _ _ hs).trans s4
    obtain ⟨B, B'⟩ := pushMove_back h
    cases hst with
    | emplaceBackMove h1 h2 =>
      refine A.kept A' A1 p5 B hq hq' fun q1 r1 hin hr hS => ?_
      rcases hS with hS | hS
      · exact h2 (A1.hit hls hr hS ▸ hin)
      · exact not_vacant hr hS
    | @emplaceBackMoveBelow _ _ _ _ vs1 path hp' hv1 hpath =>
      rw [hp] at hp'; cases hp'
      cases Elems.unique hv0 hv1
      rw [cons_below] at hq' ⊢
      have hrp1 := (p5 _ _ hp).trans hrp
      have hdp : st1.deref rp = some ⟨.array, .arr (some a)⟩ := by
        obtain ⟨l', _, e1, e2, e3, e4⟩ := refer_slot hrp1
        rw [p1] at e4; cases e4; rw [deref_of e1, p2]
      have hmem := kept_child A1 A' B (c := .pos vs0.length) hrp1 hdp rfl hq' (fun q1 r1 hin hr hS => by
        rcases hS with hS | hS
        · exact hn (within_of_inside (A1.hit hls hr hS ▸ hin))
        · exact not_vacant hr hS) fun hS => by
        rcases hS with hS | hS
        · exact ne_of hn (A1.hit hls hrp1 hS)
        · exact not_vacant hrp1 hS
      refine A.brought A' A1 p5 B hpath hq hq' hmem (fun rs2 y y' e1 e2 _ e3 => ?_) fun q1 r1 hin hr hS => ?_
      · rw [← p4] at e3
        have := B' xs y' p3 e3
        obtain ⟨l', _, g1, g2, g3, g4⟩ := refer_slot e1
        rw [hls] at g4; cases g4
        rw [deref_of g1, this] at e2; cases e2; rfl
      · rcases hS with hS | hS
        · exact not_inside_self (A1.hit hls hr hS ▸ hin)
        · exact not_vacant hr hS
  | @emplaceKeyMove p k s u v ms w junk hp hs hn hv he hk =>
    obtain ⟨ms0, hv0, _⟩ := members_before A.2 hp hs hn hv he
    refine insertMove_stays A A' hp hv0 hs (fun hin => ?_) h hq hq' hst
    rcases List.prefix_concat_iff.1 hin.2.1 with e | e
    · exact hin.2.2 e.symm
    · exact hn ⟨hin.1, e⟩
  | emplaceKeyMoveOld hp hk h' =>
    obtain ⟨hn, _, v, hs⟩ := moveAssign_not_inside h'
    exact insertMove_stays A A' hp (.inr rfl) hs hn h hq hq' hst
  | @appendMove p s u v vs ws junk hp hs hn hv he =>
    obtain ⟨vs0, hv0, _⟩ := elems_before A.2 hp hs hn hv he
    obtain ⟨rp, hrp⟩ := A.refer hp
    obtain ⟨l, y, l1, l2, l3, l4⟩ := refer_slot hrp
    obtain ⟨ls, b, s1, s2⟩ := A.arrayAt hs
    simp only [step, l4, s1, constArray_read s2] at h
    obtain ⟨st1, a, xs, h, A1, p1, p2, p3, p4, p5, p6, p7⟩ := A.array hp hv0 l4 h
    have hls := (p6 _ _ hs).trans s1
    have hbs := (p7 _ _ _ hs (.inl (Ne.symm (ne_of hn))) s1).trans s2
    obtain ⟨B, B'⟩ := appendArrayMove_back h
    cases hst with
    | appendMove h1 h2 =>
      refine A.kept A' A1 p5 B hq hq' fun q1 r1 hin hr hS => ?_
      rcases hS with ⟨j, rfl⟩ | hS
      · exact h2 j (A1.under (c := .pos j) hls hbs rfl hr ▸ hin)
      · exact not_vacant hr hS
    | @appendMoveBelow _ _ _ _ vs1 j path hp' hv1 hpath =>
      rw [hp] at hp'; cases hp'
      cases Elems.unique hv0 hv1
      rw [cons_below] at hq hq' ⊢
      rw [cons_below s]
      have hrp1 := (p5 _ _ hp).trans hrp
      have hdp : st1.deref rp = some ⟨.array, .arr (some a)⟩ := by
        obtain ⟨l', _, e1, e2, e3, e4⟩ := refer_slot hrp1
        rw [p1] at e4; cases e4; rw [deref_of e1, p2]
      have hmem := kept_child A1 A' B (c := .pos (vs0.length + j)) hrp1 hdp rfl hq' (fun q1 r1 hin hr hS => by
        rcases hS with ⟨j, rfl⟩ | hS
        · exact hn (Within.trans (within_of_inside (A1.under (c := .pos j) hls hbs rfl hr ▸ hin)) (within_below ..))
        · exact not_vacant hr hS) fun hS => by
        rcases hS with ⟨j, rfl⟩ | hS
        · exact hn (A1.under (c := .pos j) hls hbs rfl hrp1 ▸ within_below ..)
        · exact not_vacant hrp1 hS
      refine A.brought A' A1 p5 B hpath hq hq' hmem (fun rs2 y y' e1 e2 _ e3 => ?_) fun q1 r1 hin hr hS => ?_
      · rw [← p4] at e3
        have := B' xs j y' p3 e3
        rw [refer_under hls hbs (c := .pos j) rfl] at e1
        split at e1 <;> cases e1
        rw [this] at e2; cases e2; rfl
      · rcases hS with ⟨j', rfl⟩ | hS
        · have := A1.under (c := .pos j') hls hbs rfl hr
          subst this
          exact hin.2.2 (hin.2.1.eq_of_length (by simp [Place.below])).symm
        · exact not_vacant hr hS
  | @mergeMove p s v ms ws junk hp hv hs ha =>
    obtain ⟨rp, hrp⟩ := A.refer hp
    obtain ⟨l, y, l1, l2, l3, l4⟩ := refer_slot hrp
    obtain ⟨ls, b, s1, s2, _⟩ := A.objectAt hs
    simp only [step, l4, s1, constObject_read s2] at h
    obtain ⟨st1, a, xs, h, A1, p1, p2, p3, p4, p5, p6, p7⟩ := A.object hp hv l4 h
    have hs1 : (σ.set p (.obj .object ms)).get s = some (.obj .object ws) := (get_set_other hp ha).trans hs
    obtain ⟨ls', b', t1, t2, ys, t3, t4⟩ := A1.objectAt hs1
    rw [p6 _ _ hs, s1] at t1; cases t1
    have hls := (p6 _ _ hs).trans s1
    have hbs := t2
    rw [p7 _ _ _ hs (.inl (Ne.symm (ne_of ha.1))) s1, s2] at t2; cases t2
    simp only [t3] at h
    have hab : a ≠ b := by
      obtain ⟨⟨F, H⟩, T⟩ := A1
      exact H.payload_ne T (get_set hp) hs1 p1 hls p2 hbs (.inr rfl) (.inr rfl) (ne_of ha.1)
    have hlt : ∀ {c : Addr} {z : Cell}, st1.heap.cell c = some z → c < st1.heap.next := fun hc => Nat.lt_of_not_le fun hn => by rw [A1.clean _ hn] at hc; cases hc
    have hnd : (ys.map (·.1)).Nodup := by
      have := List.pairwise_map.2 (A1.sorted hs1 t4)
      exact this.imp fun h e => by rw [e] at h; exact absurd h (List.lt_irrefl _)
    obtain ⟨B, B'⟩ := mergeKeysMove_back hab hnd (hlt p3) (hlt t3) h
    cases hst with
    | mergeMove hs' hn =>
      rw [hs] at hs'; cases hs'
      refine A.kept A' A1 p5 B hq hq' fun q1 r1 hin hr ⟨k, hk, hS⟩ => ?_
      rw [t4] at hk
      obtain ⟨w, hw, rfl⟩ := List.mem_map.1 hk
      rcases hS with rfl | rfl
      · exact (hn w hw).1 (A1.under (c := .key w.1) p1 p2 rfl hr ▸ hin)
      · exact (hn w hw).2 (A1.under (c := .key w.1) hls hbs rfl hr ▸ hin)
    | @mergeMoveBelow _ _ _ k path hpath =>
      rw [cons_below] at hq hq' ⊢
      rw [cons_below s]
      have hrp1 := (p5 _ _ hp).trans hrp
      have hdp : st1.deref rp = some ⟨.object, .obj (some a)⟩ := by
        obtain ⟨l', _, e1, e2, e3, e4⟩ := refer_slot hrp1
        rw [p1] at e4; cases e4; rw [deref_of e1, p2]
      have hmem := kept_child A1 A' B (c := .key k) hrp1 hdp rfl hq' (fun q1 r1 hin hr ⟨k', _, hS⟩ => by
        rcases hS with rfl | rfl
        · exact not_within_below (within_of_inside (A1.under (c := .key k') p1 p2 rfl hr ▸ hin))
        · exact ha.1 (Within.trans (within_of_inside (A1.under (c := .key k') hls hbs rfl hr ▸ hin)) (within_below ..))) fun ⟨k', _, hS⟩ => by
        rcases hS with rfl | rfl
        · exact below_ne (A1.under (c := .key k') p1 p2 rfl hrp1).symm
        · have hw := within_below s [.key k']
          rw [← A1.under (c := .key k') hls hbs rfl hrp1] at hw
          exact ha.1 hw
      refine A.brought A' A1 p5 B hpath hq hq' hmem (fun rs2 y y' e1 e2 _ e3 => ?_) fun q1 r1 hin hr ⟨k', _, hS⟩ => ?_
      · rw [refer_under hls hbs (c := .key k) rfl] at e1
        split at e1 <;> cases e1
        have hk : k ∈ ys.map (·.1) := by
          rw [deref_member t3] at e2
          obtain ⟨_, i, _, _, hi⟩ := lookup_of_find (keyed_get A1.2 hs1).1 t4 e2
          exact List.mem_map.2 ⟨_, List.mem_of_getElem? hi, rfl⟩
        have := B' k hk y' e3
        rw [this] at e2; cases e2; rfl
      · rcases hS with rfl | rfl
        · have := A1.under (c := .key k') p1 p2 rfl hr
          subst this
          rcases List.prefix_concat_iff.1 hin.2.1 with e | e
          · exact hin.2.2 e.symm
          · exact ha.1 (Within.trans (p := p) ⟨hin.1, e⟩ (within_below s [.key k]))
        · have := A1.under (c := .key k') hls hbs rfl hr
          subst this
          exact hin.2.2 (hin.2.1.eq_of_length (by simp [Place.below])).symm
  | @drop x v hx =>
    cases hst
    obtain ⟨v', hv'⟩ : ∃ v', st.var x = some v' := by obtain ⟨⟨F, H⟩, _⟩ := A; obtain ⟨y, hy, _⟩ := H.rep _ _ hx; exact ⟨y, hy⟩
    simp only [step, hv'] at h
    exact A.kept A' A same_refer ((Back.undeclare x).trans (dispose_back h).back (fun _ _ h => h) fun _ _ h => h) hq hq' fun _ _ _ _ h => h

end

end Meojson.Mem
