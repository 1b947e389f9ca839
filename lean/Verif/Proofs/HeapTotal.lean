import Verif.Proofs.HeapRun
import Verif.Proofs.HeapTagged

/-! Which statements the specification covers, what they leave alone, and the end of all variables. -/

set_option autoImplicit false

namespace Meojson.Stores
open Mem

theorem wholeAll_get {vs : List Value} (h : WholeAll vs) {i : Nat} {v : Value} (hi : vs[i]? = some v) : Whole v := by
  induction vs generalizing i with
  | nil => simp at hi
  | cons u vs ih =>
    cases i with
    | zero => simp at hi; subst hi; exact h.1
    | succ i => simp at hi; exact ih h.2 hi

theorem whole_getAt : ∀ {p : List Sel} {v w : Value}, Whole v → getAt v p = some w → Whole w
  | [], _, _, h, hg => by simp only [getAt, Option.some.injEq] at hg; exact hg ▸ h
  | s :: p, v, w, h, hg => by
    cases v with
    | str => cases s <;> simp [getAt] at hg
    | arrNull => exact h.elim
    | objNull => exact h.elim
    | arr t vs =>
      cases s with
      | key k => simp [getAt] at hg
      | pos i =>
        cases t <;> simp only [getAt, reduceCtorEq] at hg
        obtain ⟨v1, h1, h2⟩ := Option.bind_eq_some_iff.1 hg
        exact whole_getAt (wholeAll_get h h1) h2
    | obj t ms =>
      cases s with
      | pos k => simp [getAt] at hg
      | key k =>
        cases t <;> simp only [getAt, reduceCtorEq] at hg
        obtain ⟨v1, h1, h2⟩ := Option.bind_eq_some_iff.1 hg
        exact whole_getAt (wholeMembers_get h h1) h2

theorem mem_of_lookup {ms : List (Bytes × Value)} {k : Bytes} {v : Value} (h : ms.lookup k = some v) : (k, v) ∈ ms := by
  induction ms with
  | nil => simp at h
  | cons m ms ih =>
    obtain ⟨k', u⟩ := m
    simp only [List.lookup_cons] at h
    split at h
    · next e => cases h; simp [beq_iff_eq.1 e]
    · exact List.mem_cons_of_mem _ (ih h)

/-- A path in a whole value leads somewhere or nowhere. -/
theorem get_or_missing : ∀ {p : List Sel} {v : Value}, Tagged v → Whole v → (getAt v p).isSome ∨ Missing v p
  | [], _, _, _ => .inl rfl
  | s :: p, v, ht, hw => by
    cases v with
    | str => exact .inr .text
    | arrNull => exact hw.elim
    | objNull => exact hw.elim
    | arr t vs =>
      obtain ⟨rfl, ht⟩ := ht
      cases s with
      | key k => exact .inr .arrayKey
      | pos i =>
        cases hi : vs[i]? with
        | none => exact .inr (.pos (List.getElem?_eq_none_iff.1 hi))
        | some u =>
          rcases get_or_missing (p := p) (taggedAll_get ht hi) (wholeAll_get hw hi) with h | h
          · exact .inl (by simpa [getAt, hi] using h)
          · exact .inr (.inPos hi h)
    | obj t ms =>
      obtain ⟨rfl, hs, ht⟩ := ht
      cases s with
      | pos i => exact .inr .objectPos
      | key k =>
        cases hk : ms.lookup k with
        | none => exact .inr (.key hk)
        | some u =>
          have hm : (k, u) ∈ ms := mem_of_lookup hk
          rcases get_or_missing (p := p) (taggedMembers_iff.1 ht _ hm) (wholeMembers_get hw hk) with h | h
          · exact .inl (by simpa [getAt, hk] using h)
          · exact .inr (.inKey hk h)

theorem array_or_not {v : Value} (ht : Tagged v) (hw : Whole v) : (∃ vs, Elems v vs) ∨ NotArray v := by
  by_cases hh : Hollowable v
  · exact .inl ⟨[], .inl ⟨hh, rfl⟩⟩
  · cases v with
    | str t s => exact .inr ⟨hh, .inl ⟨_, _, rfl, ht⟩⟩
    | arrNull => exact hw.elim
    | objNull => exact hw.elim
    | arr t vs => obtain ⟨rfl, _⟩ := ht; exact .inl ⟨vs, .inr rfl⟩
    | obj t ms => obtain ⟨rfl, _⟩ := ht; exact .inr ⟨hh, .inr ⟨_, rfl⟩⟩

theorem object_or_not {v : Value} (ht : Tagged v) (hw : Whole v) : (∃ ms, Members v ms) ∨ NotObject v := by
  by_cases hh : Hollowable v
  · exact .inl ⟨[], .inl ⟨hh, rfl⟩⟩
  · cases v with
    | str t s => exact .inr ⟨hh, .inl ⟨_, _, rfl, ht⟩⟩
    | arrNull => exact hw.elim
    | objNull => exact hw.elim
    | obj t ms => obtain ⟨rfl, _⟩ := ht; exact .inl ⟨ms, .inr rfl⟩
    | arr t vs => obtain ⟨rfl, _⟩ := ht; exact .inr ⟨hh, .inr ⟨_, rfl⟩⟩

theorem wholeAll_iff {vs : List Value} : WholeAll vs ↔ ∀ v ∈ vs, Whole v := by
  induction vs with
  | nil => simp [WholeAll]
  | cons v vs ih => simp [WholeAll, ih]

theorem wholeMembers_iff {ms : List (Bytes × Value)} : WholeMembers ms ↔ ∀ m ∈ ms, Whole m.2 := by
  induction ms with
  | nil => simp [WholeMembers]
  | cons m ms ih => obtain ⟨k, v⟩ := m; simp [WholeMembers, ih]

theorem whole_setAt {w' : Value} (hw : Whole w') : ∀ {p : List Sel} {v : Value}, Whole v → Whole (setAt v p w')
  | [], _, _ => hw
  | s :: p, v, h => by
    cases v with
    | str => exact h
    | arrNull => exact h
    | objNull => exact h
    | arr t vs =>
      cases s with
      | key k => exact h
      | pos i =>
        refine wholeAll_iff.2 fun u hu => ?_
        obtain ⟨j, hj⟩ := List.getElem?_of_mem hu
        rw [List.getElem?_modify] at hj
        by_cases hij : i = j
        · subst hij
          cases h1 : vs[i]? with
          | none => simp [h1] at hj
          | some v1 =>
            simp [h1] at hj; subst hj
            exact whole_setAt hw (wholeAll_get h h1)
        · simp [hij] at hj; exact wholeAll_get h hj
    | obj t ms =>
      cases s with
      | pos k => exact h
      | key k =>
        refine wholeMembers_iff.2 fun m hm => ?_
        simp only [List.mem_map] at hm
        obtain ⟨m0, hm0, rfl⟩ := hm
        have := wholeMembers_iff.1 h _ hm0
        split
        · exact whole_setAt hw this
        · exact this

theorem whole_set {σ : Store} (W : WholeStore σ) (p : Place) {w' : Value} (hw : Whole w') : WholeStore (σ.set p w') := by
  intro x v hv
  simp only [Store.set, Store.put] at hv
  split at hv
  · cases h : σ p.x with
    | none => simp [h] at hv
    | some u => simp [h] at hv; subst hv; exact whole_setAt hw (W _ _ h)
  · exact W _ _ hv

theorem whole_put {σ : Store} (W : WholeStore σ) (x : Nat) {v : Value} (hw : Whole v) : WholeStore (σ.put x (some v)) := by
  intro y u hu
  simp only [Store.put] at hu
  split at hu
  · cases hu; exact hw
  · exact W _ _ hu

theorem whole_put_none {σ : Store} (W : WholeStore σ) (x : Nat) : WholeStore (σ.put x none) := by
  intro y u hu
  simp only [Store.put] at hu
  split at hu
  · cases hu
  · exact W _ _ hu

theorem whole_get {σ : Store} (W : WholeStore σ) {p : Place} {w : Value} (h : σ.get p = some w) : Whole w := by
  obtain ⟨v, hv, hg⟩ := get_some h
  exact whole_getAt (W _ _ hv) hg

theorem whole_elems {v : Value} {vs : List Value} (h : Elems v vs) (hw : Whole v) : Whole (.arr .array vs) := by
  rcases h with ⟨_, h⟩ | h
  · subst h; trivial
  · subst h; exact hw

theorem whole_members {v : Value} {ms : List (Bytes × Value)} (h : Members v ms) (hw : Whole v) : Whole (.obj .object ms) := by
  rcases h with ⟨_, h⟩ | h
  · subst h; trivial
  · subst h; exact hw

theorem whole_putMember {ms : List (Bytes × Value)} (h : WholeMembers ms) (k : Bytes) {v : Value} (hv : Whole v) : WholeMembers (putMember k v ms) := by
  refine wholeMembers_iff.2 fun m hm => ?_
  rcases mem_putMember hm with rfl | hm
  · exact hv
  · exact wholeMembers_iff.1 h m hm

theorem whole_putMembers {ws : List (Bytes × Value)} : ∀ {ms : List (Bytes × Value)}, WholeMembers ms → WholeMembers ws → WholeMembers (putMembers ws ms) := by
  induction ws with
  | nil => intro ms h _; exact h
  | cons w ws ih => intro ms h hw; exact ih (whole_putMember h w.1 hw.1) hw.2

theorem step_whole {σ σ' : Store} {op : Op} (W : WholeStore σ) (hop : Copying op) (h : Step σ op σ') : WholeStore σ' := by
  cases h with
  | init hx hv => exact whole_put W _ hop
  | copyInit hx hs hw => exact whole_put W _ hw
  | moveInit hx hs => exact hop.elim
  | copyAssign hd hs hw hin => exact whole_set W _ hw
  | assign hd hv => exact whole_set W _ hop
  | moveAssign => exact hop.elim
  | moveAssignPart => exact hop.elim
  | moveAssignSelf => exact hop.elim
  | index hp hv =>
    have := whole_members hv (whole_get W hp)
    refine whole_set W _ ?_
    split
    · exact this
    · exact whole_putMember this _ trivial
  | emplaceBack hp hv hs hw hwh =>
    refine whole_set W _ (wholeAll_iff.2 fun u hu => ?_)
    rcases List.mem_append.1 hu with h | h
    · exact wholeAll_iff.1 (whole_elems hv (whole_get W hp)) u h
    · simp at h; exact h ▸ hwh
  | emplaceKey hp hv hs hw hwh hin => exact whole_set W _ (whole_putMember (whole_members hv (whole_get W hp)) _ hwh)
  | erasePos hp hv =>
    exact whole_set W _ (wholeAll_iff.2 fun u hu => wholeAll_iff.1 (whole_elems hv (whole_get W hp)) u (List.mem_of_mem_eraseIdx hu))
  | eraseKey hp hv =>
    exact whole_set W _ (wholeMembers_iff.2 fun u hu => wholeMembers_iff.1 (whole_members hv (whole_get W hp)) u (List.mem_filter.1 hu).1)
  | append hp hv hs hne hw hwh =>
    refine whole_set W _ (wholeAll_iff.2 fun u hu => ?_)
    rcases List.mem_append.1 hu with h | h
    · exact wholeAll_iff.1 (whole_elems hv (whole_get W hp)) u h
    · exact wholeAll_iff.1 hwh u h
  | merge hp hv hs ha hw => exact whole_set W _ (whole_putMembers (whole_members hv (whole_get W hp)) hw)
  | mergeSelf hp hne hw => exact W
  | asArray hp hv => exact whole_set W _ (whole_elems hv (whole_get W hp))
  | asObject hp hv => exact whole_set W _ (whole_members hv (whole_get W hp))
  | emplaceBackMove => exact hop.elim
  | emplaceKeyMove => exact hop.elim
  | emplaceKeyMoveOld => exact hop.elim
  | appendMove => exact hop.elim
  | mergeMove => exact hop.elim
  | drop hx => exact whole_put_none W _

theorem named {σ : Store} (T : TaggedStore σ) (W : WholeStore σ) {p : Place} (h : (σ p.x).isSome) : (∃ v, σ.get p = some v) ∨ Absent σ p := by
  obtain ⟨v, hv⟩ := Option.isSome_iff_exists.1 h
  rcases get_or_missing (p := p.path) (T _ _ hv) (W _ _ hv) with h | h
  · obtain ⟨w, hw⟩ := Option.isSome_iff_exists.1 h
    exact .inl ⟨w, by rw [get_of hv, hw]⟩
  · exact .inr ⟨v, hv, h⟩

/-- A container after something is taken out of a part of it. -/
theorem elems_after {σ : Store} (T : TaggedStore σ) {p s : Place} {u w x : Value} {vs : List Value} (hp : σ.get p = some u) (hs : σ.get s = some w) (hn : ¬ Within p s)
    (he : Elems u vs) : ∃ v vs', (σ.set s x).get p = some v ∧ Elems v vs' := by
  by_cases hi : Inside s p
  · have hu := he.resolve_left fun h => not_inside_of_hollowable hp h.1 hs hi
    subst hu
    obtain ⟨r, _, hr, h⟩ := get_above (u := x) (keyedStore_of_tagged T) hp hi
    cases r with
    | nil => exact absurd rfl hr
    | cons c r => cases c <;> exact ⟨_, _, h, .inr rfl⟩
  · exact ⟨u, vs, by rw [get_set_other hs (apart_of' hn hi).symm, hp], he⟩

theorem members_after {σ : Store} (T : TaggedStore σ) {p s : Place} {u w x : Value} {ms : List (Bytes × Value)} {k : Bytes} (hp : σ.get p = some u) (hs : σ.get s = some w)
    (hn : ¬ Within p s) (he : Members u ms) (hk : ms.lookup k = none) : ∃ v ms', (σ.set s x).get p = some v ∧ Members v ms' ∧ ms'.lookup k = none := by
  by_cases hi : Inside s p
  · have hu := he.resolve_left fun h => not_inside_of_hollowable hp h.1 hs hi
    subst hu
    obtain ⟨r, _, hr, h⟩ := get_above (u := x) (keyedStore_of_tagged T) hp hi
    cases r with
    | nil => exact absurd rfl hr
    | cons c r =>
      cases c with
      | pos => exact ⟨_, _, h, .inr rfl, hk⟩
      | key k' =>
        refine ⟨_, _, h, .inr rfl, ?_⟩
        rw [lookup_map_if ms k' k (setAt · r x), hk]
        simp
  · exact ⟨u, ms, by rw [get_set_other hs (apart_of' hn hi).symm, hp], he, hk⟩

theorem moveAssign_covered {σ : Store} {d s : Place} {w v : Value} {junk : Bytes} (hw : σ.get d = some w) (hv : σ.get s = some v)
    (ho : ¬ Overlap σ (.moveAssign d s junk)) : ∃ σ', Step σ (.moveAssign d s junk) σ' := by
  by_cases e : d = s
  · subst e; exact ⟨_, .moveAssignSelf hw⟩
  · by_cases hi : Inside s d
    · exact ⟨_, .moveAssignPart hw hv hi (Classical.byContradiction fun hne => ho (.moveOut hw hv hi hne))⟩
    · exact ⟨_, .moveAssign hw hv e (fun h => ho (.moveIn h)) hi⟩

/-- The specification covers every statement on whole values that does not overlap. -/
theorem covered {σ : Store} (T : TaggedStore σ) (W : WholeStore σ) {op : Op} (hs : Scoped σ op) (ho : ¬ Overlap σ op) : (∃ σ', Step σ op σ') ∨ Refused σ op := by
  obtain ⟨h1, h2, h3⟩ := hs
  by_cases ha : ∃ p ∈ places op, Absent σ p
  · obtain ⟨p, hp, hpa⟩ := ha
    refine .inr (.absent h2 (fun q hq => ?_) hp hpa)
    rcases named T W (h1 q hq) with ⟨v, h⟩ | h
    · exact .inl (by simp [h])
    · exact .inr h
  · have hn : ∀ p ∈ places op, ∃ v, σ.get p = some v := fun p hp => (named T W (h1 p hp)).resolve_right fun h => ha ⟨p, hp, h⟩
    cases op with
    | init x v => exact .inl ⟨_, .init (h2 x rfl) h3⟩
    | drop x => obtain ⟨v, hv⟩ := Option.isSome_iff_exists.1 h3; exact .inl ⟨_, .drop hv⟩
    | copyInit x s =>
      obtain ⟨v, hv⟩ := hn s (by simp [places])
      exact .inl ⟨_, .copyInit (h2 x rfl) hv (whole_get W hv)⟩
    | moveInit x s junk =>
      obtain ⟨v, hv⟩ := hn s (by simp [places])
      exact .inl ⟨_, .moveInit (h2 x rfl) hv⟩
    | assign d v =>
      obtain ⟨w, hw⟩ := hn d (by simp [places])
      exact .inl ⟨_, .assign hw h3⟩
    | copyAssign d s =>
      obtain ⟨w, hw⟩ := hn d (by simp [places])
      obtain ⟨v, hv⟩ := hn s (by simp [places])
      exact .inl ⟨_, .copyAssign hw hv (whole_get W hv) fun hi => Classical.byContradiction fun hne => ho (.copy hw hv hi hne)⟩
    | moveAssign d s junk =>
      obtain ⟨w, hw⟩ := hn d (by simp [places])
      obtain ⟨v, hv⟩ := hn s (by simp [places])
      exact .inl (moveAssign_covered hw hv ho)
    | index p k =>
      obtain ⟨v, hv⟩ := hn p (by simp [places])
      rcases object_or_not (tagged_get T hv) (whole_get W hv) with ⟨ms, h⟩ | h
      · exact .inl ⟨_, .index hv h⟩
      · exact .inr (.index hv h)
    | erasePos p k =>
      obtain ⟨v, hv⟩ := hn p (by simp [places])
      rcases array_or_not (tagged_get T hv) (whole_get W hv) with ⟨ms, h⟩ | h
      · exact .inl ⟨_, .erasePos hv h⟩
      · exact .inr (.erasePos hv h)
    | eraseKey p k =>
      obtain ⟨v, hv⟩ := hn p (by simp [places])
      rcases object_or_not (tagged_get T hv) (whole_get W hv) with ⟨ms, h⟩ | h
      · exact .inl ⟨_, .eraseKey hv h⟩
      · exact .inr (.eraseKey hv h)
    | emplaceBack p s =>
      obtain ⟨v, hv⟩ := hn p (by simp [places])
      obtain ⟨u, hu⟩ := hn s (by simp [places])
      rcases array_or_not (tagged_get T hv) (whole_get W hv) with ⟨vs, h⟩ | h
      · obtain ⟨w, hw⟩ := get_after T hv (w' := .arr .array vs) (fun hne => h.resolve_left fun h => hne h.1) hu
        exact .inl ⟨_, .emplaceBack hv h (by simp [hu]) hw (whole_get (whole_set W p (whole_elems h (whole_get W hv))) hw)⟩
      · exact .inr (.emplaceBack hv h (by simp [hu]))
    | emplaceKey p k s =>
      obtain ⟨v, hv⟩ := hn p (by simp [places])
      obtain ⟨u, hu⟩ := hn s (by simp [places])
      rcases object_or_not (tagged_get T hv) (whole_get W hv) with ⟨ms, h⟩ | h
      · obtain ⟨w, hw⟩ := get_after T hv (w' := .obj .object ms) (fun hne => h.resolve_left fun h => hne h.1) hu
        refine .inl ⟨_, .emplaceKey hv h (by simp [hu]) hw (whole_get (whole_set W p (whole_members h (whole_get W hv))) hw) fun old hold hi => ?_⟩
        -- a key that exists: nothing was coerced
        obtain rfl : v = .obj .object ms := by
          rcases h with ⟨_, h⟩ | h
          · subst h; simp at hold
          · exact h
        rw [set_get (keyedStore_of_tagged T) hv] at hw
        exact Classical.byContradiction fun hne => ho (.emplace ((get_key hv).trans hold) hw hi hne)
      · exact .inr (.emplaceKey hv h (by simp [hu]))
    | append p s =>
      obtain ⟨v, hv⟩ := hn p (by simp [places])
      obtain ⟨u, hu⟩ := hn s (by simp [places])
      have hne : p ≠ s := fun e => ho (by subst e; exact .append)
      have hwu := whole_get W hu
      have htu := tagged_get T hu
      cases u with
      | str t x => exact .inr (.appendNone (by simp [hv]) hu (.inl ⟨_, _, rfl, htu⟩))
      | arrNull => exact hwu.elim
      | objNull => exact hwu.elim
      | obj t ms => obtain ⟨rfl, _⟩ := htu; exact .inr (.appendNone (by simp [hv]) hu (.inr ⟨_, rfl⟩))
      | arr t us =>
        obtain ⟨rfl, _⟩ := htu
        rcases array_or_not (tagged_get T hv) (whole_get W hv) with ⟨vs, h⟩ | h
        · obtain ⟨ws, hws⟩ : ∃ ws, (σ.set p (.arr .array vs)).get s = some (.arr .array ws) := by
            by_cases hh : Hollowable v
            · by_cases hi : Inside p s
              · obtain ⟨r, _, hr, h⟩ := get_above (u := .arr .array vs) (keyedStore_of_tagged T) hu hi
                cases r with
                | nil => exact absurd rfl hr
                | cons c r => cases c <;> exact ⟨_, h⟩
              · exact ⟨us, by rw [get_set_other hv (apart_of hne hi (not_inside_of_hollowable hv hh hu)), hu]⟩
            · rw [h.resolve_left fun h => hh h.1] at hv
              exact ⟨us, by rw [set_get (keyedStore_of_tagged T) hv, hu]⟩
          exact .inl ⟨_, .append hv h hu hne hws (whole_get (whole_set W p (whole_elems h (whole_get W hv))) hws)⟩
        · exact .inr (.append hv h hu)
    | merge p s =>
      obtain ⟨v, hv⟩ := hn p (by simp [places])
      obtain ⟨u, hu⟩ := hn s (by simp [places])
      have hwu := whole_get W hu
      have htu := tagged_get T hu
      cases u with
      | str t x => exact .inr (.mergeNone (by simp [hv]) hu (.inl ⟨_, _, rfl, htu⟩))
      | arrNull => exact hwu.elim
      | objNull => exact hwu.elim
      | arr t ms => obtain ⟨rfl, _⟩ := htu; exact .inr (.mergeNone (by simp [hv]) hu (.inr ⟨_, rfl⟩))
      | obj t ws =>
        obtain ⟨rfl, _⟩ := htu
        rcases object_or_not (tagged_get T hv) (whole_get W hv) with ⟨ms, h⟩ | h
        · by_cases e : p = s
          · subst e
            rw [hu] at hv; cases hv
            exact .inl ⟨_, .mergeSelf hu (fun e => ho (by subst e; exact .mergeEmpty hu)) hwu⟩
          · exact .inl ⟨_, .merge hv h hu (apart_of e (fun h => ho (.merge (.inl h))) fun h => ho (.merge (.inr h))) hwu⟩
        · exact .inr (.merge hv h hu)
    | asArray p =>
      obtain ⟨v, hv⟩ := hn p (by simp [places])
      rcases array_or_not (tagged_get T hv) (whole_get W hv) with ⟨ms, h⟩ | h
      · exact .inl ⟨_, .asArray hv h⟩
      · exact .inr (.asArray hv h)
    | asObject p =>
      obtain ⟨v, hv⟩ := hn p (by simp [places])
      rcases object_or_not (tagged_get T hv) (whole_get W hv) with ⟨ms, h⟩ | h
      · exact .inl ⟨_, .asObject hv h⟩
      · exact .inr (.asObject hv h)
    | emplaceBackMove p s junk =>
      obtain ⟨v, hv⟩ := hn p (by simp [places])
      obtain ⟨u, hu⟩ := hn s (by simp [places])
      rcases array_or_not (tagged_get T hv) (whole_get W hv) with ⟨vs, h⟩ | h
      · have hps : ¬ Within p s := fun h => ho (.emplaceBackMove h)
        obtain ⟨v', vs', h1, h2⟩ := elems_after (x := hollow junk u) T hv hu hps h
        exact .inl ⟨_, .emplaceBackMove hv hu hps h1 h2⟩
      · exact .inr (.emplaceBackMove hv h (by simp [hu]))
    | emplaceKeyMove p k s junk =>
      obtain ⟨v, hv⟩ := hn p (by simp [places])
      obtain ⟨u, hu⟩ := hn s (by simp [places])
      rcases object_or_not (tagged_get T hv) (whole_get W hv) with ⟨ms, h⟩ | h
      · cases hk : ms.lookup k with
        | none =>
          have hpk : σ.get ⟨p.x, p.path ++ [.key k]⟩ = none := by
            rcases h with ⟨h, _⟩ | h
            · cases hg : σ.get ⟨p.x, p.path ++ [.key k]⟩ with
              | none => rfl
              | some x => exact absurd ⟨rfl, List.prefix_append _ _, by simp⟩ (not_inside_of_hollowable hv h hg)
            · subst h; rw [get_key hv, hk]
          have hps : ¬ Within p s := fun h => ho (.emplaceKeyMove hpk h)
          obtain ⟨v', ms', h1, h2, h3⟩ := members_after (x := hollow junk u) T hv hu hps h hk
          exact .inl ⟨_, .emplaceKeyMove hv hu hps h1 h2 h3⟩
        | some old =>
          obtain rfl : v = .obj .object ms := by
            rcases h with ⟨_, h⟩ | h
            · subst h; simp at hk
            · exact h
          have hpk := (get_key (k := k) hv).trans hk
          obtain ⟨σ', hs'⟩ := moveAssign_covered (junk := junk) hpk hu fun h => ho (.emplaceKeyMoveOld hpk h)
          exact .inl ⟨_, .emplaceKeyMoveOld hv hk hs'⟩
      · exact .inr (.emplaceKeyMove hv h (by simp [hu]))
    | appendMove p s junk =>
      obtain ⟨v, hv⟩ := hn p (by simp [places])
      obtain ⟨u, hu⟩ := hn s (by simp [places])
      have hps : ¬ Within p s := fun h => ho (.appendMove h)
      have hwu := whole_get W hu
      have htu := tagged_get T hu
      cases u with
      | str t x => exact .inr (.appendMoveNone (by simp [hv]) hu (.inl ⟨_, _, rfl, htu⟩))
      | arrNull => exact hwu.elim
      | objNull => exact hwu.elim
      | obj t ms => obtain ⟨rfl, _⟩ := htu; exact .inr (.appendMoveNone (by simp [hv]) hu (.inr ⟨_, rfl⟩))
      | arr t us =>
        obtain ⟨rfl, _⟩ := htu
        rcases array_or_not (tagged_get T hv) (whole_get W hv) with ⟨vs, h⟩ | h
        · obtain ⟨v', vs', h1, h2⟩ := elems_after (x := .arr .array (hollowElems junk us)) T hv hu hps h
          exact .inl ⟨_, .appendMove hv hu hps h1 h2⟩
        · exact .inr (.appendMove hv h hu)
    | mergeMove p s junk =>
      obtain ⟨v, hv⟩ := hn p (by simp [places])
      obtain ⟨u, hu⟩ := hn s (by simp [places])
      have hwu := whole_get W hu
      have htu := tagged_get T hu
      cases u with
      | str t x => exact .inr (.mergeMoveNone (by simp [hv]) hu (.inl ⟨_, _, rfl, htu⟩))
      | arrNull => exact hwu.elim
      | objNull => exact hwu.elim
      | arr t ms => obtain ⟨rfl, _⟩ := htu; exact .inr (.mergeMoveNone (by simp [hv]) hu (.inr ⟨_, rfl⟩))
      | obj t ws =>
        obtain ⟨rfl, _⟩ := htu
        rcases object_or_not (tagged_get T hv) (whole_get W hv) with ⟨ms, h⟩ | h
        · exact .inl ⟨_, .mergeMove hv h hu ⟨fun h => ho (.mergeMove (.inl h)), fun h => ho (.mergeMove (.inr ⟨h.1.symm, h.2⟩))⟩⟩
        · exact .inr (.mergeMove hv h hu)
where
  get_after {σ : Store} (T : TaggedStore σ) {p s : Place} {v u w' : Value} (hv : σ.get p = some v) (hne : ¬ Hollowable v → v = w') (hu : σ.get s = some u) :
      ∃ w, (σ.set p w').get s = some w := by
    by_cases hh : Hollowable v
    · have hin : ¬ Inside s p := not_inside_of_hollowable hv hh hu
      by_cases e : p = s
      · subst e; exact ⟨_, get_set hv⟩
      · by_cases hi : Inside p s
        · obtain ⟨r, _, _, h⟩ := get_above (u := w') (keyedStore_of_tagged T) hu hi
          exact ⟨_, h⟩
        · exact ⟨u, by rw [get_set_other hv (apart_of e hi hin), hu]⟩
    · rw [hne hh] at hv
      exact ⟨u, by rw [set_get (keyedStore_of_tagged T) hv, hu]⟩

/-! ### What statements leave alone -/

theorem get_put_other {σ : Store} {x : Nat} {v : Option Value} {p : Place} (h : Apart ⟨x, []⟩ p) : (σ.put x v).get p = σ.get p := by
  have : p.x ≠ x := fun e => h.2 ⟨e.symm, List.nil_prefix⟩
  simp [Store.get, Store.put, this]

theorem step_apart {σ σ' : Store} {op : Op} (h : Step σ op σ') {p : Place} (ha : ∀ q ∈ touches op, Apart q p) : σ'.get p = σ.get p := by
  induction h with
  | init hx hv => exact get_put_other (ha _ (by simp [touches]))
  | copyInit hx hs hw => exact get_put_other (ha _ (by simp [touches]))
  | moveInit hx hs => rw [get_put_other (ha _ (by simp [touches])), get_set_other hs (ha _ (by simp [touches]))]
  | copyAssign hd hs hw hin => exact get_set_other hd (ha _ (by simp [touches]))
  | assign hd hv => exact get_set_other hd (ha _ (by simp [touches]))
  | moveAssign hd hs h1 h2 h3 =>
    have hap := apart_of h1 h2 h3
    rw [get_set_other ((get_set_other hs ⟨fun ⟨e, h⟩ => hap.2 ⟨e.symm, h⟩, fun ⟨e, h⟩ => hap.1 ⟨e.symm, h⟩⟩).trans hd) (ha _ (by simp [touches])),
      get_set_other hs (ha _ (by simp [touches]))]
  | moveAssignPart hd hs h1 h2 => exact get_set_other hd (ha _ (by simp [touches]))
  | moveAssignSelf hd => exact get_set_other hd (ha _ (by simp [touches]))
  | index hp hv => exact get_set_other hp (ha _ (by simp [touches]))
  | emplaceBack hp hv hs hw hwh => exact get_set_other hp (ha _ (by simp [touches]))
  | emplaceKey hp hv hs hw hwh hin => exact get_set_other hp (ha _ (by simp [touches]))
  | erasePos hp hv => exact get_set_other hp (ha _ (by simp [touches]))
  | eraseKey hp hv => exact get_set_other hp (ha _ (by simp [touches]))
  | append hp hv hs hne hw hwh => exact get_set_other hp (ha _ (by simp [touches]))
  | merge hp hv hs hap hw => exact get_set_other hp (ha _ (by simp [touches]))
  | mergeSelf hp hne hw => rfl
  | asArray hp hv => exact get_set_other hp (ha _ (by simp [touches]))
  | asObject hp hv => exact get_set_other hp (ha _ (by simp [touches]))
  | emplaceBackMove hp hs hn hv he => rw [get_set_other hv (ha _ (by simp [touches])), get_set_other hs (ha _ (by simp [touches]))]
  | emplaceKeyMove hp hs hn hv he hk => rw [get_set_other hv (ha _ (by simp [touches])), get_set_other hs (ha _ (by simp [touches]))]
  | @emplaceKeyMoveOld σ' p' k s ms old junk hp hk h ih =>
    refine ih fun q hq => ?_
    rcases (by simpa [touches] using hq : q = ⟨p'.x, p'.path ++ [.key k]⟩ ∨ q = s) with rfl | rfl
    · exact apart_below (ha p' (by simp [touches])) _
    · exact ha _ (by simp [touches])
  | appendMove hp hs hn hv he => rw [get_set_other hv (ha _ (by simp [touches])), get_set_other hs (ha _ (by simp [touches]))]
  | mergeMove hp hv hs hap =>
    rw [get_set_other ((get_set_other hs hap.symm).trans hp) (ha _ (by simp [touches])), get_set_other hs (ha _ (by simp [touches]))]
  | drop hx => exact get_put_other (ha _ (by simp [touches]))

theorem steps_apart {ops : List Op} : ∀ {σ σ' : Store}, Steps σ ops σ' → ∀ {p : Place}, (∀ op ∈ ops, ∀ q ∈ touches op, Apart q p) → σ'.get p = σ.get p := by
  induction ops with
  | nil => intro σ σ' h p _; cases h; rfl
  | cons op ops ih =>
    intro σ σ' h p ha
    cases h with
    | cons h1 h2 => rw [ih h2 fun o ho => ha o (by simp [ho]), step_apart h1 (ha op (by simp))]
    | refused h1 h2 => exact ih h2 fun o ho => ha o (by simp [ho])

theorem steps_append {ops rest : List Op} : ∀ {σ σ' σ'' : Store}, Steps σ ops σ' → Steps σ' rest σ'' → Steps σ (ops ++ rest) σ'' := by
  induction ops with
  | nil => intro σ σ' σ'' h1 h2; cases h1; exact h2
  | cons op ops ih =>
    intro σ σ' σ'' h1 h2
    cases h1 with
    | cons h h' => exact .cons h (ih h' h2)
    | refused h h' => exact .refused h (ih h' h2)

theorem steps_whole {ops : List Op} : ∀ {σ σ' : Store}, WholeStore σ → (∀ op ∈ ops, Copying op) → Steps σ ops σ' → WholeStore σ' := by
  induction ops with
  | nil => intro σ σ' W _ h; cases h; exact W
  | cons op ops ih =>
    intro σ σ' W hop h
    cases h with
    | cons h1 h2 => exact ih (step_whole W (hop op (by simp)) h1) (fun o ho => hop o (by simp [ho])) h2
    | refused h1 h2 => exact ih W (fun o ho => hop o (by simp [ho])) h2

end Meojson.Stores

namespace Meojson.Mem
open Stores

/-- The end of all variables leaves nothing in memory. -/
theorem drops_clean (oom : Addr → Bool) : ∀ {xs : List Nat} {st : State} {σ : Store} {F : Nat → List Addr}, SRep st σ [] F → xs.Nodup →
    (∀ x, x ∈ xs ↔ (σ x).isSome) → ∃ st', run oom st (xs.map .drop) = .done st' ∧ ∀ a, st'.heap.cell a = none
  | [], st, σ, F, H, _, hx => by
    refine ⟨st, rfl, fun a => Classical.byContradiction fun ha => ?_⟩
    rcases H.live a ha with h | ⟨z, h⟩
    · simp at h
    · have : σ z = none := by have := hx z; cases hz : σ z <;> simp [hz] at this ⊢
      rw [(H.absent z this).2] at h; simp at h
  | x :: xs, st, σ, F, H, nd, hx => by
    obtain ⟨v, hv⟩ := Option.isSome_iff_exists.1 ((hx x).1 (by simp))
    have h := drop_ends H oom hv
    obtain ⟨hh, h1, h2, F', h3⟩ := H.release hv
    obtain ⟨g, e1, F'', e2⟩ := h3.free h2
    simp only at e1
    have hs : step oom st (.drop x) = .done ⟨g, fun y => if y = x then none else st.var y⟩ := by
      simp only [step, h1, dispose, e1]; rfl
    simp only [List.map_cons, run, hs]
    rw [List.nodup_cons] at nd
    refine drops_clean oom e2 nd.2 fun y => ?_
    by_cases e : y = x
    · subst e; simp [Store.put, nd.1]
    · rw [show (σ.put x none) y = σ y by simp [Store.put, e], ← hx y]; simp [e]

theorem run_append (oom : Addr → Bool) {ops rest : List Op} : ∀ {st st' : State}, run oom st ops = .done st' → run oom st (ops ++ rest) = run oom st' rest := by
  induction ops with
  | nil => intro st st' h; cases h; rfl
  | cons op ops ih =>
    intro st st' h
    simp only [List.cons_append, run] at h ⊢
    cases hs : step oom st op with
    | done s1 => rw [hs] at h; exact ih h
    | thrown s1 => rw [hs] at h; exact ih h
    | ub => rw [hs] at h; cases h

end Meojson.Mem
