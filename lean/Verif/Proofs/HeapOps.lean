import Verif.Proofs.HeapStore

/-! Stores: reading and writing at places. Members and elements: inserting and erasing. -/

set_option autoImplicit false

namespace Meojson.Mem
open Stores

/-! ### Trees -/

theorem bytes_irrefl (a : Bytes) : ¬ a < a := fun h => by
  have := (bytesLt_iff a a).2 h; rw [bytesLt_irrefl] at this; cases this

theorem bytes_asymm {a b : Bytes} (h : a < b) : ¬ b < a := fun h' => by
  have := bytesLt_trans ((bytesLt_iff a b).2 h) ((bytesLt_iff b a).2 h'); rw [bytesLt_irrefl] at this; cases this

theorem lookup_map_if (ms : List (Bytes × Value)) (k k' : Bytes) (f : Value → Value) :
    (ms.map fun m => if m.1 = k then (m.1, f m.2) else m).lookup k' = if k' = k then (ms.lookup k').map f else ms.lookup k' := by
  induction ms with
  | nil => simp
  | cons m ms ih =>
    obtain ⟨km, m⟩ := m
    simp only [List.map_cons]
    by_cases h : km = k
    · subst h
      simp only [if_true, List.lookup_cons, ih]
      by_cases h' : k' = km
      · subst h'; simp
      · have : (k' == km) = false := by simp [h']
        simp [this, h']
    · simp only [h, if_false, List.lookup_cons, ih]
      by_cases h' : k' = km
      · subst h'; simp [h]
      · have : (k' == km) = false := by simp [h']
        simp [this]

theorem getAt_setAt {w' : Value} : ∀ {p : List Sel} {v w : Value}, getAt v p = some w → getAt (setAt v p w') p = some w'
  | [], _, _, _ => rfl
  | s :: p, v, w, h => by
    cases v with
    | str => cases s <;> simp [getAt] at h
    | arrNull => cases s <;> simp [getAt] at h
    | objNull => cases s <;> simp [getAt] at h
    | arr t vs =>
      cases s with
      | key k => simp [getAt] at h
      | pos i =>
        cases t <;> simp only [getAt, reduceCtorEq] at h
        obtain ⟨v1, h1, h2⟩ := Option.bind_eq_some_iff.1 h
        simp only [setAt, getAt, List.getElem?_modify, h1, if_true]
        exact getAt_setAt h2
    | obj t ms =>
      cases s with
      | pos k => simp [getAt] at h
      | key k =>
        cases t <;> simp only [getAt, reduceCtorEq] at h
        obtain ⟨v1, h1, h2⟩ := Option.bind_eq_some_iff.1 h
        simp only [setAt, getAt, lookup_map_if ms k k (fun u => setAt u p w'), if_true, h1, Option.map_some, Option.bind_some]
        exact getAt_setAt h2

theorem setAt_setAt {a b : Value} : ∀ (p : List Sel) (v : Value), setAt (setAt v p a) p b = setAt v p b
  | [], _ => rfl
  | s :: p, v => by
    cases v with
    | str => cases s <;> rfl
    | arrNull => cases s <;> rfl
    | objNull => cases s <;> rfl
    | arr t vs =>
      cases s with
      | key k => rfl
      | pos i =>
        simp only [setAt]; congr 1
        apply List.ext_getElem?
        intro j
        simp only [List.getElem?_modify]
        by_cases h : i = j
        · cases vs[j]? with
          | none => simp
          | some u => simp [h, setAt_setAt p u]
        · simp [h]
    | obj t ms =>
      cases s with
      | pos k => rfl
      | key k =>
        simp only [setAt, List.map_map]; congr 1
        apply List.map_congr_left
        intro m _
        by_cases h : m.1 = k
        · simp [h, setAt_setAt p m.2]
        · simp [h]

theorem setAt_getAt : ∀ {p : List Sel} {v w : Value}, Keyed v → getAt v p = some w → setAt v p w = v
  | [], _, _, _, h => by simp only [getAt, Option.some.injEq] at h; exact h.symm
  | s :: p, v, w, ht, h => by
    cases v with
    | str => cases s <;> simp [getAt] at h
    | arrNull => cases s <;> simp [getAt] at h
    | objNull => cases s <;> simp [getAt] at h
    | arr t vs =>
      cases s with
      | key k => simp [getAt] at h
      | pos i =>
        cases t <;> simp only [getAt, reduceCtorEq] at h
        obtain ⟨v1, h1, h2⟩ := Option.bind_eq_some_iff.1 h
        simp only [setAt]; congr 1
        apply List.ext_getElem?
        intro j
        simp only [List.getElem?_modify]
        by_cases hij : i = j
        · subst hij; simp [h1, setAt_getAt (keyedAll_get ht h1) h2]
        · simp [hij]
    | obj t ms =>
      cases s with
      | pos k => simp [getAt] at h
      | key k =>
        cases t <;> simp only [getAt, reduceCtorEq] at h
        obtain ⟨v1, h1, h2⟩ := Option.bind_eq_some_iff.1 h
        obtain ⟨i, _, hi⟩ := keyIndex_of_lookup ht.1 (xs := ms.map fun m => (m.1, ⟨.null, .text []⟩)) (by simp [Function.comp_def]) h1
        simp only [setAt]
        rw [map_eq_set ht.1 hi (fun u => setAt u p w), setAt_getAt (keyedMembers_get ht.2 hi) h2]
        congr 1
        obtain ⟨hlt, he⟩ := List.getElem?_eq_some_iff.1 hi
        rw [← he]; exact List.set_getElem_self hlt

/-- Writing does not show at places apart. -/
theorem getAt_setAt_other {w' : Value} : ∀ {p q : List Sel} {v w : Value}, getAt v p = some w → ¬ p <+: q → ¬ q <+: p → getAt (setAt v p w') q = getAt v q
  | [], _, _, _, _, h, _ => absurd List.nil_prefix h
  | _ :: _, [], _, _, _, _, h => absurd List.nil_prefix h
  | s :: p, t :: q, v, w, h, h1, h2 => by
    have h1' : s = t → ¬ p <+: q := fun e h => h1 (List.cons_prefix_cons.2 ⟨e, h⟩)
    have h2' : s = t → ¬ q <+: p := fun e h => h2 (List.cons_prefix_cons.2 ⟨e.symm, h⟩)
    cases v with
    | str => cases s <;> simp [getAt] at h
    | arrNull => cases s <;> simp [getAt] at h
    | objNull => cases s <;> simp [getAt] at h
    | arr ty vs =>
      cases s with
      | key k => simp [getAt] at h
      | pos i =>
        cases ty <;> simp only [getAt, reduceCtorEq] at h
        obtain ⟨v1, e1, e2⟩ := Option.bind_eq_some_iff.1 h
        cases t with
        | key k => rfl
        | pos j =>
          simp only [setAt, getAt, List.getElem?_modify]
          by_cases hij : i = j
          · subst hij
            simp only [e1, if_true, Option.bind_some]
            exact getAt_setAt_other e2 (h1' rfl) (h2' rfl)
          · simp [hij]
    | obj ty ms =>
      cases s with
      | pos k => simp [getAt] at h
      | key k =>
        cases ty <;> simp only [getAt, reduceCtorEq] at h
        obtain ⟨v1, e1, e2⟩ := Option.bind_eq_some_iff.1 h
        cases t with
        | pos k => rfl
        | key k' =>
          simp only [setAt, getAt, lookup_map_if ms k k' (fun u => setAt u p w')]
          by_cases hk : k' = k
          · subst hk
            simp only [e1, if_true, Option.map_some, Option.bind_some]
            exact getAt_setAt_other e2 (h1' rfl) (h2' rfl)
          · simp [hk]

theorem keyedAll_iff {vs : List Value} : KeyedAll vs ↔ ∀ v ∈ vs, Keyed v := by
  induction vs with
  | nil => simp [KeyedAll]
  | cons v vs ih => simp [KeyedAll, ih]

theorem keyedMembers_iff {ms : List (Bytes × Value)} : KeyedMembers ms ↔ ∀ m ∈ ms, Keyed m.2 := by
  induction ms with
  | nil => simp [KeyedMembers]
  | cons m ms ih => obtain ⟨k, v⟩ := m; simp [KeyedMembers, ih]

theorem keyed_getAt : ∀ {p : List Sel} {v w : Value}, Keyed v → getAt v p = some w → Keyed w
  | [], _, _, ht, h => by simp only [getAt, Option.some.injEq] at h; exact h ▸ ht
  | s :: p, v, w, ht, h => by
    cases v with
    | str => cases s <;> simp [getAt] at h
    | arrNull => cases s <;> simp [getAt] at h
    | objNull => cases s <;> simp [getAt] at h
    | arr t vs =>
      cases s with
      | key k => simp [getAt] at h
      | pos i =>
        cases t <;> simp only [getAt, reduceCtorEq] at h
        obtain ⟨v1, h1, h2⟩ := Option.bind_eq_some_iff.1 h
        exact keyed_getAt (keyedAll_get ht h1) h2
    | obj t ms =>
      cases s with
      | pos k => simp [getAt] at h
      | key k =>
        cases t <;> simp only [getAt, reduceCtorEq] at h
        obtain ⟨v1, h1, h2⟩ := Option.bind_eq_some_iff.1 h
        have : (k, v1) ∈ ms := by
          obtain ⟨i, _, hi⟩ := keyIndex_of_lookup ht.1 (xs := ms.map fun m => (m.1, ⟨.null, .text []⟩)) (by simp [Function.comp_def]) h1
          exact List.mem_of_getElem? hi
        exact keyed_getAt (keyedMembers_iff.1 ht.2 _ this) h2

theorem keyed_setAt {w' : Value} (hw : Keyed w') : ∀ {p : List Sel} {v w : Value}, Keyed v → getAt v p = some w → Keyed (setAt v p w')
  | [], _, _, _, _ => hw
  | s :: p, v, w, ht, h => by
    cases v with
    | str => cases s <;> simp [getAt] at h
    | arrNull => cases s <;> simp [getAt] at h
    | objNull => cases s <;> simp [getAt] at h
    | arr t vs =>
      cases s with
      | key k => simp [getAt] at h
      | pos i =>
        cases t <;> simp only [getAt, reduceCtorEq] at h
        obtain ⟨v1, h1, h2⟩ := Option.bind_eq_some_iff.1 h
        refine keyedAll_iff.2 fun u hu => ?_
        obtain ⟨j, hj⟩ := List.getElem?_of_mem hu
        rw [List.getElem?_modify] at hj
        by_cases hij : i = j
        · subst hij; simp [h1] at hj; subst hj; exact keyed_setAt hw (keyedAll_get ht h1) h2
        · simp [hij] at hj; exact keyedAll_iff.1 ht _ (List.mem_of_getElem? hj)
    | obj t ms =>
      cases s with
      | pos k => simp [getAt] at h
      | key k =>
        cases t <;> simp only [getAt, reduceCtorEq] at h
        obtain ⟨v1, h1, h2⟩ := Option.bind_eq_some_iff.1 h
        obtain ⟨i, _, hi⟩ := keyIndex_of_lookup ht.1 (xs := ms.map fun m => (m.1, ⟨.null, .text []⟩)) (by simp [Function.comp_def]) h1
        refine ⟨?_, keyedMembers_iff.2 fun m hm => ?_⟩
        · rw [List.pairwise_map]
          refine ht.1.imp fun {a b} hab => ?_
          split <;> split <;> exact hab
        · rw [map_eq_set ht.1 hi (fun u => setAt u p w')] at hm
          rcases List.mem_or_eq_of_mem_set hm with h | h
          · exact keyedMembers_iff.1 ht.2 _ h
          · rw [h]; exact keyed_setAt hw (keyedMembers_get ht.2 hi) h2

theorem getAt_append : ∀ {p q : List Sel} {v : Value}, getAt v (p ++ q) = (getAt v p).bind (getAt · q)
  | [], _, _ => rfl
  | s :: p, q, v => by
    cases v with
    | str => cases s <;> rfl
    | arrNull => cases s <;> rfl
    | objNull => cases s <;> rfl
    | arr t vs =>
      cases s with
      | key k => cases t <;> rfl
      | pos i =>
        cases t <;> first | rfl | skip
        simp only [List.cons_append, getAt]
        cases vs[i]? with
        | none => rfl
        | some u => exact getAt_append
    | obj t ms =>
      cases s with
      | pos k => cases t <;> rfl
      | key k =>
        cases t <;> first | rfl | skip
        simp only [List.cons_append, getAt]
        cases ms.lookup k with
        | none => rfl
        | some u => exact getAt_append

theorem setAt_append {w' : Value} : ∀ {p q : List Sel} {v u : Value}, Keyed v → getAt v p = some u → setAt v (p ++ q) w' = setAt v p (setAt u q w')
  | [], _, _, _, _, h => by simp only [getAt, Option.some.injEq] at h; rw [h]; rfl
  | s :: p, q, v, u, ht, h => by
    cases v with
    | str => cases s <;> simp [getAt] at h
    | arrNull => cases s <;> simp [getAt] at h
    | objNull => cases s <;> simp [getAt] at h
    | arr t vs =>
      cases s with
      | key k => simp [getAt] at h
      | pos i =>
        cases t <;> simp only [getAt, reduceCtorEq] at h
        obtain ⟨v1, h1, h2⟩ := Option.bind_eq_some_iff.1 h
        simp only [List.cons_append, setAt]; congr 1
        apply List.ext_getElem?
        intro j
        simp only [List.getElem?_modify]
        by_cases hij : i = j
        · subst hij; simp [h1, setAt_append (q := q) (w' := w') (keyedAll_get ht h1) h2]
        · simp [hij]
    | obj t ms =>
      cases s with
      | pos k => simp [getAt] at h
      | key k =>
        cases t <;> simp only [getAt, reduceCtorEq] at h
        obtain ⟨v1, h1, h2⟩ := Option.bind_eq_some_iff.1 h
        obtain ⟨i, _, hi⟩ := keyIndex_of_lookup ht.1 (xs := ms.map fun m => (m.1, ⟨.null, .text []⟩)) (by simp [Function.comp_def]) h1
        simp only [List.cons_append, setAt]
        rw [map_eq_set ht.1 hi (fun u => setAt u (p ++ q) w'), map_eq_set ht.1 hi (fun m => setAt m p (setAt u q w')),
          setAt_append (keyedMembers_get ht.2 hi) h2]

/-! ### Stores -/

theorem get_set {σ : Store} {p : Place} {w w' : Value} (h : σ.get p = some w) : (σ.set p w').get p = some w' := by
  obtain ⟨v, hv, hg⟩ := get_some h
  rw [get_of (v := setAt v p.path w') (by simp [Store.set, Store.put, hv])]
  exact getAt_setAt hg

theorem set_set (σ : Store) (p : Place) (a b : Value) : (σ.set p a).set p b = σ.set p b := by
  funext z
  simp only [Store.set, Store.put]
  split
  · simp only [if_true]
    cases σ p.x <;> simp [setAt_setAt]
  · rfl

theorem set_get {σ : Store} (T : KeyedStore σ) {p : Place} {w : Value} (h : σ.get p = some w) : σ.set p w = σ := by
  obtain ⟨v, hv, hg⟩ := get_some h
  funext z
  simp only [Store.set, Store.put]
  split
  · next e => simp only [hv, Option.map_some, setAt_getAt (T _ _ hv) hg, e]
  · rfl

theorem get_set_other {σ : Store} {p q : Place} {w w' : Value} (h : σ.get p = some w) (ha : Apart p q) : (σ.set p w').get q = σ.get q := by
  obtain ⟨v, hv, hg⟩ := get_some h
  by_cases e : p.x = q.x
  · rw [get_of (v := setAt v p.path w') (by simp [Store.set, Store.put, ← e, hv]), get_of (v := v) (by rw [← e, hv])]
    exact getAt_setAt_other hg (fun h => ha.2 ⟨e, h⟩) fun h => ha.1 ⟨e, h⟩
  · simp [Store.get, Store.set, Store.put, Ne.symm e]

theorem apart_of {d s : Place} (h1 : d ≠ s) (h2 : ¬ Inside d s) (h3 : ¬ Inside s d) : Apart d s := by
  have key : d.x = s.x → d.path ≠ s.path := fun e e' => h1 (by cases d; cases s; simp at e e'; simp [e, e'])
  exact ⟨fun ⟨e, h⟩ => h2 ⟨e, h, key e⟩, fun ⟨e, h⟩ => h3 ⟨e.symm, h, fun e' => key e e'.symm⟩⟩

theorem keyed_get {σ : Store} (T : KeyedStore σ) {p : Place} {w : Value} (h : σ.get p = some w) : Keyed w := by
  obtain ⟨v, hv, hg⟩ := get_some h; exact keyed_getAt (T _ _ hv) hg

theorem keyed_set {σ : Store} (T : KeyedStore σ) {p : Place} {w w' : Value} (h : σ.get p = some w) (hw : Keyed w') : KeyedStore (σ.set p w') := by
  obtain ⟨v, hv, hg⟩ := get_some h
  intro x u hu
  simp only [Store.set, Store.put] at hu
  split at hu
  · next e => simp only [hv, Option.map_some, Option.some.injEq] at hu; subst hu; exact keyed_setAt hw (T _ _ hv) hg
  · exact T _ _ hu

theorem keyed_put {σ : Store} (T : KeyedStore σ) {x : Nat} {v : Value} (hv : Keyed v) : KeyedStore (σ.put x (some v)) := by
  intro z u hu
  simp only [Store.put] at hu
  split at hu
  · cases hu; exact hv
  · exact T _ _ hu

theorem keyed_put_none {σ : Store} (T : KeyedStore σ) {x : Nat} : KeyedStore (σ.put x none) := by
  intro z u hu
  simp only [Store.put] at hu
  split at hu
  · cases hu
  · exact T _ _ hu

mutual
theorem keyed_of_tagged : ∀ {v : Value}, Tagged v → Keyed v
  | .str _ _, _ | .arrNull _, _ | .objNull _, _ => trivial
  | .arr _ _, h => keyedAll_of_tagged h.2
  | .obj _ _, h => ⟨h.2.1, keyedMembers_of_tagged h.2.2⟩
theorem keyedAll_of_tagged : ∀ {vs : List Value}, TaggedAll vs → KeyedAll vs
  | [], _ => trivial
  | _ :: _, h => ⟨keyed_of_tagged h.1, keyedAll_of_tagged h.2⟩
theorem keyedMembers_of_tagged : ∀ {ms : List (Bytes × Value)}, TaggedMembers ms → KeyedMembers ms
  | [], _ => trivial
  | (_, _) :: _, h => ⟨keyed_of_tagged h.1, keyedMembers_of_tagged h.2⟩
end

theorem keyedStore_of_tagged {σ : Store} (T : TaggedStore σ) : KeyedStore σ := fun x v h => keyed_of_tagged (T x v h)

theorem keyed_hollow {v : Value} (h : Keyed v) (junk : Bytes) : Keyed (hollow junk v) := by
  cases v <;> trivial

/-- Replacing a member is replacing in the object. -/
theorem set_key {σ : Store} (T : KeyedStore σ) {p : Place} {ms : List (Bytes × Value)} {k : Bytes} {w' : Value}
    (h : σ.get p = some (.obj .object ms)) : σ.set ⟨p.x, p.path ++ [.key k]⟩ w' = σ.set p (.obj .object (ms.map fun m => if m.1 = k then (m.1, w') else m)) := by
  obtain ⟨v, hv, hg⟩ := get_some h
  funext z
  simp only [Store.set, Store.put, hv, Option.map_some]
  rw [setAt_append (T _ _ hv) hg]
  rfl

theorem get_key {σ : Store} {p : Place} {ms : List (Bytes × Value)} {k : Bytes} (h : σ.get p = some (.obj .object ms)) :
    σ.get ⟨p.x, p.path ++ [.key k]⟩ = ms.lookup k := by
  obtain ⟨v, hv, hg⟩ := get_some h
  rw [show σ.get ⟨p.x, p.path ++ [.key k]⟩ = getAt v (p.path ++ [.key k]) by rw [Store.get, hv]; rfl, getAt_append, hg]
  simp only [Option.bind_some, getAt]
  cases ms.lookup k <;> rfl

theorem locate_append {st : State} : ∀ {p q : List Sel} {l0 : Loc}, st.locate l0 (p ++ q) = (st.locate l0 p).bind (st.locate · q)
  | [], _, _ => rfl
  | s :: p, q, l0 => by
    simp only [List.cons_append, State.locate]
    cases st.read l0 with
    | none => rfl
    | some v =>
      simp only [Option.bind_some]
      cases st.part v s with
      | none => rfl
      | some l => exact locate_append

/-! ### Members and elements -/

theorem putMember_existing {ms : List (Bytes × Value)} (hs : ms.Pairwise fun a b => a.1 < b.1) {k : Bytes} {old w : Value} (h : ms.lookup k = some old) :
    putMember k w ms = ms.map fun m => if m.1 = k then (m.1, w) else m := by
  induction ms with
  | nil => simp at h
  | cons m ms ih =>
    obtain ⟨k', m⟩ := m
    rw [List.pairwise_cons] at hs
    by_cases e : k = k'
    · subst e
      have h1 : ms.filter (fun m => decide (m.1 < k)) = [] := by
        rw [List.filter_eq_nil_iff]; intro m hm; have := hs.1 m hm; simp; exact Std.not_lt.1 (bytes_asymm this)
      have h2 : ms.filter (fun m => decide (k < m.1)) = ms := by
        rw [List.filter_eq_self]; intro m hm; simpa using hs.1 m hm
      have h3 : (ms.map fun m => if m.1 = k then (m.1, w) else m) = ms := by
        conv => rhs; rw [← List.map_id ms]
        apply List.map_congr_left
        intro m hm
        have := hs.1 m hm
        rw [if_neg]; rfl
        intro e; rw [← e] at this; exact bytes_irrefl _ this
      simp only [putMember, List.filter_cons, bytes_irrefl, decide_false, Bool.false_eq_true, if_false, h1, h2, List.map_cons, if_true, h3, List.nil_append]
    · have hl : ms.lookup k = some old := by
        rw [List.lookup_cons] at h
        have : (k == k') = false := by simp [e]
        rw [this] at h; exact h
      obtain ⟨i, _, hi⟩ := keyIndex_of_lookup hs.2 (xs := ms.map fun m => (m.1, ⟨.null, .text []⟩)) (by simp [Function.comp_def]) hl
      have hlt : k' < k := hs.1 _ (List.mem_of_getElem? hi)
      have := ih hs.2 hl
      simp only [putMember] at this
      simp only [putMember, List.filter_cons, hlt, decide_true, if_true, bytes_asymm hlt, decide_false, Bool.false_eq_true, if_false, List.map_cons,
        Ne.symm e, List.cons_append, this]

theorem putMember_sorted {ms : List (Bytes × Value)} (hs : ms.Pairwise fun a b => a.1 < b.1) (k : Bytes) (v : Value) :
    (putMember k v ms).Pairwise fun a b => a.1 < b.1 := by
  simp only [putMember, List.pairwise_append, List.pairwise_cons, List.mem_cons, List.mem_filter, decide_eq_true_eq]
  refine ⟨hs.filter _, ⟨fun m hm => hm.2, hs.filter _⟩, fun a ha b hb => ?_⟩
  rcases hb with rfl | hb
  · exact ha.2
  · exact (bytesLt_iff _ _).1 (bytesLt_trans ((bytesLt_iff _ _).2 ha.2) ((bytesLt_iff _ _).2 hb.2))

theorem mem_putMember {ms : List (Bytes × Value)} {k : Bytes} {v : Value} {m : Bytes × Value} (h : m ∈ putMember k v ms) : m = (k, v) ∨ m ∈ ms := by
  simp only [putMember, List.mem_append, List.mem_cons, List.mem_filter] at h
  rcases h with h | h | h
  · exact .inr h.1
  · exact .inl h
  · exact .inr h.1

theorem keyed_putMember {ms : List (Bytes × Value)} (h : Keyed (.obj .object ms)) (k : Bytes) {v : Value} (hv : Keyed v) : Keyed (.obj .object (putMember k v ms)) := by
  refine ⟨putMember_sorted h.1 k v, keyedMembers_iff.2 fun m hm => ?_⟩
  rcases mem_putMember hm with rfl | hm
  · exact hv
  · exact keyedMembers_iff.1 h.2 m hm

/-- Keys that are absent. -/
theorem not_mem_of_lookup {ms : List (Bytes × Value)} {k : Bytes} (h : ms.lookup k = none) : ∀ m ∈ ms, m.1 ≠ k := by
  intro m hm e
  rw [List.lookup_eq_none_iff] at h
  have := h m hm
  simp [e] at this

theorem lookup_none_of {ms : List (Bytes × Value)} {k : Bytes} (h : ∀ m ∈ ms, m.1 ≠ k) : ms.lookup k = none := by
  rw [List.lookup_eq_none_iff]; intro m hm; simpa using Ne.symm (h m hm)

theorem keyIndex_absent {ms : List (Bytes × Value)} (hs : ms.Pairwise fun a b => a.1 < b.1) {xs : List (Bytes × HVal)} {k : Bytes}
    (hk : xs.map (·.1) = ms.map (·.1)) (h : ms.lookup k = none) : keyIndex k xs = none := by
  refine keyIndex_none ?_ ?_
  · have : (xs.map (·.1)).Pairwise (· < ·) := by rw [hk, List.pairwise_map]; exact hs
    rwa [List.pairwise_map] at this
  · rw [hk]; intro hm
    obtain ⟨m, hm, e⟩ := List.mem_map.1 hm
    exact not_mem_of_lookup h m hm e

/-- Inserting a member with a new key. -/
theorem RepM.insert {h : Cells} {k : Bytes} {v : Value} {x : HVal} {D : List Addr} (hr : Rep h v x D) :
    ∀ {ms : List (Bytes × Value)} {xs : List (Bytes × HVal)} {A : List Addr}, RepM h ms xs A → (ms.Pairwise fun a b => a.1 < b.1) → ms.lookup k = none →
    ∃ A', RepM h (putMember k v ms) (RawObject.emplace k x xs).1 A' ∧ A'.Perm (A ++ D)
  | [], xs, A, hm, _, _ => by
    rw [hm.1, hm.2]
    exact ⟨D ++ [], ⟨x, [], D, [], rfl, hr, ⟨rfl, rfl⟩, rfl⟩, by simp⟩
  | (k', v') :: ms, xs, A, hm, hs, hl => by
    have hnk := not_mem_of_lookup hl
    obtain ⟨x', xs', B, C, e1, e2, e3, e4⟩ := hm
    subst e1 e4
    rw [List.pairwise_cons] at hs
    have hl' : ms.lookup k = none := lookup_none_of fun m hm => hnk m (by simp [hm])
    rcases bytesLt_cases k k' with ⟨h1, h2, _⟩ | h1 | ⟨h1, h2, h3⟩
    · have hlt := (bytesLt_iff _ _).1 h1
      have f1 : ms.filter (fun m => decide (m.1 < k)) = [] := by
        rw [List.filter_eq_nil_iff]; intro m hm
        have hm' := hs.1 m hm
        have : k < m.1 := (bytesLt_iff _ _).1 (bytesLt_trans h1 ((bytesLt_iff _ _).2 hm'))
        simp; exact Std.not_lt.1 (bytes_asymm this)
      have f2 : ms.filter (fun m => decide (k < m.1)) = ms := by
        rw [List.filter_eq_self]; intro m hm
        have hm' := hs.1 m hm
        have : k < m.1 := (bytesLt_iff _ _).1 (bytesLt_trans h1 ((bytesLt_iff _ _).2 hm'))
        simpa using this
      have e : putMember k v ((k', v') :: ms) = (k, v) :: (k', v') :: ms := by
        simp only [putMember, List.filter_cons, bytes_asymm hlt, decide_false, Bool.false_eq_true, if_false, hlt, decide_true, if_true, f1, f2, List.nil_append]
      refine ⟨D ++ (B ++ C), ?_, List.perm_append_comm⟩
      rw [e]
      simp only [RawObject.emplace, h1, if_true]
      exact ⟨x, _, D, B ++ C, rfl, hr, ⟨x', xs', B, C, rfl, e2, e3, rfl⟩, rfl⟩
    · exact absurd h1.1.symm (hnk (k', v') (by simp))
    · have hlt : k' < k := (bytesLt_iff _ _).1 (by assumption)
      obtain ⟨A', g1, g2⟩ := RepM.insert hr e3 hs.2 hl'
      have e : putMember k v ((k', v') :: ms) = (k', v') :: putMember k v ms := by
        simp only [putMember, List.filter_cons, hlt, decide_true, if_true, bytes_asymm hlt, decide_false, Bool.false_eq_true, if_false, List.cons_append]
      have hb1 : bytesLt k k' = false := by
        cases hb : bytesLt k k' with
        | false => rfl
        | true => exact absurd ((bytesLt_iff _ _).1 hb) (bytes_asymm hlt)
      have hb2 : bytesLt k' k = true := (bytesLt_iff _ _).2 hlt
      refine ⟨B ++ A', ?_, ?_⟩
      · rw [e]
        simp only [RawObject.emplace, hb1, hb2, if_true, Bool.false_eq_true, if_false]
        exact ⟨x', _, B, A', rfl, e2, g1, rfl⟩
      · rw [List.append_assoc]; exact g2.append_left B

theorem RepL.erase {h : Cells} : ∀ {vs : List Value} {xs : List HVal} {A : List Addr} {i : Nat} {v : Value}, RepL h vs xs A → vs[i]? = some v →
    ∃ x A1 Ai A2, xs[i]? = some x ∧ Rep h v x Ai ∧ A = A1 ++ Ai ++ A2 ∧ RepL h (vs.eraseIdx i) (xs.eraseIdx i) (A1 ++ A2)
  | [], _, _, _, _, _, hi => by simp at hi
  | v :: vs, _, _, 0, w, ⟨x, xs', B, C, e1, e2, e3, e4⟩, hi => by
    simp at hi; subst hi e1 e4
    exact ⟨x, [], B, C, rfl, e2, rfl, e3⟩
  | v :: vs, _, _, i + 1, w, ⟨x, xs', B, C, e1, e2, e3, e4⟩, hi => by
    simp at hi; subst e1 e4
    obtain ⟨y, A1, Ai, A2, f1, f2, f3, f4⟩ := RepL.erase e3 hi
    exact ⟨y, B ++ A1, Ai, A2, by simpa using f1, f2, by simp [f3], ⟨x, _, B, A1 ++ A2, rfl, e2, f4, by simp⟩⟩

theorem RepM.erase {h : Cells} {k : Bytes} {v : Value} : ∀ {ms : List (Bytes × Value)} {xs : List (Bytes × HVal)} {A : List Addr}, RepM h ms xs A →
    (ms.Pairwise fun a b => a.1 < b.1) → ms.lookup k = some v →
    ∃ x A1 Ai A2, RawObject.find k xs = some x ∧ Rep h v x Ai ∧ A = A1 ++ Ai ++ A2 ∧
      RepM h (ms.filter fun m => m.1 ≠ k) (RawObject.erase k xs).1 (A1 ++ A2)
  | [], _, _, _, _, hl => by simp at hl
  | (k', v') :: ms, _, _, ⟨x, xs', B, C, e1, e2, e3, e4⟩, hs, hl => by
    subst e1 e4
    rw [List.pairwise_cons] at hs
    by_cases e : k = k'
    · subst e
      simp at hl; subst hl
      have f : (ms.filter fun m => decide (m.1 ≠ k)) = ms := by
        rw [List.filter_eq_self]; intro m hm
        have := hs.1 m hm
        simp; intro e; rw [e] at this; exact bytes_irrefl _ this
      refine ⟨x, [], B, C, by simp [RawObject.find, bytesLt_irrefl], e2, rfl, ?_⟩
      rw [List.filter_cons]
      simp only [ne_eq, not_true, decide_false, Bool.false_eq_true, if_false, RawObject.erase, bytesLt_irrefl, List.nil_append]
      rw [show (ms.filter fun m => decide (¬ m.1 = k)) = ms from f]; exact e3
    · have hl' : ms.lookup k = some v := by
        rw [List.lookup_cons] at hl
        have : (k == k') = false := by simp [e]
        rw [this] at hl; exact hl
      obtain ⟨i, _, hi⟩ := keyIndex_of_lookup hs.2 (xs := ms.map fun m => (m.1, ⟨.null, .text []⟩)) (by simp [Function.comp_def]) hl'
      have hlt : k' < k := hs.1 _ (List.mem_of_getElem? hi)
      have hb1 : bytesLt k k' = false := by
        cases hb : bytesLt k k' with
        | false => rfl
        | true => exact absurd ((bytesLt_iff _ _).1 hb) (bytes_asymm hlt)
      have hb2 : bytesLt k' k = true := (bytesLt_iff _ _).2 hlt
      obtain ⟨y, A1, Ai, A2, f1, f2, f3, f4⟩ := RepM.erase e3 hs.2 hl'
      refine ⟨y, B ++ A1, Ai, A2, by simp [RawObject.find, hb1, hb2, f1], f2, by simp [f3], ?_⟩
      rw [List.filter_cons]
      simp only [ne_eq, Ne.symm e, not_false_eq_true, decide_true, if_true, RawObject.erase, hb1, hb2, Bool.false_eq_true, if_false]
      exact ⟨x, _, B, A1 ++ A2, rfl, e2, f4, by simp⟩

theorem find_absent {ms : List (Bytes × Value)} (hs : ms.Pairwise fun a b => a.1 < b.1) {xs : List (Bytes × HVal)} {k : Bytes}
    (hk : xs.map (·.1) = ms.map (·.1)) (h : ms.lookup k = none) : RawObject.find k xs = none := by
  have h1 : (xs.map (·.1)).Pairwise (· < ·) := by rw [hk, List.pairwise_map]; exact hs
  rw [List.pairwise_map] at h1
  have h2 : k ∉ xs.map (·.1) := by
    rw [hk]; intro hm
    obtain ⟨m, hm, e⟩ := List.mem_map.1 hm
    exact not_mem_of_lookup h m hm e
  clear hk h
  induction xs with
  | nil => rfl
  | cons x xs ih =>
    obtain ⟨kx, x⟩ := x
    rw [List.pairwise_cons] at h1
    simp only [List.map_cons, List.mem_cons, not_or] at h2
    simp only [RawObject.find, ih h1.2 h2.2]
    rcases bytesLt_cases k kx with h | h | h
    · simp [h]
    · exact absurd h.1 h2.1
    · by_cases h' : bytesLt k kx = true <;> simp [h]

end Meojson.Mem
