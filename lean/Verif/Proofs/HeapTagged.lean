import Verif.Proofs.HeapShift

/-! The statements keep tags right. -/

set_option autoImplicit false

namespace Meojson.Mem
open Stores

theorem taggedAll_get : ∀ {vs : List Value} {i : Nat} {v : Value}, TaggedAll vs → vs[i]? = some v → Tagged v
  | [], _, _, _, h => by simp at h
  | _ :: _, 0, _, ht, h => by simp at h; exact h ▸ ht.1
  | _ :: _, i + 1, _, ht, h => taggedAll_get ht.2 (by simpa using h)

theorem taggedMembers_get : ∀ {ms : List (Bytes × Value)} {i : Nat} {k : Bytes} {v : Value}, TaggedMembers ms → ms[i]? = some (k, v) → Tagged v
  | [], _, _, _, _, h => by simp at h
  | (_, _) :: _, 0, _, _, ht, h => by simp at h; exact h.2 ▸ ht.1
  | (_, _) :: _, i + 1, _, _, ht, h => taggedMembers_get ht.2 (by simpa using h)

theorem taggedAll_iff {vs : List Value} : TaggedAll vs ↔ ∀ v ∈ vs, Tagged v := by
  induction vs with
  | nil => simp [TaggedAll]
  | cons v vs ih => simp [TaggedAll, ih]

theorem taggedMembers_iff {ms : List (Bytes × Value)} : TaggedMembers ms ↔ ∀ m ∈ ms, Tagged m.2 := by
  induction ms with
  | nil => simp [TaggedMembers]
  | cons m ms ih => obtain ⟨k, v⟩ := m; simp [TaggedMembers, ih]

theorem tagged_getAt : ∀ {p : List Sel} {v w : Value}, Tagged v → getAt v p = some w → Tagged w
  | [], _, _, ht, h => by simp only [getAt, Option.some.injEq] at h; exact h ▸ ht
  | s :: p, v, w, ht, h => by
    cases v with
    | str => cases s <;> simp [getAt] at h
    | arrNull => cases s <;> simp [getAt] at h
    | objNull => cases s <;> simp [getAt] at h
    | arr t vs =>
      cases s with
      | key k => simp [getAt] at h
      | pos i =>
        cases t <;> simp only [getAt, reduceCtorEq] at h
        obtain ⟨v1, h1, h2⟩ := Option.bind_eq_some_iff.1 h
        exact tagged_getAt (taggedAll_get ht.2 h1) h2
    | obj t ms =>
      cases s with
      | pos k => simp [getAt] at h
      | key k =>
        cases t <;> simp only [getAt, reduceCtorEq] at h
        obtain ⟨v1, h1, h2⟩ := Option.bind_eq_some_iff.1 h
        have : (k, v1) ∈ ms := by
          obtain ⟨i, _, hi⟩ := keyIndex_of_lookup ht.2.1 (xs := ms.map fun m => (m.1, ⟨.null, .text []⟩)) (by simp [Function.comp_def]) h1
          exact List.mem_of_getElem? hi
        exact tagged_getAt (taggedMembers_iff.1 ht.2.2 _ this) h2

theorem tagged_setAt {w' : Value} (hw : Tagged w') : ∀ {p : List Sel} {v w : Value}, Tagged v → getAt v p = some w → Tagged (setAt v p w')
  | [], _, _, _, _ => hw
  | s :: p, v, w, ht, h => by
    cases v with
    | str => cases s <;> simp [getAt] at h
    | arrNull => cases s <;> simp [getAt] at h
    | objNull => cases s <;> simp [getAt] at h
    | arr t vs =>
      cases s with
      | key k => simp [getAt] at h
      | pos i =>
        cases t <;> simp only [getAt, reduceCtorEq] at h
        obtain ⟨v1, h1, h2⟩ := Option.bind_eq_some_iff.1 h
        refine ⟨rfl, taggedAll_iff.2 fun u hu => ?_⟩
        obtain ⟨j, hj⟩ := List.getElem?_of_mem hu
        rw [List.getElem?_modify] at hj
        by_cases hij : i = j
        · subst hij; simp [h1] at hj; subst hj; exact tagged_setAt hw (taggedAll_get ht.2 h1) h2
        · simp [hij] at hj; exact taggedAll_iff.1 ht.2 _ (List.mem_of_getElem? hj)
    | obj t ms =>
      cases s with
      | pos k => simp [getAt] at h
      | key k =>
        cases t <;> simp only [getAt, reduceCtorEq] at h
        obtain ⟨v1, h1, h2⟩ := Option.bind_eq_some_iff.1 h
        obtain ⟨i, _, hi⟩ := keyIndex_of_lookup ht.2.1 (xs := ms.map fun m => (m.1, ⟨.null, .text []⟩)) (by simp [Function.comp_def]) h1
        refine ⟨rfl, ?_, taggedMembers_iff.2 fun m hm => ?_⟩
        · rw [List.pairwise_map]
          refine ht.2.1.imp fun {a b} hab => ?_
          split <;> split <;> exact hab
        · rw [map_eq_set ht.2.1 hi (fun u => setAt u p w')] at hm
          rcases List.mem_or_eq_of_mem_set hm with h | h
          · exact taggedMembers_iff.1 ht.2.2 _ h
          · rw [h]; exact tagged_setAt hw (taggedMembers_get ht.2.2 hi) h2

theorem tagged_get {σ : Store} (T : TaggedStore σ) {p : Place} {w : Value} (h : σ.get p = some w) : Tagged w := by
  obtain ⟨v, hv, hg⟩ := get_some h; exact tagged_getAt (T _ _ hv) hg

theorem tagged_set {σ : Store} (T : TaggedStore σ) {p : Place} {w w' : Value} (h : σ.get p = some w) (hw : Tagged w') : TaggedStore (σ.set p w') := by
  obtain ⟨v, hv, hg⟩ := get_some h
  intro x u hu
  simp only [Store.set, Store.put] at hu
  split at hu
  · next e => simp only [hv, Option.map_some, Option.some.injEq] at hu; subst hu; exact tagged_setAt hw (T _ _ hv) hg
  · exact T _ _ hu

theorem tagged_put {σ : Store} (T : TaggedStore σ) {x : Nat} {v : Value} (hv : Tagged v) : TaggedStore (σ.put x (some v)) := by
  intro z u hu
  simp only [Store.put] at hu
  split at hu
  · cases hu; exact hv
  · exact T _ _ hu

theorem tagged_put_none {σ : Store} (T : TaggedStore σ) {x : Nat} : TaggedStore (σ.put x none) := by
  intro z u hu
  simp only [Store.put] at hu
  split at hu
  · cases hu
  · exact T _ _ hu

theorem tagged_hollow {v : Value} (h : Tagged v) (junk : Bytes) : Tagged (hollow junk v) := by
  cases v <;> first | exact h | exact h.1

theorem tagged_putMember {ms : List (Bytes × Value)} (h : Tagged (.obj .object ms)) (k : Bytes) {v : Value} (hv : Tagged v) : Tagged (.obj .object (putMember k v ms)) := by
  refine ⟨rfl, putMember_sorted h.2.1 k v, taggedMembers_iff.2 fun m hm => ?_⟩
  rcases mem_putMember hm with rfl | hm
  · exact hv
  · exact taggedMembers_iff.1 h.2.2 m hm

theorem tagged_putMembers {ws : List (Bytes × Value)} : ∀ {ms : List (Bytes × Value)}, Tagged (.obj .object ms) → TaggedMembers ws →
    Tagged (.obj .object (putMembers ws ms)) := by
  induction ws with
  | nil => intro ms h _; exact h
  | cons w ws ih => intro ms h hw; exact ih (tagged_putMember h w.1 hw.1) hw.2

theorem tagged_members {v : Value} {ms : List (Bytes × Value)} (h : Members v ms) (ht : Tagged v) : Tagged (.obj .object ms) := by
  rcases h with ⟨_, h⟩ | h
  · subst h; exact ⟨rfl, List.Pairwise.nil, trivial⟩
  · subst h; exact ht

theorem tagged_elems {v : Value} {vs : List Value} (h : Elems v vs) (ht : Tagged v) : Tagged (.arr .array vs) := by
  rcases h with ⟨_, h⟩ | h
  · subst h; exact ⟨rfl, trivial⟩
  · subst h; exact ht

theorem tagged_hollowElems {vs : List Value} (h : Tagged (.arr .array vs)) (junk : Nat → Bytes) : Tagged (.arr .array (hollowElems junk vs)) :=
  ⟨rfl, taggedAll_iff.2 fun x hx => by
    simp only [hollowElems, List.mem_mapIdx] at hx
    obtain ⟨i, hi, rfl⟩ := hx
    exact tagged_hollow (taggedAll_iff.1 h.2 _ (List.getElem_mem hi)) _⟩

theorem tagged_hollowMembers {ws1 ws2 : List (Bytes × Value)} (h : Tagged (.obj .object (ws1 ++ ws2))) (junk : Bytes → Bytes) :
    Tagged (.obj .object (hollowMembers junk ws1 ++ ws2)) := by
  obtain ⟨_, h2, h3⟩ := h
  refine ⟨rfl, ?_, taggedMembers_iff.2 fun m hm => ?_⟩
  · rw [List.pairwise_append] at h2 ⊢
    refine ⟨?_, h2.2.1, ?_⟩
    · rw [hollowMembers, List.pairwise_map]; exact h2.1
    · intro a ha b hb
      simp only [hollowMembers, List.mem_map] at ha
      obtain ⟨m, hm, rfl⟩ := ha
      exact h2.2.2 m hm b hb
  · rcases List.mem_append.1 hm with hm | hm
    · simp only [hollowMembers, List.mem_map] at hm
      obtain ⟨m, hm1, rfl⟩ := hm
      exact tagged_hollow (taggedMembers_iff.1 h3 m (List.mem_append_left _ hm1)) _
    · exact taggedMembers_iff.1 h3 m (by simp [hm])

theorem tagged_append {vs ws : List Value} (h : Tagged (.arr .array vs)) (hw : Tagged (.arr .array ws)) : Tagged (.arr .array (vs ++ ws)) :=
  ⟨rfl, taggedAll_iff.2 fun u hu => by
    rcases List.mem_append.1 hu with h' | h'
    · exact taggedAll_iff.1 h.2 u h'
    · exact taggedAll_iff.1 hw.2 u h'⟩

theorem step_tagged {σ : Store} (T : TaggedStore σ) {op : Op} {σ' : Store} (h : Step σ op σ') : TaggedStore σ' := by
  induction h with
  | init hx hv => exact tagged_put T hv
  | copyInit hx hs hw => exact tagged_put T (tagged_get T hs)
  | moveInit hx hs => exact tagged_put (tagged_set T hs (tagged_hollow (tagged_get T hs) _)) (tagged_get T hs)
  | copyAssign hd hs hw hin => exact tagged_set T hd (tagged_get T hs)
  | assign hd hv => exact tagged_set T hd hv
  | moveAssign hd hs h1 h2 h3 =>
    have ha := apart_of h1 h2 h3
    exact tagged_set (tagged_set T hs (tagged_hollow (tagged_get T hs) _))
      ((get_set_other hs ⟨fun ⟨e, h⟩ => ha.2 ⟨e.symm, h⟩, fun ⟨e, h⟩ => ha.1 ⟨e.symm, h⟩⟩).trans hd) (tagged_get T hs)
  | moveAssignPart hd hs h1 h2 => exact tagged_set T hd (tagged_get T hs)
  | moveAssignSelf hd =>
    refine tagged_set T hd ?_
    split
    · exact tagged_hollow (tagged_get T hd) _
    · exact tagged_get T hd
  | index hp hv =>
    have := tagged_members hv (tagged_get T hp)
    refine tagged_set T hp ?_
    split
    · exact this
    · exact tagged_putMember this _ (by trivial)
  | emplaceBack hp hv hs hw hwh =>
    have ht := tagged_elems hv (tagged_get T hp)
    exact tagged_set T hp (tagged_append ht ⟨rfl, tagged_get (tagged_set T hp ht) hw, trivial⟩)
  | emplaceKey hp hv hs hw hwh hin =>
    have ht := tagged_members hv (tagged_get T hp)
    exact tagged_set T hp (tagged_putMember ht _ (tagged_get (tagged_set T hp ht) hw))
  | erasePos hp hv =>
    have ht := tagged_elems hv (tagged_get T hp)
    exact tagged_set T hp ⟨rfl, taggedAll_iff.2 fun u hu => taggedAll_iff.1 ht.2 u (List.mem_of_mem_eraseIdx hu)⟩
  | eraseKey hp hv =>
    have ht := tagged_members hv (tagged_get T hp)
    exact tagged_set T hp ⟨rfl, ht.2.1.filter _, taggedMembers_iff.2 fun u hu => taggedMembers_iff.1 ht.2.2 u ((List.mem_filter.1 hu).1)⟩
  | append hp hv hs hne hw hwh =>
    have ht := tagged_elems hv (tagged_get T hp)
    exact tagged_set T hp (tagged_append ht (tagged_get (tagged_set T hp ht) hw))
  | merge hp hv hs ha hw => exact tagged_set T hp (tagged_putMembers (tagged_members hv (tagged_get T hp)) (tagged_get T hs).2.2)
  | mergeSelf hp hne hw => exact T
  | asArray hp hv => exact tagged_set T hp (tagged_elems hv (tagged_get T hp))
  | asObject hp hv => exact tagged_set T hp (tagged_members hv (tagged_get T hp))
  | emplaceBackMove hp hs hn hv he =>
    have T1 := tagged_set T hs (tagged_hollow (tagged_get T hs) ‹_›)
    exact tagged_set T1 hv (tagged_append (tagged_elems he (tagged_get T1 hv)) ⟨rfl, tagged_get T hs, trivial⟩)
  | emplaceKeyMove hp hs hn hv he hk =>
    have T1 := tagged_set T hs (tagged_hollow (tagged_get T hs) ‹_›)
    exact tagged_set T1 hv (tagged_putMember (tagged_members he (tagged_get T1 hv)) _ (tagged_get T hs))
  | emplaceKeyMoveOld hp hk h ih => exact ih
  | appendMove hp hs hn hv he =>
    have T1 := tagged_set T hs (tagged_hollowElems (tagged_get T hs) ‹_›)
    exact tagged_set T1 hv (tagged_append (tagged_elems he (tagged_get T1 hv)) (tagged_get T hs))
  | mergeMove hp hv hs ha =>
    have T1 := tagged_set T hs (tagged_hollowMembers (ws2 := []) (by simpa using tagged_get T hs) ‹_›)
    rw [List.append_nil] at T1
    exact tagged_set T1 ((get_set_other hs ha.symm).trans hp) (tagged_putMembers (tagged_members hv (tagged_get T hp)) (tagged_get T hs).2.2)
  | drop hx => exact tagged_put_none T

theorem tagged_empty : TaggedStore Store.empty := fun _ _ h => by cases h

theorem steps_tagged : ∀ {ops : List Op} {σ σ' : Store}, TaggedStore σ → Steps σ ops σ' → TaggedStore σ'
  | [], _, _, T, h => by cases h; exact T
  | _ :: _, _, _, T, h => by
    cases h with
    | cons h1 h2 => exact steps_tagged (step_tagged T h1) h2
    | refused _ h2 => exact steps_tagged T h2

end Meojson.Mem
