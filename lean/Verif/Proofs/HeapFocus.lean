import Verif.Proofs.HeapRep

/-! Parts of represented values: where they lie, and what replacing one does. -/

set_option autoImplicit false

namespace Meojson.Mem
open Stores

/-! ### Locations -/

/-- The cell a location lies in. -/
def Loc.In (l : Loc) (A : List Addr) : Prop := ∃ a i, l = .child a i ∧ a ∈ A

theorem Loc.In.mono {l : Loc} {A B : List Addr} (h : l.In A) (hs : ∀ a ∈ A, a ∈ B) : l.In B := by
  obtain ⟨a, i, e, ha⟩ := h; exact ⟨a, i, e, hs a ha⟩

theorem not_in_nil {l : Loc} : ¬ l.In [] := by rintro ⟨_, _, _, h⟩; simp at h

theorem write_cell_off {st : State} {l : Loc} {x : HVal} {c : Addr} (h : ¬ l.In [c]) : (st.write l x).heap.cell c = st.heap.cell c := by
  cases l with
  | var y => rfl
  | child a i =>
    have : c ≠ a := fun e => h ⟨a, i, rfl, by simp [e]⟩
    simp [State.write, Heap.set, this]

theorem write_cell_off' {st : State} {l : Loc} {x : HVal} {A : List Addr} (h : ¬ l.In A) {c : Addr} (hc : c ∈ A) :
    (st.write l x).heap.cell c = st.heap.cell c :=
  write_cell_off fun hi => h (hi.mono fun a ha => by simp at ha; subst ha; exact hc)

@[simp] theorem write_next (st : State) (l : Loc) (x : HVal) : (st.write l x).heap.next = st.heap.next := by cases l <;> rfl

theorem setChild_children (c : Cell) (i : Nat) (x : HVal) : (c.setChild i x).children = c.children.set i x := by
  cases c with
  | arr vs => rfl
  | obj ms =>
    simp only [Cell.setChild, Cell.children]
    apply List.ext_getElem?
    intro j
    simp only [List.getElem?_map, List.getElem?_modify, List.getElem?_set, List.length_map]
    by_cases h : i = j
    · subst h
      cases hm : ms[i]? with
      | none => simp [List.getElem?_eq_none_iff.1 hm]
      | some m => simp [List.getElem?_eq_some_iff.1 hm |>.1]
    · simp [h]

theorem read_write_same {st : State} {l : Loc} {x y : HVal} (h : st.read l = some y) : (st.write l x).read l = some x := by
  cases l with
  | var z => simp [State.read, State.write]
  | child a i =>
    simp only [State.read, State.write, Heap.set, if_true] at h ⊢
    cases hc : st.heap.cell a with
    | none => rw [hc] at h; simp at h
    | some c =>
      rw [hc] at h
      simp only [Option.bind_some] at h
      have := (List.getElem?_eq_some_iff.1 h).1
      simp [setChild_children, this]

theorem read_write_other {st : State} {l l' : Loc} {x : HVal} (h : l ≠ l') : (st.write l x).read l' = st.read l' := by
  cases l with
  | var z =>
    cases l' with
    | var y =>
      have : y ≠ z := fun e => h (by rw [e])
      simp [State.read, State.write, this]
    | child a i => rfl
  | child a i =>
    cases l' with
    | var y => rfl
    | child b j =>
      simp only [State.read, State.write, Heap.set]
      by_cases hb : b = a
      · subst hb
        have hij : i ≠ j := fun e => h (by rw [e])
        cases hc : st.heap.cell b with
        | none => simp
        | some c => simp [setChild_children, hij]
      · simp [hb]

/-- Writing back what is there. -/
theorem write_read {st : State} {l : Loc} {x : HVal} (h : st.read l = some x) : st.write l x = st := by
  cases l with
  | var z =>
    simp only [State.read] at h
    simp only [State.write]
    congr 1
    funext y
    split
    · next e => rw [e, h]
    · rfl
  | child a i =>
    simp only [State.read] at h
    cases hc : st.heap.cell a with
    | none => rw [hc] at h; simp at h
    | some c =>
      rw [hc] at h
      simp only [Option.bind_some] at h
      have hs : c.setChild i x = c := by
        cases c with
        | arr vs =>
          simp only [Cell.setChild]; congr 1
          obtain ⟨hi, h⟩ := List.getElem?_eq_some_iff.1 h
          rw [← h]; exact List.set_getElem_self hi
        | obj ms =>
          simp only [Cell.setChild]; congr 1
          apply List.ext_getElem?
          intro j
          rw [List.getElem?_modify]
          by_cases hij : i = j
          · subst hij
            simp only [Cell.children, List.getElem?_map] at h
            cases hm : ms[i]? with
            | none => simp
            | some m => rw [hm] at h; simp at h; simp [← h]
          · simp [hij]
      simp only [State.write, hc, Option.map_some, hs]
      obtain ⟨⟨cell, next⟩, var⟩ := st
      simp only [Heap.set] at hc ⊢
      congr 2
      funext b
      split
      · next e => rw [e, hc]
      · rfl

theorem setChild_setChild (c : Cell) (i : Nat) (x y : HVal) : (c.setChild i x).setChild i y = c.setChild i y := by
  cases c with
  | arr vs => simp [Cell.setChild]
  | obj ms =>
    simp only [Cell.setChild]; congr 1
    apply List.ext_getElem?
    intro j
    simp only [List.getElem?_modify]
    by_cases h : i = j <;> simp [h]
    cases ms[j]? <;> rfl

theorem write_write (st : State) (l : Loc) (x y : HVal) : (st.write l x).write l y = st.write l y := by
  cases l with
  | var z =>
    simp only [State.write]; congr 1; funext w; split <;> rfl
  | child a i =>
    simp only [State.write, Heap.set, if_true]
    congr 2
    funext b
    split
    · cases st.heap.cell a <;> simp [setChild_setChild]
    · rfl

/-! ### Elements and members -/

theorem RepL.nth {h : Cells} : ∀ {vs : List Value} {xs : List HVal} {A : List Addr} {i : Nat} {v : Value}, RepL h vs xs A → vs[i]? = some v →
    ∃ x A1 Ai A2, xs[i]? = some x ∧ Rep h v x Ai ∧ A = A1 ++ Ai ++ A2 ∧
      (∀ (g : Cells) (v' : Value) (x' : HVal) (Ai' : List Addr), (∀ a ∈ A1 ++ A2, g a = h a) → Rep g v' x' Ai' →
        RepL g (vs.set i v') (xs.set i x') (A1 ++ Ai' ++ A2)) ∧
      ∀ j u, j ≠ i → vs[j]? = some u → ∃ y Aj, xs[j]? = some y ∧ Rep h u y Aj ∧ Aj.Sublist (A1 ++ A2)
  | [], _, _, _, _, _, hi => by simp at hi
  | v :: vs, _, _, 0, w, ⟨x, xs', B, C, e1, e2, e3, e4⟩, hi => by
    simp at hi; subst hi e1 e4
    refine ⟨x, [], B, C, rfl, e2, rfl, fun g v' x' Ai' hg hr => ⟨x', xs', Ai', C, rfl, hr, e3.frame fun a ha => hg a (by simpa using ha), rfl⟩,
      fun j u hj hu => ?_⟩
    cases j with
    | zero => exact absurd rfl hj
    | succ j =>
      obtain ⟨y, A1, Aj, A2, g1, g2, g3, _⟩ := RepL.nth e3 (i := j) (by simpa using hu)
      exact ⟨y, Aj, by simpa using g1, g2, by rw [g3]; simp only [List.nil_append, List.append_assoc]; exact (List.sublist_append_left _ _).trans (List.sublist_append_right _ _)⟩
  | v :: vs, _, _, i + 1, w, ⟨x, xs', B, C, e1, e2, e3, e4⟩, hi => by
    simp at hi; subst e1 e4
    obtain ⟨y, A1, Ai, A2, f1, f2, f3, f4, f5⟩ := RepL.nth e3 hi
    refine ⟨y, B ++ A1, Ai, A2, by simpa using f1, f2, by simp [f3], fun g v' x' Ai' hg hr => ?_, fun j u hj hu => ?_⟩
    rotate_left
    · cases j with
      | zero => simp at hu; subst hu; exact ⟨x, B, rfl, e2, by rw [List.append_assoc]; exact List.sublist_append_left _ _⟩
      | succ j =>
        obtain ⟨y, Aj, g1, g2, g3⟩ := f5 j u (by omega) (by simpa using hu)
        exact ⟨y, Aj, by simpa using g1, g2, by rw [List.append_assoc]; exact g3.trans (List.sublist_append_right _ _)⟩
    refine ⟨x, xs'.set i x', B, A1 ++ Ai' ++ A2, rfl, e2.frame fun a ha => hg a (by simp [ha]), f4 g v' x' Ai' (fun a ha => hg a ?_) hr, by simp⟩
    simp at ha ⊢; exact .inr ha

/-- The slot of a key. -/
theorem keyIndex_of_lookup {ms : List (Bytes × Value)} (hs : ms.Pairwise fun a b => a.1 < b.1) : ∀ {xs : List (Bytes × HVal)} {k : Bytes} {v : Value},
    xs.map (·.1) = ms.map (·.1) → ms.lookup k = some v →
    ∃ i, keyIndex k xs = some i ∧ ms[i]? = some (k, v) := by
  induction ms with
  | nil => intro xs k v _ h; simp at h
  | cons m ms ih =>
    obtain ⟨k', v'⟩ := m
    intro xs k v hk hl
    cases xs with
    | nil => simp at hk
    | cons x xs =>
      obtain ⟨kx, x⟩ := x
      simp only [List.map_cons, List.cons.injEq] at hk
      obtain ⟨rfl, hk⟩ := hk
      rw [List.pairwise_cons] at hs
      by_cases e : k = kx
      · subst e
        simp at hl
        refine ⟨0, ?_, by simp [hl]⟩
        simp [keyIndex, bytesLt_irrefl]
      · have hl' : ms.lookup k = some v := by
          rw [List.lookup_cons] at hl
          have : (k == kx) = false := by simp [e]
          rw [this] at hl; exact hl
        obtain ⟨i, h1, h2⟩ := ih hs.2 hk hl'
        have hlt : kx < k := hs.1 (k, v) (List.mem_of_getElem? h2)
        refine ⟨i + 1, ?_, by simpa using h2⟩
        have h3 : bytesLt kx k = true := (bytesLt_iff _ _).2 hlt
        have h4 : bytesLt k kx = false := by
          cases hb : bytesLt k kx with
          | false => rfl
          | true => have := bytesLt_trans h3 hb; rw [bytesLt_irrefl] at this; cases this
        simp [keyIndex, h3, h4, h1]

theorem keyIndex_none {xs : List (Bytes × HVal)} {k : Bytes} (hs : xs.Pairwise fun a b => a.1 < b.1) (hk : k ∉ xs.map (·.1)) : keyIndex k xs = none := by
  induction xs with
  | nil => rfl
  | cons x xs ih =>
    obtain ⟨kx, x⟩ := x
    rw [List.pairwise_cons] at hs
    simp only [List.map_cons, List.mem_cons, not_or] at hk
    simp only [keyIndex, ih hs.2 hk.2]
    rcases bytesLt_cases k kx with h | h | h
    · simp [h]
    · exact absurd h.1 hk.1
    · by_cases h' : bytesLt k kx = true <;> simp [h]

theorem keyIndex_lt {xs : List (Bytes × HVal)} {k : Bytes} {i : Nat} (h : keyIndex k xs = some i) : i < xs.length := by
  induction xs generalizing i with
  | nil => simp [keyIndex] at h
  | cons x xs ih =>
    obtain ⟨kx, x⟩ := x
    simp only [keyIndex] at h
    split at h
    · cases h
    · split at h
      · cases hk : keyIndex k xs with
        | none => rw [hk] at h; simp at h
        | some j => rw [hk] at h; simp at h; subst h; simp; exact ih hk
      · cases h; simp

theorem keyIndex_congr {xs ys : List (Bytes × HVal)} {k : Bytes} (h : xs.map (·.1) = ys.map (·.1)) : keyIndex k xs = keyIndex k ys := by
  induction xs generalizing ys with
  | nil => cases ys with
    | nil => rfl
    | cons y ys => simp at h
  | cons x xs ih =>
    cases ys with
    | nil => simp at h
    | cons y ys =>
      obtain ⟨kx, x⟩ := x; obtain ⟨ky, y⟩ := y
      simp only [List.map_cons, List.cons.injEq] at h
      obtain ⟨rfl, h⟩ := h
      simp only [keyIndex, ih h]

theorem RepM.nth {h : Cells} : ∀ {ms : List (Bytes × Value)} {xs : List (Bytes × HVal)} {A : List Addr} {i : Nat} {k : Bytes} {v : Value},
    RepM h ms xs A → ms[i]? = some (k, v) →
    ∃ x A1 Ai A2, xs[i]? = some (k, x) ∧ Rep h v x Ai ∧ A = A1 ++ Ai ++ A2 ∧
      (∀ (g : Cells) (v' : Value) (x' : HVal) (Ai' : List Addr), (∀ a ∈ A1 ++ A2, g a = h a) → Rep g v' x' Ai' →
        RepM g (ms.set i (k, v')) (xs.modify i fun m => (m.1, x')) (A1 ++ Ai' ++ A2)) ∧
      ∀ j k' u, j ≠ i → ms[j]? = some (k', u) → ∃ y Aj, xs[j]? = some (k', y) ∧ Rep h u y Aj ∧ Aj.Sublist (A1 ++ A2)
  | [], _, _, _, _, _, _, hi => by simp at hi
  | (k', v) :: vs, _, _, 0, k, w, ⟨x, xs', B, C, e1, e2, e3, e4⟩, hi => by
    simp at hi; obtain ⟨hi1, hi2⟩ := hi; subst hi1 hi2 e1 e4
    refine ⟨x, [], B, C, rfl, e2, rfl, fun g v' x' Ai' hg hr => ⟨x', xs', Ai', C, rfl, hr, e3.frame fun a ha => hg a (by simpa using ha), rfl⟩,
      fun j k' u hj hu => ?_⟩
    cases j with
    | zero => exact absurd rfl hj
    | succ j =>
      obtain ⟨y, A1, Aj, A2, g1, g2, g3, _⟩ := RepM.nth e3 (i := j) (by simpa using hu)
      exact ⟨y, Aj, by simpa using g1, g2, by rw [g3]; simp only [List.nil_append, List.append_assoc]; exact (List.sublist_append_left _ _).trans (List.sublist_append_right _ _)⟩
  | (k', v) :: vs, _, _, i + 1, k, w, ⟨x, xs', B, C, e1, e2, e3, e4⟩, hi => by
    simp at hi; subst e1 e4
    obtain ⟨y, A1, Ai, A2, f1, f2, f3, f4, f5⟩ := RepM.nth e3 hi
    refine ⟨y, B ++ A1, Ai, A2, by simpa using f1, f2, by simp [f3], fun g v' x' Ai' hg hr => ?_, fun j k' u hj hu => ?_⟩
    rotate_left
    · cases j with
      | zero => simp at hu; obtain ⟨rfl, rfl⟩ := hu; exact ⟨x, B, rfl, e2, by rw [List.append_assoc]; exact List.sublist_append_left _ _⟩
      | succ j =>
        obtain ⟨y, Aj, g1, g2, g3⟩ := f5 j k' u (by omega) (by simpa using hu)
        exact ⟨y, Aj, by simpa using g1, g2, by rw [List.append_assoc]; exact g3.trans (List.sublist_append_right _ _)⟩
    refine ⟨x, _, B, A1 ++ Ai' ++ A2, rfl, e2.frame fun a ha => hg a (by simp [ha]), f4 g v' x' Ai' (fun a ha => hg a ?_) hr, by simp⟩
    simp at ha ⊢; exact .inr ha

/-- Replacing the member with a key, in sorted members. -/
theorem map_eq_set {ms : List (Bytes × Value)} (hs : ms.Pairwise fun a b => a.1 < b.1) {i : Nat} {k : Bytes} {v : Value} (hi : ms[i]? = some (k, v))
    (f : Value → Value) : (ms.map fun m => if m.1 = k then (m.1, f m.2) else m) = ms.set i (k, f v) := by
  have irr : ∀ a : Bytes, ¬ a < a := fun a h => by
    have := (bytesLt_iff a a).2 h; rw [bytesLt_irrefl] at this; cases this
  induction ms generalizing i with
  | nil => simp at hi
  | cons m ms ih =>
    rw [List.pairwise_cons] at hs
    cases i with
    | zero =>
      simp at hi; subst hi
      simp only [List.map_cons, if_true, List.set_cons_zero, List.cons.injEq, true_and]
      conv => rhs; rw [← List.map_id ms]
      apply List.map_congr_left
      intro m hm
      have := hs.1 m hm
      rw [if_neg]; rfl
      intro e; simp only [← e] at this; exact irr _ this
    | succ i =>
      simp at hi
      have hne : m.1 ≠ k := fun e => by
        have := hs.1 _ (List.mem_of_getElem? hi); rw [e] at this; exact irr _ this
      simp only [List.map_cons, if_neg hne, List.set_cons_succ, ih hs.2 hi]

theorem keyedAll_get : ∀ {vs : List Value} {i : Nat} {v : Value}, KeyedAll vs → vs[i]? = some v → Keyed v
  | [], _, _, _, h => by simp at h
  | _ :: _, 0, _, ht, h => by simp at h; exact h ▸ ht.1
  | _ :: _, i + 1, _, ht, h => keyedAll_get ht.2 (by simpa using h)
theorem keyedMembers_get : ∀ {ms : List (Bytes × Value)} {i : Nat} {k : Bytes} {v : Value}, KeyedMembers ms → ms[i]? = some (k, v) → Keyed v
  | [], _, _, _, _, h => by simp at h
  | (_, _) :: _, 0, _, _, ht, h => by simp at h; exact h.2 ▸ ht.1
  | (_, _) :: _, i + 1, _, _, ht, h => keyedMembers_get ht.2 (by simpa using h)

/-- The parts that a step names do not depend on what the other parts are. -/
theorem part_setChild {st st' : State} {x : HVal} {a i : Nat} {y : HVal} (hx : x.raw = .arr (some a) ∨ x.raw = .obj (some a))
    (h : st'.heap.cell a = (st.heap.cell a).map (·.setChild i y)) (s : Sel) : st'.part x s = st.part x s := by
  obtain ⟨t, r⟩ := x
  simp only at hx
  rcases hx with rfl | rfl <;> cases s <;> cases t <;> simp only [State.part, h]
  · cases st.heap.cell a with
    | none => rfl
    | some c => cases c <;> simp [Cell.setChild]
  · cases st.heap.cell a with
    | none => rfl
    | some c =>
      cases c with
      | arr vs => rfl
      | obj ms =>
        simp only [Cell.setChild, Option.map_some]
        rw [keyIndex_congr (ys := ms)]
        apply List.ext_getElem?
        intro j
        simp only [List.getElem?_map, List.getElem?_modify]
        by_cases hij : i = j <;> simp [hij, Function.comp_def]

theorem part_congr {st st' : State} {x : HVal} {a : Nat} (hx : x.raw = .arr (some a) ∨ x.raw = .obj (some a))
    (h : st'.heap.cell a = st.heap.cell a) (s : Sel) : st'.part x s = st.part x s := by
  obtain ⟨t, r⟩ := x
  simp only at hx
  rcases hx with rfl | rfl <;> cases s <;> cases t <;> simp only [State.part, h]

theorem getAt_arr {t : VType} {vs : List Value} {s : Sel} {path : List Sel} {w : Value} (h : getAt (.arr t vs) (s :: path) = some w) : t = .array := by
  cases t <;> cases s <;> first | rfl | simp [getAt] at h

theorem getAt_obj {t : VType} {ms : List (Bytes × Value)} {s : Sel} {path : List Sel} {w : Value} (h : getAt (.obj t ms) (s :: path) = some w) : t = .object := by
  cases t <;> cases s <;> first | rfl | simp [getAt] at h

/-- One step into a value. -/
theorem Rep.child {st : State} {v : Value} {x : HVal} {A : List Addr} (hr : Rep st.heap.cell v x A) (ht : Keyed v) {s : Sel} {path : List Sel} {w : Value}
    (hg : getAt v (s :: path) = some w) :
    ∃ a c i v1 y A1 Ai A2, (x.raw = .arr (some a) ∨ x.raw = .obj (some a)) ∧ st.heap.cell a = some c ∧ c.children[i]? = some y ∧
      st.part x s = some (.child a i) ∧ getAt v1 path = some w ∧ Keyed v1 ∧ Rep st.heap.cell v1 y Ai ∧ A = a :: (A1 ++ Ai ++ A2) ∧
      getAt v [s] = some v1 ∧
      (∀ (g : Cells) (p : List Sel) (w' : Value) (y' : HVal) (Ai' : List Addr), g a = some (c.setChild i y') → (∀ b ∈ A1 ++ A2, g b = st.heap.cell b) →
        Rep g (setAt v1 p w') y' Ai' → Rep g (setAt v (s :: p) w') x (a :: (A1 ++ Ai' ++ A2))) ∧
      (∀ (t : Sel) (q : List Sel) (u : Value), t ≠ s → getAt v (t :: q) = some u →
        ∃ j u1 z Aj, j ≠ i ∧ c.children[j]? = some z ∧ st.part x t = some (.child a j) ∧ getAt u1 q = some u ∧ Keyed u1 ∧ Rep st.heap.cell u1 z Aj ∧
          Aj.Sublist (A1 ++ A2)) := by
  cases v with
  | str => cases s <;> simp [getAt] at hg
  | arrNull => cases s <;> simp [getAt] at hg
  | objNull => cases s <;> simp [getAt] at hg
  | arr t vs =>
    obtain rfl := getAt_arr hg
    change KeyedAll vs at ht
    obtain ⟨a, xs, B, e1, e2, e3, e4⟩ := hr
    subst e1 e4
    cases s with
    | key k => simp [getAt] at hg
    | pos i =>
      simp only [getAt] at hg
      obtain ⟨v1, h1, h2⟩ := Option.bind_eq_some_iff.1 hg
      obtain ⟨y, A1, Ai, A2, f1, f2, f3, f4, f5⟩ := e3.nth h1
      have hi := (List.getElem?_eq_some_iff.1 f1).1
      refine ⟨a, _, i, v1, y, A1, Ai, A2, .inl rfl, e2, f1, by simp [State.part, e2, hi], h2, keyedAll_get ht h1, f2, by rw [f3], by simp [getAt, h1], ?_, ?_⟩
      · intro g p w' y' Ai' ga gb hr
        refine ⟨a, xs.set i y', _, rfl, ga, ?_, rfl⟩
        have : (vs.modify i fun x => setAt x p w') = vs.set i (setAt v1 p w') := by
          apply List.ext_getElem?
          intro j
          rw [List.getElem?_modify, List.getElem?_set]
          by_cases hij : i = j
          · subst hij; obtain ⟨hlt, he⟩ := List.getElem?_eq_some_iff.1 h1; simp [hlt, he]
          · simp [hij]
        rw [this]
        exact f4 g _ y' Ai' gb hr
      · intro t q u htne hu
        cases t with
        | key k => simp [getAt] at hu
        | pos j =>
          simp only [getAt] at hu
          obtain ⟨u1, h3, h4⟩ := Option.bind_eq_some_iff.1 hu
          have hij : j ≠ i := fun e => htne (by rw [e])
          obtain ⟨z, Aj, g1, g2, g3⟩ := f5 j u1 hij h3
          have hj := (List.getElem?_eq_some_iff.1 g1).1
          exact ⟨j, u1, z, Aj, hij, g1, by simp [State.part, e2, hj], h4, keyedAll_get ht h3, g2, g3⟩
  | obj t ms =>
    obtain rfl := getAt_obj hg
    obtain ⟨hs, ht⟩ := ht
    obtain ⟨a, xs, B, e1, e2, e3, e4⟩ := hr
    subst e1 e4
    cases s with
    | pos k => simp [getAt] at hg
    | key k =>
      simp only [getAt] at hg
      obtain ⟨v1, h1, h2⟩ := Option.bind_eq_some_iff.1 hg
      obtain ⟨i, hk, hi⟩ := keyIndex_of_lookup hs e3.keys h1
      obtain ⟨y, A1, Ai, A2, f1, f2, f3, f4, f5⟩ := e3.nth hi
      refine ⟨a, _, i, v1, y, A1, Ai, A2, .inr rfl, e2, by simp [Cell.children, f1], by simp [State.part, e2, hk], h2, keyedMembers_get ht hi, f2, by rw [f3],
        by simp [getAt, h1], ?_, ?_⟩
      · intro g p w' y' Ai' ga gb hr
        refine ⟨a, _, _, rfl, ga, ?_, rfl⟩
        rw [map_eq_set hs hi (fun u => setAt u p w')]
        exact f4 g _ y' Ai' gb hr
      · intro t q u htne hu
        cases t with
        | pos k => simp [getAt] at hu
        | key k' =>
          simp only [getAt] at hu
          obtain ⟨u1, h3, h4⟩ := Option.bind_eq_some_iff.1 hu
          obtain ⟨j, hk', hj⟩ := keyIndex_of_lookup hs e3.keys h3
          have hij : j ≠ i := fun e => htne (by subst e; rw [hi] at hj; simp at hj; rw [hj.1])
          obtain ⟨z, Aj, g1, g2, g3⟩ := f5 j k' u1 hij hj
          exact ⟨j, u1, z, Aj, hij, by simp [Cell.children, g1], by simp [State.part, e2, hk'], h4, keyedMembers_get ht hj, g2, g3⟩

/-- The part at a path: where it lies, and what replacing it gives. -/
theorem Rep.focus {st : State} : ∀ {path : List Sel} {v w : Value} {x : HVal} {A : List Addr} {l0 : Loc}, Rep st.heap.cell v x A → A.Nodup → Keyed v →
    getAt v path = some w → st.read l0 = some x → ¬ l0.In A →
    ∃ l y B C, st.locate l0 path = some l ∧ st.read l = some y ∧ Rep st.heap.cell w y B ∧ A.Perm (C ++ B) ∧
      (path = [] → l = l0 ∧ C = []) ∧ (path ≠ [] → l.In C) ∧
      ∀ (st' : State) (w' : Value) (y' : HVal) (B' : List Addr), (∀ c ∈ C, st'.heap.cell c = (st.write l y').heap.cell c) →
        st'.read l0 = some (if path = [] then y' else x) → Rep st'.heap.cell w' y' B' →
        st'.locate l0 path = some l ∧ st'.read l = some y' ∧
        ∃ A', Rep st'.heap.cell (setAt v path w') (if path = [] then y' else x) A' ∧ A'.Perm (C ++ B')
  | [], v, w, x, A, l0, hr, nd, ht, hg, h0, hoff => by
    simp only [getAt, Option.some.injEq] at hg; subst hg
    refine ⟨l0, x, A, [], rfl, h0, hr, by simp, fun _ => ⟨rfl, rfl⟩, fun h => absurd rfl h, fun st' w' y' B' _ h1 h2 => ?_⟩
    exact ⟨rfl, h1, B', by simpa [setAt] using h2, by simp⟩
  | s :: path, v, w, x, A, l0, hr, nd, ht, hg, h0, hoff => by
    obtain ⟨a, c, i, v1, y, A1, Ai, A2, hx, ha, hi, hp, hg1, ht1, hr1, hA, _, plug, _⟩ := hr.child ht hg
    subst hA
    have nd' := nd
    rw [List.nodup_cons, List.nodup_append, List.nodup_append] at nd'
    obtain ⟨na, ⟨ndA1, ndAi, dis1⟩, ndA2, dis2⟩ := nd'
    have off : ¬ (Loc.child a i).In Ai := by
      rintro ⟨b, j, e, hb⟩; cases e; exact na (by simp [hb])
    obtain ⟨l, z, B, C, f1, f2, f3, f4, f5, f6, f7⟩ := Rep.focus (path := path) hr1 ndAi ht1 hg1 (l0 := .child a i)
      (by simp [State.read, ha, hi]) off
    have hC : ∀ c ∈ C, c ∈ Ai := fun c hc => f4.symm.subset (by simp [hc])
    refine ⟨l, z, B, a :: (A1 ++ A2) ++ C, ?_, f2, f3, ?_, fun h => by simp at h, fun _ => ?_, ?_⟩
    · simp only [State.locate, h0, Option.bind_some, hp, f1]
    · have : (a :: (A1 ++ Ai ++ A2)).Perm (a :: (A1 ++ A2 ++ Ai)) := by
        refine List.Perm.cons _ ?_
        rw [List.append_assoc, List.append_assoc]
        exact List.Perm.append_left _ List.perm_append_comm
      refine this.trans ?_
      have := List.Perm.append_left (a :: (A1 ++ A2)) f4
      simpa [List.append_assoc] using this
    · by_cases e : path = []
      · rw [(f5 e).1]; exact ⟨a, i, rfl, by simp⟩
      · exact (f6 e).mono fun b hb => by simp [hb]
    · intro st' w' y' B' h1 h2 h3
      simp only [reduceCtorEq, if_false] at h2 ⊢
      -- the cell of this step
      have hcell : st'.heap.cell a = some (c.setChild i (if path = [] then y' else y)) := by
        rw [h1 a (by simp)]
        by_cases e : path = []
        · rw [(f5 e).1]; simp [State.write, Heap.set, ha, e]
        · obtain ⟨b, j, e1, hb⟩ := f6 e
          have hne : a ≠ b := fun e' => na (by subst e'; simp [hC _ hb])
          rw [e1]; simp only [State.write, Heap.set, hne, if_false, if_neg e, ha]
          congr 1
          have hw := write_read (st := st) (l := .child a i) (x := y) (by simp [State.read, ha, hi])
          have := congrArg (fun s => s.heap.cell a) hw
          simp [State.write, Heap.set, ha] at this
          exact this.symm
      have hread : st'.read (.child a i) = some (if path = [] then y' else y) := by
        have := (List.getElem?_eq_some_iff.1 hi).1
        simp [State.read, hcell, setChild_children, this]
      obtain ⟨g1, g2, A', g3, g4⟩ := f7 st' w' y' B' (fun c hc => h1 c (by simp [hc])) hread h3
      have hoffw : ∀ b ∈ A1 ++ A2, st'.heap.cell b = st.heap.cell b := fun b hb => by
        rw [h1 b (by simp only [List.mem_append, List.mem_cons] at hb ⊢; exact .inl (.inr hb))]
        refine write_cell_off ?_
        rintro ⟨b', j, e1, hb'⟩
        obtain rfl : b' = b := by simpa using hb'
        have hbA : b' ∉ Ai := fun hAi => by
          rcases List.mem_append.1 hb with h | h
          · exact dis1 _ h _ hAi rfl
          · exact dis2 _ (by simp [hAi]) _ h rfl
        by_cases e : path = []
        · rw [(f5 e).1] at e1; cases e1; exact na (by simp only [List.mem_append] at hb ⊢; rcases hb with h | h <;> simp [h])
        · obtain ⟨b2, j2, e2, hb2⟩ := f6 e
          rw [e1] at e2; cases e2; exact hbA (hC _ hb2)
      refine ⟨?_, g2, _, plug st'.heap.cell path w' _ A' hcell hoffw g3, ?_⟩
      · have : st'.part x s = some (.child a i) := by
          rw [← hp]
          refine part_setChild (st := st) (a := a) (i := i) (y := if path = [] then y' else y) hx ?_ s
          rw [hcell, ha]; rfl
        simp only [State.locate, h2, Option.bind_some, this, g1]
      · have : (a :: (A1 ++ A' ++ A2)).Perm (a :: (A1 ++ A2 ++ A')) := by
          refine List.Perm.cons _ ?_
          rw [List.append_assoc, List.append_assoc]
          exact List.Perm.append_left _ List.perm_append_comm
        refine this.trans ?_
        have := List.Perm.append_left (a :: (A1 ++ A2)) g4
        simpa [List.append_assoc] using this

end Meojson.Mem
