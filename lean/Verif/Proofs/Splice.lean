import Verif.Proofs.Alike
import Verif.Proofs.HeapTotal

/-!
# Values inside a text

Lemmas for C108: where in a text the value at a path is written.
-/

set_option autoImplicit false

namespace Meojson
open Spec RawObject Mem Stores

theorem elems_spot {D : Dialect} {t : Text} {js : List Doc} (h : Elems D t js) {i : Nat} {j : Doc} (hi : js[i]? = some j) :
    ∃ pre m post, t = pre ++ m ++ post ∧ Val D m j ∧ ∀ u l, Val D u l → Elems D (pre ++ u ++ post) (js.set i l) := by
  match t, js, h, i, hi with
  | _, _, .last (w₁ := w₁) (t := t) (w₂ := w₂) h1 h2 h3, 0, hi =>
    cases hi
    exact ⟨w₁, t, w₂, rfl, h2, fun u l hu => .last h1 hu h3⟩
  | _, _, .lastComma (w₁ := w₁) (t := t) (w₂ := w₂) (w₃ := w₃) hc h1 h2 h3 h4, 0, hi =>
    cases hi
    exact ⟨w₁, t, w₂ ++ 0x2c :: w₃, by simp, h2, fun u l hu => by simpa using Elems.lastComma hc h1 hu h3 h4⟩
  | _, _, .cons (w₁ := w₁) (t := t) (w₂ := w₂) (ts := ts) h1 h2 h3 hs, 0, hi =>
    cases hi
    exact ⟨w₁, t, w₂ ++ 0x2c :: ts, by simp, h2, fun u l hu => by simpa using Elems.cons h1 hu h3 hs⟩
  | _, _, .cons (w₁ := w₁) (t := t) (w₂ := w₂) (ts := ts) h1 h2 h3 hs, i + 1, hi =>
    obtain ⟨pre, m, post, rfl, h4, h5⟩ := elems_spot hs (i := i) (by simpa using hi)
    exact ⟨w₁ ++ t ++ w₂ ++ 0x2c :: pre, m, post, by simp, h4, fun u l hu => by simpa using Elems.cons h1 h2 h3 (h5 u l hu)⟩

theorem members_spot {D : Dialect} {t : Text} {ms : List (Text × Doc)} (h : Members D t ms) {i : Nat} {k : Text} {j : Doc} (hi : ms[i]? = some (k, j)) :
    ∃ pre m post, t = pre ++ m ++ post ∧ Val D m j ∧ ∀ u l, Val D u l → Members D (pre ++ u ++ post) (ms.set i (k, l)) := by
  match t, ms, h, i, hi with
  | _, _, .last (w₁ := w₁) (kt := kt) (w₂ := w₂) (w₃ := w₃) (t := t) (w₄ := w₄) h1 h2 h3 h4 h5 h6, 0, hi =>
    cases hi
    exact ⟨w₁ ++ kt ++ w₂ ++ 0x3a :: w₃, t, w₄, by simp, h5, fun u l hu => by simpa using Members.last h1 h2 h3 h4 hu h6⟩
  | _, _, .lastComma (w₁ := w₁) (kt := kt) (w₂ := w₂) (w₃ := w₃) (t := t) (w₄ := w₄) (w₅ := w₅) hc h1 h2 h3 h4 h5 h6 h7, 0, hi =>
    cases hi
    exact ⟨w₁ ++ kt ++ w₂ ++ 0x3a :: w₃, t, w₄ ++ 0x2c :: w₅, by simp, h5, fun u l hu => by simpa using Members.lastComma hc h1 h2 h3 h4 hu h6 h7⟩
  | _, _, .cons (w₁ := w₁) (kt := kt) (w₂ := w₂) (w₃ := w₃) (t := t) (w₄ := w₄) (ts := ts) h1 h2 h3 h4 h5 h6 hs, 0, hi =>
    cases hi
    exact ⟨w₁ ++ kt ++ w₂ ++ 0x3a :: w₃, t, w₄ ++ 0x2c :: ts, by simp, h5, fun u l hu => by simpa using Members.cons h1 h2 h3 h4 hu h6 hs⟩
  | _, _, .cons (w₁ := w₁) (kt := kt) (w₂ := w₂) (w₃ := w₃) (t := t) (w₄ := w₄) (ts := ts) h1 h2 h3 h4 h5 h6 hs, i + 1, hi =>
    obtain ⟨pre, m, post, rfl, h7, h8⟩ := members_spot hs (i := i) (k := k) (by simpa using hi)
    exact ⟨w₁ ++ kt ++ w₂ ++ 0x3a :: (w₃ ++ t ++ w₄ ++ 0x2c :: pre), m, post, by simp, h7, fun u l hu => by simpa using Members.cons h1 h2 h3 h4 h5 h6 (h8 u l hu)⟩

theorem toValues_map (js : List Doc) : Doc.toValues js = js.map Doc.toValue := by
  induction js with
  | nil => rfl
  | cons j js ih => simp [Doc.toValues, ih]

theorem set_modify {js : List Doc} {i : Nat} {j j' : Doc} {g : Value → Value} (hi : js[i]? = some j) (hg : j'.toValue = g j.toValue) :
    (js.set i j').map Doc.toValue = (js.map Doc.toValue).modify i g := by
  apply List.ext_getElem?
  intro n
  simp only [List.getElem?_map, List.getElem?_set, List.getElem?_modify]
  obtain ⟨hl, he⟩ := List.getElem?_eq_some_iff.1 hi
  by_cases e : i = n
  · subst e; simp [hl, he, hg]
  · simp [e]

theorem set_member {ms : List (Text × Doc)} {i : Nat} {k : Text} {j j' : Doc} {g : Value → Value} (hd : (ms.map Prod.fst).Nodup) (hi : ms[i]? = some (k, j)) (hg : j'.toValue = g j.toValue) :
    Doc.toMembers (ms.set i (k, j')) = (Doc.toMembers ms).map fun m => if m.1 = k then (m.1, g m.2) else m := by
  rw [toMembers_eq_map, toMembers_eq_map]
  apply List.ext_getElem?
  intro n
  obtain ⟨hl, he⟩ := List.getElem?_eq_some_iff.1 hi
  simp only [List.getElem?_map, List.getElem?_set]
  by_cases e : i = n
  · subst e; simp [hl, he, hg]
  · rw [if_neg e]
    cases hn : ms[n]? with
    | none => rfl
    | some m =>
      obtain ⟨hl', he'⟩ := List.getElem?_eq_some_iff.1 hn
      have : m.1 ≠ k := by
        intro hk
        have key := List.pairwise_iff_getElem.1 hd
        rcases Nat.lt_or_gt_of_ne e with h | h
        · exact key i n (by simpa using hl) (by simpa using hl') h (by simp [he, he', hk])
        · exact key n i (by simpa using hl') (by simpa using hl) h (by simp [he, he', hk])
      simp [this]

/-- The value at a path in a text, and what the text with another value there means. -/
theorem val_spot {D : Dialect} (hD : D.distinctKeys = true) : ∀ {p : List Sel} {t : Text} {j : Doc} {x : Value}, Val D t j → getAt j.toValue p = some x →
    ∃ pre m post k, t = pre ++ m ++ post ∧ Val D m k ∧ k.toValue = x ∧
      ∀ u l, Val D u l → ∃ j', Val D (pre ++ u ++ post) j' ∧ j'.toValue = setAt j.toValue p l.toValue ∧ ((p = [] → l.isContainer = true) → j'.isContainer = true)
  | [], t, j, x, h, hx => by
    cases hx
    exact ⟨[], t, [], j, by simp, h, rfl, fun u l hu => ⟨l, by simpa using hu, rfl, fun h => h rfl⟩⟩
  | s :: p, t, j, x, h, hx => by
    cases h with
    | null => cases s <;> cases hx
    | true => cases s <;> cases hx
    | false => cases s <;> cases hx
    | num => cases s <;> simp [Doc.toValue, getAt] at hx
    | str => cases s <;> simp [Doc.toValue, getAt] at hx
    | arrEmpty => cases s <;> simp [Doc.toValue, Doc.toValues, getAt] at hx
    | objEmpty => cases s <;> simp [Doc.toValue, Doc.toMembers, sortMembers, getAt] at hx
    | @arr t js he =>
      cases s with
      | key k => simp [Doc.toValue, getAt] at hx
      | pos i =>
        rw [Doc.toValue, getAt, toValues_map, List.getElem?_map] at hx
        cases hi : js[i]? with
        | none => simp [hi] at hx
        | some j0 =>
          rw [hi] at hx
          obtain ⟨pre, m, post, rfl, h1, h2⟩ := elems_spot he hi
          obtain ⟨pre', m', post', k, rfl, h3, h4, h5⟩ := val_spot hD h1 hx
          refine ⟨0x5b :: (pre ++ pre'), m', post' ++ post ++ [0x5d], k, by simp, h3, h4, fun u l hu => ?_⟩
          obtain ⟨j', h6, h7, _⟩ := h5 u l hu
          refine ⟨.arr (js.set i j'), by simpa using Val.arr (h2 _ _ h6), ?_, fun _ => rfl⟩
          rw [Doc.toValue, Doc.toValue, setAt, toValues_map, toValues_map, set_modify hi (g := fun v => setAt v p l.toValue) h7]
    | @obj t ms he hk =>
      cases s with
      | pos i => simp [Doc.toValue, getAt] at hx
      | key k =>
        have hk := hk hD
        have hk' : ((Doc.toMembers ms).map Prod.fst).Nodup := by rw [toMembers_eq_map, List.map_map]; exact hk
        rw [Doc.toValue, getAt] at hx
        cases hi : (sortMembers (Doc.toMembers ms)).lookup k with
        | none => simp [hi] at hx
        | some y =>
          rw [hi] at hx
          have hm : (k, y) ∈ Doc.toMembers ms := (sortMembers_perm _).mem_iff.1 (mem_of_lookup hi)
          rw [toMembers_eq_map, List.mem_map] at hm
          obtain ⟨⟨k0, j0⟩, hm, e⟩ := hm
          cases e
          obtain ⟨i, hi⟩ := List.getElem?_of_mem hm
          obtain ⟨pre, m, post, rfl, h1, h2⟩ := members_spot he hi
          obtain ⟨pre', m', post', k, rfl, h3, h4, h5⟩ := val_spot hD h1 hx
          refine ⟨0x7b :: (pre ++ pre'), m', post' ++ post ++ [0x7d], k, by simp, h3, h4, fun u l hu => ?_⟩
          obtain ⟨j', h6, h7, _⟩ := h5 u l hu
          have keys : (ms.set i (k0, j')).map Prod.fst = ms.map Prod.fst := by
            rw [List.map_set]
            apply List.ext_getElem?
            intro n
            rw [List.getElem?_set]
            split
            · subst n
              obtain ⟨hl, he⟩ := List.getElem?_eq_some_iff.1 hi
              simp [hl, he]
            · rfl
          refine ⟨.obj (ms.set i (k0, j')), by simpa using Val.obj (h2 _ _ h6) fun _ => by rw [keys]; exact hk, ?_, fun _ => rfl⟩
          rw [Doc.toValue, Doc.toValue, setAt]
          refine congrArg (Value.obj .object) (sorted_unique (sortMembers_sorted ?_) ?_ ?_)
          · rw [toMembers_eq_map, List.map_map]
            exact keys ▸ hk
          · have := sortMembers_sorted hk'
            unfold Sorted at this ⊢
            rw [List.pairwise_map]
            exact this.imp fun {a b} h => by split <;> split <;> exact h
          · refine (sortMembers_perm _).trans ?_
            rw [set_member hk hi (g := fun v => setAt v p l.toValue) h7]
            exact ((sortMembers_perm _).map _).symm

/-! ### An element or member taken out, or put at the end -/

theorem elems_cut {D : Dialect} {t : Text} {js : List Doc} (h : Elems D t js) {as : List Doc} {x : Doc} {bs : List Doc} (e : js = as ++ x :: bs) :
    ∃ pre cut post, t = pre ++ cut ++ post ∧ (as ++ bs = [] ∧ pre ++ post = [] ∨ Elems D (pre ++ post) (as ++ bs)) := by
  match t, js, h, as, e with
  | _, _, .last .., [], e => cases e; exact ⟨[], _, [], ((List.nil_append _).trans rfl).symm.trans (List.append_nil _).symm, .inl ⟨rfl, rfl⟩⟩
  | _, _, .lastComma .., [], e => cases e; exact ⟨[], _, [], ((List.nil_append _).trans rfl).symm.trans (List.append_nil _).symm, .inl ⟨rfl, rfl⟩⟩
  | _, _, .last .., _ :: _, e => simp at e
  | _, _, .lastComma .., _ :: _, e => simp at e
  | _, _, .cons (w₁ := w₁) (t := t) (w₂ := w₂) (ts := ts) h1 h2 h3 hs, [], e =>
    cases e
    exact ⟨[], w₁ ++ t ++ w₂ ++ [0x2c], ts, by simp, .inr (by simpa using hs)⟩
  | _, _, .cons (w₁ := w₁) (t := t) (w₂ := w₂) (ts := ts) h1 h2 h3 hs, a :: as, e =>
    rw [List.cons_append, List.cons.injEq] at e
    obtain ⟨rfl, e⟩ := e
    obtain ⟨pre, cut, post, rfl, ⟨h4, h5⟩ | h4⟩ := elems_cut hs e
    · refine ⟨w₁ ++ t ++ w₂, 0x2c :: (pre ++ cut ++ post), [], by simp, .inr ?_⟩
      rw [List.cons_append, h4]
      simpa using Elems.last h1 h2 h3
    · exact ⟨w₁ ++ t ++ w₂ ++ 0x2c :: pre, cut, post, by simp, .inr (by simpa using Elems.cons h1 h2 h3 h4)⟩

theorem members_cut {D : Dialect} {t : Text} {ms : List (Text × Doc)} (h : Members D t ms) {as : List (Text × Doc)} {x : Text × Doc} {bs : List (Text × Doc)} (e : ms = as ++ x :: bs) :
    ∃ pre cut post, t = pre ++ cut ++ post ∧ (as ++ bs = [] ∧ pre ++ post = [] ∨ Members D (pre ++ post) (as ++ bs)) := by
  match t, ms, h, as, e with
  | _, _, .last .., [], e => cases e; exact ⟨[], _, [], ((List.nil_append _).trans rfl).symm.trans (List.append_nil _).symm, .inl ⟨rfl, rfl⟩⟩
  | _, _, .lastComma .., [], e => cases e; exact ⟨[], _, [], ((List.nil_append _).trans rfl).symm.trans (List.append_nil _).symm, .inl ⟨rfl, rfl⟩⟩
  | _, _, .last .., _ :: _, e => simp at e
  | _, _, .lastComma .., _ :: _, e => simp at e
  | _, _, .cons (w₁ := w₁) (kt := kt) (w₂ := w₂) (w₃ := w₃) (t := t) (w₄ := w₄) (ts := ts) h1 h2 h3 h4 h5 h6 hs, [], e =>
    cases e
    exact ⟨[], w₁ ++ kt ++ w₂ ++ 0x3a :: (w₃ ++ t ++ w₄ ++ [0x2c]), ts, by simp, .inr (by simpa using hs)⟩
  | _, _, .cons (w₁ := w₁) (kt := kt) (w₂ := w₂) (w₃ := w₃) (t := t) (w₄ := w₄) (ts := ts) h1 h2 h3 h4 h5 h6 hs, a :: as, e =>
    rw [List.cons_append, List.cons.injEq] at e
    obtain ⟨rfl, e⟩ := e
    obtain ⟨pre, cut, post, rfl, ⟨h7, h8⟩ | h7⟩ := members_cut hs e
    · refine ⟨w₁ ++ kt ++ w₂ ++ 0x3a :: (w₃ ++ t ++ w₄), 0x2c :: (pre ++ cut ++ post), [], by simp, .inr ?_⟩
      rw [List.cons_append, h7]
      simpa using Members.last h1 h2 h3 h4 h5 h6
    · exact ⟨w₁ ++ kt ++ w₂ ++ 0x3a :: (w₃ ++ t ++ w₄ ++ 0x2c :: pre), cut, post, by simp, .inr (by simpa using Members.cons h1 h2 h3 h4 h5 h6 h7)⟩

theorem elems_more {D : Dialect} (hw : D.ws []) {t : Text} {js : List Doc} (h : Elems D t js) :
    ∃ pre post, t = pre ++ post ∧ ∀ u l, Val D u l → Elems D (pre ++ 0x2c :: u ++ post) (js ++ [l]) := by
  match t, js, h with
  | _, _, .last (w₁ := w₁) (t := t) (w₂ := w₂) h1 h2 h3 =>
    exact ⟨w₁ ++ t ++ w₂, [], by simp, fun u l hu => by simpa using Elems.cons h1 h2 h3 (.last hw hu hw)⟩
  | _, _, .lastComma (w₁ := w₁) (t := t) (w₂ := w₂) (w₃ := w₃) hc h1 h2 h3 h4 =>
    exact ⟨w₁ ++ t ++ w₂, 0x2c :: w₃, by simp, fun u l hu => by simpa using Elems.cons h1 h2 h3 (.lastComma hc hw hu hw h4)⟩
  | _, _, .cons (w₁ := w₁) (t := t) (w₂ := w₂) (ts := ts) h1 h2 h3 hs =>
    obtain ⟨pre, post, rfl, h4⟩ := elems_more hw hs
    exact ⟨w₁ ++ t ++ w₂ ++ 0x2c :: pre, post, by simp, fun u l hu => by simpa using Elems.cons h1 h2 h3 (h4 u l hu)⟩

theorem members_more {D : Dialect} (hw : D.ws []) {t : Text} {ms : List (Text × Doc)} (h : Members D t ms) :
    ∃ pre post, t = pre ++ post ∧ ∀ kt k u l, D.str kt k → Val D u l → Members D (pre ++ 0x2c :: (kt ++ 0x3a :: u) ++ post) (ms ++ [(k, l)]) := by
  match t, ms, h with
  | _, _, .last (w₁ := w₁) (kt := kt) (w₂ := w₂) (w₃ := w₃) (t := t) (w₄ := w₄) h1 h2 h3 h4 h5 h6 =>
    exact ⟨w₁ ++ kt ++ w₂ ++ 0x3a :: (w₃ ++ t ++ w₄), [], by simp, fun kt k u l hk hu => by simpa using Members.cons h1 h2 h3 h4 h5 h6 (.last hw hk hw hw hu hw)⟩
  | _, _, .lastComma (w₁ := w₁) (kt := kt) (w₂ := w₂) (w₃ := w₃) (t := t) (w₄ := w₄) (w₅ := w₅) hc h1 h2 h3 h4 h5 h6 h7 =>
    exact ⟨w₁ ++ kt ++ w₂ ++ 0x3a :: (w₃ ++ t ++ w₄), 0x2c :: w₅, by simp, fun kt k u l hk hu => by simpa using Members.cons h1 h2 h3 h4 h5 h6 (.lastComma hc hw hk hw hw hu hw h7)⟩
  | _, _, .cons (w₁ := w₁) (kt := kt) (w₂ := w₂) (w₃ := w₃) (t := t) (w₄ := w₄) (ts := ts) h1 h2 h3 h4 h5 h6 hs =>
    obtain ⟨pre, post, rfl, h7⟩ := members_more hw hs
    exact ⟨w₁ ++ kt ++ w₂ ++ 0x3a :: (w₃ ++ t ++ w₄ ++ 0x2c :: pre), post, by simp, fun kt k u l hk hu => by simpa using Members.cons h1 h2 h3 h4 h5 h6 (h7 kt k u l hk hu)⟩

theorem elems_nonempty {D : Dialect} {t : Text} {js : List Doc} (h : Elems D t js) : js ≠ [] := by
  cases h <;> simp

theorem members_nonempty {D : Dialect} {t : Text} {ms : List (Text × Doc)} (h : Members D t ms) : ms ≠ [] := by
  cases h <;> simp

theorem val_cut_element {D : Dialect} (hw : D.ws []) {t : Text} {as bs : List Doc} {x : Doc} (h : Val D t (.arr (as ++ x :: bs))) :
    ∃ pre cut post, t = pre ++ cut ++ post ∧ Val D (pre ++ post) (.arr (as ++ bs)) := by
  generalize e : Doc.arr (as ++ x :: bs) = j at h
  cases h <;> try cases e
  case arrEmpty => simp at e
  case arr t h =>
    obtain ⟨pre, cut, post, rfl, ⟨h1, h2⟩ | h1⟩ := elems_cut h rfl
    · refine ⟨0x5b :: pre, cut, post ++ [0x5d], by simp, ?_⟩
      rw [h1]
      have : (0x5b :: pre) ++ (post ++ [0x5d]) = 0x5b :: ([] ++ [0x5d]) := by rw [← h2]; simp
      rw [this]
      exact Val.arrEmpty hw
    · exact ⟨0x5b :: pre, cut, post ++ [0x5d], by simp, by simpa using Val.arr h1⟩

theorem val_cut_member {D : Dialect} (hw : D.ws []) {t : Text} {as bs : List (Text × Doc)} {x : Text × Doc} (h : Val D t (.obj (as ++ x :: bs))) :
    ∃ pre cut post, t = pre ++ cut ++ post ∧ Val D (pre ++ post) (.obj (as ++ bs)) := by
  generalize e : Doc.obj (as ++ x :: bs) = j at h
  cases h <;> try cases e
  case objEmpty => simp at e
  case obj t h hk =>
    obtain ⟨pre, cut, post, rfl, ⟨h1, h2⟩ | h1⟩ := members_cut h rfl
    · refine ⟨0x7b :: pre, cut, post ++ [0x7d], by simp, ?_⟩
      rw [h1]
      have : (0x7b :: pre) ++ (post ++ [0x7d]) = 0x7b :: ([] ++ [0x7d]) := by rw [← h2]; simp
      rw [this]
      exact Val.objEmpty hw
    · have := Val.obj h1 fun hd => (hk hd).sublist (((List.sublist_cons_self x bs).append_left as).map Prod.fst)
      exact ⟨0x7b :: pre, cut, post ++ [0x7d], by simp, by simpa using this⟩

theorem val_more_element {D : Dialect} (hw : D.ws []) {t : Text} {js : List Doc} (h : Val D t (.arr js)) :
    ∃ pre post, t = pre ++ post ∧ ∀ u l, Val D u l → Val D (pre ++ (if js = [] then u else 0x2c :: u) ++ post) (.arr (js ++ [l])) := by
  generalize e : Doc.arr js = j at h
  cases h <;> try cases e
  case arrEmpty w h =>
    exact ⟨0x5b :: w, [0x5d], by simp, fun u l hu => by simpa using Val.arr (Elems.last h hu hw)⟩
  case arr t h =>
    obtain ⟨pre, post, rfl, h1⟩ := elems_more hw h
    have hne : js ≠ [] := by intro e; exact elems_nonempty h e
    exact ⟨0x5b :: pre, post ++ [0x5d], by simp, fun u l hu => by simpa [hne] using Val.arr (h1 u l hu)⟩

theorem val_more_member {D : Dialect} (hw : D.ws []) {t : Text} {ms : List (Text × Doc)} (h : Val D t (.obj ms)) :
    ∃ pre post, t = pre ++ post ∧ ∀ kt k u l, D.str kt k → Val D u l → k ∉ ms.map Prod.fst →
      Val D (pre ++ (if ms = [] then kt ++ 0x3a :: u else 0x2c :: (kt ++ 0x3a :: u)) ++ post) (.obj (ms ++ [(k, l)])) := by
  generalize e : Doc.obj ms = j at h
  cases h <;> try cases e
  case objEmpty w h =>
    exact ⟨0x7b :: w, [0x7d], by simp, fun kt k u l hk hu _ => by simpa using Val.obj (Members.last h hk hw hw hu hw) fun _ => by simp⟩
  case obj t h hd =>
    obtain ⟨pre, post, rfl, h1⟩ := members_more hw h
    have hne : ms ≠ [] := by intro e; exact members_nonempty h e
    refine ⟨0x7b :: pre, post ++ [0x7d], by simp, fun kt k u l hk hu hn => ?_⟩
    have := Val.obj (h1 kt k u l hk hu) fun hD => by
      rw [List.map_append, List.nodup_append]
      refine ⟨hd hD, by simp, fun a ha b hb => ?_⟩
      rintro rfl
      simp at hb
      subst hb
      exact hn ha
    simpa [hne] using this

end Meojson
