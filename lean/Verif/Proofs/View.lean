import Verif.Spec.View
import Verif.Proofs.Typed
import Verif.Proofs.Take

/-! # Views: proofs -/

set_option autoImplicit false

namespace Meojson
open Spec Value RawObject

theorem asString_is {v : Value} {s : Bytes} (h : v.asString = .ok s) : v = .str .string s := by
  unfold asString at h
  split at h
  · rename_i ht
    cases v <;> simp [basicStr, Value.type] at h ht
    subst h ht; rfl
  · cases v <;> simp [typeError, valueInfo] at h
    all_goals split at h <;> simp [Out.bind] at h

theorem asArray_is {v : Value} {vs : List Value} (h : v.asArray = .ok vs) : v = .arr .array vs := by
  unfold asArray at h
  split at h
  · rename_i ht
    cases v <;> simp [Value.type] at h ht
    subst h ht; rfl
  · cases v <;> simp [typeError, valueInfo] at h
    all_goals split at h <;> simp [Out.bind] at h

theorem asObject_is {v : Value} {ms : List (Bytes × Value)} (h : v.asObject = .ok ms) : v = .obj .object ms := by
  unfold asObject at h
  split at h
  · rename_i ht
    cases v <;> simp [Value.type] at h ht
    subst h ht; rfl
  · cases v <;> simp [typeError, valueInfo] at h
    all_goals split at h <;> simp [Out.bind] at h

theorem bind_is {α β : Type} {x : Out α} {f : α → Out β} {y : β} (h : x.bind f = .ok y) : ∃ a, x = .ok a ∧ f a = .ok y := by
  cases x <;> simp [Out.bind] at h
  exact ⟨_, rfl, h⟩

theorem onArray_arr {α : Type} (vs : List Value) (f : List Value → List Value × Out α) :
    (Value.arr .array vs).onArray f = (.arr .array (f vs).1, (f vs).2) := by
  cases vs <;> simp [onArray, asArrayM, Value.empty, Value.type, asArray]

theorem onObject_obj {α : Type} (ms : List (Bytes × Value)) (f : List (Bytes × Value) → List (Bytes × Value) × Out α) :
    (Value.obj .object ms).onObject f = (.obj .object (f ms).1, (f ms).2) := by
  cases ms <;> simp [onObject, asObjectM, Value.empty, Value.type, asObject]

theorem eachAt_mem {α β : Type} {f : Nat → α → Out β} : ∀ {vs : List α} {i : Nat} {xs : List β}, eachAt f i vs = .ok xs →
    ∀ x ∈ xs, ∃ j w, vs[j]? = some w ∧ f (i + j) w = .ok x
  | [], i, xs, h, x, hx => by
    simp [eachAt] at h; subst h; simp at hx
  | v :: vs, i, xs, h, x, hx => by
    replace h := bind_is h
    obtain ⟨y, h1, h⟩ := h
    replace h := bind_is h
    obtain ⟨ys, h2, h⟩ := h
    simp at h; subst h
    rcases List.mem_cons.1 hx with rfl | hx
    · exact ⟨0, v, rfl, h1⟩
    · obtain ⟨j, w, h3, h4⟩ := eachAt_mem h2 x hx
      exact ⟨j + 1, w, by simpa using h3, by rw [← h4]; congr 1; omega⟩

theorem foldl_emplace_mem {β : Type} : ∀ {es m : List (Bytes × β)} {e : Bytes × β}, e ∈ es.foldl (fun m e => (emplace e.1 e.2 m).1) m → e ∈ es ∨ e ∈ m
  | [], _, _, h => .inr h
  | d :: es, m, e, h => by
    rw [List.foldl_cons] at h
    rcases foldl_emplace_mem h with h | h
    · exact .inl (List.mem_cons_of_mem _ h)
    · rcases emplace_mem h with h | h
      · exact .inl (by rw [h]; exact List.mem_cons_self)
      · exact .inr h

/-- The text is in the result itself or is the text at its path. -/
def Fair (p : List Nat) (v : Value) (x : Text) : Prop := x.ref = .own ∨ ∃ q, x.ref = .at (p ++ q) ∧ TextIn v q x.bytes

theorem Fair.elem {p : List Nat} {i : Nat} {w : Value} {vs : List Value} {x : Text} (h : Fair (p ++ [i]) w x) (hi : vs[i]? = some w) : Fair p (.arr .array vs) x := by
  rcases h with h | ⟨q, h, ht⟩
  · exact .inl h
  · exact .inr ⟨i :: q, by rw [h]; simp, .elem hi ht⟩

theorem Fair.member {p : List Nat} {i : Nat} {k : Bytes} {w : Value} {ms : List (Bytes × Value)} {x : Text} (h : Fair (p ++ [i]) w x) (hi : ms[i]? = some (k, w)) :
    Fair p (.obj .object ms) x := by
  rcases h with h | ⟨q, h, ht⟩
  · exact .inl h
  · exact .inr ⟨i :: q, by rw [h]; simp, .member hi ht⟩

theorem as_fair : ∀ (t : VTy) (p : List Nat) (v : Value) (xs : List Text), t.as p v = .ok xs → ∀ x ∈ xs, Fair p v x
  | .view, p, v, xs, h, x, hx => by
    replace h := bind_is h
    obtain ⟨s, h1, h⟩ := h
    simp at h; subst h
    obtain rfl := asString_is h1
    simp at hx; subst hx
    exact .inr ⟨[], by simp, .here⟩
  | .string, p, v, xs, h, x, hx => by
    replace h := bind_is h
    obtain ⟨s, h1, h⟩ := h
    simp at h; subst h
    simp at hx; subst hx
    exact .inl rfl
  | .seq t, p, v, xs, h, x, hx => by
    replace h := bind_is h
    obtain ⟨vs, h1, h⟩ := h
    obtain rfl := asArray_is h1
    replace h := bind_is h
    obtain ⟨ys, h2, h⟩ := h
    simp at h; subst h
    obtain ⟨y, hy, hx⟩ := List.mem_flatten.1 hx
    obtain ⟨j, w, h3, h4⟩ := eachAt_mem h2 y hy
    rw [Nat.zero_add] at h4
    exact (as_fair t _ w y h4 x hx).elem h3
  | .fixed n t, p, v, xs, h, x, hx => by
    replace h := bind_is h
    obtain ⟨vs, h1, h⟩ := h
    obtain rfl := asArray_is h1
    split at h
    swap
    · cases h
    replace h := bind_is h
    obtain ⟨ys, h2, h⟩ := h
    simp at h; subst h
    obtain ⟨y, hy, hx⟩ := List.mem_flatten.1 hx
    obtain ⟨j, w, h3, h4⟩ := eachAt_mem h2 y hy
    rw [Nat.zero_add] at h4
    exact (as_fair t _ w y h4 x hx).elem h3
  | .pair t u, p, v, xs, h, x, hx => by
    replace h := bind_is h
    obtain ⟨vs, h1, h⟩ := h
    obtain rfl := asArray_is h1
    split at h
    swap
    · cases h
    replace h := bind_is h
    obtain ⟨ys, h2, h⟩ := h
    replace h := bind_is h
    obtain ⟨zs, h3, h⟩ := h
    simp at h; subst h
    rcases List.mem_append.1 hx with hx | hx
    · exact (as_fair t _ _ ys h2 x hx).elem rfl
    · exact (as_fair u _ _ zs h3 x hx).elem rfl
  | .map t, p, v, xs, h, x, hx => by
    replace h := bind_is h
    obtain ⟨ms, h1, h⟩ := h
    obtain rfl := asObject_is h1
    replace h := bind_is h
    obtain ⟨es, h2, h⟩ := h
    simp at h; subst h
    obtain ⟨e, he, hx⟩ := List.mem_flatMap.1 hx
    rcases foldl_emplace_mem he with he | he
    · obtain ⟨j, w, h3, h4⟩ := eachAt_mem h2 e he
      replace h4 := bind_is h4
      obtain ⟨y, h5, h4⟩ := h4
      simp at h4; subst h4
      rw [Nat.zero_add] at h5
      rcases List.mem_cons.1 hx with rfl | hx
      · exact .inl rfl
      · exact (as_fair t _ _ y h5 x hx).member (k := w.1) h3
    · simp at he
  | .nullable .pointer t, p, v, xs, h, x, hx => by
    simp only [VTy.as] at h
    split at h
    · simp at h; subst h; simp at hx
    · exact as_fair t p v xs h x hx
  | .nullable .optional t, p, v, xs, h, x, hx => as_fair t p v xs h x hx

theorem textIn_at {v : Value} {p : List Nat} {s : Bytes} (h : TextIn v p s) : v.textAt p = some s := by
  induction h with
  | here => rfl
  | elem hi _ ih => simp [textAt, part, hi, ih]
  | member hi _ ih => simp [textAt, part, hi, ih]

theorem Fair.read {v : Value} {x : Text} (h : Fair [] v x) : x.read (some v) = .ok x.bytes := by
  rcases h with h | ⟨q, h, ht⟩
  · simp [Text.read, h]
  · simp [Text.read, h, textIn_at ht]

/-- Without `std::string_view` in the type every text is in the result. -/
theorem as_own : ∀ (t : VTy) (_ : t.hasView = false) (p : List Nat) (v : Value) (xs : List Text), t.as p v = .ok xs → ∀ x ∈ xs, x.ref = .own
  | .view, ht, p, v, xs, h, x, hx => by simp [VTy.hasView] at ht
  | .string, _, p, v, xs, h, x, hx => by
    replace h := bind_is h
    obtain ⟨s, h1, h⟩ := h
    simp at h; subst h
    simp at hx; subst hx
    rfl
  | .seq t, ht, p, v, xs, h, x, hx => by
    replace h := bind_is h
    obtain ⟨vs, h1, h⟩ := h
    replace h := bind_is h
    obtain ⟨ys, h2, h⟩ := h
    simp at h; subst h
    obtain ⟨y, hy, hx⟩ := List.mem_flatten.1 hx
    obtain ⟨j, w, h3, h4⟩ := eachAt_mem h2 y hy
    exact as_own t ht _ w y h4 x hx
  | .fixed n t, ht, p, v, xs, h, x, hx => by
    replace h := bind_is h
    obtain ⟨vs, h1, h⟩ := h
    split at h
    swap
    · cases h
    replace h := bind_is h
    obtain ⟨ys, h2, h⟩ := h
    simp at h; subst h
    obtain ⟨y, hy, hx⟩ := List.mem_flatten.1 hx
    obtain ⟨j, w, h3, h4⟩ := eachAt_mem h2 y hy
    exact as_own t ht _ w y h4 x hx
  | .pair t u, ht, p, v, xs, h, x, hx => by
    simp [VTy.hasView] at ht
    replace h := bind_is h
    obtain ⟨vs, h1, h⟩ := h
    split at h
    swap
    · cases h
    replace h := bind_is h
    obtain ⟨ys, h2, h⟩ := h
    replace h := bind_is h
    obtain ⟨zs, h3, h⟩ := h
    simp at h; subst h
    rcases List.mem_append.1 hx with hx | hx
    · exact as_own t ht.1 _ _ ys h2 x hx
    · exact as_own u ht.2 _ _ zs h3 x hx
  | .map t, ht, p, v, xs, h, x, hx => by
    replace h := bind_is h
    obtain ⟨ms, h1, h⟩ := h
    replace h := bind_is h
    obtain ⟨es, h2, h⟩ := h
    simp at h; subst h
    obtain ⟨e, he, hx⟩ := List.mem_flatMap.1 hx
    rcases foldl_emplace_mem he with he | he
    · obtain ⟨j, w, h3, h4⟩ := eachAt_mem h2 e he
      replace h4 := bind_is h4
      obtain ⟨y, h5, h4⟩ := h4
      simp at h4; subst h4
      rcases List.mem_cons.1 hx with rfl | hx
      · rfl
      · exact as_own t ht _ _ y h5 x hx
    · simp at he
  | .nullable .pointer t, ht, p, v, xs, h, x, hx => by
    simp only [VTy.as] at h
    split at h
    · simp at h; subst h; simp at hx
    · exact as_own t ht p v xs h x hx
  | .nullable .optional t, ht, p, v, xs, h, x, hx => as_own t ht p v xs h x hx

theorem outlived_own {x : Text} (h : x.ref = .own) : x.outlived = x := by simp [Text.outlived, h]

/-- What the conversion gives from the rvalue, if it gives something from the lvalue. -/
theorem take_of_as : ∀ (t : VTy) (_ : t.movable = true) (p : List Nat) (v : Value) (xs : List Text), t.as p v = .ok xs →
    (t.isMap = true → t.take p v = (v, .ok xs)) ∧ (t.isMap = false → (t.take p v).2 = .ok (xs.map Text.outlived))
  | .view, ht, p, v, xs, h => by simp [VTy.movable] at ht
  | .string, _, p, v, xs, h => by
    refine ⟨by simp [VTy.isMap], fun _ => ?_⟩
    have := as_own .string rfl p v xs h
    simp only [VTy.take, h]
    rw [List.map_congr_left (fun x hx => outlived_own (this x hx)), List.map_id']
  | .seq t, _, p, v, xs, h => by
    refine ⟨by simp [VTy.isMap], fun _ => ?_⟩
    replace h := bind_is h
    obtain ⟨vs, h1, h⟩ := h
    obtain rfl := asArray_is h1
    simp [VTy.take, onArray_arr, h, clearViewed]
  | .fixed n t, _, p, v, xs, h => by
    refine ⟨by simp [VTy.isMap], fun _ => ?_⟩
    replace h := bind_is h
    obtain ⟨vs, h1, h⟩ := h
    obtain rfl := asArray_is h1
    split at h
    swap
    · cases h
    rename_i hn
    simp [VTy.take, onArray_arr, h, clearViewed, hn]
  | .pair t u, _, p, v, xs, h => by
    refine ⟨by simp [VTy.isMap], fun _ => ?_⟩
    replace h := bind_is h
    obtain ⟨vs, h1, h⟩ := h
    obtain rfl := asArray_is h1
    split at h
    swap
    · cases h
    simp [VTy.take, onArray_arr, h, clearViewed]
  | .map t, _, p, v, xs, h => by
    refine ⟨fun _ => ?_, by simp [VTy.isMap]⟩
    replace h := bind_is h
    obtain ⟨ms, h1, h⟩ := h
    obtain rfl := asObject_is h1
    simp only [VTy.take, onObject_obj, h]
  | .nullable .pointer t, ht, p, v, xs, h => by
    simp only [VTy.as] at h
    simp only [VTy.take]
    split at h
    · rename_i hn
      simp at h; subst h
      simp [hn]
    · rename_i hn
      simp only [hn, if_false]
      exact take_of_as t ht p v xs h
  | .nullable .optional t, ht, p, v, xs, h => take_of_as t ht p v xs h

theorem eachAt_nil {α β : Type} (f : Nat → α → Out β) (i : Nat) : eachAt f i [] = .ok [] := rfl

theorem onArray_gives {α : Type} {v : Value} {f : List Value → List Value × Out α} {xs : α} (h : (v.onArray f).2 = .ok xs) :
    ∃ vs, (f vs).2 = .ok xs ∧ (v.asArray = .ok vs ∨ vs = []) := by
  unfold onArray asArrayM at h
  cases he : v.empty with
  | ok b =>
    cases b with
    | true => simp [he] at h; exact ⟨[], h, .inr rfl⟩
    | false =>
      rw [he] at h
      cases ha : v.asArray with
      | ok vs => simp [ha] at h; exact ⟨vs, h, .inl rfl⟩
      | throw e => simp [ha] at h
      | ub => simp [ha] at h
  | throw e => simp [he] at h
  | ub => simp [he] at h

theorem onObject_gives {α : Type} {v : Value} {f : List (Bytes × Value) → List (Bytes × Value) × Out α} {xs : α} (h : (v.onObject f).2 = .ok xs) :
    ∃ vs, (f vs).2 = .ok xs ∧ (v.asObject = .ok vs ∨ vs = []) := by
  unfold onObject asObjectM at h
  cases he : v.empty with
  | ok b =>
    cases b with
    | true => simp [he] at h; exact ⟨[], h, .inr rfl⟩
    | false =>
      rw [he] at h
      cases ha : v.asObject with
      | ok vs => simp [ha] at h; exact ⟨vs, h, .inl rfl⟩
      | throw e => simp [ha] at h
      | ub => simp [ha] at h
  | throw e => simp [he] at h
  | ub => simp [he] at h

theorem clearViewed_ok {vs : List Value} {r : Out (List Text)} {xs : List Text} (h : (clearViewed (vs, r)).2 = .ok xs) : ∃ ys, r = .ok ys ∧ xs = ys.map Text.outlived := by
  cases r <;> simp [clearViewed] at h
  exact ⟨_, rfl, h.symm⟩

/-- From the rvalue, the conversion gives texts that the lvalue gives, or none at all. -/
theorem take_cases : ∀ (t : VTy) (_ : t.movable = true) (p : List Nat) (v : Value) (xs : List Text), (t.take p v).2 = .ok xs → xs = [] ∨ ∃ ys, t.as p v = .ok ys
  | .view, ht, p, v, xs, h => by simp [VTy.movable] at ht
  | .string, _, p, v, xs, h => .inr ⟨xs, h⟩
  | .seq t, _, p, v, xs, h => by
    replace h := onArray_gives h
    obtain ⟨vs, h, hv⟩ := h
    replace h := clearViewed_ok h
    obtain ⟨ys, h, rfl⟩ := h
    rcases hv with hv | rfl
    · exact .inr ⟨ys, by simp only [VTy.as, hv, Out.bind]; exact h⟩
    · simp [eachAt, Out.bind] at h; subst h; exact .inl rfl
  | .fixed n t, _, p, v, xs, h => by
    replace h := onArray_gives h
    obtain ⟨vs, h, hv⟩ := h
    split at h
    swap
    · cases h
    rename_i hn
    replace h := clearViewed_ok h
    obtain ⟨ys, h, rfl⟩ := h
    rcases hv with hv | rfl
    · exact .inr ⟨ys, by simp only [VTy.as, hv, Out.bind, hn, if_true]; exact h⟩
    · simp [eachAt, Out.bind] at h; subst h; exact .inl rfl
  | .pair t u, _, p, v, xs, h => by
    replace h := onArray_gives h
    obtain ⟨vs, h, hv⟩ := h
    split at h
    swap
    · cases h
    replace h := clearViewed_ok h
    obtain ⟨ys, h, rfl⟩ := h
    rcases hv with hv | hv
    · exact .inr ⟨ys, by simp only [VTy.as, hv, Out.bind]; exact h⟩
    · simp at hv
  | .map t, _, p, v, xs, h => by
    replace h := onObject_gives h
    obtain ⟨ms, h, hv⟩ := h
    rcases hv with hv | rfl
    · exact .inr ⟨xs, by simp only [VTy.as, hv, Out.bind]; exact h⟩
    · simp [eachAt, Out.bind, mapTexts] at h; exact .inl h
  | .nullable .pointer t, ht, p, v, xs, h => by
    simp only [VTy.take] at h
    split at h
    · simp at h; exact .inl h
    · rename_i hn
      simp only [VTy.as, hn, if_false]
      exact take_cases t ht p v xs h
  | .nullable .optional t, ht, p, v, xs, h => take_cases t ht p v xs h

/-- The results agree in the texts, and otherwise in how the conversion ends. -/
inductive SameTexts (t : VTy) : Out (List Text) → Out CVal → Prop
  | ok {xs : List Text} {c : CVal} : xs.map Text.bytes = t.texts c → SameTexts t (.ok xs) (.ok c)
  | throw {e : Exn} : SameTexts t (.throw e) (.throw e)
  | ub : SameTexts t .ub .ub

/-- The same for several. -/
inductive SameAll {β : Type} (R : β → CVal → Prop) : Out (List β) → Out (List CVal) → Prop
  | ok {xs : List β} {cs : List CVal} : List.Forall₂ R xs cs → SameAll R (.ok xs) (.ok cs)
  | throw {e : Exn} : SameAll R (.throw e) (.throw e)
  | ub : SameAll R .ub .ub

theorem each_same {t : VTy} {f : Nat → Value → Out (List Text)} {g : Value → Out CVal} (h : ∀ i v, SameTexts t (f i v) (g v)) :
    ∀ (vs : List Value) (i : Nat), SameAll (fun (x : List Text) c => x.map Text.bytes = t.texts c) (eachAt f i vs) (eachOf g vs)
  | [], i => .ok .nil
  | v :: vs, i => by
    have h1 := h i v
    have h2 := each_same h vs (i + 1)
    simp only [eachAt, eachOf]
    revert h1 h2
    generalize f i v = a, g v = b, eachAt f (i + 1) vs = as, eachOf g vs = bs
    intro h1 h2
    cases h1 with
    | ok h1 =>
      cases h2 with
      | ok h2 => exact .ok (.cons h1 h2)
      | throw => exact .throw
      | ub => exact .ub
    | throw => exact .throw
    | ub => exact .ub

theorem flatten_same {t : VTy} {xs : List (List Text)} {cs : List CVal} (h : List.Forall₂ (fun (x : List Text) c => x.map Text.bytes = t.texts c) xs cs) :
    xs.flatten.map Text.bytes = cs.flatMap t.texts := by
  induction h with
  | nil => rfl
  | cons h1 _ ih => simp [h1, ih]

theorem members_same {t : VTy} {f : Nat → Value → Out (List Text)} {g : Value → Out CVal} (h : ∀ i v, SameTexts t (f i v) (g v)) :
    ∀ (ms : List (Bytes × Value)) (i : Nat),
      (∃ es ds, eachAt (fun i (e : Bytes × Value) => (f i e.2).bind fun x => .ok (e.1, x)) i ms = .ok es ∧
        eachOf (fun e : Bytes × Value => (g e.2).bind fun x => .ok (e.1, x)) ms = .ok ds ∧
        List.Forall₂ (fun (x : Bytes × List Text) c => x.1 = c.1 ∧ x.2.map Text.bytes = t.texts c.2) es ds) ∨
      (∃ e, eachAt (fun i (e : Bytes × Value) => (f i e.2).bind fun x => .ok (e.1, x)) i ms = .throw e ∧
        eachOf (fun e : Bytes × Value => (g e.2).bind fun x => .ok (e.1, x)) ms = .throw e) ∨
      (eachAt (fun i (e : Bytes × Value) => (f i e.2).bind fun x => .ok (e.1, x)) i ms = .ub ∧
        eachOf (fun e : Bytes × Value => (g e.2).bind fun x => .ok (e.1, x)) ms = .ub)
  | [], i => .inl ⟨[], [], rfl, rfl, .nil⟩
  | (k, v) :: ms, i => by
    have h1 := h i v
    have h2 := members_same h ms (i + 1)
    simp only [eachAt, eachOf]
    revert h1 h2
    generalize f i v = a, g v = b, eachAt (fun i (e : Bytes × Value) => (f i e.2).bind fun x => .ok (e.1, x)) (i + 1) ms = as,
      eachOf (fun e : Bytes × Value => (g e.2).bind fun x => .ok (e.1, x)) ms = bs
    intro h1 h2
    cases h1 with
    | ok h1 =>
      rcases h2 with ⟨es, ds, rfl, rfl, h2⟩ | ⟨e, rfl, rfl⟩ | ⟨rfl, rfl⟩
      · exact .inl ⟨_, _, rfl, rfl, .cons ⟨rfl, h1⟩ h2⟩
      · exact .inr (.inl ⟨e, rfl, rfl⟩)
      · exact .inr (.inr ⟨rfl, rfl⟩)
    | throw => exact .inr (.inl ⟨_, rfl, rfl⟩)
    | ub => exact .inr (.inr ⟨rfl, rfl⟩)

theorem emplace_same {β γ : Type} {R : β → γ → Prop} {k : Bytes} {x : β} {c : γ} (hx : R x c) {m : List (Bytes × β)} {n : List (Bytes × γ)}
    (h : List.Forall₂ (fun a b => a.1 = b.1 ∧ R a.2 b.2) m n) :
    List.Forall₂ (fun a b => a.1 = b.1 ∧ R a.2 b.2) (emplace k x m).1 (emplace k c n).1 := by
  induction h with
  | nil => exact .cons ⟨rfl, hx⟩ .nil
  | @cons a b m n h1 h2 ih =>
    obtain ⟨ka, xa⟩ := a
    obtain ⟨kb, xb⟩ := b
    obtain ⟨h0, h1⟩ := h1
    simp only at h0; subst h0
    simp only [emplace]
    split
    · exact .cons ⟨rfl, hx⟩ (.cons ⟨rfl, h1⟩ h2)
    · split
      · exact .cons ⟨rfl, h1⟩ ih
      · exact .cons ⟨rfl, h1⟩ h2

theorem foldl_emplace_same {β γ : Type} {R : β → γ → Prop} {es : List (Bytes × β)} {ds : List (Bytes × γ)}
    (h : List.Forall₂ (fun a b => a.1 = b.1 ∧ R a.2 b.2) es ds) : ∀ {m : List (Bytes × β)} {n : List (Bytes × γ)},
    List.Forall₂ (fun a b => a.1 = b.1 ∧ R a.2 b.2) m n →
    List.Forall₂ (fun a b => a.1 = b.1 ∧ R a.2 b.2) (es.foldl (fun m e => (emplace e.1 e.2 m).1) m) (ds.foldl (fun m e => (emplace e.1 e.2 m).1) n) := by
  induction h with
  | nil => exact fun h => h
  | cons h1 _ ih =>
    intro m n hm
    rw [List.foldl_cons, List.foldl_cons]
    exact ih (by rw [h1.1]; exact emplace_same h1.2 hm)

theorem mapTexts_same {t : VTy} {es : List (Bytes × List Text)} {ds : List (Bytes × CVal)}
    (h : List.Forall₂ (fun (x : Bytes × List Text) c => x.1 = c.1 ∧ x.2.map Text.bytes = t.texts c.2) es ds) :
    (mapTexts es).map Text.bytes = ds.flatMap fun e => e.1 :: t.texts e.2 := by
  induction h with
  | nil => rfl
  | cons h1 _ ih =>
    simp only [mapTexts] at ih
    simp [mapTexts, h1.1, h1.2, ih]

/-- The texts are those of the conversion with `std::string` in place of `std::string_view`. -/
theorem as_same (F : Floats) : ∀ (t : VTy) (p : List Nat) (v : Value), SameTexts t (t.as p v) (t.owned.as F v)
  | .view, p, v => by
    simp only [VTy.as, VTy.owned, Ty.as]
    cases v.asString with
    | ok s => exact .ok rfl
    | throw e => exact .throw
    | ub => exact .ub
  | .string, p, v => by
    simp only [VTy.as, VTy.owned, Ty.as]
    cases v.asString with
    | ok s => exact .ok rfl
    | throw e => exact .throw
    | ub => exact .ub
  | .seq t, p, v => by
    simp only [VTy.as, VTy.owned, Ty.as]
    cases v.asArray with
    | ok vs =>
      have := each_same (f := fun i w => t.as (p ++ [i]) w) (fun i w => as_same F t (p ++ [i]) w) vs 0
      simp only [Out.bind]
      revert this
      generalize eachAt (fun i w => t.as (p ++ [i]) w) 0 vs = a, eachOf (t.owned.as F) vs = b
      intro h
      cases h with
      | ok h => exact .ok (flatten_same h)
      | throw => exact .throw
      | ub => exact .ub
    | throw e => exact .throw
    | ub => exact .ub
  | .fixed n t, p, v => by
    simp only [VTy.as, VTy.owned, Ty.as]
    cases v.asArray with
    | ok vs =>
      have := each_same (f := fun i w => t.as (p ++ [i]) w) (fun i w => as_same F t (p ++ [i]) w) vs 0
      simp only [Out.bind]
      split
      · revert this
        generalize eachAt (fun i w => t.as (p ++ [i]) w) 0 vs = a, eachOf (t.owned.as F) vs = b
        intro h
        cases h with
        | ok h => exact .ok (flatten_same h)
        | throw => exact .throw
        | ub => exact .ub
      · exact .throw
    | throw e => exact .throw
    | ub => exact .ub
  | .pair t u, p, v => by
    simp only [VTy.as, VTy.owned, Ty.as, Tys.size]
    cases v.asArray with
    | ok vs =>
      match vs with
      | [] => exact .throw
      | [x] => exact .throw
      | [x, y] =>
        have h1 := as_same F t (p ++ [0]) x
        have h2 := as_same F u (p ++ [1]) y
        simp only [Out.bind, Tys.asAll, List.length_cons, List.length_nil]
        revert h1 h2
        generalize t.as (p ++ [0]) x = a, t.owned.as F x = b, u.as (p ++ [1]) y = c, u.owned.as F y = d
        intro h1 h2
        cases h1 with
        | ok h1 =>
          cases h2 with
          | ok h2 => exact .ok (by simp [VTy.texts, h1, h2])
          | throw => exact .throw
          | ub => exact .ub
        | throw => exact .throw
        | ub => exact .ub
      | x :: y :: z :: vs =>
        simp [Out.bind]
        exact .throw
    | throw e => exact .throw
    | ub => exact .ub
  | .map t, p, v => by
    simp only [VTy.as, VTy.owned, Ty.as]
    cases v.asObject with
    | ok ms =>
      simp only [Out.bind]
      rcases members_same (f := fun i w => t.as (p ++ [i]) w) (fun i w => as_same F t (p ++ [i]) w) ms 0 with ⟨es, ds, h1, h2, h⟩ | ⟨e, h1, h2⟩ | ⟨h1, h2⟩
      · simp only [Out.bind] at h1 h2
        rw [h1, h2]
        exact .ok (mapTexts_same (foldl_emplace_same (R := fun (x : List Text) c => x.map Text.bytes = t.texts c) h .nil))
      · simp only [Out.bind] at h1 h2
        rw [h1, h2]
        exact .throw
      · simp only [Out.bind] at h1 h2
        rw [h1, h2]
        exact .ub
    | throw e => exact .throw
    | ub => exact .ub
  | .nullable .pointer t, p, v => by
    simp only [VTy.as, VTy.owned, Ty.as]
    split
    · exact .ok rfl
    · have := as_same F t p v
      revert this
      generalize t.as p v = a, t.owned.as F v = b
      intro h
      cases h with
      | ok h => exact .ok h
      | throw => exact .throw
      | ub => exact .ub
  | .nullable .optional t, p, v => by
    simp only [VTy.as, VTy.owned, Ty.as]
    have := as_same F t p v
    revert this
    generalize t.as p v = a, t.owned.as F v = b
    intro h
    cases h with
    | ok h => exact .ok h
    | throw => exact .throw
    | ub => exact .ub

theorem owned_not_json (t : VTy) : t.owned ≠ .json := by cases t <;> simp [VTy.owned]

theorem takeEach_as (F : Floats) (t : VTy) (vs : List Value) : takeEach (t.owned.asRv F) vs = (vs, eachOf (t.owned.as F) vs) :=
  Prod.ext (takeEach_same fun v _ => asRv_fst F (owned_not_json t) v) (takeEach_snd fun v _ => by rw [asRv_as F (owned_not_json t)])

theorem clear_same {t : VTy} {vs : List Value} {a : Out (List Text)} {b : Out CVal} (h : SameTexts t a b) :
    (clearViewed (vs, a)).1 = (clearAfter (vs, b)).1 ∧ SameTexts t (clearViewed (vs, a)).2 (clearAfter (vs, b)).2 := by
  cases h with
  | ok h =>
    refine ⟨rfl, .ok ?_⟩
    rw [← h, List.map_map]
    refine List.map_congr_left fun x _ => ?_
    obtain ⟨r, b⟩ := x
    cases r <;> rfl
  | throw => exact ⟨rfl, .throw⟩
  | ub => exact ⟨rfl, .ub⟩

theorem onArray_same {t : VTy} {f : List Value → List Value × Out (List Text)} {g : List Value → List Value × Out CVal}
    (h : ∀ vs, (f vs).1 = (g vs).1 ∧ SameTexts t (f vs).2 (g vs).2) (v : Value) : (v.onArray f).1 = (v.onArray g).1 ∧ SameTexts t (v.onArray f).2 (v.onArray g).2 := by
  unfold onArray
  rcases v.asArrayM with ⟨w, o⟩
  cases o with
  | ok vs => exact ⟨by simp [(h vs).1], (h vs).2⟩
  | throw e => exact ⟨rfl, .throw⟩
  | ub => exact ⟨rfl, .ub⟩

theorem onObject_same {t : VTy} {f : List (Bytes × Value) → List (Bytes × Value) × Out (List Text)} {g : List (Bytes × Value) → List (Bytes × Value) × Out CVal}
    (h : ∀ vs, (f vs).1 = (g vs).1 ∧ SameTexts t (f vs).2 (g vs).2) (v : Value) : (v.onObject f).1 = (v.onObject g).1 ∧ SameTexts t (v.onObject f).2 (v.onObject g).2 := by
  unfold onObject
  rcases v.asObjectM with ⟨w, o⟩
  cases o with
  | ok vs => exact ⟨by simp [(h vs).1], (h vs).2⟩
  | throw e => exact ⟨rfl, .throw⟩
  | ub => exact ⟨rfl, .ub⟩

/-- The conversion from an rvalue gives the same texts, ends alike and leaves the same value as the one with `std::string` in place of `std::string_view`. -/
theorem take_same (F : Floats) : ∀ (t : VTy) (_ : t.movable = true) (p : List Nat) (v : Value),
    (t.take p v).1 = (t.owned.take F v).1 ∧ SameTexts t (t.take p v).2 (t.owned.take F v).2
  | .string, _, p, v => by
    simp only [VTy.take, VTy.owned, Ty.take]
    exact ⟨trivial, as_same F .string p v⟩
  | .seq t, _, p, v => by
    simp only [VTy.take, VTy.owned, Ty.take, takeEach_as]
    refine onArray_same (fun vs => clear_same ?_) v
    have := each_same (f := fun i w => t.as (p ++ [i]) w) (fun i w => as_same F t (p ++ [i]) w) vs 0
    revert this
    generalize eachAt (fun i w => t.as (p ++ [i]) w) 0 vs = a, eachOf (t.owned.as F) vs = b
    intro h
    cases h with
    | ok h => exact .ok (flatten_same h)
    | throw => exact .throw
    | ub => exact .ub
  | .fixed n t, _, p, v => by
    simp only [VTy.take, VTy.owned, Ty.take, takeEach_as]
    refine onArray_same (fun vs => ?_) v
    split
    · refine clear_same ?_
      have := each_same (f := fun i w => t.as (p ++ [i]) w) (fun i w => as_same F t (p ++ [i]) w) vs 0
      revert this
      generalize eachAt (fun i w => t.as (p ++ [i]) w) 0 vs = a, eachOf (t.owned.as F) vs = b
      intro h
      cases h with
      | ok h => exact .ok (flatten_same h)
      | throw => exact .throw
      | ub => exact .ub
    · exact ⟨rfl, .throw⟩
  | .pair t u, _, p, v => by
    simp only [VTy.take, VTy.owned, Ty.take, Tys.size]
    refine onArray_same (fun vs => ?_) v
    match vs with
    | [] => exact ⟨rfl, .throw⟩
    | [x] => exact ⟨rfl, .throw⟩
    | [x, y] =>
      have h1 := as_same F t (p ++ [0]) x
      have h2 := as_same F u (p ++ [1]) y
      have e : Tys.takeAll F (.cons t.owned (.cons u.owned .nil)) [x, y] =
          ([x, y], (t.owned.as F x).bind fun a => (u.owned.as F y).bind fun b => .ok [a, b]) := by
        simp only [Tys.takeAll, asRv_as F (owned_not_json t), asRv_as F (owned_not_json u)]
        cases t.owned.as F x <;> cases u.owned.as F y <;> rfl
      simp only [List.length_cons, List.length_nil, if_true, e, wrapTaken]
      refine clear_same (b := ((t.owned.as F x).bind fun a => (u.owned.as F y).bind fun b => .ok [a, b]).bind fun l => .ok (.list l)) ?_
      revert h1 h2
      generalize t.as (p ++ [0]) x = a, t.owned.as F x = b, u.as (p ++ [1]) y = c, u.owned.as F y = d
      intro h1 h2
      cases h1 with
      | ok h1 =>
        cases h2 with
        | ok h2 => exact .ok (by simp [VTy.texts, h1, h2])
        | throw => exact .throw
        | ub => exact .ub
      | throw => exact .throw
      | ub => exact .ub
    | x :: y :: z :: vs =>
      simp
      exact .throw
  | .map t, _, p, v => by
    simp only [VTy.take, VTy.owned, Ty.take, asRv_as F (owned_not_json t)]
    refine onObject_same (fun ms => ?_) v
    have e : takeEach (fun e : Bytes × Value => ((e.1, e.2), (t.owned.as F e.2).bind fun x => .ok (e.1, x))) ms =
        (ms, eachOf (fun e : Bytes × Value => (t.owned.as F e.2).bind fun x => .ok (e.1, x)) ms) :=
      Prod.ext (takeEach_same fun v _ => rfl) (takeEach_snd fun v _ => rfl)
    rw [e]
    refine ⟨rfl, ?_⟩
    simp only [wrapTaken]
    rcases members_same (f := fun i w => t.as (p ++ [i]) w) (fun i w => as_same F t (p ++ [i]) w) ms 0 with ⟨es, ds, h1, h2, h⟩ | ⟨e, h1, h2⟩ | ⟨h1, h2⟩
    · rw [h1, h2]
      exact .ok (mapTexts_same (foldl_emplace_same (R := fun (x : List Text) c => x.map Text.bytes = t.texts c) h .nil))
    · rw [h1, h2]
      exact .throw
    · rw [h1, h2]
      exact .ub
  | .nullable .pointer t, hm, p, v => by
    simp only [VTy.take, VTy.owned, Ty.take]
    split
    · exact ⟨rfl, .ok rfl⟩
    · have := take_same F t (by simpa [VTy.movable] using hm) p v
      refine ⟨this.1, ?_⟩
      replace this := this.2
      simp only [wrapTaken]
      revert this
      generalize (t.take p v).2 = a, (t.owned.take F v).2 = b
      intro h
      cases h with
      | ok h => exact .ok h
      | throw => exact .throw
      | ub => exact .ub
  | .nullable .optional t, hm, p, v => by
    simp only [VTy.take, VTy.owned, Ty.take]
    have := take_same F t (by simpa [VTy.movable] using hm) p v
    refine ⟨this.1, ?_⟩
    replace this := this.2
    simp only [wrapTaken]
    revert this
    generalize (t.take p v).2 = a, (t.owned.take F v).2 = b
    intro h
    cases h with
    | ok h => exact .ok h
    | throw => exact .throw
    | ub => exact .ub

end Meojson
