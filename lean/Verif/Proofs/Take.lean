import Verif.Model.Take
import Verif.Spec.Take
import Verif.Proofs.Convert

/-! Conversions from an rvalue. -/

set_option autoImplicit false

namespace Meojson
open Spec RawObject Value

theorem wrapTaken_fst {σ α β : Type} (f : α → β) (r : σ × Out α) : (wrapTaken f r).1 = r.1 := rfl
theorem wrapTaken_snd {σ α β : Type} (f : α → β) (r : σ × Out α) : (wrapTaken f r).2 = r.2.bind fun x => .ok (f x) := rfl

theorem clearAfter_snd {α : Type} (r : List Value × Out α) : (clearAfter r).2 = r.2 := by
  rcases r with ⟨l, o⟩
  cases o <;> rfl

theorem clearAfter_fst {α : Type} (r : List Value × Out α) : (clearAfter r).1 = r.1 ∨ (clearAfter r).1 = [] := by
  rcases r with ⟨l, o⟩
  cases o <;> simp [clearAfter]

theorem clearAfter_ok {α : Type} {r : List Value × Out α} {x : α} (h : r.2 = .ok x) : (clearAfter r).1 = [] := by
  rcases r with ⟨l, o⟩
  cases h
  rfl

theorem clearAfter_not {α : Type} {r : List Value × Out α} (h : ∀ x, r.2 ≠ .ok x) : (clearAfter r).1 = r.1 := by
  rcases r with ⟨l, o⟩
  cases o with
  | ok x => exact absurd rfl (h x)
  | _ => rfl

theorem takeEach_snd {α β : Type} {f : α → α × Out β} {g : α → Out β} : ∀ {vs : List α}, (∀ v ∈ vs, (f v).2 = g v) → (takeEach f vs).2 = eachOf g vs
  | [], _ => rfl
  | v :: vs, h => by
    have h0 := h v (by simp)
    have ih := takeEach_snd (vs := vs) fun w hw => h w (by simp [hw])
    simp only [takeEach, eachOf, ← h0]
    rcases hf : f v with ⟨w, o⟩
    cases o <;> simp [Out.bind, ih]

theorem takeEach_left {α β : Type} {f : α → α × Out β} {P : α → α → Prop} (hrefl : ∀ v, P v v) :
    ∀ {vs : List α}, (∀ v ∈ vs, P v (f v).1) → List.Forall₂ P vs (takeEach f vs).1
  | [], _ => .nil
  | v :: vs, h => by
    have h0 := h v (by simp)
    have ih := takeEach_left hrefl (vs := vs) fun w hw => h w (by simp [hw])
    have same : List.Forall₂ P vs vs := by
      clear h ih
      induction vs with
      | nil => exact .nil
      | cons a l ih => exact .cons (hrefl a) ih
    simp only [takeEach]
    rcases hf : f v with ⟨w, o⟩
    rw [hf] at h0
    cases o
    · exact .cons h0 ih
    · exact .cons h0 same
    · exact .cons h0 same

theorem takeEach_same {α β : Type} {f : α → α × Out β} : ∀ {vs : List α}, (∀ v ∈ vs, (f v).1 = v) → (takeEach f vs).1 = vs
  | [], _ => rfl
  | v :: vs, h => by
    have h0 := h v (by simp)
    have ih := takeEach_same (vs := vs) fun w hw => h w (by simp [hw])
    simp only [takeEach]
    rcases hf : f v with ⟨w, o⟩
    rw [hf] at h0
    cases o <;> simp_all

theorem takeEach_ok {α β : Type} {f : α → α × Out β} {g : α → β} (h : ∀ v, (f v).2 = .ok (g v)) (vs : List α) : (takeEach f vs).2 = .ok (vs.map g) := by
  induction vs with
  | nil => rfl
  | cons v vs ih =>
    have h0 := h v
    simp only [takeEach]
    rcases hf : f v with ⟨w, o⟩
    rw [hf] at h0
    cases h0
    simp [ih]

theorem emptied_spent {v : Value} (hv : v.Sound) : Spent v v.emptied := by
  cases sound_shape hv <;> first | exact .inr .str | exact .inr .arr | exact .inr .obj

theorem asRv_snd (F : Floats) (t : Ty) {v : Value} (hv : v.Sound) : (t.asRv F v).2 = t.as F v := by
  cases t <;> simp [Ty.asRv, wrapTaken, movedOut, Ty.as, sound_copied hv]

theorem asRv_fst (F : Floats) {t : Ty} (ht : t ≠ .json) (v : Value) : (t.asRv F v).1 = v := by
  cases t <;> first | rfl | exact absurd rfl ht

theorem asRv_spent (F : Floats) (t : Ty) {v : Value} (hv : v.Sound) : Spent v (t.asRv F v).1 := by
  by_cases ht : t = .json
  · subst ht; exact emptied_spent hv
  · exact .inl (asRv_fst F ht v)

theorem takeAll_snd (F : Floats) : ∀ {ts : Tys} {vs : List Value}, (∀ v ∈ vs, v.Sound) → (ts.takeAll F vs).2 = ts.asAll F vs
  | .nil, _, _ => by simp [Tys.takeAll, Tys.asAll]
  | .cons _ _, [], _ => by simp [Tys.takeAll, Tys.asAll]
  | .cons t ts, v :: vs, h => by
    have h0 := asRv_snd F t (h v (by simp))
    have ih := takeAll_snd F (ts := ts) (vs := vs) fun w hw => h w (by simp [hw])
    simp only [Tys.takeAll, Tys.asAll, ← h0]
    rcases hf : t.asRv F v with ⟨w, o⟩
    cases o <;> simp [Out.bind, ih]

theorem spent_refl (vs : List Value) : List.Forall₂ Spent vs vs := by
  induction vs with
  | nil => exact .nil
  | cons a l ih => exact .cons (.inl rfl) ih

theorem takeAll_left (F : Floats) : ∀ {ts : Tys} {vs : List Value}, (∀ v ∈ vs, v.Sound) → List.Forall₂ Spent vs (ts.takeAll F vs).1
  | .nil, vs, _ => by simp only [Tys.takeAll]; exact spent_refl vs
  | .cons _ _, [], _ => by simp only [Tys.takeAll]; exact .nil
  | .cons t ts, v :: vs, h => by
    have h0 := asRv_spent F t (h v (by simp))
    have ih := takeAll_left F (ts := ts) (vs := vs) fun w hw => h w (by simp [hw])
    simp only [Tys.takeAll]
    rcases hf : t.asRv F v with ⟨w, o⟩
    rw [hf] at h0
    cases o
    · exact .cons h0 ih
    · exact .cons h0 (spent_refl vs)
    · exact .cons h0 (spent_refl vs)

theorem takeAll_same (F : Floats) : ∀ {ts : Tys} {vs : List Value}, (∀ i, ts.get? i ≠ some .json) → (ts.takeAll F vs).1 = vs
  | .nil, vs, _ => by simp [Tys.takeAll]
  | .cons _ _, [], _ => by simp [Tys.takeAll]
  | .cons t ts, v :: vs, h => by
    have ht : t ≠ .json := fun e => h 0 (by simp [Tys.get?, e])
    have h0 := asRv_fst F ht v
    have ih := takeAll_same F (ts := ts) (vs := vs) fun i => by simpa [Tys.get?] using h (i + 1)
    simp only [Tys.takeAll]
    rcases hf : t.asRv F v with ⟨w, o⟩
    rw [hf] at h0
    cases o <;> simp_all

/-! ### The coercing accessors -/

theorem onArray_cases {v : Value} (hv : v.Sound) {α : Type} (G : List Value → List Value × Out α) :
    (∃ vs, v = .arr .array vs ∧ (∀ w ∈ vs, w.Sound) ∧ v.onArray G = (.arr .array (G vs).1, (G vs).2)) ∨
    (v.type ≠ .array ∧ Blank v ∧ v.onArray G = (.arr .array (G []).1, (G []).2)) ∨
    (v.type ≠ .array ∧ ¬ Blank v ∧ v.onArray G = (v, .throw .json)) := by
  cases sound_shape hv with
  | array vs h =>
    refine .inl ⟨vs, rfl, h, ?_⟩
    cases vs <;> rfl
  | string s =>
    cases s with
    | nil => exact .inr (.inl ⟨by simp [Value.type], .inr (.inl rfl), rfl⟩)
    | cons c s => exact .inr (.inr ⟨by simp [Value.type], by simp [Blank, Value.type], rfl⟩)
  | object ms _ _ =>
    cases ms with
    | nil => exact .inr (.inl ⟨by simp [Value.type], .inr (.inr (.inr rfl)), rfl⟩)
    | cons c s => exact .inr (.inr ⟨by simp [Value.type], by simp [Blank, Value.type], rfl⟩)
  | null => exact .inr (.inl ⟨by simp [Value.type], .inl rfl, rfl⟩)
  | _ => exact .inr (.inr ⟨by simp [Value.type, Value.ofBool], by simp [Blank, Value.type, Value.ofBool], rfl⟩)

theorem onObject_cases {v : Value} (hv : v.Sound) {α : Type} (G : List (Bytes × Value) → List (Bytes × Value) × Out α) :
    (∃ ms, v = .obj .object ms ∧ Sorted ms ∧ (∀ e ∈ ms, e.2.Sound) ∧ v.onObject G = (.obj .object (G ms).1, (G ms).2)) ∨
    (v.type ≠ .object ∧ Blank v ∧ v.onObject G = (.obj .object (G []).1, (G []).2)) ∨
    (v.type ≠ .object ∧ ¬ Blank v ∧ v.onObject G = (v, .throw .json)) := by
  cases sound_shape hv with
  | object ms hs h =>
    refine .inl ⟨ms, rfl, hs, h, ?_⟩
    cases ms <;> rfl
  | string s =>
    cases s with
    | nil => exact .inr (.inl ⟨by simp [Value.type], .inr (.inl rfl), rfl⟩)
    | cons c s => exact .inr (.inr ⟨by simp [Value.type], by simp [Blank, Value.type], rfl⟩)
  | array ms _ =>
    cases ms with
    | nil => exact .inr (.inl ⟨by simp [Value.type], .inr (.inr (.inl rfl)), rfl⟩)
    | cons c s => exact .inr (.inr ⟨by simp [Value.type], by simp [Blank, Value.type], rfl⟩)
  | null => exact .inr (.inl ⟨by simp [Value.type], .inl rfl, rfl⟩)
  | _ => exact .inr (.inr ⟨by simp [Value.type, Value.ofBool], by simp [Blank, Value.type, Value.ofBool], rfl⟩)

/-- How the outcome `r` from an rvalue compares with the outcome `q` from a const lvalue. -/
structure Matches (v : Value) (r q : Out CVal) : Prop where
  ok : ∀ x, q = .ok x → r = .ok x
  same : ¬ Blank v → r = q
  tame : Tame r

theorem Matches.of_eq {v : Value} {r q : Out CVal} (h : r = q) (ht : Tame q) : Matches v r q := ⟨fun _ hx => h.trans hx, fun _ => h, h ▸ ht⟩

theorem Matches.map {v : Value} {r q : Out CVal} (h : Matches v r q) (f : CVal → CVal) : Matches v (r.bind fun x => .ok (f x)) (q.bind fun x => .ok (f x)) where
  ok x hx := by
    cases q with
    | ok y => rw [h.ok y rfl]; exact hx
    | throw e => cases hx
    | ub => cases hx
  same hb := by rw [h.same hb]
  tame := h.tame.map _

theorem onArray_matches {v : Value} (hv : v.Sound) {G : List Value → List Value × Out CVal} {g : List Value → Out CVal}
    (hG : ∀ vs, (∀ w ∈ vs, w.Sound) → (G vs).2 = g vs) (h0 : Tame (g [])) (h1 : Tame (v.asArray.bind g)) :
    Matches v (v.onArray G).2 (v.asArray.bind g) := by
  rcases onArray_cases hv G with ⟨vs, rfl, h, e⟩ | ⟨ht, hb, e⟩ | ⟨ht, hb, e⟩
  · exact .of_eq (by rw [e]; exact hG vs h) h1
  · have hq : v.asArray.bind g = .throw .json := by simp [Value.asArray, ht, typeError_sound hv, Out.bind]
    exact ⟨fun x hx => (by rw [hq] at hx; cases hx), fun h => absurd hb h, by rw [e, hG [] (by simp)]; exact h0⟩
  · have hq : v.asArray.bind g = .throw .json := by simp [Value.asArray, ht, typeError_sound hv, Out.bind]
    exact .of_eq (by rw [e, hq]) h1

theorem onObject_matches {v : Value} (hv : v.Sound) {G : List (Bytes × Value) → List (Bytes × Value) × Out CVal} {g : List (Bytes × Value) → Out CVal}
    (hG : ∀ ms, (∀ e ∈ ms, e.2.Sound) → (G ms).2 = g ms) (h0 : Tame (g [])) (h1 : Tame (v.asObject.bind g)) :
    Matches v (v.onObject G).2 (v.asObject.bind g) := by
  rcases onObject_cases hv G with ⟨ms, rfl, _, h, e⟩ | ⟨ht, hb, e⟩ | ⟨ht, hb, e⟩
  · exact .of_eq (by rw [e]; exact hG ms h) h1
  · have hq : v.asObject.bind g = .throw .json := by simp [Value.asObject, ht, typeError_sound hv, Out.bind]
    exact ⟨fun x hx => (by rw [hq] at hx; cases hx), fun h => absurd hb h, by rw [e, hG [] (by simp)]; exact h0⟩
  · have hq : v.asObject.bind g = .throw .json := by simp [Value.asObject, ht, typeError_sound hv, Out.bind]
    exact .of_eq (by rw [e, hq]) h1

theorem takeAny_snd (F : Floats) : ∀ {ts : Tys} {i : Nat} {v : Value}, v.Sound → (ts.takeAny F i v).2 = ts.asAny F i v
  | .nil, _, _, _ => by simp [Tys.takeAny, Tys.asAny]
  | .cons t ts, i, v, hv => by
    obtain ⟨b, hb⟩ := is_total F t v hv
    simp only [Tys.takeAny, Tys.asAny, hb, Out.bind_ok]
    cases b
    · exact takeAny_snd F hv
    · simp [wrapTaken, asRv_snd F t hv]

theorem takeAny_fst (F : Floats) : ∀ {ts : Tys} {i : Nat} {v : Value}, ts.jsonAt = none → (ts.takeAny F i v).1 = v
  | .nil, _, _, _ => by simp [Tys.takeAny]
  | .cons t ts, i, v, hj => by
    have ht : t ≠ .json := by rintro rfl; simp [Tys.jsonAt] at hj
    have hts : ts.jsonAt = none := by
      cases t <;> first | exact absurd rfl ht | simpa [Tys.jsonAt] using hj
    simp only [Tys.takeAny]
    split
    · simp [wrapTaken, asRv_fst F ht]
    · exact takeAny_fst F hts
    · rfl
    · rfl

theorem asRv_as (F : Floats) {t : Ty} (h : t ≠ .json) (v : Value) : t.asRv F v = (v, t.as F v) := by
  cases t <;> first | exact absurd rfl h | rfl

theorem takeAny_as (F : Floats) : ∀ {ts : Tys} {i : Nat} {v : Value}, ts.jsonAt = none → ts.takeAny F i v = (v, ts.asAny F i v)
  | .nil, _, _, _ => by simp [Tys.takeAny, Tys.asAny]
  | .cons t ts, i, v, hj => by
    have ht : t ≠ .json := by rintro rfl; simp [Tys.jsonAt] at hj
    have hts : ts.jsonAt = none := by
      cases t <;> first | exact absurd rfl ht | simpa [Tys.jsonAt] using hj
    simp only [Tys.takeAny, Tys.asAny]
    cases t.is F v with
    | ok b =>
      cases b with
      | true => simp only [wrapTaken, asRv_as F ht, Out.bind_ok, if_true]
      | false => simpa only [Out.bind_ok, Bool.false_eq_true, if_false] using takeAny_as F hts
    | throw e => rfl
    | ub => rfl

theorem chosen_none {ts : Tys} (h : ts.chosen = none) : ts.jsonAt = none := by
  unfold Tys.chosen chosenOf at h
  split at h <;> simp_all

theorem sound_nil : (Value.arr .array []).Sound := Shape.sound (.array [] (by simp))
theorem sound_empty : (Value.obj .object []).Sound := Shape.sound (.object [] .nil (by simp))

/-- Every value below the array level. -/
theorem nil_tame (F : Floats) (t : Ty) {g : List Value → Out CVal} (h : ∀ v, t.as F v = v.asArray.bind g) : Tame (g []) := by
  have := as_total F t (.arr .array []) sound_nil
  rw [h] at this
  exact this

theorem empty_tame (F : Floats) (t : Ty) {g : List (Bytes × Value) → Out CVal} (h : ∀ v, t.as F v = v.asObject.bind g) : Tame (g []) := by
  have := as_total F t (.obj .object []) sound_empty
  rw [h] at this
  exact this

theorem array_matches (F : Floats) (t : Ty) {v : Value} (hv : v.Sound) {G : List Value → List Value × Out CVal} {g : List Value → Out CVal}
    (ht : t.take F v = v.onArray G) (ha : ∀ v, t.as F v = v.asArray.bind g) (hG : ∀ vs, (∀ w ∈ vs, w.Sound) → (G vs).2 = g vs) :
    Matches v (t.take F v).2 (t.as F v) := by
  rw [ht, ha]
  exact onArray_matches hv hG (nil_tame F t ha) (ha v ▸ as_total F t v hv)

theorem object_matches (F : Floats) (t : Ty) {v : Value} (hv : v.Sound) {G : List (Bytes × Value) → List (Bytes × Value) × Out CVal}
    {g : List (Bytes × Value) → Out CVal}
    (ht : t.take F v = v.onObject G) (ha : ∀ v, t.as F v = v.asObject.bind g) (hG : ∀ ms, (∀ e ∈ ms, e.2.Sound) → (G ms).2 = g ms) :
    Matches v (t.take F v).2 (t.as F v) := by
  rw [ht, ha]
  exact onObject_matches hv hG (empty_tame F t ha) (ha v ▸ as_total F t v hv)

mutual
theorem take_matches (F : Floats) : ∀ (t : Ty) (v : Value) (_ : v.Sound), Matches v (t.take F v).2 (t.as F v)
  | .json, v, hv => .of_eq (by simp [Ty.take, Ty.as, wrapTaken, movedOut, sound_copied hv]) (as_total F _ v hv)
  | .nullable .pointer t, v, hv => by
    simp only [Ty.take, Ty.as]
    split
    · exact .of_eq rfl (.inl ⟨_, rfl⟩)
    · exact (take_matches F t v hv).map .just
  | .nullable .optional t, v, hv => by
    simp only [Ty.take, Ty.as]
    exact (take_matches F t v hv).map .just
  | .jarray, v, hv => by
    refine array_matches F .jarray hv (by rw [Ty.take]) (fun v => by rw [Ty.as]) fun vs h => ?_
    rw [clearAfter_snd, wrapTaken_snd, takeEach_snd (g := Value.copied)]
    intro w hw
    simp [movedOut, sound_copied (h w hw)]
  | .seq t, v, hv => by
    refine array_matches F (.seq t) hv (by rw [Ty.take]) (fun v => by rw [Ty.as]) fun vs h => ?_
    rw [clearAfter_snd, wrapTaken_snd, takeEach_snd (g := t.as F)]
    exact fun w hw => asRv_snd F t (h w hw)
  | .set lt t, v, hv => by
    refine array_matches F (.set lt t) hv (by rw [Ty.take]) (fun v => by rw [Ty.as]) fun vs h => ?_
    rw [clearAfter_snd, wrapTaken_snd, takeEach_snd (g := t.as F)]
    exact fun w hw => asRv_snd F t (h w hw)
  | .fixed n t, v, hv => by
    refine array_matches F (.fixed n t) hv (by rw [Ty.take]) (fun v => by rw [Ty.as]) fun vs h => ?_
    split
    · rw [clearAfter_snd, wrapTaken_snd, takeEach_snd (g := t.as F)]
      exact fun w hw => asRv_snd F t (h w hw)
    · rfl
  | .tuple ts, v, hv => by
    by_cases h1 : ts.size = 1
    · simp only [Ty.take, Ty.as, h1, if_true]
      exact (takeNth_matches F ts 0 (by omega) v hv).map fun x => .list [x]
    · refine array_matches F (.tuple ts) hv (by rw [Ty.take, if_neg h1]) (fun v => by rw [Ty.as, if_neg h1]) fun vs h => ?_
      split
      · rw [clearAfter_snd, wrapTaken_snd, takeAll_snd F h]
      · rfl
  | .variant ts, v, hv => by
    simp only [Ty.take, Ty.as]
    split
    · rename_i i hc
      simp only [hc]
      exact (takeNth_matches F ts i (chosen_lt hc) v hv).map (.alt i)
    · rename_i hc
      simp only [hc]
      exact .of_eq (takeAny_snd F hv) (asAny_tame F ts 0 v hv)
  | .jobject, v, hv => by
    refine object_matches F .jobject hv (by rw [Ty.take]) (fun v => by rw [Ty.as]) fun ms h => ?_
    rw [wrapTaken_snd, takeEach_snd (g := fun e : Bytes × Value => e.2.copied.bind fun w => .ok (e.1, w))]
    intro e he
    simp [sound_copied (h e he)]
  | .map t, v, hv => by
    refine object_matches F (.map t) hv (by rw [Ty.take]) (fun v => by rw [Ty.as]) fun ms h => ?_
    rw [wrapTaken_snd, takeEach_snd (g := fun e : Bytes × Value => (t.as F e.2).bind fun x => .ok (e.1, x))]
    intro e he
    simp [asRv_snd F t (h e he)]
  | .bool, v, hv => .of_eq rfl (as_total F _ v hv)
  | .int _, v, hv => .of_eq rfl (as_total F _ v hv)
  | .float _, v, hv => .of_eq rfl (as_total F _ v hv)
  | .string, v, hv => .of_eq rfl (as_total F _ v hv)
  | .null, v, hv => .of_eq rfl (as_total F _ v hv)
  | .enum _, v, hv => .of_eq rfl (as_total F _ v hv)
  | .struct _, v, hv => .of_eq rfl (as_total F _ v hv)
  | .user _, v, hv => .of_eq rfl (as_total F _ v hv)
theorem takeNth_matches (F : Floats) : ∀ (ts : Tys) (i : Nat) (_ : i < ts.size) (v : Value) (_ : v.Sound), Matches v (ts.takeNth F i v).2 (ts.asNth F i v)
  | .nil, _, h, _, _ => by simp [Tys.size] at h
  | .cons t _, 0, _, v, hv => by simpa [Tys.takeNth, Tys.asNth] using take_matches F t v hv
  | .cons _ ts, i + 1, h, v, hv => by simpa [Tys.takeNth, Tys.asNth] using takeNth_matches F ts i (by simp [Tys.size] at h; omega) v hv
end

/-- From a blank value the conversion may do what it does with the empty array or the empty object. -/
def Instead (v : Value) (r : Out CVal) (f : Value → Out CVal) : Prop := r = f v ∨ Blank v ∧ (r = f (.arr .array []) ∨ r = f (.obj .object []))

theorem Instead.map {v : Value} {r : Out CVal} {f : Value → Out CVal} (h : Instead v r f) (g : CVal → CVal) :
    Instead v (r.bind fun x => .ok (g x)) (fun v => (f v).bind fun x => .ok (g x)) :=
  h.imp (fun e => by rw [e]) fun h => ⟨h.1, h.2.imp (fun e => by rw [e]) (fun e => by rw [e])⟩

theorem array_instead (F : Floats) (t : Ty) {v : Value} (hv : v.Sound) {G : List Value → List Value × Out CVal} {g : List Value → Out CVal}
    (ht : t.take F v = v.onArray G) (ha : ∀ v, t.as F v = v.asArray.bind g) (hG : ∀ vs, (∀ w ∈ vs, w.Sound) → (G vs).2 = g vs) :
    Instead v (t.take F v).2 (t.as F) := by
  by_cases hb : Blank v
  · rw [ht]
    rcases onArray_cases hv G with ⟨vs, rfl, h, e⟩ | ⟨_, _, e⟩ | ⟨_, h, _⟩
    · exact .inl (by rw [e, ha, hG vs h]; rfl)
    · exact .inr ⟨hb, .inl (by rw [e, ha, hG [] (by simp)]; rfl)⟩
    · exact absurd hb h
  · exact .inl ((array_matches F t hv ht ha hG).same hb)

theorem object_instead (F : Floats) (t : Ty) {v : Value} (hv : v.Sound) {G : List (Bytes × Value) → List (Bytes × Value) × Out CVal}
    {g : List (Bytes × Value) → Out CVal}
    (ht : t.take F v = v.onObject G) (ha : ∀ v, t.as F v = v.asObject.bind g) (hG : ∀ ms, (∀ e ∈ ms, e.2.Sound) → (G ms).2 = g ms) :
    Instead v (t.take F v).2 (t.as F) := by
  by_cases hb : Blank v
  · rw [ht]
    rcases onObject_cases hv G with ⟨vs, rfl, _, h, e⟩ | ⟨_, _, e⟩ | ⟨_, h, _⟩
    · exact .inl (by rw [e, ha, hG vs h]; rfl)
    · exact .inr ⟨hb, .inr (by rw [e, ha, hG [] (by simp)]; rfl)⟩
    · exact absurd hb h
  · exact .inl ((object_matches F t hv ht ha hG).same hb)

mutual
theorem take_instead (F : Floats) : ∀ (t : Ty) (v : Value) (_ : v.Sound), Instead v (t.take F v).2 (t.as F)
  | .json, v, hv => .inl (by simp [Ty.take, Ty.as, wrapTaken, movedOut, sound_copied hv])
  | .nullable .pointer t, v, hv => by
    by_cases hn : v.type = .null
    · exact .inl (by simp [Ty.take, Ty.as, hn])
    · have h := (take_instead F t v hv).map .just
      rcases h with h | ⟨hb, h | h⟩
      · exact .inl (by simpa [Ty.take, Ty.as, hn, wrapTaken] using h)
      · exact .inr ⟨hb, .inl (by rw [Ty.take, if_neg hn, Ty.as, if_neg (by simp [Value.type])]; exact h)⟩
      · exact .inr ⟨hb, .inr (by rw [Ty.take, if_neg hn, Ty.as, if_neg (by simp [Value.type])]; exact h)⟩
  | .nullable .optional t, v, hv => by
    have h := (take_instead F t v hv).map .just
    rcases h with h | ⟨hb, h | h⟩
    · exact .inl (by simpa [Ty.take, Ty.as, wrapTaken] using h)
    · exact .inr ⟨hb, .inl (by simpa [Ty.take, Ty.as, wrapTaken, Value.type] using h)⟩
    · exact .inr ⟨hb, .inr (by simpa [Ty.take, Ty.as, wrapTaken, Value.type] using h)⟩
  | .jarray, v, hv => by
    refine array_instead F .jarray hv (by rw [Ty.take]) (fun v => by rw [Ty.as]) fun vs h => ?_
    rw [clearAfter_snd, wrapTaken_snd, takeEach_snd (g := Value.copied)]
    intro w hw
    simp [movedOut, sound_copied (h w hw)]
  | .seq t, v, hv => by
    refine array_instead F (.seq t) hv (by rw [Ty.take]) (fun v => by rw [Ty.as]) fun vs h => ?_
    rw [clearAfter_snd, wrapTaken_snd, takeEach_snd (g := t.as F)]
    exact fun w hw => asRv_snd F t (h w hw)
  | .set lt t, v, hv => by
    refine array_instead F (.set lt t) hv (by rw [Ty.take]) (fun v => by rw [Ty.as]) fun vs h => ?_
    rw [clearAfter_snd, wrapTaken_snd, takeEach_snd (g := t.as F)]
    exact fun w hw => asRv_snd F t (h w hw)
  | .fixed n t, v, hv => by
    refine array_instead F (.fixed n t) hv (by rw [Ty.take]) (fun v => by rw [Ty.as]) fun vs h => ?_
    split
    · rw [clearAfter_snd, wrapTaken_snd, takeEach_snd (g := t.as F)]
      exact fun w hw => asRv_snd F t (h w hw)
    · rfl
  | .tuple ts, v, hv => by
    by_cases h1 : ts.size = 1
    · have h := (takeNth_instead F ts 0 v hv).map fun x => .list [x]
      rcases h with h | ⟨hb, h | h⟩
      · exact .inl (by simpa [Ty.take, Ty.as, h1, wrapTaken] using h)
      · exact .inr ⟨hb, .inl (by simpa [Ty.take, Ty.as, h1, wrapTaken, Value.type] using h)⟩
      · exact .inr ⟨hb, .inr (by simpa [Ty.take, Ty.as, h1, wrapTaken, Value.type] using h)⟩
    · refine array_instead F (.tuple ts) hv (by rw [Ty.take, if_neg h1]) (fun v => by rw [Ty.as, if_neg h1]) fun vs h => ?_
      split
      · rw [clearAfter_snd, wrapTaken_snd, takeAll_snd F h]
      · rfl
  | .variant ts, v, hv => by
    rcases hc : ts.chosen with _ | i
    · exact .inl (by simp only [Ty.take, Ty.as, hc]; exact takeAny_snd F hv)
    · have h := (takeNth_instead F ts i v hv).map (.alt i)
      rcases h with h | ⟨hb, h | h⟩
      · exact .inl (by simpa [Ty.take, Ty.as, hc, wrapTaken] using h)
      · exact .inr ⟨hb, .inl (by simpa [Ty.take, Ty.as, hc, wrapTaken, Value.type] using h)⟩
      · exact .inr ⟨hb, .inr (by simpa [Ty.take, Ty.as, hc, wrapTaken, Value.type] using h)⟩
  | .jobject, v, hv => by
    refine object_instead F .jobject hv (by rw [Ty.take]) (fun v => by rw [Ty.as]) fun ms h => ?_
    rw [wrapTaken_snd, takeEach_snd (g := fun e : Bytes × Value => e.2.copied.bind fun w => .ok (e.1, w))]
    intro e he
    simp [sound_copied (h e he)]
  | .map t, v, hv => by
    refine object_instead F (.map t) hv (by rw [Ty.take]) (fun v => by rw [Ty.as]) fun ms h => ?_
    rw [wrapTaken_snd, takeEach_snd (g := fun e : Bytes × Value => (t.as F e.2).bind fun x => .ok (e.1, x))]
    intro e he
    simp [asRv_snd F t (h e he)]
  | .bool, v, hv => .inl rfl
  | .int _, v, hv => .inl rfl
  | .float _, v, hv => .inl rfl
  | .string, v, hv => .inl rfl
  | .null, v, hv => .inl rfl
  | .enum _, v, hv => .inl rfl
  | .struct _, v, hv => .inl rfl
  | .user _, v, hv => .inl rfl
theorem takeNth_instead (F : Floats) : ∀ (ts : Tys) (i : Nat) (v : Value) (_ : v.Sound), Instead v (ts.takeNth F i v).2 (ts.asNth F i)
  | .nil, _, v, _ => .inl (by simp [Tys.takeNth, Tys.asNth])
  | .cons t _, 0, v, hv => by
    rcases take_instead F t v hv with h | ⟨hb, h | h⟩
    · exact .inl (by simpa [Tys.takeNth, Tys.asNth] using h)
    · exact .inr ⟨hb, .inl (by simpa [Tys.takeNth, Tys.asNth] using h)⟩
    · exact .inr ⟨hb, .inr (by simpa [Tys.takeNth, Tys.asNth] using h)⟩
  | .cons _ ts, i + 1, v, hv => by
    rcases takeNth_instead F ts i v hv with h | ⟨hb, h | h⟩
    · exact .inl (by simpa [Tys.takeNth, Tys.asNth] using h)
    · exact .inr ⟨hb, .inl (by simpa [Tys.takeNth, Tys.asNth] using h)⟩
    · exact .inr ⟨hb, .inr (by simpa [Tys.takeNth, Tys.asNth] using h)⟩
end

/-! ### What is left -/

theorem array_left {v : Value} (hv : v.Sound) {α : Type} {G : List Value → List Value × Out α}
    (hG : ∀ vs, (∀ w ∈ vs, w.Sound) → List.Forall₂ Spent vs (G vs).1 ∨ (G vs).1 = []) : Remains v (v.onArray G).1 := by
  rcases onArray_cases hv G with ⟨vs, rfl, h, e⟩ | ⟨_, hb, e⟩ | ⟨_, _, e⟩
  · rw [e]
    rcases hG vs h with h' | h'
    · exact .elements h'
    · simp only [h']; exact .cleared
  · rw [e]
    have : (G []).1 = [] := by
      rcases hG [] (by simp) with h' | h'
      · exact List.forall₂_nil_left_iff.1 h'
      · exact h'
    simp only [this]
    exact .madeArray hb
  · rw [e]; exact .whole (.inl rfl)

theorem object_left {v : Value} (hv : v.Sound) {α : Type} {G : List (Bytes × Value) → List (Bytes × Value) × Out α}
    (hG : ∀ ms, (∀ e ∈ ms, e.2.Sound) → List.Forall₂ (fun a b => b.1 = a.1 ∧ Spent a.2 b.2) ms (G ms).1) : Remains v (v.onObject G).1 := by
  rcases onObject_cases hv G with ⟨ms, rfl, _, h, e⟩ | ⟨_, hb, e⟩ | ⟨_, _, e⟩
  · rw [e]; exact .members (hG ms h)
  · rw [e]
    have : (G []).1 = [] := List.forall₂_nil_left_iff.1 (hG [] (by simp))
    simp only [this]
    exact .madeObject hb
  · rw [e]; exact .whole (.inl rfl)

theorem clearAfter_left {α : Type} {vs : List Value} {r : List Value × Out α} (h : List.Forall₂ Spent vs r.1) :
    List.Forall₂ Spent vs (clearAfter r).1 ∨ (clearAfter r).1 = [] := (clearAfter_fst r).imp (fun e => by rw [e]; exact h) id

mutual
theorem take_left (F : Floats) : ∀ (t : Ty) (v : Value) (_ : v.Sound), Remains v (t.take F v).1
  | .json, v, hv => .whole (emptied_spent hv)
  | .nullable .pointer t, v, hv => by
    simp only [Ty.take]
    split
    · exact .whole (.inl rfl)
    · exact take_left F t v hv
  | .nullable .optional t, v, hv => by
    simp only [Ty.take]
    exact take_left F t v hv
  | .jarray, v, hv => by
    rw [Ty.take]
    exact array_left hv fun vs h => clearAfter_left (takeEach_left (fun v => .inl rfl) fun w hw => emptied_spent (h w hw))
  | .seq t, v, hv => by
    rw [Ty.take]
    exact array_left hv fun vs h => clearAfter_left (takeEach_left (fun v => .inl rfl) fun w hw => asRv_spent F t (h w hw))
  | .set lt t, v, hv => by
    rw [Ty.take]
    exact array_left hv fun vs h => clearAfter_left (takeEach_left (fun v => .inl rfl) fun w hw => asRv_spent F t (h w hw))
  | .fixed n t, v, hv => by
    rw [Ty.take]
    refine array_left hv fun vs h => ?_
    split
    · exact clearAfter_left (takeEach_left (fun v => .inl rfl) fun w hw => asRv_spent F t (h w hw))
    · exact .inl (spent_refl vs)
  | .tuple ts, v, hv => by
    rw [Ty.take]
    split
    · exact takeNth_left F ts 0 v hv
    · refine array_left hv fun vs h => ?_
      split
      · exact clearAfter_left (takeAll_left F h)
      · exact .inl (spent_refl vs)
  | .variant ts, v, hv => by
    simp only [Ty.take]
    split
    · exact takeNth_left F ts _ v hv
    · rename_i hc
      rw [takeAny_fst F (chosen_none hc)]
      exact .whole (.inl rfl)
  | .jobject, v, hv => by
    rw [Ty.take]
    exact object_left hv fun ms h => takeEach_left (fun v => ⟨rfl, .inl rfl⟩) fun e he => ⟨rfl, emptied_spent (h e he)⟩
  | .map t, v, hv => by
    rw [Ty.take]
    exact object_left hv fun ms h => takeEach_left (fun v => ⟨rfl, .inl rfl⟩) fun e he => ⟨rfl, asRv_spent F t (h e he)⟩
  | .bool, v, _ => .whole (.inl rfl)
  | .int _, v, _ => .whole (.inl rfl)
  | .float _, v, _ => .whole (.inl rfl)
  | .string, v, _ => .whole (.inl rfl)
  | .null, v, _ => .whole (.inl rfl)
  | .enum _, v, _ => .whole (.inl rfl)
  | .struct _, v, _ => .whole (.inl rfl)
  | .user _, v, _ => .whole (.inl rfl)
theorem takeNth_left (F : Floats) : ∀ (ts : Tys) (i : Nat) (v : Value) (_ : v.Sound), Remains v (ts.takeNth F i v).1
  | .nil, _, v, _ => by simp only [Tys.takeNth]; exact .whole (.inl rfl)
  | .cons t _, 0, v, hv => by simpa [Tys.takeNth] using take_left F t v hv
  | .cons _ ts, i + 1, v, hv => by simpa [Tys.takeNth] using takeNth_left F ts i v hv
end

/-! ### When it fails, and when it succeeds -/

theorem onArray_keep {v : Value} (hv : v.Sound) (hb : ¬ Blank v) {α : Type} {G : List Value → List Value × Out α}
    (hG : ∀ vs, (∀ x, (G vs).2 ≠ .ok x) → (G vs).1 = vs) (h : ∀ x, (v.onArray G).2 ≠ .ok x) : (v.onArray G).1 = v := by
  rcases onArray_cases hv G with ⟨vs, rfl, _, e⟩ | ⟨_, hb', _⟩ | ⟨_, _, e⟩
  · rw [e] at h ⊢
    rw [hG vs h]
  · exact absurd hb' hb
  · rw [e]

theorem onObject_keep {v : Value} (hv : v.Sound) (hb : ¬ Blank v) {α : Type} {G : List (Bytes × Value) → List (Bytes × Value) × Out α}
    (hG : ∀ ms, (∀ x, (G ms).2 ≠ .ok x) → (G ms).1 = ms) (h : ∀ x, (v.onObject G).2 ≠ .ok x) : (v.onObject G).1 = v := by
  rcases onObject_cases hv G with ⟨vs, rfl, _, _, e⟩ | ⟨_, hb', _⟩ | ⟨_, _, e⟩
  · rw [e] at h ⊢
    rw [hG vs h]
  · exact absurd hb' hb
  · rw [e]

theorem wrap_not {σ α β : Type} {f : α → β} {r : σ × Out α} (h : ∀ y, (wrapTaken f r).2 ≠ .ok y) : ∀ x, r.2 ≠ .ok x :=
  fun x hx => h (f x) (by simp [wrapTaken, hx])

theorem takeEach_keep (F : Floats) (t : Ty) {vs : List Value} (h : ∀ x, (takeEach (t.asRv F) vs).2 ≠ .ok x) : (takeEach (t.asRv F) vs).1 = vs := by
  by_cases ht : t = .json
  · subst ht
    exact absurd (takeEach_ok (g := .json) (fun v => rfl) vs) (h _)
  · exact takeEach_same fun v _ => asRv_fst F ht v

theorem clear_keep {α : Type} {vs : List Value} {r : List Value × Out α} (hr : (∀ x, r.2 ≠ .ok x) → r.1 = vs) (h : ∀ x, (clearAfter r).2 ≠ .ok x) :
    (clearAfter r).1 = vs := by
  rw [clearAfter_snd] at h
  rw [clearAfter_not h, hr h]

mutual
theorem take_keep (F : Floats) : ∀ (t : Ty) (v : Value) (_ : v.Sound) (_ : ¬ Blank v) (_ : t.NoSplit) (_ : ∀ x, (t.take F v).2 ≠ .ok x), (t.take F v).1 = v
  | .json, v, _, _, _, h => absurd (by simp [Ty.take, wrapTaken, movedOut]) (h (.json v))
  | .nullable .pointer t, v, hv, hb, hs, h => by
    simp only [Ty.take] at h ⊢
    split
    · rfl
    · rename_i hn
      rw [if_neg hn] at h
      exact take_keep F t v hv hb hs (wrap_not h)
  | .nullable .optional t, v, hv, hb, hs, h => by
    simp only [Ty.take] at h ⊢
    exact take_keep F t v hv hb hs (wrap_not h)
  | .jarray, v, hv, hb, _, h => by
    rw [Ty.take] at h ⊢
    refine onArray_keep hv hb (fun vs => clear_keep fun hn => ?_) h
    exact absurd (takeEach_ok (g := id) (fun v => rfl) vs) (wrap_not hn _)
  | .seq t, v, hv, hb, _, h => by
    rw [Ty.take] at h ⊢
    exact onArray_keep hv hb (fun vs => clear_keep fun hn => takeEach_keep F t (wrap_not hn)) h
  | .set lt t, v, hv, hb, _, h => by
    rw [Ty.take] at h ⊢
    exact onArray_keep hv hb (fun vs => clear_keep fun hn => takeEach_keep F t (wrap_not hn)) h
  | .fixed n t, v, hv, hb, _, h => by
    rw [Ty.take] at h ⊢
    refine onArray_keep hv hb (fun vs => ?_) h
    split
    · exact clear_keep fun hn => takeEach_keep F t (wrap_not hn)
    · exact fun _ => rfl
  | .tuple ts, v, hv, hb, hs, h => by
    rw [Ty.take] at h ⊢
    split
    · rename_i h1
      rw [if_pos h1] at h
      exact takeNth_keep F ts 0 v hv hb (hs.1 h1) (wrap_not h)
    · rename_i h1
      rw [if_neg h1] at h
      refine onArray_keep hv hb (fun vs => ?_) h
      split
      · exact clear_keep fun _ => takeAll_same F (hs.2 h1)
      · exact fun _ => rfl
  | .variant ts, v, hv, hb, hs, h => by
    simp only [Ty.take] at h ⊢
    split
    · rename_i i hc
      rw [hc] at h
      exact takeNth_keep F ts i v hv hb hs (wrap_not h)
    · rename_i hc
      exact takeAny_fst F (chosen_none hc)
  | .jobject, v, hv, hb, _, h => by
    rw [Ty.take] at h ⊢
    refine onObject_keep hv hb (fun ms hn => ?_) h
    exact absurd (takeEach_ok (g := id) (fun v => rfl) ms) (wrap_not hn _)
  | .map t, v, hv, hb, _, h => by
    rw [Ty.take] at h ⊢
    refine onObject_keep hv hb (fun ms hn => ?_) h
    by_cases ht : t = .json
    · subst ht
      exact absurd (takeEach_ok (g := fun e : Bytes × Value => (e.1, CVal.json e.2)) (fun v => rfl) ms) (wrap_not hn _)
    · exact takeEach_same fun e _ => by simp [asRv_fst F ht]
  | .bool, v, _, _, _, _ => rfl
  | .int _, v, _, _, _, _ => rfl
  | .float _, v, _, _, _, _ => rfl
  | .string, v, _, _, _, _ => rfl
  | .null, v, _, _, _, _ => rfl
  | .enum _, v, _, _, _, _ => rfl
  | .struct _, v, _, _, _, _ => rfl
  | .user _, v, _, _, _, _ => rfl
theorem takeNth_keep (F : Floats) : ∀ (ts : Tys) (i : Nat) (v : Value) (_ : v.Sound) (_ : ¬ Blank v) (_ : ts.NoSplit) (_ : ∀ x, (ts.takeNth F i v).2 ≠ .ok x),
    (ts.takeNth F i v).1 = v
  | .nil, _, v, _, _, _, _ => by simp only [Tys.takeNth]
  | .cons t _, 0, v, hv, hb, hs, h => by
    simp only [Tys.takeNth] at h ⊢
    exact take_keep F t v hv hb hs.1 h
  | .cons _ ts, i + 1, v, hv, hb, hs, h => by
    simp only [Tys.takeNth] at h ⊢
    exact takeNth_keep F ts i v hv hb hs.2 h
end

theorem onArray_clear {v : Value} (hv : v.Sound) {α : Type} {G : List Value → List Value × Out α}
    (hG : ∀ vs x, (G vs).2 = .ok x → (G vs).1 = []) {x : α} (h : (v.onArray G).2 = .ok x) : (v.onArray G).1 = .arr .array [] := by
  rcases onArray_cases hv G with ⟨vs, rfl, _, e⟩ | ⟨_, _, e⟩ | ⟨_, _, e⟩
  · rw [e] at h ⊢
    rw [hG vs x h]
  · rw [e] at h ⊢
    rw [hG [] x h]
  · rw [e] at h; cases h

theorem clear_clear {α : Type} {r : List Value × Out α} {x : α} (h : (clearAfter r).2 = .ok x) : (clearAfter r).1 = [] := by
  rw [clearAfter_snd] at h
  exact clearAfter_ok h

theorem take_clear (F : Floats) {t : Ty} (ht : t.OfElements) {v : Value} (hv : v.Sound) {x : CVal} (h : (t.take F v).2 = .ok x) :
    (t.take F v).1 = .arr .array [] := by
  cases t with
  | jarray => rw [Ty.take] at h ⊢; exact onArray_clear hv (fun vs x => clear_clear) h
  | seq t => rw [Ty.take] at h ⊢; exact onArray_clear hv (fun vs x => clear_clear) h
  | set lt t => rw [Ty.take] at h ⊢; exact onArray_clear hv (fun vs x => clear_clear) h
  | fixed n t =>
    rw [Ty.take] at h ⊢
    refine onArray_clear hv (fun vs x => ?_) h
    split
    · exact clear_clear
    · intro h; cases h
  | tuple ts =>
    have h1 : ts.size ≠ 1 := ht
    rw [Ty.take, if_neg h1] at h ⊢
    refine onArray_clear hv (fun vs x => ?_) h
    split
    · exact clear_clear
    · intro h; cases h
  | _ => exact absurd ht (by simp [Ty.OfElements])

/-! ### Sound values stay sound -/

theorem onArray_closed {v : Value} (hv : v.Sound) {α : Type} {G : List Value → List Value × Out α}
    (hG : ∀ vs, (G vs).1 = vs ∨ (G vs).1 = []) : (v.onArray G).1.Sound := by
  rcases onArray_cases hv G with ⟨vs, rfl, _, e⟩ | ⟨_, _, e⟩ | ⟨_, _, e⟩
  · rw [e]
    rcases hG vs with h | h <;> simp only [h]
    · exact hv
    · exact sound_nil
  · rw [e]
    rcases hG [] with h | h <;> simp only [h] <;> exact sound_nil
  · rw [e]; exact hv

theorem each_closed (F : Floats) (t : Ty) (f : List CVal → CVal) (vs : List Value) :
    (clearAfter (wrapTaken f (takeEach (t.asRv F) vs))).1 = vs ∨ (clearAfter (wrapTaken f (takeEach (t.asRv F) vs))).1 = [] := by
  by_cases ht : t = .json
  · subst ht
    exact .inr (clearAfter_ok (x := f _) (by rw [wrapTaken_snd, takeEach_ok (g := .json) (fun v => rfl)]; rfl))
  · refine (clearAfter_fst _).imp (fun e => ?_) id
    rw [e]
    exact takeEach_same fun v _ => asRv_fst F ht v

mutual
theorem take_closed (F : Floats) : ∀ (t : Ty) (v : Value) (_ : v.Sound) (_ : t.Closed), (t.take F v).1.Sound
  | .json, _, _, h => h.elim
  | .nullable .pointer t, v, hv, h => by
    simp only [Ty.take]
    split
    · exact hv
    · exact take_closed F t v hv h
  | .nullable .optional t, v, hv, h => by
    simp only [Ty.take]
    exact take_closed F t v hv h
  | .jarray, v, hv, _ => by
    rw [Ty.take]
    exact onArray_closed hv fun vs => .inr (clearAfter_ok (x := .jarray _) (by rw [wrapTaken_snd, takeEach_ok (g := id) (fun v => rfl)]; rfl))
  | .seq t, v, hv, _ => by
    rw [Ty.take]
    exact onArray_closed hv (each_closed F t _)
  | .set lt t, v, hv, _ => by
    rw [Ty.take]
    exact onArray_closed hv (each_closed F t _)
  | .fixed n t, v, hv, _ => by
    rw [Ty.take]
    refine onArray_closed hv fun vs => ?_
    split
    · exact each_closed F t _ vs
    · exact .inl rfl
  | .tuple ts, v, hv, h => by
    rw [Ty.take]
    split
    · rename_i h1
      exact takeNth_closed F ts 0 v hv (h.1 h1)
    · rename_i h1
      refine onArray_closed hv fun vs => ?_
      split
      · exact (clearAfter_fst _).imp (fun e => e.trans (takeAll_same F (h.2 h1))) id
      · exact .inl rfl
  | .variant ts, v, hv, h => by
    simp only [Ty.take]
    split
    · rename_i i hc
      rcases h with h | h
      · rw [hc] at h; cases h
      · exact takeNth_closed F ts i v hv h
    · rename_i hc
      rw [takeAny_fst F (chosen_none hc)]
      exact hv
  | .jobject, _, _, h => h.elim
  | .map t, v, hv, h => by
    rw [Ty.take]
    have ht : t ≠ .json := h
    rcases onObject_cases hv (fun ms => wrapTaken (fun es => CVal.map (es.foldl (fun m e => (RawObject.emplace e.1 e.2 m).1) []))
      (takeEach (fun e : Bytes × Value => let r := t.asRv F e.2; ((e.1, r.1), r.2.bind fun x => .ok (e.1, x))) ms)) with ⟨ms, rfl, _, _, e⟩ | ⟨_, _, e⟩ | ⟨_, _, e⟩
    · rw [e]
      have : ∀ ms, (takeEach (fun e : Bytes × Value => let r := t.asRv F e.2; ((e.1, r.1), r.2.bind fun x => Out.ok (e.1, x))) ms).1 = ms :=
        fun ms => takeEach_same fun e _ => by simp [asRv_fst F ht]
      simp only [wrapTaken_fst, this]
      exact hv
    · rw [e]; exact sound_empty
    · rw [e]; exact hv
  | .bool, v, hv, _ => hv
  | .int _, v, hv, _ => hv
  | .float _, v, hv, _ => hv
  | .string, v, hv, _ => hv
  | .null, v, hv, _ => hv
  | .enum _, v, hv, _ => hv
  | .struct _, v, hv, _ => hv
  | .user _, v, hv, _ => hv
theorem takeNth_closed (F : Floats) : ∀ (ts : Tys) (i : Nat) (v : Value) (_ : v.Sound) (_ : ts.Closed), (ts.takeNth F i v).1.Sound
  | .nil, _, v, hv, _ => by simpa only [Tys.takeNth] using hv
  | .cons t _, 0, v, hv, h => by simpa [Tys.takeNth] using take_closed F t v hv h.1
  | .cons _ ts, i + 1, v, hv, h => by simpa [Tys.takeNth] using takeNth_closed F ts i v hv h.2
end

end Meojson
