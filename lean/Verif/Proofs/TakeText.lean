import Verif.Model.TakeText
import Verif.Proofs.Take
import Verif.Proofs.Message

/-! Conversions from an rvalue, with the texts of exceptions. -/

set_option autoImplicit false

namespace Meojson
open Spec RawObject Value

/-! ### Without the texts they are those of Model/Take.lean -/

/-- What is left, and the outcome without the text. -/
def bare {σ α : Type} (r : σ × Told α) : σ × Out α := (r.1, r.2.plain)

theorem bare_wrap {σ α β : Type} (f : α → β) (r : σ × Told α) : bare (wrapTakenT f r) = wrapTaken f (bare r) := by
  rcases r with ⟨s, o⟩
  cases o <;> rfl

theorem bare_clear {α : Type} (r : List Value × Told α) : bare (clearAfterT r) = clearAfter (bare r) := by
  rcases r with ⟨s, o⟩
  cases o <;> rfl

theorem bare_each {α β : Type} {f : α → α × Told β} {g : α → α × Out β} (h : ∀ v, bare (f v) = g v) : ∀ vs : List α, bare (takeEachT f vs) = takeEach g vs
  | [] => rfl
  | v :: vs => by
    have h0 := h v
    have ih := bare_each h vs
    simp only [takeEachT, takeEach, ← h0, ← ih]
    rcases f v with ⟨w, o⟩
    cases o with
    | ok x =>
      simp only [bare, plain_bind]
      rfl
    | error m => rfl
    | other e => rfl
    | ub => rfl

section
variable (F : Floats) (c : Compiler) (N : Names)

theorem bare_onArray {α : Type} (v : Value) {f : List Value → List Value × Told α} {g : List Value → List Value × Out α} (h : ∀ vs, bare (f vs) = g vs) :
    bare (v.onArrayT c f) = v.onArray g := by
  have hp := plain_array c v
  unfold onArrayT onArray asArrayM
  cases v.empty with
  | ok b =>
    cases b with
    | true => simp only [← h]; rfl
    | false =>
      simp only [← hp]
      cases v.asArrayT c with
      | ok vs => simp only [Told.plain, ← h]; rfl
      | error m => rfl
      | other e => rfl
      | ub => rfl
  | throw e => rfl
  | ub => rfl

theorem bare_onObject {α : Type} (v : Value) {f : List (Bytes × Value) → List (Bytes × Value) × Told α} {g : List (Bytes × Value) → List (Bytes × Value) × Out α} (h : ∀ vs, bare (f vs) = g vs) :
    bare (v.onObjectT c f) = v.onObject g := by
  have hp := plain_object c v
  unfold onObjectT onObject asObjectM
  cases v.empty with
  | ok b =>
    cases b with
    | true => simp only [← h]; rfl
    | false =>
      simp only [← hp]
      cases v.asObjectT c with
      | ok vs => simp only [Told.plain, ← h]; rfl
      | error m => rfl
      | other e => rfl
      | ub => rfl
  | throw e => rfl
  | ub => rfl

theorem bare_asRv (t : Ty) (v : Value) : bare (t.asRvT F c N v) = t.asRv F v := by
  cases t <;> first | rfl | simp only [Ty.asRvT, Ty.asRv, bare, plain_as]

theorem bare_all : ∀ (ts : Tys) (vs : List Value), bare (ts.takeAllT F c N vs) = ts.takeAll F vs
  | .nil, _ => by simp only [Tys.takeAllT, Tys.takeAll]; rfl
  | .cons _ _, [] => by simp only [Tys.takeAllT, Tys.takeAll]; rfl
  | .cons t ts, v :: vs => by
    have h0 := bare_asRv F c N t v
    have ih := bare_all ts vs
    simp only [Tys.takeAllT, Tys.takeAll, ← h0, ← ih]
    rcases t.asRvT F c N v with ⟨w, o⟩
    cases o with
    | ok x =>
      simp only [bare, plain_bind]
      rfl
    | error m => rfl
    | other e => rfl
    | ub => rfl

theorem bare_any : ∀ (ts : Tys) (i : Nat) (v : Value), bare (ts.takeAnyT F c N i v) = ts.takeAny F i v
  | .nil, _, v => by simp only [Tys.takeAnyT, Tys.takeAny, bare, plain_complain]
  | .cons t ts, i, v => by
    simp only [Tys.takeAnyT, Tys.takeAny]
    cases t.is F v with
    | ok b =>
      cases b with
      | true => simp only [bare_wrap, bare_asRv]
      | false => exact bare_any ts (i + 1) v
    | throw e => rfl
    | ub => rfl

theorem bare_ite {σ α : Type} (p : Prop) [Decidable p] (a b : σ × Told α) : bare (if p then a else b) = if p then bare a else bare b := by split <;> rfl

mutual
theorem bare_take : ∀ (t : Ty) (v : Value), bare (t.takeT F c N v) = t.take F v
  | .json, v => by rw [Ty.takeT, Ty.take]; rfl
  | .nullable .pointer t, v => by
    rw [Ty.takeT, Ty.take, bare_ite, bare_wrap, bare_take t v]; rfl
  | .nullable .optional t, v => by rw [Ty.takeT, Ty.take, bare_wrap, bare_take t v]
  | .jarray, v => by
    rw [Ty.takeT, Ty.take]
    refine bare_onArray c v fun vs => ?_
    rw [bare_clear, bare_wrap, bare_each (g := movedOut) fun _ => rfl]
  | .seq t, v => by
    rw [Ty.takeT, Ty.take]
    refine bare_onArray c v fun vs => ?_
    rw [bare_clear, bare_wrap, bare_each fun v => bare_asRv F c N t v]
  | .set lt t, v => by
    rw [Ty.takeT, Ty.take]
    refine bare_onArray c v fun vs => ?_
    rw [bare_clear, bare_wrap, bare_each fun v => bare_asRv F c N t v]
  | .fixed n t, v => by
    rw [Ty.takeT, Ty.take]
    refine bare_onArray c v fun vs => ?_
    rw [bare_ite, bare_clear, bare_wrap, bare_each fun v => bare_asRv F c N t v]; rfl
  | .tuple ts, v => by
    rw [Ty.takeT, Ty.take]
    split
    · rw [bare_wrap, bare_nth ts 0 v]
    · refine bare_onArray c v fun vs => ?_
      rw [bare_ite, bare_clear, bare_wrap, bare_all]; rfl
  | .variant ts, v => by
    rw [Ty.takeT, Ty.take]
    cases ts.chosen with
    | some i => simp only [bare_wrap, bare_nth ts i v]
    | none => exact bare_any F c N ts 0 v
  | .jobject, v => by
    rw [Ty.takeT, Ty.take]
    refine bare_onObject c v fun vs => ?_
    rw [bare_wrap, bare_each fun _ => rfl]; rfl
  | .map t, v => by
    rw [Ty.takeT, Ty.take]
    refine bare_onObject c v fun vs => ?_
    rw [bare_wrap, bare_each fun e => ?_]
    have := bare_asRv F c N t e.2
    simp only [bare, plain_bind, ← this]; rfl
  | .bool, v => by rw [Ty.takeT, Ty.take, bare, plain_as] <;> simp
  | .int _, v => by rw [Ty.takeT, Ty.take, bare, plain_as] <;> simp
  | .float _, v => by rw [Ty.takeT, Ty.take, bare, plain_as] <;> simp
  | .string, v => by rw [Ty.takeT, Ty.take, bare, plain_as] <;> simp
  | .null, v => by rw [Ty.takeT, Ty.take, bare, plain_as] <;> simp
  | .enum _, v => by rw [Ty.takeT, Ty.take, bare, plain_as] <;> simp
  | .struct _, v => by rw [Ty.takeT, Ty.take, bare, plain_as] <;> simp
  | .user _, v => by rw [Ty.takeT, Ty.take, bare, plain_as] <;> simp
theorem bare_nth : ∀ (ts : Tys) (i : Nat) (v : Value), bare (ts.takeNthT F c N i v) = ts.takeNth F i v
  | .nil, _, v => by simp only [Tys.takeNthT, Tys.takeNth]; rfl
  | .cons t _, 0, v => by simp only [Tys.takeNthT, Tys.takeNth, bare_take t v]
  | .cons _ ts, i + 1, v => by simp only [Tys.takeNthT, Tys.takeNth, bare_nth ts i v]
end

/-! ### The texts are those of a const value -/

theorem clearAfterT_snd {α : Type} (r : List Value × Told α) : (clearAfterT r).2 = r.2 := by
  rcases r with ⟨l, o⟩
  cases o <;> rfl

theorem wrapTakenT_snd {σ α β : Type} (f : α → β) (r : σ × Told α) : (wrapTakenT f r).2 = r.2.bind fun x => .ok (f x) := rfl

theorem takeEachT_snd {α β : Type} {f : α → α × Told β} {g : α → Told β} : ∀ {vs : List α}, (∀ v ∈ vs, (f v).2 = g v) → (takeEachT f vs).2 = eachTold g vs
  | [], _ => rfl
  | v :: vs, h => by
    have h0 := h v (by simp)
    have ih := takeEachT_snd (vs := vs) fun w hw => h w (by simp [hw])
    simp only [takeEachT, eachTold, ← h0]
    rcases hf : f v with ⟨w, o⟩
    cases o <;> simp [Told.bind, ih]

theorem asRvT_snd (t : Ty) {v : Value} (hv : v.Sound) : (t.asRvT F c N v).2 = t.asT F c N v := by
  cases t <;> simp [Ty.asRvT, Ty.asT, sound_copied hv, Told.lift, Told.bind]

theorem takeAllT_snd : ∀ {ts : Tys} {vs : List Value}, (∀ v ∈ vs, v.Sound) → (ts.takeAllT F c N vs).2 = ts.asAllT F c N vs
  | .nil, _, _ => by simp [Tys.takeAllT, Tys.asAllT]
  | .cons _ _, [], _ => by simp [Tys.takeAllT, Tys.asAllT]
  | .cons t ts, v :: vs, h => by
    have h0 := asRvT_snd F c N t (h v (by simp))
    have ih := takeAllT_snd (ts := ts) (vs := vs) fun w hw => h w (by simp [hw])
    simp only [Tys.takeAllT, Tys.asAllT, ← h0]
    rcases hf : t.asRvT F c N v with ⟨w, o⟩
    cases o <;> simp [Told.bind, ih]

theorem takeAnyT_snd : ∀ {ts : Tys} {i : Nat} {v : Value}, v.Sound → (ts.takeAnyT F c N i v).2 = ts.asAnyT F c N i v
  | .nil, _, _, _ => by simp [Tys.takeAnyT, Tys.asAnyT]
  | .cons t ts, i, v, hv => by
    obtain ⟨b, hb⟩ := is_total F t v hv
    simp only [Tys.takeAnyT, Tys.asAnyT, hb, Told.lift, Told.bind]
    cases b
    · exact takeAnyT_snd hv
    · simp [wrapTakenT, asRvT_snd F c N t hv, Told.bind]

theorem asArrayT_not {v : Value} (h : v.type ≠ .array) : v.asArrayT c = v.complain c (wanted (ascii "array") (ascii "array")) := by rw [asArrayT, if_neg h]
theorem asObjectT_not {v : Value} (h : v.type ≠ .object) : v.asObjectT c = v.complain c (wanted (ascii "object") (ascii "object")) := by rw [asObjectT, if_neg h]

theorem empty_blank {v : Value} (hv : v.Sound) : (Blank v → v.empty = .ok true) ∧ (¬ Blank v → v.empty = .ok false) := by
  cases sound_shape hv with
  | string s => cases s <;> exact ⟨fun h => by first | rfl | simp [Blank, Value.type] at h, fun h => by first | rfl | simp [Blank] at h⟩
  | array s => cases s <;> exact ⟨fun h => by first | rfl | simp [Blank, Value.type] at h, fun h => by first | rfl | simp [Blank] at h⟩
  | object s => cases s <;> exact ⟨fun h => by first | rfl | simp [Blank, Value.type] at h, fun h => by first | rfl | simp [Blank] at h⟩
  | _ => exact ⟨fun h => by first | rfl | simp [Blank, Value.type, Value.ofBool] at h, fun h => by first | rfl | simp [Blank, Value.type] at h⟩

/-- From a blank value the conversion may do what it does with the empty array or the empty object. -/
def InsteadT (v : Value) (r : Told CVal) (f : Value → Told CVal) : Prop := r = f v ∨ Blank v ∧ (r = f (.arr .array []) ∨ r = f (.obj .object []))

theorem InsteadT.map {v : Value} {r : Told CVal} {f : Value → Told CVal} (h : InsteadT v r f) (g : CVal → CVal) :
    InsteadT v (r.bind fun x => .ok (g x)) (fun v => (f v).bind fun x => .ok (g x)) :=
  h.imp (fun e => by rw [e]) fun h => ⟨h.1, h.2.imp (fun e => by rw [e]) (fun e => by rw [e])⟩

theorem array_insteadT (t : Ty) {v : Value} (hv : v.Sound) {G : List Value → List Value × Told CVal} {g : List Value → Told CVal}
    (ht : t.takeT F c N v = v.onArrayT c G) (ha : ∀ v, t.asT F c N v = (v.asArrayT c).bind g) (hG : ∀ vs, (∀ w ∈ vs, w.Sound) → (G vs).2 = g vs) :
    InsteadT v (t.takeT F c N v).2 (t.asT F c N) := by
  rw [ht]
  by_cases hb : Blank v
  · have : (v.onArrayT c G).2 = (G []).2 := by rw [onArrayT, (empty_blank hv).1 hb]
    exact .inr ⟨hb, .inl (by rw [this, ha, hG [] (by simp)]; rfl)⟩
  · refine .inl ?_
    rw [onArrayT, (empty_blank hv).2 hb, ha]
    cases hr : v.asArrayT c with
    | ok vs =>
      have hp := plain_array c v
      rw [hr] at hp
      have hs : ∀ w ∈ vs, w.Sound := by
        cases sound_shape hv with
        | array ws hw => cases hp; exact hw
        | _ => cases hp
      simp only [Told.bind, hG vs hs]
    | error m => rfl
    | other e => rfl
    | ub => rfl

theorem object_insteadT (t : Ty) {v : Value} (hv : v.Sound) {G : List (Bytes × Value) → List (Bytes × Value) × Told CVal}
    {g : List (Bytes × Value) → Told CVal}
    (ht : t.takeT F c N v = v.onObjectT c G) (ha : ∀ v, t.asT F c N v = (v.asObjectT c).bind g) (hG : ∀ ms, (∀ e ∈ ms, e.2.Sound) → (G ms).2 = g ms) :
    InsteadT v (t.takeT F c N v).2 (t.asT F c N) := by
  rw [ht]
  by_cases hb : Blank v
  · have : (v.onObjectT c G).2 = (G []).2 := by rw [onObjectT, (empty_blank hv).1 hb]
    exact .inr ⟨hb, .inr (by rw [this, ha, hG [] (by simp)]; rfl)⟩
  · refine .inl ?_
    rw [onObjectT, (empty_blank hv).2 hb, ha]
    cases hr : v.asObjectT c with
    | ok vs =>
      have hp := plain_object c v
      rw [hr] at hp
      have hs : ∀ e ∈ vs, e.2.Sound := by
        cases sound_shape hv with
        | object ws _ hw => cases hp; exact hw
        | _ => cases hp
      simp only [Told.bind, hG vs hs]
    | error m => rfl
    | other e => rfl
    | ub => rfl

mutual
theorem takeT_instead : ∀ (t : Ty) (v : Value) (_ : v.Sound), InsteadT v (t.takeT F c N v).2 (t.asT F c N)
  | .json, v, hv => .inl (by simp [Ty.takeT, Ty.asT, sound_copied hv, Told.lift, Told.bind])
  | .nullable .pointer t, v, hv => by
    by_cases hn : v.type = .null
    · exact .inl (by simp [Ty.takeT, Ty.asT, hn])
    · have h := (takeT_instead t v hv).map .just
      rcases h with h | ⟨hb, h | h⟩
      · exact .inl (by simpa [Ty.takeT, Ty.asT, hn, wrapTakenT] using h)
      · exact .inr ⟨hb, .inl (by rw [Ty.takeT, if_neg hn, Ty.asT, if_neg (by simp [Value.type])]; exact h)⟩
      · exact .inr ⟨hb, .inr (by rw [Ty.takeT, if_neg hn, Ty.asT, if_neg (by simp [Value.type])]; exact h)⟩
  | .nullable .optional t, v, hv => by
    have h := (takeT_instead t v hv).map .just
    rcases h with h | ⟨hb, h | h⟩
    · exact .inl (by simpa [Ty.takeT, Ty.asT, wrapTakenT] using h)
    · exact .inr ⟨hb, .inl (by simpa [Ty.takeT, Ty.asT, wrapTakenT, Value.type] using h)⟩
    · exact .inr ⟨hb, .inr (by simpa [Ty.takeT, Ty.asT, wrapTakenT, Value.type] using h)⟩
  | .jarray, v, hv => by
    refine array_insteadT F c N .jarray hv (by rw [Ty.takeT]) (fun v => by rw [Ty.asT]) fun vs h => ?_
    rw [clearAfterT_snd, wrapTakenT_snd, takeEachT_snd (g := fun v => Told.lift v.copied)]
    intro w hw
    simp [sound_copied (h w hw), Told.lift]
  | .seq t, v, hv => by
    refine array_insteadT F c N (.seq t) hv (by rw [Ty.takeT]) (fun v => by rw [Ty.asT]) fun vs h => ?_
    rw [clearAfterT_snd, wrapTakenT_snd, takeEachT_snd (g := t.asT F c N)]
    exact fun w hw => asRvT_snd F c N t (h w hw)
  | .set lt t, v, hv => by
    refine array_insteadT F c N (.set lt t) hv (by rw [Ty.takeT]) (fun v => by rw [Ty.asT]) fun vs h => ?_
    rw [clearAfterT_snd, wrapTakenT_snd, takeEachT_snd (g := t.asT F c N)]
    exact fun w hw => asRvT_snd F c N t (h w hw)
  | .fixed n t, v, hv => by
    refine array_insteadT F c N (.fixed n t) hv (by rw [Ty.takeT]) (fun v => by rw [Ty.asT]) fun vs h => ?_
    split
    · rw [clearAfterT_snd, wrapTakenT_snd, takeEachT_snd (g := t.asT F c N)]
      exact fun w hw => asRvT_snd F c N t (h w hw)
    · rfl
  | .tuple ts, v, hv => by
    by_cases h1 : ts.size = 1
    · have h := (takeNthT_instead ts 0 v hv).map fun x => .list [x]
      rcases h with h | ⟨hb, h | h⟩
      · exact .inl (by simpa [Ty.takeT, Ty.asT, h1, wrapTakenT] using h)
      · exact .inr ⟨hb, .inl (by simpa [Ty.takeT, Ty.asT, h1, wrapTakenT, Value.type] using h)⟩
      · exact .inr ⟨hb, .inr (by simpa [Ty.takeT, Ty.asT, h1, wrapTakenT, Value.type] using h)⟩
    · refine array_insteadT F c N (.tuple ts) hv (by rw [Ty.takeT, if_neg h1]) (fun v => by rw [Ty.asT, if_neg h1]) fun vs h => ?_
      split
      · rw [clearAfterT_snd, wrapTakenT_snd, takeAllT_snd F c N h]
      · rfl
  | .variant ts, v, hv => by
    rcases hc : ts.chosen with _ | i
    · exact .inl (by simp only [Ty.takeT, Ty.asT, hc]; exact takeAnyT_snd F c N hv)
    · have h := (takeNthT_instead ts i v hv).map (.alt i)
      rcases h with h | ⟨hb, h | h⟩
      · exact .inl (by simpa [Ty.takeT, Ty.asT, hc, wrapTakenT] using h)
      · exact .inr ⟨hb, .inl (by simpa [Ty.takeT, Ty.asT, hc, wrapTakenT, Value.type] using h)⟩
      · exact .inr ⟨hb, .inr (by simpa [Ty.takeT, Ty.asT, hc, wrapTakenT, Value.type] using h)⟩
  | .jobject, v, hv => by
    refine object_insteadT F c N .jobject hv (by rw [Ty.takeT]) (fun v => by rw [Ty.asT]) fun ms h => ?_
    rw [wrapTakenT_snd, takeEachT_snd (g := fun e : Bytes × Value => (Told.lift e.2.copied).bind fun w => .ok (e.1, w))]
    intro e he
    simp [sound_copied (h e he), Told.lift, Told.bind]
  | .map t, v, hv => by
    refine object_insteadT F c N (.map t) hv (by rw [Ty.takeT]) (fun v => by rw [Ty.asT]) fun ms h => ?_
    rw [wrapTakenT_snd, takeEachT_snd (g := fun e : Bytes × Value => (t.asT F c N e.2).bind fun x => .ok (e.1, x))]
    intro e he
    simp [asRvT_snd F c N t (h e he)]
  | .bool, v, hv => .inl (by rw [Ty.takeT] <;> simp)
  | .int _, v, hv => .inl (by rw [Ty.takeT] <;> simp)
  | .float _, v, hv => .inl (by rw [Ty.takeT] <;> simp)
  | .string, v, hv => .inl (by rw [Ty.takeT] <;> simp)
  | .null, v, hv => .inl (by rw [Ty.takeT] <;> simp)
  | .enum _, v, hv => .inl (by rw [Ty.takeT] <;> simp)
  | .struct _, v, hv => .inl (by rw [Ty.takeT] <;> simp)
  | .user _, v, hv => .inl (by rw [Ty.takeT] <;> simp)
theorem takeNthT_instead : ∀ (ts : Tys) (i : Nat) (v : Value) (_ : v.Sound), InsteadT v (ts.takeNthT F c N i v).2 (ts.asNthT F c N i)
  | .nil, _, v, _ => .inl (by simp [Tys.takeNthT, Tys.asNthT])
  | .cons t _, 0, v, hv => by
    rcases takeT_instead t v hv with h | ⟨hb, h | h⟩
    · exact .inl (by simpa [Tys.takeNthT, Tys.asNthT] using h)
    · exact .inr ⟨hb, .inl (by simpa [Tys.takeNthT, Tys.asNthT] using h)⟩
    · exact .inr ⟨hb, .inr (by simpa [Tys.takeNthT, Tys.asNthT] using h)⟩
  | .cons _ ts, i + 1, v, hv => by
    rcases takeNthT_instead ts i v hv with h | ⟨hb, h | h⟩
    · exact .inl (by simpa [Tys.takeNthT, Tys.asNthT] using h)
    · exact .inr ⟨hb, .inl (by simpa [Tys.takeNthT, Tys.asNthT] using h)⟩
    · exact .inr ⟨hb, .inr (by simpa [Tys.takeNthT, Tys.asNthT] using h)⟩
end

end

end Meojson
