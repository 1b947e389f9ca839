import Verif.Proofs.RoundTrip
import Verif.Proofs.Take

/-! # A conversion to a type returns a value of the type -/

set_option autoImplicit false

namespace Meojson
open Spec RawObject

/-! ### Machine integers -/

theorem wrap_has {T : IntTy} (h : 0 < T.bits) (n : Int) : T.Has (T.wrap n) := by
  obtain ⟨k, hk⟩ : ∃ k, T.bits = k + 1 := ⟨T.bits - 1, by omega⟩
  unfold IntTy.Has IntTy.min IntTy.max IntTy.wrap
  simp only [hk, Nat.add_sub_cancel]
  have e : ((2 ^ (k + 1) : Nat) : Int) = 2 * ((2 ^ k : Nat) : Int) := by rw [Nat.pow_succ]; omega
  have p : 0 < ((2 ^ k : Nat) : Int) := by have := Nat.pow_pos (n := k) (show 0 < 2 by decide); omega
  rw [e]
  generalize ((2 ^ k : Nat) : Int) = M at p ⊢
  have h1 := Int.emod_nonneg n (b := 2 * M) (by omega)
  have h2 := Int.emod_lt_of_pos n (b := 2 * M) (by omega)
  cases T.signed
  · simp; omega
  · simp; split
    · exact ⟨by omega, by omega⟩
    · exact ⟨by omega, by omega⟩

theorem under_has {E : EnumTy} (h : ∀ T, E.under = .int T → 0 < T.bits) (n : Int) : E.under.Has (E.under.cast n) := by
  cases hu : E.under with
  | bool =>
    show (if n = 0 then (0 : Int) else 1) = 0 ∨ (if n = 0 then (0 : Int) else 1) = 1
    split <;> simp
  | int T => exact wrap_has (h T hu) n

/-! ### Sets -/

theorem mem_setInsert {α : Type} {lt : α → α → Bool} {x z : α} {l : List α} (h : z ∈ setInsert lt x l) : z = x ∨ z ∈ l := by
  induction l with
  | nil => simpa [setInsert] using h
  | cons y l ih =>
    unfold setInsert at h
    split at h
    · simpa using h
    · split at h
      · rcases List.mem_cons.1 h with rfl | h
        · exact .inr (by simp)
        · rcases ih h with rfl | h
          · exact .inl rfl
          · exact .inr (by simp [h])
      · exact .inr h

theorem setInsert_sorted {t : Ty} {lt : CVal → CVal → Bool} (hlt : StrictOrder t lt) {x : CVal} (hx : t.Has x) {l : List CVal} (hl : ∀ y ∈ l, t.Has y)
    (h : l.Pairwise fun a b => lt a b = true ∧ lt b a = false) : (setInsert lt x l).Pairwise fun a b => lt a b = true ∧ lt b a = false := by
  induction l with
  | nil => simp [setInsert]
  | cons y l ih =>
    have hy := hl y (by simp)
    have hl' : ∀ z ∈ l, t.Has z := fun z hz => hl z (by simp [hz])
    have h' := List.pairwise_cons.1 h
    unfold setInsert
    split
    · rename_i hxy
      refine List.pairwise_cons.2 ⟨fun z hz => ?_, h⟩
      rcases List.mem_cons.1 hz with rfl | hz
      · exact ⟨hxy, hlt.1 _ _ hx hy hxy⟩
      · have := hlt.2 x y z hx hy (hl' z hz) hxy (h'.1 z hz).1
        exact ⟨this, hlt.1 _ _ hx (hl' z hz) this⟩
    · split
      · rename_i hyx
        refine List.pairwise_cons.2 ⟨fun z hz => ?_, ih hl' h'.2⟩
        rcases mem_setInsert hz with rfl | hz
        · exact ⟨hyx, hlt.1 _ _ hy hx hyx⟩
        · exact h'.1 z hz
      · exact h

theorem foldl_sorted {t : Ty} {lt : CVal → CVal → Bool} (hlt : StrictOrder t lt) : ∀ {xs l : List CVal}, (∀ x ∈ xs, t.Has x) → (∀ y ∈ l, t.Has y) →
    l.Pairwise (fun a b => lt a b = true ∧ lt b a = false) →
    (∀ y ∈ xs.foldl (fun l x => setInsert lt x l) l, t.Has y) ∧ (xs.foldl (fun l x => setInsert lt x l) l).Pairwise fun a b => lt a b = true ∧ lt b a = false
  | [], _, _, hl, h => ⟨hl, h⟩
  | x :: xs, l, hx, hl, h => by
    rw [List.foldl_cons]
    refine foldl_sorted hlt (fun z hz => hx z (by simp [hz])) (fun z hz => ?_) (setInsert_sorted hlt (hx x (by simp)) hl h)
    rcases mem_setInsert hz with rfl | hz
    · exact hx z (by simp)
    · exact hl z hz

/-! ### Maps -/

theorem emplace_mem {β : Type} {k : Bytes} {v : β} {e : Bytes × β} : ∀ {m : List (Bytes × β)}, e ∈ (emplace k v m).1 → e = (k, v) ∨ e ∈ m
  | [], h => by simpa [emplace] using h
  | e' :: m, h => by
    obtain ⟨k', v'⟩ := e'
    unfold emplace at h
    split at h
    · simpa using h
    · split at h
      · rcases List.mem_cons.1 h with rfl | h
        · exact .inr (by simp)
        · rcases emplace_mem h with rfl | h
          · exact .inl rfl
          · exact .inr (by simp [h])
      · exact .inr h

theorem foldl_emplace_has {t : Ty} : ∀ {es m : List (Bytes × CVal)}, (∀ e ∈ es, t.Has e.2) → (∀ e ∈ m, t.Has e.2) → Sorted m →
    Sorted (es.foldl (fun m e => (emplace e.1 e.2 m).1) m) ∧ ∀ e ∈ es.foldl (fun m e => (emplace e.1 e.2 m).1) m, t.Has e.2
  | [], _, _, hm, h => ⟨h, hm⟩
  | x :: es, m, hx, hm, h => by
    rw [List.foldl_cons]
    refine foldl_emplace_has (fun e he => hx e (by simp [he])) (fun e he => ?_) (emplace_sorted h _ _)
    rcases emplace_mem he with rfl | he
    · exact hx x (by simp)
    · exact hm e he

/-! ### All types -/

theorem each_has {α β : Type} {f : α → Out β} {P : β → Prop} : ∀ {vs : List α} {xs : List β}, (∀ v ∈ vs, ∀ x, f v = .ok x → P x) → eachOf f vs = .ok xs → ∀ x ∈ xs, P x
  | [], xs, _, h => by cases h; simp
  | v :: vs, xs, hf, h => by
    obtain ⟨y, h1, h2⟩ := Out.bind_eq_ok.1 h
    obtain ⟨ys, h3, h4⟩ := Out.bind_eq_ok.1 h2
    cases h4
    intro x hx
    rcases List.mem_cons.1 hx with rfl | hx
    · exact hf v (by simp) _ h1
    · exact each_has (fun w hw => hf w (by simp [hw])) h3 x hx

theorem each_length {α β : Type} {f : α → Out β} : ∀ {vs : List α} {xs : List β}, eachOf f vs = .ok xs → xs.length = vs.length
  | [], xs, h => by cases h; rfl
  | v :: vs, xs, h => by
    obtain ⟨y, _, h2⟩ := Out.bind_eq_ok.1 h
    obtain ⟨ys, h3, h4⟩ := Out.bind_eq_ok.1 h2
    cases h4
    simp [each_length h3]

theorem asArray_sound {v : Value} (hv : v.Sound) {vs : List Value} (h : v.asArray = .ok vs) : v = .arr .array vs ∧ ∀ w ∈ vs, w.Sound := by
  cases sound_shape hv with
  | array ws hw => cases h; exact ⟨rfl, hw⟩
  | _ => cases h

theorem asObject_sound {v : Value} (hv : v.Sound) {ms : List (Bytes × Value)} (h : v.asObject = .ok ms) : v = .obj .object ms ∧ ∀ e ∈ ms, e.2.Sound := by
  cases sound_shape hv with
  | object ws hs hw => cases h; exact ⟨rfl, hw⟩
  | _ => cases h

theorem asInt_has {v : Value} (hv : v.Sound) {T : IntTy} {n : Int} (h : v.asInt T = .ok n) : T.Has n := by
  cases sound_shape hv with
  | number s =>
    simp only [Value.asInt, Value.type, if_true, Value.basicStr, Out.bind_ok] at h
    cases hr : tryParseInteger T s with
    | none => rw [hr] at h; cases h
    | some z => rw [hr] at h; cases h; exact ((tryParseInteger_eq T s n).1 hr).1
  | _ => cases h

mutual
theorem as_has (F : Floats) : ∀ (t : Ty) (_ : t.Proper F) (v : Value) (_ : v.Sound) (x : CVal), t.as F v = .ok x → t.Has x
  | .json, _, v, hv, x, h => by
    unfold Ty.as at h
    rw [sound_copied hv] at h
    cases h; exact hv
  | .bool, _, v, hv, x, h => by
    unfold Ty.as at h
    obtain ⟨b, _, h2⟩ := Out.bind_eq_ok.1 h
    cases h2; trivial
  | .null, _, v, hv, x, h => by
    unfold Ty.as at h
    obtain ⟨b, _, h2⟩ := Out.bind_eq_ok.1 h
    cases h2; trivial
  | .string, _, v, hv, x, h => by
    unfold Ty.as at h
    obtain ⟨b, _, h2⟩ := Out.bind_eq_ok.1 h
    cases h2; trivial
  | .int T, _, v, hv, x, h => by
    unfold Ty.as at h
    obtain ⟨n, h1, h2⟩ := Out.bind_eq_ok.1 h
    cases h2
    exact asInt_has hv h1
  | .float f, hp, v, hv, x, h => by
    unfold Ty.as at h
    obtain ⟨y, h1, h2⟩ := Out.bind_eq_ok.1 h
    cases h2
    cases sound_shape hv with
    | number s =>
      simp only [Value.asFloat, Value.type, if_true, Value.basicStr, Out.bind_ok] at h1
      cases hr : F.read f s with
      | none => rw [hr] at h1; cases h1
      | some z => rw [hr] at h1; cases h1; exact hp s _ hr
    | _ => cases h1
  | .enum E, hp, v, hv, x, h => by
    unfold Ty.as at h
    obtain ⟨e, h1, h2⟩ := Out.bind_eq_ok.1 h
    cases h2
    show E.under.Has e
    unfold Value.asEnum at h1
    split at h1
    · obtain ⟨s, h3, h4⟩ := Out.bind_eq_ok.1 h1
      cases hs : E.ofString s with
      | none => rw [hs] at h4; rw [typeError_sound hv] at h4; cases h4
      | some e' =>
        rw [hs] at h4
        cases h4
        unfold EnumTy.ofString at hs
        obtain ⟨i, _, rfl⟩ := Option.map_eq_some_iff.1 hs
        exact under_has hp _
    · split at h1
      · split at h1
        · rename_i hb
          obtain ⟨b, _, h4⟩ := Out.bind_eq_ok.1 h1
          rw [hb]
          cases h4
          cases b <;> simp [Under.Has]
        · rename_i T hT
          rw [hT]
          exact asInt_has hv h1
      · rw [typeError_sound hv] at h1; cases h1
  | .user U, hp, v, hv, x, h => by
    unfold Ty.as at h
    cases hl : U.load v with
    | none => rw [hl] at h; rw [typeError_sound hv] at h; cases h
    | some y => rw [hl] at h; cases h; unfold Ty.Has; exact hp v _ hv hl
  | .nullable .pointer t, hp, v, hv, x, h => by
    unfold Ty.as at h
    split at h
    · cases h; trivial
    · obtain ⟨y, h1, h2⟩ := Out.bind_eq_ok.1 h
      cases h2
      exact as_has F t hp v hv y h1
  | .nullable .optional t, hp, v, hv, x, h => by
    unfold Ty.as at h
    obtain ⟨y, h1, h2⟩ := Out.bind_eq_ok.1 h
    cases h2
    exact as_has F t hp v hv y h1
  | .jarray, _, v, hv, x, h => by
    unfold Ty.as at h
    obtain ⟨vs, h1, h2⟩ := Out.bind_eq_ok.1 h
    obtain ⟨rfl, hs⟩ := asArray_sound hv h1
    rw [each_copied hs] at h2
    cases h2; exact hv
  | .jobject, _, v, hv, x, h => by
    unfold Ty.as at h
    obtain ⟨vs, h1, h2⟩ := Out.bind_eq_ok.1 h
    obtain ⟨rfl, hs⟩ := asObject_sound hv h1
    rw [each_copied_members hs] at h2
    cases h2; exact hv
  | .seq t, hp, v, hv, x, h => by
    unfold Ty.as at h
    obtain ⟨vs, h1, h2⟩ := Out.bind_eq_ok.1 h
    obtain ⟨xs, h3, h4⟩ := Out.bind_eq_ok.1 h2
    cases h4
    obtain ⟨rfl, hs⟩ := asArray_sound hv h1
    exact each_has (fun w hw y hy => as_has F t hp w (hs w hw) y hy) h3
  | .set lt t, hp, v, hv, x, h => by
    unfold Ty.as at h
    obtain ⟨vs, h1, h2⟩ := Out.bind_eq_ok.1 h
    obtain ⟨xs, h3, h4⟩ := Out.bind_eq_ok.1 h2
    cases h4
    obtain ⟨rfl, hs⟩ := asArray_sound hv h1
    exact foldl_sorted hp.1 (each_has (fun w hw y hy => as_has F t hp.2 w (hs w hw) y hy) h3) (by simp) .nil
  | .fixed n t, hp, v, hv, x, h => by
    unfold Ty.as at h
    obtain ⟨vs, h1, h2⟩ := Out.bind_eq_ok.1 h
    split at h2
    · rename_i hn
      obtain ⟨xs, h3, h4⟩ := Out.bind_eq_ok.1 h2
      cases h4
      obtain ⟨rfl, hs⟩ := asArray_sound hv h1
      exact ⟨(each_length h3).trans hn, each_has (fun w hw y hy => as_has F t hp w (hs w hw) y hy) h3⟩
    · cases h2
  | .tuple ts, hp, v, hv, x, h => by
    unfold Ty.as at h
    split at h
    · rename_i h1
      obtain ⟨y, h2, h3⟩ := Out.bind_eq_ok.1 h
      cases h3
      have := asNth_has F ts hp 0 v hv y h2
      match ts, h1, this with
      | .cons t .nil, _, this => exact ⟨this, trivial⟩
    · obtain ⟨vs, h1, h2⟩ := Out.bind_eq_ok.1 h
      split at h2
      · rename_i hn
        obtain ⟨xs, h3, h4⟩ := Out.bind_eq_ok.1 h2
        cases h4
        obtain ⟨rfl, hs⟩ := asArray_sound hv h1
        exact asAll_has F ts hp vs hn hs xs h3
      · cases h2
  | .variant ts, hp, v, hv, x, h => by
    unfold Ty.as at h
    split at h
    · obtain ⟨y, h2, h3⟩ := Out.bind_eq_ok.1 h
      cases h3
      exact asNth_has F ts hp _ v hv y h2
    · obtain ⟨i, y, rfl, h2⟩ := asAny_has F ts hp 0 v hv x h
      rw [Nat.zero_add]; exact h2
  | .map t, hp, v, hv, x, h => by
    unfold Ty.as at h
    obtain ⟨ms, h1, h2⟩ := Out.bind_eq_ok.1 h
    obtain ⟨es, h3, h4⟩ := Out.bind_eq_ok.1 h2
    cases h4
    obtain ⟨rfl, hs⟩ := asObject_sound hv h1
    refine foldl_emplace_has (each_has (P := fun e => t.Has e.2) (fun w hw y hy => ?_) h3) (by simp) .nil
    obtain ⟨z, h5, h6⟩ := Out.bind_eq_ok.1 hy
    cases h6
    exact as_has F t hp w.2 (hs w hw) z h5
  | .struct fs, hp, v, hv, x, h => by
    unfold Ty.as at h
    obtain ⟨r, h1, h2⟩ := Out.bind_eq_ok.1 h
    cases r with
    | some k => rw [typeError_sound hv] at h2; cases h2
    | none => cases h2; exact load_has F fs hp.1 {} v hv fs.defaults hp.2
theorem asAll_has (F : Floats) : ∀ (ts : Tys) (_ : ts.Proper F) (vs : List Value) (_ : vs.length = ts.size) (_ : ∀ v ∈ vs, v.Sound) (xs : List CVal),
    ts.asAll F vs = .ok xs → ts.HasAll xs
  | .nil, _, [], _, _, xs, h => by unfold Tys.asAll at h; cases h; trivial
  | .cons t ts, hp, v :: vs, hn, hs, xs, h => by
    unfold Tys.asAll at h
    obtain ⟨y, h1, h2⟩ := Out.bind_eq_ok.1 h
    obtain ⟨ys, h3, h4⟩ := Out.bind_eq_ok.1 h2
    cases h4
    exact ⟨as_has F t hp.1 v (hs v (by simp)) y h1, asAll_has F ts hp.2 vs (by simpa [Tys.size] using hn) (fun w hw => hs w (by simp [hw])) ys h3⟩
theorem asNth_has (F : Floats) : ∀ (ts : Tys) (_ : ts.Proper F) (i : Nat) (v : Value) (_ : v.Sound) (x : CVal), ts.asNth F i v = .ok x → ts.HasAlt i x
  | .nil, _, _, _, _, _, h => by unfold Tys.asNth at h; cases h
  | .cons t _, hp, 0, v, hv, x, h => by unfold Tys.asNth at h; exact as_has F t hp.1 v hv x h
  | .cons _ ts, hp, i + 1, v, hv, x, h => by unfold Tys.asNth at h; exact asNth_has F ts hp.2 i v hv x h
theorem asAny_has (F : Floats) : ∀ (ts : Tys) (_ : ts.Proper F) (j : Nat) (v : Value) (_ : v.Sound) (x : CVal), ts.asAny F j v = .ok x →
    ∃ i y, x = .alt (j + i) y ∧ ts.HasAlt i y
  | .nil, _, _, v, hv, _, h => by unfold Tys.asAny at h; rw [typeError_sound hv] at h; cases h
  | .cons t ts, hp, j, v, hv, x, h => by
    unfold Tys.asAny at h
    obtain ⟨b, _, h2⟩ := Out.bind_eq_ok.1 h
    cases b with
    | true =>
      obtain ⟨y, h3, h4⟩ := Out.bind_eq_ok.1 h2
      cases h4
      exact ⟨0, y, rfl, as_has F t hp.1 v hv y h3⟩
    | false =>
      obtain ⟨i, y, rfl, h3⟩ := asAny_has F ts hp.2 (j + 1) v hv x h2
      exact ⟨i + 1, y, by rw [Nat.add_right_comm]; rfl, h3⟩
/-- Whatever becomes of the conversion: what is in the members are values of their types. -/
theorem load_has (F : Floats) : ∀ (fs : Fields) (_ : fs.Proper F) (st : NextState) (v : Value) (_ : v.Sound) (dst : List CVal) (_ : fs.Has dst), fs.Has (fs.load F st v dst).2
  | .done, _, _, _, _, dst, h => by unfold Fields.load; exact h
  | .opt rest, hp, st, v, hv, dst, h => by unfold Fields.load; exact load_has F rest hp _ v hv dst h
  | .key k rest, hp, st, v, hv, dst, h => by unfold Fields.load; exact load_has F rest hp _ v hv dst h
  | .var name d t rest, hp, st, v, hv, x :: dst, h => by
    have hr := load_has F rest hp.2 {} v hv dst h.2
    obtain ⟨o, h1, h2, h3⟩ := findKey_step hv (st.keyFor name)
    unfold Fields.load
    rw [h1]
    cases o with
    | none =>
      simp only
      split
      · exact ⟨h.1, hr⟩
      · exact h
    | some w =>
      simp only
      obtain ⟨b, hb⟩ := is_total F t w (h3 w rfl)
      rw [hb]
      cases b with
      | false => exact h
      | true =>
        simp only
        cases ha : t.as F w with
        | ok y => exact ⟨as_has F t hp.1 w (h3 w rfl) y ha, hr⟩
        | throw e => exact h
        | ub => exact h
end

theorem subset_setInsert {α : Type} {lt : α → α → Bool} {x z : α} {l : List α} (h : z ∈ l) : z ∈ setInsert lt x l := by
  induction l with
  | nil => cases h
  | cons y l ih =>
    unfold setInsert
    split
    · exact List.mem_cons_of_mem _ h
    · split
      · rcases List.mem_cons.1 h with rfl | h
        · simp
        · exact List.mem_cons_of_mem _ (ih h)
      · exact h

theorem setInsert_covers {α : Type} {lt : α → α → Bool} {x : α} (hx : lt x x = false) {l : List α} : ∃ z ∈ setInsert lt x l, lt x z = false ∧ lt z x = false := by
  induction l with
  | nil => exact ⟨x, by simp [setInsert], hx, hx⟩
  | cons y l ih =>
    unfold setInsert
    split
    · exact ⟨x, by simp, hx, hx⟩
    · rename_i h1
      split
      · obtain ⟨z, hz, h⟩ := ih
        exact ⟨z, List.mem_cons_of_mem _ hz, h⟩
      · rename_i h2
        exact ⟨y, by simp, by simpa using h1, by simpa using h2⟩

theorem mem_foldl_set {α : Type} {lt : α → α → Bool} {z : α} : ∀ {xs l : List α}, z ∈ xs.foldl (fun l x => setInsert lt x l) l → z ∈ xs ∨ z ∈ l
  | [], _, h => .inr h
  | x :: xs, l, h => by
    rcases mem_foldl_set (xs := xs) h with h | h
    · exact .inl (by simp [h])
    · rcases mem_setInsert h with rfl | h
      · exact .inl (by simp)
      · exact .inr h

theorem subset_foldl_set {α : Type} {lt : α → α → Bool} {z : α} : ∀ {xs l : List α}, z ∈ l → z ∈ xs.foldl (fun l x => setInsert lt x l) l
  | [], _, h => h
  | _ :: xs, _, h => subset_foldl_set (xs := xs) (subset_setInsert h)

theorem foldl_set_covers {t : Ty} {lt : CVal → CVal → Bool} (hlt : StrictOrder t lt) : ∀ {xs l : List CVal}, (∀ x ∈ xs, t.Has x) → (∀ y ∈ l, t.Has y) →
    ∀ y, y ∈ xs ∨ y ∈ l → ∃ z ∈ xs.foldl (fun l x => setInsert lt x l) l, lt y z = false ∧ lt z y = false := by
  have irr : ∀ y, t.Has y → lt y y = false := fun y hy => by
    cases h : lt y y with
    | false => rfl
    | true => rw [← h]; exact hlt.1 y y hy hy h
  intro xs
  induction xs with
  | nil =>
    rintro l _ hl y (hy | hy)
    · cases hy
    · exact ⟨y, hy, irr y (hl y hy), irr y (hl y hy)⟩
  | cons x xs ih =>
    intro l hx hl y hy
    have hl' : ∀ z ∈ setInsert lt x l, t.Has z := fun z hz => by
      rcases mem_setInsert hz with rfl | hz
      · exact hx _ (by simp)
      · exact hl z hz
    have ih := ih (l := setInsert lt x l) (fun z hz => hx z (by simp [hz])) hl'
    rcases hy with hy | hy
    · rcases List.mem_cons.1 hy with rfl | hy
      · obtain ⟨z, hz, h⟩ := setInsert_covers (l := l) (irr y (hx y (by simp)))
        exact ⟨z, subset_foldl_set (xs := xs) hz, h⟩
      · exact ih y (.inl hy)
    · exact ih y (.inr (subset_setInsert hy))

theorem each_mem {α β : Type} {f : α → Out β} : ∀ {vs : List α} {xs : List β}, eachOf f vs = .ok xs → (∀ x ∈ xs, ∃ v ∈ vs, f v = .ok x) ∧ ∀ v ∈ vs, ∃ x ∈ xs, f v = .ok x
  | [], xs, h => by cases h; simp
  | v :: vs, xs, h => by
    unfold eachOf at h
    cases h1 : f v with
    | throw e => rw [h1] at h; cases h
    | ub => rw [h1] at h; cases h
    | ok y =>
      cases h2 : eachOf f vs with
      | throw e => rw [h1, h2] at h; cases h
      | ub => rw [h1, h2] at h; cases h
      | ok ys =>
        rw [h1, h2] at h
        cases h
        obtain ⟨h3, h4⟩ := each_mem h2
        constructor
        · intro x hx
          rcases List.mem_cons.1 hx with rfl | hx
          · exact ⟨v, by simp, h1⟩
          · obtain ⟨w, hw, h⟩ := h3 x hx; exact ⟨w, by simp [hw], h⟩
        · intro w hw
          rcases List.mem_cons.1 hw with rfl | hw
          · exact ⟨y, by simp, h1⟩
          · obtain ⟨x, hx, h⟩ := h4 w hw; exact ⟨x, by simp [hx], h⟩

end Meojson
