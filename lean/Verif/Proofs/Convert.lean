import Verif.Spec.Convert
import Verif.Proofs.Access

/-! # Proofs: `is<T>` and `as<T>` agree -/

set_option autoImplicit false

namespace Meojson
open Spec RawObject

/-- The check succeeds and so does the conversion, or the check fails and the conversion throws. -/
def Agree {α : Type} (b : Out Bool) (r : Out α) : Prop := (b = .ok true ∧ ∃ x, r = .ok x) ∨ (b = .ok false ∧ r = .throw .json)

theorem Agree.map {α β : Type} {b : Out Bool} {r : Out α} (h : Agree b r) (f : α → β) : Agree b (r.bind fun x => .ok (f x)) := by
  rcases h with ⟨h, x, rfl⟩ | ⟨h, rfl⟩
  · exact .inl ⟨h, _, rfl⟩
  · exact .inr ⟨h, rfl⟩

theorem all_each {α β : Type} {p : α → Out Bool} {f : α → Out β} {vs : List α} (h : ∀ v ∈ vs, Agree (p v) (f v)) :
    Agree (allAre p vs) (eachOf f vs) := by
  induction vs with
  | nil => exact .inl ⟨rfl, _, rfl⟩
  | cons v vs ih =>
    rcases h v (by simp) with ⟨h1, x, h2⟩ | ⟨h1, h2⟩
    · rcases ih fun w hw => h w (by simp [hw]) with ⟨h3, xs, h4⟩ | ⟨h3, h4⟩
      · exact .inl ⟨by simp [allAre, h1, h3], _, by simp [eachOf, h2, h4]; rfl⟩
      · exact .inr ⟨by simp [allAre, h1, h3], by simp [eachOf, h2, h4]⟩
    · exact .inr ⟨by simp [allAre, h1], by simp [eachOf, h2]⟩

mutual
theorem sound_intact : ∀ {v : Value}, v.Sound → v.intact = true
  | .str .., _ => rfl
  | .arr ty vs, h => by cases ty <;> first | exact h.elim | exact wfAll_intact h
  | .arrNull ty, h => by cases ty <;> exact h.elim
  | .obj ty ms, h => by cases ty <;> first | exact h.elim | exact wfMembers_intact h.2
  | .objNull ty, h => by cases ty <;> exact h.elim
theorem wfAll_intact : ∀ {vs : List Value}, Value.WfAll (fun _ => True) True vs → Value.intactAll vs = true
  | [], _ => rfl
  | _ :: _, h => by simp [Value.intactAll, sound_intact h.1, wfAll_intact h.2]
theorem wfMembers_intact : ∀ {ms : List (Bytes × Value)}, Value.WfMembers (fun _ => True) True ms → Value.intactMembers ms = true
  | [], _ => rfl
  | (_, _) :: _, h => by simp [Value.intactMembers, sound_intact h.1, wfMembers_intact h.2]
end

theorem sound_copied {v : Value} (h : v.Sound) : v.copied = .ok v := by simp [Value.copied, sound_intact h]

theorem each_id {α : Type} {f : α → Out α} {vs : List α} (h : ∀ v ∈ vs, f v = .ok v) : eachOf f vs = .ok vs := by
  induction vs with
  | nil => rfl
  | cons v vs ih => simp [eachOf, h v (by simp), ih fun w hw => h w (by simp [hw])]

theorem each_copied {vs : List Value} (h : ∀ v ∈ vs, v.Sound) : eachOf Value.copied vs = .ok vs := each_id fun v hv => sound_copied (h v hv)

theorem each_copied_members {ms : List (Bytes × Value)} (h : ∀ e ∈ ms, e.2.Sound) :
    eachOf (fun e : Bytes × Value => e.2.copied.bind fun w => .ok (e.1, w)) ms = .ok ms :=
  each_id fun e he => by simp [sound_copied (h e he)]

theorem int_agree {v : Value} (hv : v.Sound) (T : IntTy) : Agree (v.isInt T) (v.asInt T) := by
  cases sound_shape hv with
  | number s =>
    unfold Agree Value.isInt Value.asInt
    simp only [Value.type, if_true, Value.basicStr, Out.bind_ok]
    cases tryParseInteger T s <;> simp
  | _ => exact .inr ⟨rfl, rfl⟩

theorem float_agree {v : Value} (hv : v.Sound) (F : Floats) (f : FloatFmt) : Agree (v.isFloat F f) (v.asFloat F f) := by
  cases sound_shape hv with
  | number s =>
    unfold Agree Value.isFloat Value.asFloat
    simp only [Value.type, if_true, Value.basicStr, Out.bind_ok]
    cases F.read f s <;> simp
  | _ => exact .inr ⟨rfl, rfl⟩

theorem enum_agree {v : Value} (hv : v.Sound) (E : EnumTy) (hE : E.under = .bool → v.type ≠ .boolean) : Agree (v.isEnum E) (v.asEnum E) := by
  have hint := int_agree hv
  unfold Value.isEnum Value.asEnum
  cases hu : E.under with
  | bool =>
    have hb := hE hu
    cases sound_shape hv with
    | string s =>
      simp only [Value.type, if_true, Value.asString, Value.basicStr, Out.noexcept, Out.bind_ok]
      cases E.ofString s
      · exact .inr ⟨rfl, rfl⟩
      · exact .inl ⟨rfl, _, rfl⟩
    | «true» => exact absurd rfl hb
    | «false» => exact absurd rfl hb
    | _ => exact .inr ⟨rfl, rfl⟩
  | int T =>
    cases sound_shape hv with
    | string s =>
      simp only [Value.type, if_true, Value.asString, Value.basicStr, Out.noexcept, Out.bind_ok]
      cases E.ofString s
      · exact .inr ⟨rfl, rfl⟩
      · exact .inl ⟨rfl, _, rfl⟩
    | number s => simpa [Value.type] using hint T
    | _ => exact .inr ⟨rfl, rfl⟩

theorem findKey_step {v : Value} (hv : v.Sound) (k : Bytes) : ∃ o, v.findKey k = .ok o ∧ (∀ w, o = some w ↔ Step v (.key k) w) ∧ ∀ w, o = some w → w.Sound := by
  cases sound_shape hv with
  | object ms h1 h2 =>
    refine ⟨find k ms, rfl, fun w => ?_, fun w hw => h2 _ ((find_eq_some h1 k w).1 hw)⟩
    rw [find_eq_some h1]
    exact ⟨.key, fun h => by cases h; assumption⟩
  | _ => exact ⟨none, rfl, fun w => ⟨by simp, fun h => by cases h⟩, by simp⟩

theorem step_of_mem {vs : List Value} {w : Value} (h : w ∈ vs) : ∃ i, Step (.arr .array vs) (.pos i) w := by
  obtain ⟨i, hi⟩ := List.getElem?_of_mem h
  exact ⟨i, .pos (by omega) (by simpa using hi)⟩

theorem all_ok {α : Type} {p : α → Out Bool} {vs : List α} (h : ∀ v ∈ vs, ∃ b, p v = .ok b) : ∃ b, allAre p vs = .ok b := by
  induction vs with
  | nil => exact ⟨_, rfl⟩
  | cons v vs ih =>
    obtain ⟨b, hb⟩ := h v (by simp)
    obtain ⟨b', hb'⟩ := ih fun w hw => h w (by simp [hw])
    cases b
    · exact ⟨_, by simp [allAre, hb]; rfl⟩
    · exact ⟨_, by simp [allAre, hb, hb']; rfl⟩

/-- Number of members. -/
def Fields.size : Fields → Nat
  | .done => 0
  | .opt rest => rest.size
  | .key _ rest => rest.size
  | .var _ _ _ rest => rest.size + 1

theorem defaults_length : ∀ fs : Fields, fs.defaults.length = fs.size
  | .done => rfl
  | .opt rest => defaults_length rest
  | .key _ rest => defaults_length rest
  | .var _ _ _ rest => by simp [Fields.defaults, Fields.size, defaults_length rest]

mutual
/-- The check answers, for every type. -/
theorem is_total (F : Floats) : ∀ (t : Ty) (v : Value) (_ : v.Sound), ∃ b, t.is F v = .ok b
  | .user U, v, hv => ⟨U.check v, by rw [Ty.is]⟩
  | .json, _, _ => ⟨_, by rw [Ty.is]⟩
  | .struct fs, v, hv => by
    obtain ⟨r, h⟩ := check_total F fs {} v hv
    exact ⟨_, by rw [Ty.is, h]; rfl⟩
  | .bool, v, hv => ⟨_, by rw [Ty.is]⟩
  | .null, v, hv => ⟨_, by rw [Ty.is]⟩
  | .nullable _ t, v, hv => by
    unfold Ty.is
    split
    · exact ⟨_, rfl⟩
    · exact is_total F t v hv
  | .enum E, v, hv => by
    unfold Ty.is Value.isEnum
    cases sound_shape hv with
    | string s => exact ⟨_, rfl⟩
    | _ =>
      simp only [Value.type]
      cases E.under with
      | bool => exact ⟨_, rfl⟩
      | int T => exact ⟨_, rfl⟩
  | .int T, v, hv => by
    unfold Ty.is
    rcases int_agree hv T with ⟨h, _⟩ | ⟨h, _⟩ <;> exact ⟨_, h⟩
  | .float f, v, hv => by
    unfold Ty.is
    rcases float_agree hv F f with ⟨h, _⟩ | ⟨h, _⟩ <;> exact ⟨_, h⟩
  | .string, v, hv => ⟨_, by rw [Ty.is]⟩
  | .jarray, v, hv => ⟨_, by rw [Ty.is]⟩
  | .jobject, v, hv => ⟨_, by rw [Ty.is]⟩
  | .seq t, v, hv => by
    unfold Ty.is
    cases sound_shape hv with
    | array vs h => exact all_ok fun w hw => is_total F t w (h w hw)
    | _ => exact ⟨_, rfl⟩
  | .set _ t, v, hv => by
    unfold Ty.is
    cases sound_shape hv with
    | array vs h => exact all_ok fun w hw => is_total F t w (h w hw)
    | _ => exact ⟨_, rfl⟩
  | .fixed n t, v, hv => by
    unfold Ty.is
    cases sound_shape hv with
    | array vs h =>
      simp only [Value.type, if_true, Value.asArray, Out.noexcept, Out.bind_ok]
      split
      · exact all_ok fun w hw => is_total F t w (h w hw)
      · exact ⟨_, rfl⟩
    | _ => exact ⟨_, rfl⟩
  | .tuple ts, v, hv => by
    unfold Ty.is
    cases sound_shape hv with
    | array vs h =>
      simp only [Value.type, if_true, Value.asArray, Out.noexcept, Out.bind_ok]
      split
      · rename_i hl
        exact areAll_total F ts vs hl h
      · exact ⟨_, rfl⟩
    | _ => exact ⟨_, rfl⟩
  | .variant ts, v, hv => by unfold Ty.is; exact isAny_total F ts v hv
  | .map t, v, hv => by
    unfold Ty.is
    cases sound_shape hv with
    | object ms _ h => exact all_ok fun e he => is_total F t e.2 (h e he)
    | _ => exact ⟨_, rfl⟩
theorem areAll_total (F : Floats) : ∀ (ts : Tys) (vs : List Value) (_ : vs.length = ts.size) (_ : ∀ v ∈ vs, v.Sound), ∃ b, ts.areAll F vs = .ok b
  | .nil, _, _, _ => ⟨_, by rw [Tys.areAll]⟩
  | .cons t ts, v :: vs, hl, hv => by
    obtain ⟨b, h1⟩ := is_total F t v (hv v (by simp))
    obtain ⟨b', h2⟩ := areAll_total F ts vs (by simpa [Tys.size] using hl) (fun w hw => hv w (by simp [hw]))
    cases b
    · exact ⟨_, by simp [Tys.areAll, h1]; rfl⟩
    · exact ⟨_, by simp [Tys.areAll, h1, h2]; rfl⟩
theorem isAny_total (F : Floats) : ∀ (ts : Tys) (v : Value) (_ : v.Sound), ∃ b, ts.isAny F v = .ok b
  | .nil, _, _ => ⟨_, by rw [Tys.isAny]⟩
  | .cons t ts, v, hv => by
    obtain ⟨b, h1⟩ := is_total F t v hv
    obtain ⟨b', h2⟩ := isAny_total F ts v hv
    cases b
    · exact ⟨_, by simp [Tys.isAny, h1, h2]; rfl⟩
    · exact ⟨_, by simp [Tys.isAny, h1]; rfl⟩
theorem check_total (F : Floats) : ∀ (fs : Fields) (st : NextState) (v : Value) (_ : v.Sound), ∃ r, fs.check F st v = .ok r
  | .done, _, _, _ => ⟨_, by rw [Fields.check]⟩
  | .opt rest, st, v, hv => by unfold Fields.check; exact check_total F rest _ v hv
  | .key _ rest, st, v, hv => by unfold Fields.check; exact check_total F rest _ v hv
  | .var name d t rest, st, v, hv => by
    obtain ⟨o, ho, _, hs⟩ := findKey_step hv (st.keyFor name)
    obtain ⟨r, h1⟩ := check_total F rest {} v hv
    unfold Fields.check
    simp only [ho, Out.noexcept, Out.bind_ok]
    cases o with
    | none =>
      by_cases hopt : st.isOptional
      · exact ⟨r, by simpa [hopt] using h1⟩
      · exact ⟨_, by simp [hopt]; rfl⟩
    | some w =>
      obtain ⟨b, h2⟩ := is_total F t w (hs w rfl)
      cases b
      · exact ⟨_, by simp [h2]; rfl⟩
      · exact ⟨r, by simpa [h2] using h1⟩
end

/-- What is inside a sound value is sound. -/
theorem step_sound {v w : Value} {p : Value.PathKey} (hv : v.Sound) (h : Step v p w) : w.Sound := by
  cases h with
  | key hm => exact wfMembers_iff.1 hv.2 _ hm
  | pos _ hm => exact wfAll_iff.1 hv _ (List.mem_of_getElem? hm)

mutual
theorem regular_apt : ∀ {t : Ty}, t.Regular → ∀ v : Value, v.Sound → t.Apt v
  | .enum _, h, _, _ => fun hb => absurd hb h
  | .nullable .optional _, h, _, _ => h.elim
  | .nullable .pointer t, h, v, hv => fun _ => regular_apt (t := t) h v hv
  | .seq t, h, _, hv => fun _ w hw => regular_apt (t := t) h w (step_sound hv hw)
  | .set _ t, h, _, hv => fun _ w hw => regular_apt (t := t) h w (step_sound hv hw)
  | .fixed _ t, h, _, hv => fun _ w hw => regular_apt (t := t) h w (step_sound hv hw)
  | .tuple _, h, v, hv => ⟨h.1, regular_all h.2 0 v hv⟩
  | .variant _, h, v, hv => ⟨h.1, regular_any h.2 v hv⟩
  | .map t, h, _, hv => fun _ w hw => regular_apt (t := t) h w (step_sound hv hw)
  | .struct fs, h, v, hv => regular_fields (fs := fs) h none v hv
  | .user _, h, v, hv => h v hv
  | .bool, _, _, _ => trivial
  | .int _, _, _, _ => trivial
  | .float _, _, _, _ => trivial
  | .string, _, _, _ => trivial
  | .null, _, _, _ => trivial
  | .json, _, _, _ => trivial
  | .jarray, _, _, _ => trivial
  | .jobject, _, _, _ => trivial
theorem regular_all : ∀ {ts : Tys}, ts.Regular → ∀ (i : Int) (v : Value), v.Sound → ts.AptAll i v
  | .nil, _, _, _, _ => trivial
  | .cons _ _, h, i, v, hv => ⟨fun w hw => regular_apt h.1 w (step_sound hv hw), regular_all h.2 (i + 1) v hv⟩
theorem regular_any : ∀ {ts : Tys}, ts.Regular → ∀ v : Value, v.Sound → ts.AptAny v
  | .nil, _, _, _ => trivial
  | .cons _ _, h, v, hv => ⟨regular_apt h.1 v hv, regular_any h.2 v hv⟩
theorem regular_fields : ∀ {fs : Fields}, fs.Regular → ∀ (k : Option Bytes) (v : Value), v.Sound → fs.Apt k v
  | .done, _, _, _, _ => trivial
  | .opt rest, h, k, v, hv => regular_fields (fs := rest) h k v hv
  | .key k' rest, h, _, v, hv => regular_fields (fs := rest) h (some k') v hv
  | .var _ _ _ _, h, _, v, hv => ⟨fun w hw => regular_apt h.1 w (step_sound hv hw), regular_fields h.2 none v hv⟩
end

theorem apt_key {name : Bytes} {d : CVal} {t : Ty} {rest : Fields} {st : NextState} {v : Value} (h : (Fields.var name d t rest).Apt st.overrideKey v) :
    ∀ w, Step v (.key (st.keyFor name)) w → t.Apt w := by
  obtain ⟨o, k⟩ := st
  cases k <;> exact h.1

mutual
theorem is_as (F : Floats) : ∀ (t : Ty) (v : Value) (_ : v.Sound) (_ : t.Apt v), Agree (t.is F v) (t.as F v)
  | .user U, v, hv, ht => by
    unfold Ty.Apt at ht
    unfold Ty.is Ty.as
    cases hl : U.load v with
    | none =>
      rw [hl] at ht
      refine .inr ⟨?_, ?_⟩
      · cases hc : U.check v with
        | true => exact absurd (ht.1 hc) (by simp)
        | false => rfl
      · simp only [Value.typeError]; cases sound_shape hv <;> rfl
    | some x =>
      rw [hl] at ht
      exact .inl ⟨by rw [ht.2 rfl], _, rfl⟩
  | .json, v, hv, _ => .inl ⟨rfl, by simp [Ty.as, sound_copied hv]⟩
  | .struct fs, v, hv, ht => by
    obtain ⟨r, h1, h2⟩ := check_load F fs {} v hv ht fs.defaults (defaults_length fs)
    cases r with
    | none => exact .inl ⟨by simp [Ty.is, h1], by simp [Ty.as, h2]⟩
    | some k =>
      refine .inr ⟨by simp [Ty.is, h1], ?_⟩
      simp only [Ty.as, h2, Out.bind_ok]
      cases sound_shape hv <;> rfl
  | .bool, v, hv, _ => by
    cases sound_shape hv with
    | «true» => exact .inl ⟨rfl, _, rfl⟩
    | «false» => exact .inl ⟨rfl, _, rfl⟩
    | _ => exact .inr ⟨rfl, rfl⟩
  | .null, v, hv, _ => by
    cases sound_shape hv with
    | null => exact .inl ⟨rfl, _, rfl⟩
    | _ => exact .inr ⟨rfl, rfl⟩
  | .nullable .pointer t, v, hv, ht => by
    unfold Ty.is Ty.as
    split
    · exact .inl ⟨rfl, _, rfl⟩
    · rename_i hn
      exact (is_as F t v hv (ht hn)).map _
  | .nullable .optional t, v, hv, ht => by
    unfold Ty.is Ty.as
    rw [if_neg ht.1]
    exact (is_as F t v hv ht.2).map _
  | .enum E, v, hv, ht => by unfold Ty.is Ty.as; exact (enum_agree hv E ht).map _
  | .int T, v, hv, _ => by unfold Ty.is Ty.as; exact (int_agree hv T).map _
  | .float f, v, hv, _ => by unfold Ty.is Ty.as; exact (float_agree hv F f).map _
  | .string, v, hv, _ => by
    cases sound_shape hv with
    | string => exact .inl ⟨rfl, _, rfl⟩
    | _ => exact .inr ⟨rfl, rfl⟩
  | .jarray, v, hv, _ => by
    cases sound_shape hv with
    | array vs h => exact .inl ⟨rfl, by simp [Ty.as, Value.asArray, Value.type, each_copied h]⟩
    | _ => exact .inr ⟨rfl, rfl⟩
  | .seq t, v, hv, ht => by
    cases sound_shape hv with
    | array vs h => exact (all_each fun w hw => let ⟨i, hi⟩ := step_of_mem hw; is_as F t w (h w hw) (ht i w hi)).map _
    | _ => exact .inr ⟨rfl, rfl⟩
  | .set lt t, v, hv, ht => by
    cases sound_shape hv with
    | array vs h => exact (all_each fun w hw => let ⟨i, hi⟩ := step_of_mem hw; is_as F t w (h w hw) (ht i w hi)).map _
    | _ => exact .inr ⟨rfl, rfl⟩
  | .fixed n t, v, hv, ht => by
    cases sound_shape hv with
    | array vs h =>
      simp only [Ty.is, Ty.as, Value.type, if_true, Value.asArray, Out.noexcept, Out.bind_ok]
      split
      · exact (all_each fun w hw => let ⟨i, hi⟩ := step_of_mem hw; is_as F t w (h w hw) (ht i w hi)).map _
      · exact .inr ⟨rfl, rfl⟩
    | _ => exact .inr ⟨rfl, rfl⟩
  | .tuple ts, v, hv, ht => by
    cases sound_shape hv with
    | array vs h =>
      simp only [Ty.is, Ty.as, if_neg ht.1, Value.type, if_true, Value.asArray, Out.noexcept, Out.bind_ok]
      split
      · rename_i hl
        exact (are_as F ts [] vs hl h ht.2).map _
      · exact .inr ⟨rfl, rfl⟩
    | _ => exact .inr ⟨rfl, by rw [Ty.as, if_neg ht.1]; rfl⟩
  | .variant ts, v, hv, ht => by unfold Ty.is Ty.as; rw [ht.1]; exact any_as F ts 0 v hv ht.2
  | .jobject, v, hv, _ => by
    cases sound_shape hv with
    | object ms _ h => exact .inl ⟨rfl, by simp [Ty.as, Value.asObject, Value.type, each_copied_members h]⟩
    | _ => exact .inr ⟨rfl, rfl⟩
  | .map t, v, hv, ht => by
    cases sound_shape hv with
    | object ms _ h => exact (all_each fun e he => (is_as F t e.2 (h e he) (ht e.1 e.2 (.key he))).map fun x => (e.1, x)).map _
    | _ => exact .inr ⟨rfl, rfl⟩
theorem are_as (F : Floats) : ∀ (ts : Tys) (us vs : List Value) (_ : vs.length = ts.size) (_ : ∀ v ∈ vs, v.Sound) (_ : ts.AptAll us.length (.arr .array (us ++ vs))),
    Agree (ts.areAll F vs) (ts.asAll F vs)
  | .nil, _, _, _, _, _ => .inl ⟨rfl, _, rfl⟩
  | .cons t ts, us, v :: vs, hl, hv, ht => by
    have hs : Step (.arr .array (us ++ v :: vs)) (.pos us.length) v := .pos (by omega) (by simp)
    have ht' : ts.AptAll (us ++ [v]).length (.arr .array ((us ++ [v]) ++ vs)) := by simpa using ht.2
    rcases is_as F t v (hv v (by simp)) (ht.1 v hs) with ⟨h1, x, h2⟩ | ⟨h1, h2⟩
    · rcases are_as F ts (us ++ [v]) vs (by simpa [Tys.size] using hl) (fun w hw => hv w (by simp [hw])) ht' with ⟨h3, xs, h4⟩ | ⟨h3, h4⟩
      · exact .inl ⟨by simp [Tys.areAll, h1, h3], _, by simp [Tys.asAll, h2, h4]; rfl⟩
      · exact .inr ⟨by simp [Tys.areAll, h1, h3], by simp [Tys.asAll, h2, h4]⟩
    · exact .inr ⟨by simp [Tys.areAll, h1], by simp [Tys.asAll, h2]⟩
theorem any_as (F : Floats) : ∀ (ts : Tys) (i : Nat) (v : Value) (_ : v.Sound) (_ : ts.AptAny v), Agree (ts.isAny F v) (ts.asAny F i v)
  | .nil, i, v, hv, _ => by
    refine .inr ⟨rfl, ?_⟩
    unfold Tys.asAny
    cases sound_shape hv <;> rfl
  | .cons t ts, i, v, hv, ht => by
    rcases is_as F t v hv ht.1 with ⟨h1, x, h2⟩ | ⟨h1, h2⟩
    · exact .inl ⟨by simp [Tys.isAny, h1], _, by simp [Tys.asAny, h1, h2]; rfl⟩
    · simpa [Tys.isAny, Tys.asAny, h1] using any_as F ts (i + 1) v hv ht.2
theorem check_load (F : Floats) : ∀ (fs : Fields) (st : NextState) (v : Value) (_ : v.Sound) (_ : fs.Apt st.overrideKey v) (dst : List CVal) (_ : dst.length = fs.size),
    ∃ r, fs.check F st v = .ok r ∧ (fs.load F st v dst).1 = .ok r
  | .done, _, _, _, _, _, _ => ⟨none, by simp [Fields.check], by simp [Fields.load]⟩
  | .opt rest, st, v, hv, ht, dst, hd => by
    unfold Fields.check Fields.load
    exact check_load F rest { st with isOptional := true } v hv ht dst hd
  | .key k rest, st, v, hv, ht, dst, hd => by
    unfold Fields.check Fields.load
    exact check_load F rest { st with overrideKey := some k } v hv ht dst hd
  | .var name d t rest, st, v, hv, ht, x :: dst, hd => by
    obtain ⟨o, ho, hst, hw⟩ := findKey_step hv (st.keyFor name)
    obtain ⟨r, h1, h2⟩ := check_load F rest {} v hv ht.2 dst (by simpa [Fields.size] using hd)
    have ht1 := apt_key ht
    unfold Fields.check Fields.load
    simp only [ho, Out.noexcept, Out.bind_ok]
    cases o with
    | none =>
      by_cases hopt : st.isOptional
      · exact ⟨r, by simpa [hopt] using h1, by simpa [hopt] using h2⟩
      · exact ⟨_, by simp [hopt]; rfl, by simp [hopt]⟩
    | some w =>
      rcases is_as F t w (hw w rfl) (ht1 w ((hst w).1 rfl)) with ⟨h3, y, h4⟩ | ⟨h3, h4⟩
      · exact ⟨r, by simpa [h3] using h1, by simpa [h3, h4] using h2⟩
      · exact ⟨_, by simp [h3]; rfl, by simp [h3]⟩
end

/-- Returns a value, or throws `json::exception`. -/
def Tame {α : Type} (r : Out α) : Prop := (∃ x, r = .ok x) ∨ r = .throw .json

theorem Tame.bind {α β : Type} {r : Out α} {f : α → Out β} (h : Tame r) (hf : ∀ x, r = .ok x → Tame (f x)) : Tame (r.bind f) := by
  rcases h with ⟨x, rfl⟩ | rfl
  · exact hf x rfl
  · exact .inr rfl

theorem Tame.map {α β : Type} {r : Out α} (h : Tame r) (f : α → β) : Tame (r.bind fun x => .ok (f x)) := h.bind fun _ _ => .inl ⟨_, rfl⟩

theorem Agree.tame {α : Type} {b : Out Bool} {r : Out α} (h : Agree b r) : Tame r := h.imp (·.2) (·.2)

theorem each_tame {α β : Type} {f : α → Out β} {vs : List α} (h : ∀ v ∈ vs, Tame (f v)) : Tame (eachOf f vs) := by
  induction vs with
  | nil => exact .inl ⟨_, rfl⟩
  | cons v vs ih => exact (h v (by simp)).bind fun _ _ => (ih fun w hw => h w (by simp [hw])).bind fun _ _ => .inl ⟨_, rfl⟩

theorem jsonAt_lt : ∀ {ts : Tys} {i : Nat}, ts.jsonAt = some i → i < ts.size
  | .nil, _, h => by simp [Tys.jsonAt] at h
  | .cons t ts, i, h => by
    have ih := @jsonAt_lt ts
    cases t <;> simp only [Tys.jsonAt, Option.map_eq_some_iff, Option.some.injEq] at h <;> first
      | (subst h; simp [Tys.size])
      | (obtain ⟨j, hj, rfl⟩ := h; have := ih hj; simp only [Tys.size]; omega)

theorem implicits_lt : ∀ {ts : Tys} {j i : Nat}, i ∈ ts.implicits j → i < j + ts.size
  | .nil, _, _, h => by simp [Tys.implicits] at h
  | .cons t ts, j, i, h => by
    have ih := @implicits_lt ts (j + 1) i
    simp only [Tys.implicits] at h
    simp only [Tys.size]
    split at h
    · rcases List.mem_cons.1 h with rfl | h
      · omega
      · have := ih h; omega
    · have := ih h; omega

theorem chosen_lt {ts : Tys} {i : Nat} (h : ts.chosen = some i) : i < ts.size := by
  unfold Tys.chosen chosenOf at h
  split at h
  · rename_i j _ hj
    cases h
    exact jsonAt_lt hj
  · rename_i j _ hj
    cases h
    simpa using implicits_lt (ts := ts) (j := 0) (i := i) (by rw [hj]; simp)
  · cases h

theorem typeError_sound {α : Type} {v : Value} (hv : v.Sound) : (v.typeError : Out α) = .throw .json := by
  cases sound_shape hv <;> rfl

mutual
/-- The conversion returns or throws `json::exception`, for every type. -/
theorem as_total (F : Floats) : ∀ (t : Ty) (v : Value) (_ : v.Sound), Tame (t.as F v)
  | .user U, v, hv => by
    unfold Ty.as
    cases U.load v with
    | none => exact .inr (typeError_sound hv)
    | some x => exact .inl ⟨_, rfl⟩
  | .json, v, hv => .inl ⟨.json v, by simp [Ty.as, sound_copied hv]⟩
  | .struct fs, v, hv => by
    unfold Ty.as
    refine (load_tame F fs {} v hv fs.defaults (defaults_length fs)).bind fun r _ => ?_
    cases r with
    | none => exact .inl ⟨_, rfl⟩
    | some k => exact .inr (typeError_sound hv)
  | .bool, v, hv => (is_as F .bool v hv trivial).tame
  | .null, v, hv => (is_as F .null v hv trivial).tame
  | .int T, v, hv => (is_as F (.int T) v hv trivial).tame
  | .float f, v, hv => (is_as F (.float f) v hv trivial).tame
  | .string, v, hv => (is_as F .string v hv trivial).tame
  | .jarray, v, hv => (is_as F .jarray v hv trivial).tame
  | .jobject, v, hv => (is_as F .jobject v hv trivial).tame
  | .nullable .pointer t, v, hv => by
    unfold Ty.as
    split
    · exact .inl ⟨_, rfl⟩
    · exact (as_total F t v hv).map _
  | .nullable .optional t, v, hv => by unfold Ty.as; exact (as_total F t v hv).map _
  | .enum E, v, hv => by
    by_cases hb : E.under = .bool ∧ v.type = .boolean
    · unfold Ty.as
      cases sound_shape hv <;> first | exact .inr rfl | (simp [Value.type] at hb)
    · exact (is_as F (.enum E) v hv (fun h1 h2 => hb ⟨h1, h2⟩)).tame
  | .seq t, v, hv => by
    unfold Ty.as
    cases sound_shape hv with
    | array vs h => exact (each_tame fun w hw => as_total F t w (h w hw)).map _
    | _ => exact .inr rfl
  | .set _ t, v, hv => by
    unfold Ty.as
    cases sound_shape hv with
    | array vs h => exact (each_tame fun w hw => as_total F t w (h w hw)).map _
    | _ => exact .inr rfl
  | .fixed n t, v, hv => by
    unfold Ty.as
    cases sound_shape hv with
    | array vs h =>
      simp only [Value.type, if_true, Value.asArray, Out.bind_ok]
      split
      · exact (each_tame fun w hw => as_total F t w (h w hw)).map _
      · exact .inr rfl
    | _ => exact .inr rfl
  | .tuple ts, v, hv => by
    unfold Ty.as
    split
    · rename_i h1
      exact (asNth_tame F ts 0 (by omega) v hv).map _
    · cases sound_shape hv with
      | array vs h =>
        simp only [Value.type, if_true, Value.asArray, Out.bind_ok]
        split
        · rename_i hl
          exact (asAll_tame F ts vs hl h).map _
        · exact .inr rfl
      | _ => exact .inr rfl
  | .variant ts, v, hv => by
    unfold Ty.as
    split
    · rename_i i hc
      exact (asNth_tame F ts i (chosen_lt hc) v hv).map _
    · exact asAny_tame F ts 0 v hv
  | .map t, v, hv => by
    unfold Ty.as
    cases sound_shape hv with
    | object ms _ h => exact (each_tame fun e he => (as_total F t e.2 (h e he)).map _).map _
    | _ => exact .inr rfl
theorem asAll_tame (F : Floats) : ∀ (ts : Tys) (vs : List Value) (_ : vs.length = ts.size) (_ : ∀ v ∈ vs, v.Sound), Tame (ts.asAll F vs)
  | .nil, _, _, _ => .inl ⟨_, by rw [Tys.asAll]⟩
  | .cons t ts, v :: vs, hl, hv => by
    unfold Tys.asAll
    exact (as_total F t v (hv v (by simp))).bind fun _ _ => (asAll_tame F ts vs (by simpa [Tys.size] using hl) fun w hw => hv w (by simp [hw])).map _
theorem asNth_tame (F : Floats) : ∀ (ts : Tys) (i : Nat) (_ : i < ts.size) (v : Value) (_ : v.Sound), Tame (ts.asNth F i v)
  | .nil, _, hi, _, _ => by simp [Tys.size] at hi
  | .cons t ts, 0, _, v, hv => by unfold Tys.asNth; exact as_total F t v hv
  | .cons t ts, i + 1, hi, v, hv => by unfold Tys.asNth; exact asNth_tame F ts i (by simp only [Tys.size] at hi; omega) v hv
theorem asAny_tame (F : Floats) : ∀ (ts : Tys) (j : Nat) (v : Value) (_ : v.Sound), Tame (ts.asAny F j v)
  | .nil, _, v, hv => by unfold Tys.asAny; exact .inr (typeError_sound hv)
  | .cons t ts, j, v, hv => by
    obtain ⟨b, hb⟩ := is_total F t v hv
    cases b
    · simpa [Tys.asAny, hb] using asAny_tame F ts (j + 1) v hv
    · simpa [Tys.asAny, hb] using (as_total F t v hv).map _
theorem load_tame (F : Floats) : ∀ (fs : Fields) (st : NextState) (v : Value) (_ : v.Sound) (dst : List CVal) (_ : dst.length = fs.size), Tame (fs.load F st v dst).1
  | .done, _, _, _, _, _ => .inl ⟨none, by simp [Fields.load]⟩
  | .opt rest, st, v, hv, dst, hd => by unfold Fields.load; exact load_tame F rest _ v hv dst hd
  | .key k rest, st, v, hv, dst, hd => by unfold Fields.load; exact load_tame F rest _ v hv dst hd
  | .var name d t rest, st, v, hv, x :: dst, hd => by
    obtain ⟨o, ho, hst, hw⟩ := findKey_step hv (st.keyFor name)
    have ih := load_tame F rest {} v hv dst (by simpa [Fields.size] using hd)
    unfold Fields.load
    simp only [ho]
    cases o with
    | none =>
      by_cases hopt : st.isOptional
      · simpa [hopt] using ih
      · exact .inl ⟨_, by simp [hopt]; rfl⟩
    | some w =>
      obtain ⟨b, hb⟩ := is_total F t w (hw w rfl)
      cases b
      · exact .inl ⟨_, by simp [hb]; rfl⟩
      · rcases as_total F t w (hw w rfl) with ⟨y, hy⟩ | hy
        · simpa [hb, hy] using ih
        · exact .inr (by simp [hb, hy])
end

end Meojson
