import Verif.Model.Equal
import Verif.Spec.Equal
import Verif.Proofs.RoundTrip
import Verif.Proofs.Integer
import Verif.Proofs.FloatText
import Verif.Proofs.Values

/-! # Proofs: comparing a value with something that is none -/

set_option autoImplicit false

namespace Meojson
open Spec RawObject

/-! ### `==` where the right side may be invalid inside -/

mutual
theorem eq_mixed {num : Bytes → Prop} : ∀ v w : Value, v.Wf num False → w.Sound → v.eq w = .ok (decide (v = w))
  | .str ty s, w, hv, hw => by
    cases w with
    | str ty' s' =>
      by_cases ht : ty = ty'
      · subst ht
        cases ty with
        | null => cases hv; cases hw; simp [Value.eq, Value.type]
        | invalid => exact absurd hv.1 id
        | array => exact absurd hv id
        | object => exact absurd hv id
        | _ => simp [Value.eq, Value.type, Value.rawEq]
      · simp [Value.eq, Value.type, ht]
    | _ => cases ty <;> first | exact absurd hv id | exact absurd hv.1 id | (cases ‹VType› <;> first | exact absurd hw id | simp [Value.eq, Value.type])
  | .arr ty vs, w, hv, hw => by
    cases ty <;> first | exact absurd hv id | skip
    simp only [Value.Wf] at hv
    cases w with
    | arr ty' ws =>
      cases ty' <;> first | exact absurd hw id | skip
      simp only [Value.Sound, Value.Wf] at hw
      simp only [Value.eq, Value.type]
      by_cases hl : vs.length = ws.length
      · simp [hl, eqElems_mixed vs ws hv hw hl]
      · have : vs ≠ ws := fun e => hl (by rw [e])
        simp [hl, this]
    | str ty' s => cases ty' <;> first | exact absurd hw id | simp [Value.eq, Value.type]
    | _ => cases ‹VType› <;> first | exact absurd hw id | simp [Value.eq, Value.type]
  | .arrNull ty, _, hv, _ => by cases ty <;> exact absurd hv id
  | .obj ty ms, w, hv, hw => by
    cases ty <;> first | exact absurd hv id | skip
    simp only [Value.Wf] at hv
    cases w with
    | obj ty' ns =>
      cases ty' <;> first | exact absurd hw id | skip
      simp only [Value.Sound, Value.Wf] at hw
      simp only [Value.eq, Value.type]
      by_cases hl : ms.length = ns.length
      · simp [hl, eqMembers_mixed ms ns hv.2 hw.2 hl]
      · have : ms ≠ ns := fun e => hl (by rw [e])
        simp [hl, this]
    | str ty' s => cases ty' <;> first | exact absurd hw id | simp [Value.eq, Value.type]
    | _ => cases ‹VType› <;> first | exact absurd hw id | simp [Value.eq, Value.type]
  | .objNull ty, _, hv, _ => by cases ty <;> exact absurd hv id
theorem eqElems_mixed {num : Bytes → Prop} : ∀ vs ws : List Value, Value.WfAll num False vs → Value.WfAll (fun _ => True) True ws → vs.length = ws.length →
    Value.eqElems vs ws = .ok (decide (vs = ws))
  | [], ws, _, _, hl => by cases ws <;> simp_all [Value.eqElems]
  | v :: vs, [], _, _, hl => by simp at hl
  | v :: vs, w :: ws, hv, hw, hl => by
    simp only [Value.WfAll] at hv hw
    simp only [Value.eqElems, eq_mixed v w hv.1 hw.1, eqElems_mixed vs ws hv.2 hw.2 (by simpa using hl), Out.bind_ok]
    by_cases h : v = w <;> simp [h]
theorem eqMembers_mixed {num : Bytes → Prop} : ∀ ms ns : List (Bytes × Value), Value.WfMembers num False ms → Value.WfMembers (fun _ => True) True ns →
    ms.length = ns.length → Value.eqMembers ms ns = .ok (decide (ms = ns))
  | [], ns, _, _, hl => by cases ns <;> simp_all [Value.eqMembers]
  | m :: ms, [], _, _, hl => by simp at hl
  | (k, v) :: ms, (k', w) :: ns, hv, hw, hl => by
    simp only [Value.WfMembers] at hv hw
    simp only [Value.eqMembers, eq_mixed v w hv.1 hw.1, eqMembers_mixed ms ns hv.2 hw.2 (by simpa using hl), Out.bind_ok]
    by_cases hk : k = k' <;> by_cases h : v = w <;> simp [h, hk]
end

mutual
theorem wf_sound {num : Bytes → Prop} {inv : Prop} : ∀ {v : Value}, v.Wf num inv → v.Sound
  | .str ty s, h => by
    cases ty <;> simp only [Value.Wf, Value.Sound] at h ⊢ <;> first | exact ⟨trivial, h.2⟩ | exact h
  | .arr ty vs, h => by
    cases ty <;> simp only [Value.Wf, Value.Sound] at h ⊢
    exact wfAll_sound h
  | .obj ty ms, h => by
    cases ty <;> simp only [Value.Wf, Value.Sound] at h ⊢
    exact ⟨h.1, wfMembers_sound h.2⟩
  | .arrNull ty, h => by cases ty <;> simp only [Value.Wf] at h
  | .objNull ty, h => by cases ty <;> simp only [Value.Wf] at h
theorem wfAll_sound {num : Bytes → Prop} {inv : Prop} : ∀ {vs : List Value}, Value.WfAll num inv vs → Value.WfAll (fun _ => True) True vs
  | [], _ => trivial
  | _ :: _, h => ⟨wf_sound h.1, wfAll_sound h.2⟩
theorem wfMembers_sound {num : Bytes → Prop} {inv : Prop} : ∀ {ms : List (Bytes × Value)}, Value.WfMembers num inv ms → Value.WfMembers (fun _ => True) True ms
  | [], _ => trivial
  | (_, _) :: _, h => ⟨wf_sound h.1, wfMembers_sound h.2⟩
end

/-! ### Integer literals have one form, but for zero -/

theorem digit_eq {a b : UInt8} (ha : Digit a) (hb : Digit b) (h : a.toNat - 48 = b.toNat - 48) : a = b := by
  unfold Digit at ha hb
  have := UInt8.le_iff_toNat_le.1 ha.1; have := UInt8.le_iff_toNat_le.1 hb.1
  have h48 : (0x30 : UInt8).toNat = 48 := rfl
  exact UInt8.toNat_inj.1 (by omega)

theorem decimal_cons (a : UInt8) (t : Text) : decimal (a :: t) = (a.toNat - 48) * 10 ^ t.length + decimal t := by
  have := decimal_append [a] t
  simpa [decimal] using this

theorem decimal_inj_len : ∀ {s t : Text}, (∀ c ∈ s, Digit c) → (∀ c ∈ t, Digit c) → s.length = t.length → decimal s = decimal t → s = t
  | [], [], _, _, _, _ => rfl
  | [], _ :: _, _, _, h, _ => by simp at h
  | _ :: _, [], _, _, h, _ => by simp at h
  | a :: s, b :: t, hs, ht, hl, h => by
    have hl' : s.length = t.length := by simpa using hl
    rw [decimal_cons, decimal_cons, hl'] at h
    have h1 := decimal_lt (t := s) fun c hc => hs c (by simp [hc])
    have h2 := decimal_lt (t := t) fun c hc => ht c (by simp [hc])
    rw [hl'] at h1
    have h3 : a.toNat - 48 = b.toNat - 48 := by
      generalize a.toNat - 48 = x at h ⊢
      generalize b.toNat - 48 = y at h ⊢
      generalize 10 ^ t.length = p at *
      rcases Nat.lt_trichotomy x y with hlt | heq | hgt
      · have := Nat.mul_le_mul_right p hlt
        rw [Nat.succ_mul] at this; omega
      · exact heq
      · have := Nat.mul_le_mul_right p hgt
        rw [Nat.succ_mul] at this; omega
    have h4 := digit_eq (hs a (by simp)) (ht b (by simp)) h3
    subst h4
    rw [decimal_inj_len (fun c hc => hs c (by simp [hc])) (fun c hc => ht c (by simp [hc])) hl' (by omega)]

theorem intPart_inj {s t : Text} (hs : IntPart s) (ht : IntPart t) (h : decimal s = decimal t) : s = t := by
  have low : ∀ {t : Text}, Digits t → t.head? ≠ some 0x30 → 10 ^ (t.length - 1) ≤ decimal t := by
    intro t hd h0
    cases t with
    | nil => exact absurd rfl hd.1
    | cons c t =>
      rw [decimal_cons]
      have hc := hd.2 c (by simp)
      have h1 : c ≠ 0x30 := by simpa using h0
      have h2 : 1 ≤ c.toNat - 48 := by
        have h3 := UInt8.le_iff_toNat_le.1 hc.1
        have h48 : (0x30 : UInt8).toNat = 48 := rfl
        rcases Nat.eq_or_lt_of_le h3 with h | h
        · exact absurd (UInt8.toNat_inj.1 h).symm h1
        · omega
      have := Nat.mul_le_mul_right (10 ^ t.length) h2
      rw [Nat.one_mul] at this
      simp only [List.length_cons, Nat.add_sub_cancel]
      omega
  have pos : ∀ {t : Text}, Digits t → t.head? ≠ some 0x30 → decimal t ≠ 0 := fun hd h0 h => by
    have := low hd h0
    rw [h] at this
    have := Nat.pow_pos (n := ‹Text›.length - 1) (show 0 < 10 by decide)
    omega
  rcases hs with rfl | ⟨hd, h0⟩ <;> rcases ht with rfl | ⟨hd', h0'⟩
  · rfl
  · exact absurd h.symm (pos hd' h0')
  · exact absurd h (pos hd h0)
  · apply decimal_inj_len hd.2 hd'.2 _ h
    have a1 := low hd h0; have a2 := low hd' h0'
    have b1 := decimal_lt hd.2; have b2 := decimal_lt hd'.2
    have c1 : s.length - 1 < t.length := (Nat.pow_lt_pow_iff_right (by decide)).1 (by omega : 10 ^ (s.length - 1) < 10 ^ t.length)
    have c2 : t.length - 1 < s.length := (Nat.pow_lt_pow_iff_right (by decide)).1 (by omega : 10 ^ (t.length - 1) < 10 ^ s.length)
    omega

theorem intLit_text {s : Text} {n : Int} (h : IntLit s n) (h0 : s ≠ [0x2d, 0x30]) : s = intText n := by
  have h' := intText_intLit n
  rcases h with ⟨h, e⟩ | ⟨ds, rfl, h, e⟩ <;> rcases h' with ⟨h', e'⟩ | ⟨ds', e1, h', e'⟩
  · exact intPart_inj h h' (by omega)
  · unfold intText at e1
    split at e1
    · omega
    · have := (natText_intPart n.natAbs).1.digits
      rw [e1] at this
      exact absurd (this.2 0x2d (by simp)) not_digit_minus
  · unfold intText at h' e'
    split at h'
    · exact absurd (h'.digits.2 0x2d (by simp)) not_digit_minus
    · rename_i hn
      have hd : decimal ds = decimal [0x30] := by
        have : decimal [0x30] = 0 := rfl
        rw [this]; omega
      exact absurd (by rw [intPart_inj h (.inl rfl) hd]) h0
  · rw [e1, intPart_inj h h' (by omega)]

theorem tryParse_text {T : IntTy} {s : Bytes} {n : Int} (hs : Number s) (h0 : s ≠ [0x2d, 0x30]) (h : tryParseInteger T s = some n) : s = intText n :=
  intLit_text ((tryParseInteger_number hs (.inr h0) n).1 h).1 h0

/-! ### What is read is what is written -/

theorem each_form {F : Floats} {t : Ty} {num : Bytes → Prop} (h : ∀ (v : Value) (x : CVal) (c : Cat), v.Wf num False → t.as F v = .ok x → ∃ y, t.store F c x = .ok (v, y)) :
    ∀ (vs : List Value) (xs : List CVal) (c : Cat), (∀ v ∈ vs, v.Wf num False) → eachOf (t.as F) vs = .ok xs → ∃ ys, eachBoth (t.store F c) xs = .ok (vs, ys)
  | [], xs, c, _, hx => by
    simp only [eachOf, Out.ok.injEq] at hx
    subst hx
    exact ⟨[], rfl⟩
  | v :: vs, xs, c, hv, hx => by
    simp only [eachOf] at hx
    obtain ⟨x, hx1, hx⟩ := Out.bind_eq_ok.1 hx
    obtain ⟨xs', hx2, hx⟩ := Out.bind_eq_ok.1 hx
    simp only [Out.ok.injEq] at hx
    subst hx
    obtain ⟨y, hy⟩ := h v x c (hv v (by simp)) hx1
    obtain ⟨ys, hys⟩ := each_form h vs xs' c (fun w hw => hv w (by simp [hw])) hx2
    exact ⟨y :: ys, by simp [eachBoth, hy, hys]⟩

theorem each_form_members {F : Floats} {t : Ty} {num : Bytes → Prop} (h : ∀ (v : Value) (x : CVal) (c : Cat), v.Wf num False → t.as F v = .ok x → ∃ y, t.store F c x = .ok (v, y)) :
    ∀ (vs : List (Bytes × Value)) (xs : List (Bytes × CVal)) (c : Cat), (∀ e ∈ vs, e.2.Wf num False) →
    eachOf (fun e : Bytes × Value => (t.as F e.2).bind fun x => .ok (e.1, x)) vs = .ok xs →
    xs.map Prod.fst = vs.map Prod.fst ∧ ∃ ys, eachBoth (fun e : Bytes × CVal => (t.store F c e.2).bind fun r => .ok ((e.1, r.1), (e.1, r.2))) xs = .ok (vs, ys)
  | [], xs, c, _, hx => by
    simp only [eachOf, Out.ok.injEq] at hx
    subst hx
    exact ⟨rfl, [], rfl⟩
  | (k, v) :: vs, xs, c, hv, hx => by
    simp only [eachOf] at hx
    obtain ⟨e, hx1, hx⟩ := Out.bind_eq_ok.1 hx
    obtain ⟨x, hx0, he⟩ := Out.bind_eq_ok.1 hx1
    obtain ⟨xs', hx2, hx⟩ := Out.bind_eq_ok.1 hx
    simp only [Out.ok.injEq] at hx he
    subst hx he
    obtain ⟨y, hy⟩ := h v x c (hv (k, v) (by simp)) hx0
    obtain ⟨hk, ys, hys⟩ := each_form_members h vs xs' c (fun w hw => hv w (by simp [hw])) hx2
    exact ⟨by simp [hk], (k, y) :: ys, by simp [eachBoth, hy, hys]⟩

theorem form_array {v : Value} {vs : List Value} {num : Bytes → Prop} (hv : v.Wf num False) (h : v.asArray = .ok vs) : v = .arr .array vs := by
  by_cases ht : v.type = .array
  · cases v with
    | arr ty ws =>
      cases ht
      simpa [Value.asArray, Value.type] using h
    | _ => cases ht; exact absurd hv id
  · simp [Value.asArray, ht, typeError_sound (wf_sound hv)] at h

theorem form_object {v : Value} {ms : List (Bytes × Value)} {num : Bytes → Prop} (hv : v.Wf num False) (h : v.asObject = .ok ms) : v = .obj .object ms := by
  by_cases ht : v.type = .object
  · cases v with
    | obj ty ws =>
      cases ht
      simpa [Value.asObject, Value.type] using h
    | _ => cases ht; exact absurd hv id
  · simp [Value.asObject, ht, typeError_sound (wf_sound hv)] at h

theorem form_scalar {v : Value} {num : Bytes → Prop} (hv : v.Wf num False) (h1 : v.type ≠ .array) (h2 : v.type ≠ .object) : ∃ s, v = .str v.type s := by
  cases v with
  | str ty s => exact ⟨s, rfl⟩
  | arr ty ws => cases ty <;> simp_all [Value.type, Value.Wf]
  | obj ty ws => cases ty <;> simp_all [Value.type, Value.Wf]
  | arrNull ty => cases ty <;> exact absurd hv id
  | objNull ty => cases ty <;> exact absurd hv id

mutual
theorem one_form (F : Floats) : ∀ (t : Ty) (v : Value) (x : CVal) (c : Cat), t.OneForm → v.NoMinusZero → t.as F v = .ok x → ∃ y, t.store F c x = .ok (v, y)
  | .user U, v, x, c, ht, hv, h => by
    simp only [Ty.as] at h
    cases hl : U.load v with
    | none => rw [hl] at h; simp only [typeError_sound (wf_sound hv)] at h; cases h
    | some x' =>
      rw [hl] at h
      simp only [Out.ok.injEq] at h
      subst h
      exact ⟨x', by simp [Ty.store, ht v x' (wf_sound hv) hl]⟩
  | .bool, v, x, c, _, hv, h => by
    simp only [Ty.as] at h
    obtain ⟨b, h1, hh⟩ := Out.bind_eq_ok.1 h; replace h := hh; clear hh
    simp only [Out.ok.injEq] at h; subst h
    suffices e : v = .ofBool b by exact ⟨_, by rw [Ty.store, e]⟩
    by_cases ht : v.type = .boolean
    · obtain ⟨s, hs⟩ := form_scalar hv (by rw [ht]; decide) (by rw [ht]; decide)
      rw [ht] at hs
      subst hs
      rcases hv with rfl | rfl
      · have : b = true := by simpa [Value.asBoolean, Value.type, Value.basicStr] using h1.symm
        subst this; rfl
      · have : b = false := by simpa [Value.asBoolean, Value.type, Value.basicStr] using h1.symm
        subst this; rfl
    · simp [Value.asBoolean, ht, typeError_sound (wf_sound hv)] at h1
  | .int T, v, x, c, _, hv, h => by
    simp only [Ty.as] at h
    obtain ⟨n, h1, hh⟩ := Out.bind_eq_ok.1 h; replace h := hh; clear hh
    simp only [Out.ok.injEq] at h; subst h
    suffices e : v = .ofInt n by exact ⟨_, by rw [Ty.store, e]⟩
    by_cases ht : v.type = .number
    · obtain ⟨s, hs⟩ := form_scalar hv (by rw [ht]; decide) (by rw [ht]; decide)
      rw [ht] at hs
      subst hs
      simp only [Value.asInt, Value.type, if_true, Value.basicStr, Out.bind_ok] at h1
      cases hp : tryParseInteger T s with
      | none => rw [hp] at h1; cases h1
      | some m =>
        rw [hp] at h1
        cases h1
        rw [Value.ofInt, ← tryParse_text hv.1 hv.2 hp]
    · simp [Value.asInt, ht, typeError_sound (wf_sound hv)] at h1
  | .string, v, x, c, _, hv, h => by
    simp only [Ty.as] at h
    obtain ⟨s, h1, hh⟩ := Out.bind_eq_ok.1 h; replace h := hh; clear hh
    simp only [Out.ok.injEq] at h; subst h
    suffices e : v = .str .string s by exact ⟨_, by rw [Ty.store, e]⟩
    by_cases ht : v.type = .string
    · obtain ⟨s', hs⟩ := form_scalar hv (by rw [ht]; decide) (by rw [ht]; decide)
      rw [ht] at hs
      subst hs
      simpa [Value.asString, Value.type, Value.basicStr] using h1
    · simp [Value.asString, ht, typeError_sound (wf_sound hv)] at h1
  | .null, v, x, c, _, hv, h => by
    simp only [Ty.as] at h
    obtain ⟨u, h1, hh⟩ := Out.bind_eq_ok.1 h; replace h := hh; clear hh
    simp only [Out.ok.injEq] at h; subst h
    suffices e : v = .null by exact ⟨_, by rw [Ty.store, e]⟩
    by_cases ht : v.type = .null
    · obtain ⟨s', hs⟩ := form_scalar hv (by rw [ht]; decide) (by rw [ht]; decide)
      rw [ht] at hs
      subst hs
      simp only [Value.Wf] at hv
      rw [hv]; rfl
    · simp [Value.asNull, ht, typeError_sound (wf_sound hv)] at h1
  | .json, v, x, c, _, hv, h => by
    simp only [Ty.as, sound_copied (wf_sound hv), Out.bind_ok, Out.ok.injEq] at h
    subst h
    unfold Ty.store
    split
    · exact ⟨_, rfl⟩
    · exact ⟨_, by rw [sound_copied (wf_sound hv)]; rfl⟩
  | .jarray, v, x, c, _, hv, h => by
    simp only [Ty.as] at h
    obtain ⟨vs, h1, hh⟩ := Out.bind_eq_ok.1 h; replace h := hh; clear hh
    have hv' := form_array hv h1
    subst hv'
    have hs : ∀ v ∈ vs, v.Sound := wfAll_iff.1 (wf_sound hv)
    rw [each_copied hs] at h
    simp only [Out.bind_ok, Out.ok.injEq] at h
    subst h
    unfold Ty.store
    split
    · exact ⟨_, rfl⟩
    · exact ⟨_, by rw [each_copied hs]; rfl⟩
  | .jobject, v, x, c, _, hv, h => by
    simp only [Ty.as] at h
    obtain ⟨ms, h1, hh⟩ := Out.bind_eq_ok.1 h; replace h := hh; clear hh
    have hv' := form_object hv h1
    subst hv'
    have hs : ∀ e ∈ ms, e.2.Sound := wfMembers_iff.1 (wf_sound hv).2
    rw [each_copied_members hs] at h
    simp only [Out.bind_ok, Out.ok.injEq] at h
    subst h
    unfold Ty.store
    split
    · exact ⟨_, rfl⟩
    · exact ⟨_, by rw [each_copied_members hs]; rfl⟩
  | .nullable .pointer t, v, x, c, ht, hv, h => by
    simp only [Ty.as] at h
    split at h
    · rename_i hn
      simp only [Out.ok.injEq] at h; subst h
      suffices e : v = .null by exact ⟨_, by rw [Ty.store, e]⟩
      obtain ⟨s', hs⟩ := form_scalar hv (by rw [hn]; decide) (by rw [hn]; decide)
      rw [hn] at hs
      subst hs
      simp only [Value.Wf] at hv
      rw [hv]; rfl
    · obtain ⟨y, h1, hh⟩ := Out.bind_eq_ok.1 h; replace h := hh; clear hh
      simp only [Out.ok.injEq] at h; subst h
      obtain ⟨z, hz⟩ := one_form F t v y (c.content .pointer) ht hv h1
      exact ⟨.just z, by simp [Ty.store, hz]⟩
  | .nullable .optional t, v, x, c, ht, hv, h => by
    simp only [Ty.as] at h
    obtain ⟨y, h1, hh⟩ := Out.bind_eq_ok.1 h; replace h := hh; clear hh
    simp only [Out.ok.injEq] at h; subst h
    obtain ⟨z, hz⟩ := one_form F t v y (c.content .optional) ht hv h1
    exact ⟨.just z, by simp [Ty.store, hz]⟩
  | .seq t, v, x, c, ht, hv, h => by
    simp only [Ty.as] at h
    obtain ⟨vs, h1, hh⟩ := Out.bind_eq_ok.1 h; replace h := hh; clear hh
    have hv' := form_array hv h1
    subst hv'
    obtain ⟨xs, h2, hh⟩ := Out.bind_eq_ok.1 h; replace h := hh; clear hh
    simp only [Out.ok.injEq] at h; subst h
    obtain ⟨ys, hys⟩ := each_form (fun v x c hv h => one_form F t v x c ht hv h) vs xs c.element (wfAll_iff.1 hv) h2
    exact ⟨.list ys, by simp [Ty.store, hys, Value.ofArray]⟩
  | .fixed n t, v, x, c, ht, hv, h => by
    simp only [Ty.as] at h
    obtain ⟨vs, h1, hh⟩ := Out.bind_eq_ok.1 h; replace h := hh; clear hh
    have hv' := form_array hv h1
    subst hv'
    split at h
    · obtain ⟨xs, h2, hh⟩ := Out.bind_eq_ok.1 h; replace h := hh; clear hh
      simp only [Out.ok.injEq] at h; subst h
      obtain ⟨ys, hys⟩ := each_form (fun v x c hv h => one_form F t v x c ht hv h) vs xs c.part (wfAll_iff.1 hv) h2
      exact ⟨.list ys, by simp [Ty.store, hys, Value.ofArray]⟩
    · cases h
  | .tuple ts, v, x, c, ht, hv, h => by
    simp only [Ty.as, if_neg ht.1] at h
    obtain ⟨vs, h1, hh⟩ := Out.bind_eq_ok.1 h; replace h := hh; clear hh
    have hv' := form_array hv h1
    subst hv'
    split at h
    · rename_i hl
      obtain ⟨xs, h2, hh⟩ := Out.bind_eq_ok.1 h; replace h := hh; clear hh
      simp only [Out.ok.injEq] at h; subst h
      obtain ⟨ys, hys⟩ := one_form_all F ts vs xs c.part ht.2 hl (wfAll_iff.1 hv) h2
      exact ⟨.list ys, by simp [Ty.store, hys, Value.ofArray]⟩
    · cases h
  | .variant ts, v, x, c, ht, hv, h => by
    simp only [Ty.as] at h
    split at h
    · rename_i i hi
      obtain ⟨y, h1, hh⟩ := Out.bind_eq_ok.1 h; replace h := hh; clear hh
      simp only [Out.ok.injEq] at h; subst h
      obtain ⟨z, hz⟩ := one_form_nth F ts i v y c.part ht hv h1
      exact ⟨.alt i z, by simp [Ty.store, hz]⟩
    · obtain ⟨i, y, e, z, hz⟩ := one_form_any F ts 0 v x c.part ht hv h
      subst e
      exact ⟨.alt (0 + i) z, by simp [Ty.store, hz]⟩
  | .map t, v, x, c, ht, hv, h => by
    simp only [Ty.as] at h
    obtain ⟨ms, h1, hh⟩ := Out.bind_eq_ok.1 h; replace h := hh; clear hh
    have hv' := form_object hv h1
    subst hv'
    obtain ⟨es, h2, hh⟩ := Out.bind_eq_ok.1 h; replace h := hh; clear hh
    simp only [Out.ok.injEq] at h
    obtain ⟨hk, ys, hys⟩ := each_form_members (fun v x c hv h => one_form F t v x c ht hv h) ms es c.element (wfMembers_iff.1 hv.2) h2
    have hs : Sorted ms := hv.1
    have h8 := foldl_emplace (a := []) (m := ms) hs
    have h9 := foldl_emplace (a := []) (m := es) (sorted_of_keys hk hs)
    rw [h9, List.nil_append] at h
    subst h
    exact ⟨.map ys, by simp only [Ty.store, hys, Out.bind_ok, h8, List.nil_append, Value.ofObject]⟩
  | .float _, _, _, _, ht, _, _ => ht.elim
  | .enum _, _, _, _, ht, _, _ => ht.elim
  | .set _ _, _, _, _, ht, _, _ => ht.elim
  | .struct _, _, _, _, ht, _, _ => ht.elim
theorem one_form_all (F : Floats) : ∀ (ts : Tys) (vs : List Value) (xs : List CVal) (c : Cat), ts.OneForm → vs.length = ts.size → (∀ v ∈ vs, v.NoMinusZero) →
    ts.asAll F vs = .ok xs → ∃ ys, ts.storeAll F c xs = .ok (vs, ys)
  | .nil, vs, xs, c, _, hl, _, h => by
    have : vs = [] := List.length_eq_zero_iff.1 hl
    subst this
    simp only [Tys.asAll, Out.ok.injEq] at h; subst h
    exact ⟨[], by simp [Tys.storeAll]⟩
  | .cons _ _, [], _, _, _, hl, _, _ => by simp [Tys.size] at hl
  | .cons t ts, v :: vs, xs, c, ht, hl, hv, h => by
    simp only [Tys.asAll] at h
    obtain ⟨x, h1, hh⟩ := Out.bind_eq_ok.1 h; replace h := hh; clear hh
    obtain ⟨xs', h2, h⟩ := Out.bind_eq_ok.1 h
    simp only [Out.ok.injEq] at h; subst h
    obtain ⟨y, hy⟩ := one_form F t v x c ht.1 (hv v (by simp)) h1
    obtain ⟨ys, hys⟩ := one_form_all F ts vs xs' c ht.2 (by simpa [Tys.size] using hl) (fun w hw => hv w (by simp [hw])) h2
    exact ⟨y :: ys, by simp [Tys.storeAll, hy, hys]⟩
theorem one_form_nth (F : Floats) : ∀ (ts : Tys) (i : Nat) (v : Value) (x : CVal) (c : Cat), ts.OneForm → v.NoMinusZero → ts.asNth F i v = .ok x →
    ∃ y, ts.storeAlt F c i x = .ok (v, y)
  | .nil, _, _, _, _, _, _, h => by simp [Tys.asNth] at h
  | .cons t ts, 0, v, x, c, ht, hv, h => by
    simp only [Tys.asNth] at h
    simpa only [Tys.storeAlt] using one_form F t v x c ht.1 hv h
  | .cons t ts, i + 1, v, x, c, ht, hv, h => by
    simp only [Tys.asNth] at h
    simpa only [Tys.storeAlt] using one_form_nth F ts i v x c ht.2 hv h
theorem one_form_any (F : Floats) : ∀ (ts : Tys) (j : Nat) (v : Value) (x : CVal) (c : Cat), ts.OneForm → v.NoMinusZero → ts.asAny F j v = .ok x →
    ∃ i y, x = .alt (j + i) y ∧ ∃ z, ts.storeAlt F c i y = .ok (v, z)
  | .nil, _, v, _, _, _, hv, h => by simp [Tys.asAny, typeError_sound (wf_sound hv)] at h
  | .cons t ts, j, v, x, c, ht, hv, h => by
    simp only [Tys.asAny] at h
    obtain ⟨b, _, hh⟩ := Out.bind_eq_ok.1 h; replace h := hh; clear hh
    split at h
    · obtain ⟨y, h1, hh⟩ := Out.bind_eq_ok.1 h; replace h := hh; clear hh
      simp only [Out.ok.injEq] at h; subst h
      refine ⟨0, y, rfl, ?_⟩
      simpa only [Tys.storeAlt] using one_form F t v y c ht.1 hv h1
    · obtain ⟨i, y, e, hz⟩ := one_form_any F ts (j + 1) v x c ht.2 hv h
      refine ⟨i + 1, y, by rw [e]; congr 1; omega, ?_⟩
      simpa only [Tys.storeAlt] using hz
end

end Meojson
