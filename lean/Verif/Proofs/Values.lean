import Verif.Model.Compare
import Verif.Proofs.Dump
import Verif.Proofs.Distinct

/-!
# Lemmas: well-formed values
-/

set_option autoImplicit false

namespace Meojson
open Spec

mutual
theorem eq_wf {num : Bytes → Prop} : ∀ v w : Value, v.Wf num False → w.Wf num False → v.eq w = .ok (decide (v = w))
  | .str ty s, w, hv, hw => by
    cases w with
    | str ty' s' =>
      by_cases ht : ty = ty'
      · subst ht
        cases ty with
        | null => cases hv; cases hw; simp [Value.eq, Value.type]
        | invalid => exact absurd hv.1 id
        | array => exact absurd hv id
        | object => exact absurd hv id
        | _ => simp [Value.eq, Value.type, Value.rawEq]
      · simp [Value.eq, Value.type, ht]
    | _ => cases ty <;> first | exact absurd hv id | exact absurd hv.1 id | (cases ‹VType› <;> first | exact absurd hw id | simp [Value.eq, Value.type])
  | .arr ty vs, w, hv, hw => by
    cases ty <;> first | exact absurd hv id | skip
    simp only [Value.Wf] at hv
    cases w with
    | arr ty' ws =>
      cases ty' <;> first | exact absurd hw id | skip
      simp only [Value.Wf] at hw
      simp only [Value.eq, Value.type]
      by_cases hl : vs.length = ws.length
      · simp [hl, eqElems_wf vs ws hv hw hl]
      · have : vs ≠ ws := fun e => hl (by rw [e])
        simp [hl, this]
    | str ty' s => cases ty' <;> first | exact absurd hw id | exact absurd hw.1 id | simp [Value.eq, Value.type]
    | _ => cases ‹VType› <;> first | exact absurd hw id | simp [Value.eq, Value.type]
  | .arrNull ty, _, hv, _ => by cases ty <;> exact absurd hv id
  | .obj ty ms, w, hv, hw => by
    cases ty <;> first | exact absurd hv id | skip
    simp only [Value.Wf] at hv
    cases w with
    | obj ty' ns =>
      cases ty' <;> first | exact absurd hw id | skip
      simp only [Value.Wf] at hw
      simp only [Value.eq, Value.type]
      by_cases hl : ms.length = ns.length
      · simp [hl, eqMembers_wf ms ns hv.2 hw.2 hl]
      · have : ms ≠ ns := fun e => hl (by rw [e])
        simp [hl, this]
    | str ty' s => cases ty' <;> first | exact absurd hw id | exact absurd hw.1 id | simp [Value.eq, Value.type]
    | _ => cases ‹VType› <;> first | exact absurd hw id | simp [Value.eq, Value.type]
  | .objNull ty, _, hv, _ => by cases ty <;> exact absurd hv id
theorem eqElems_wf {num : Bytes → Prop} : ∀ vs ws : List Value, Value.WfAll num False vs → Value.WfAll num False ws → vs.length = ws.length →
    Value.eqElems vs ws = .ok (decide (vs = ws))
  | [], ws, _, _, hl => by cases ws <;> simp_all [Value.eqElems]
  | v :: vs, [], _, _, hl => by simp at hl
  | v :: vs, w :: ws, hv, hw, hl => by
    simp only [Value.WfAll] at hv hw
    simp only [Value.eqElems, eq_wf v w hv.1 hw.1, eqElems_wf vs ws hv.2 hw.2 (by simpa using hl), Out.bind_ok]
    by_cases h : v = w <;> simp [h]
theorem eqMembers_wf {num : Bytes → Prop} : ∀ ms ns : List (Bytes × Value), Value.WfMembers num False ms → Value.WfMembers num False ns →
    ms.length = ns.length → Value.eqMembers ms ns = .ok (decide (ms = ns))
  | [], ns, _, _, hl => by cases ns <;> simp_all [Value.eqMembers]
  | m :: ms, [], _, _, hl => by simp at hl
  | (k, v) :: ms, (k', w) :: ns, hv, hw, hl => by
    simp only [Value.WfMembers] at hv hw
    simp only [Value.eqMembers, eq_wf v w hv.1 hw.1, eqMembers_wf ms ns hv.2 hw.2 (by simpa using hl), Out.bind_ok]
    by_cases hk : k = k' <;> by_cases h : v = w <;> simp [h, hk]
end

/-! ### Documents denote well-formed values -/

theorem wfMembers_iff {num : Bytes → Prop} {inv : Prop} {ms : List (Bytes × Value)} :
    Value.WfMembers num inv ms ↔ ∀ m ∈ ms, m.2.Wf num inv := by
  induction ms with
  | nil => simp [Value.WfMembers]
  | cons m ms ih => obtain ⟨k, v⟩ := m; simp [Value.WfMembers, ih]

theorem wfAll_iff {num : Bytes → Prop} {inv : Prop} {vs : List Value} : Value.WfAll num inv vs ↔ ∀ v ∈ vs, v.Wf num inv := by
  induction vs with
  | nil => simp [Value.WfAll]
  | cons v vs ih => simp [Value.WfAll, ih]

theorem val_json {D : Dialect} (hk : D.distinctKeys = true) {t : Text} {j : Doc} (h : Val D t j) : j.toValue.Json := by
  have sorted : ∀ ms : List (Text × Doc), (D.distinctKeys = true → (ms.map Prod.fst).Nodup) → Value.WfMembers Number False (Doc.toMembers ms) →
      (Value.obj .object (sortMembers (Doc.toMembers ms))).Json := by
    intro ms h1 h2
    simp only [Value.Json, Value.Wf]
    refine ⟨sortMembers_sorted (by rw [toMembers_length]; exact h1 hk), ?_⟩
    rw [wfMembers_iff] at h2 ⊢
    exact fun m hm => h2 m ((sortMembers_perm _).mem_iff.1 hm)
  refine Val.rec (D := D) (motive_1 := fun _ j _ => j.toValue.Json) (motive_2 := fun _ js _ => Value.WfAll Number False (Doc.toValues js))
    (motive_3 := fun _ ms _ => Value.WfMembers Number False (Doc.toMembers ms)) ?_ ?_ ?_ ?_ ?_ ?_ ?_ ?_ ?_ ?_ ?_ ?_ ?_ ?_ ?_ h
  · simp [Doc.toValue, Value.Json, Value.Wf]
  · simp [Doc.toValue, Value.Json, Value.Wf]
  · simp [Doc.toValue, Value.Json, Value.Wf]
  · intro t h; simpa [Doc.toValue, Value.Json, Value.Wf] using h
  · intro t s h; simp [Doc.toValue, Value.Json, Value.Wf]
  · intro w h; simp [Doc.toValue, Doc.toValues, Value.Json, Value.Wf, Value.WfAll]
  · intro t js _ ih; simpa [Doc.toValue, Value.Json, Value.Wf] using ih
  · intro w h; simp only [Doc.toValue]; exact sorted [] (by simp) (by simp [Doc.toMembers, Value.WfMembers])
  · intro t ms h hd ih; simp only [Doc.toValue]; exact sorted ms hd ih
  · intro w₁ t j w₂ _ _ _ ih; simpa [Doc.toValues, Value.WfAll] using ih
  · intro w₁ t j w₂ w₃ _ _ _ _ _ ih; simpa [Doc.toValues, Value.WfAll] using ih
  · intro w₁ t j w₂ ts js _ _ _ _ ih ih'; simpa [Doc.toValues, Value.WfAll] using ⟨ih, ih'⟩
  · intro w₁ kt k w₂ w₃ t j w₄ _ _ _ _ _ _ ih; simpa [Doc.toMembers, Value.WfMembers] using ih
  · intro w₁ kt k w₂ w₃ t j w₄ w₅ _ _ _ _ _ _ _ _ ih; simpa [Doc.toMembers, Value.WfMembers] using ih
  · intro w₁ kt k w₂ w₃ t j w₄ ts ms _ _ _ _ _ _ _ ih ih'; simpa [Doc.toMembers, Value.WfMembers] using ⟨ih, ih'⟩

theorem toValue_container (j : Doc) : j.isContainer = true ↔ j.toValue.IsContainer := by
  cases j with
  | bool b => cases b <;> simp [Doc.isContainer, Value.IsContainer, Doc.toValue, Value.type]
  | _ => simp [Doc.isContainer, Value.IsContainer, Doc.toValue, Value.type]

theorem lexical_lenient (k l : Bool) : Lexical k (lenient k l) := ⟨fun _ h => h, fun _ _ h => lenientStr_true h⟩

theorem lexical_rfc (k : Bool) : Lexical k rfc8259 := ⟨fun _ h => ws_wsOf k h, fun _ _ h => str_lenient h⟩

/-- A proper prefix of a document is not a document. -/
theorem truncated_not_read {k l : Bool} {t p x : Text} {j j' : Doc} (h : Val rfc8259 t j) (hj : j.isContainer = true) (e : t = p ++ x)
    (hx : x ≠ []) : ¬ Reads k l p j' := by
  rintro ⟨t', r, ⟨hj', w₁, b, w₂, hw₁, hb, hw₂, rfl⟩, -, rfl⟩
  have h' : Val (lenient k l) t j :=
    val_mono (D := rfc8259) (D' := lenient k l) (fun _ h => ws_wsOf k h) (by simp [rfc8259]) (fun h => h) h fun _ _ _ h => str_lenient h
  have hL := lexical_lenient k l
  obtain ⟨c, y, rfl, hc⟩ : ∃ c y, t = c :: y ∧ (c = 0x5b ∨ c = 0x7b) := by
    cases h <;> first | (simp [Doc.isContainer] at hj; done) | exact ⟨_, _, rfl, by simp⟩
  obtain ⟨c₁, y₁, rfl, hc₁⟩ := val_sig hL hb
  have hsig : Sig c := by rcases hc with rfl | rfl <;> (unfold Sig WsChar; decide)
  obtain ⟨rfl, rfl, e1⟩ := ws_det (w := []) (x := y) (x' := y₁ ++ (w₂ ++ r) ++ x) (wsOf_nil k) hw₁ hsig hc₁.1 (by simpa using e)
  obtain ⟨e2, -⟩ := val_det hL h' _ _ [] (w₂ ++ r ++ x) hb (by rw [e1]; simp) (.inl hj) (.inl hj')
  simp only [List.cons.injEq, true_and] at e2
  rw [e2] at e1
  simp at e1
  exact hx e1.2.2

end Meojson
