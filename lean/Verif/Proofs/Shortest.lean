import Verif.Proofs.Dump
import Verif.Proofs.Utf8Text
import Verif.Proofs.Work
import Verif.Proofs.Values
import Verif.Spec.Lenient

/-!
# Lemmas: no text of a value is shorter than its compact form
-/

set_option autoImplicit false

namespace Meojson
open Spec

/-! ### Characters -/

theorem escape_append (s t : Bytes) : escapeString (s ++ t) = escapeString s ++ escapeString t := by simp only [escapeString_eq, List.flatMap_append]

theorem escape_one (c : UInt8) : escapeString [c] = escByte c := by rw [escapeString_eq]; simp

theorem escByte_one {c : UInt8} : Unescaped c → (escByte c).length = 1 := by
  revert c
  have : ∀ c : UInt8, (0x20 ≤ c ∧ c ≠ 0x22 ∧ c ≠ 0x5c) → (escByte c).length = 1 := by apply uint8_forall; decide +kernel
  exact fun {c} h => this c h

theorem escape_high {s : Bytes} (h : ∀ c ∈ s, (0x80 : UInt8) ≤ c) : (escapeString s).length = s.length := by
  induction s with
  | nil => simp [escapeString_eq]
  | cons c s ih =>
    have hc : (escByte c).length = 1 := by
      refine escByte_one ?_
      have : ∀ c : UInt8, 0x80 ≤ c → Unescaped c := by
        unfold Unescaped
        apply uint8_forall; decide +kernel
      exact this c (h c (by simp))
    have := ih fun d hd => h d (by simp [hd])
    rw [escapeString_eq] at this ⊢
    simp only [List.flatMap_cons, List.length_append, hc, this, List.length_cons]
    omega

/-- A code point takes at most six bytes, escaped or not. -/
theorem escape_utf8 (u : Nat) : (escapeString (utf8 u)).length ≤ 6 := by
  obtain ⟨x, r, h, hx, hr, hl⟩ := encode_form (Char.ofNat u)
  unfold utf8
  rw [h]
  by_cases hlow : x < 0x80
  · have : followers x = 0 := by
      have : ∀ x : UInt8, x < 0x80 → followers x = 0 := by apply uint8_forall; decide +kernel
      exact this x hlow
    have hr0 : r = [] := List.eq_nil_of_length_eq_zero (hl.trans this)
    subst hr0
    have := (Work.length_escape [x]).2
    simpa using this
  · have h80 : ∀ c ∈ x :: r, (0x80 : UInt8) ≤ c := by
      intro c hc
      rcases List.mem_cons.1 hc with rfl | hc
      · exact UInt8.not_lt.1 hlow
      · exact (hr c hc).1
    rw [escape_high h80]
    have : ∀ x : UInt8, followers x ≤ 3 := by apply uint8_forall; decide +kernel
    have := this x
    simp only [List.length_cons]
    omega

theorem hex4_length {h : Text} {u : Nat} (hh : Hex4 h u) : h.length = 4 := by
  obtain ⟨a, b, c, d, x, y, z, w, rfl, -⟩ := hh
  rfl

theorem mid_length {l : Bool} {t s : Text} (h : Mid l t s) : (escapeString s).length ≤ t.length := by
  induction h with
  | nil => simp [escapeString_eq]
  | @unicode h u t s hh _ _ _ ih =>
    have := escape_utf8 u
    have := hex4_length hh
    simp only [escape_append, List.length_append, List.length_cons]
    omega
  | @plain c t s hl hc hm ih =>
    have e : c :: s = [c] ++ s := rfl
    rw [e, escape_append, escape_one, List.length_append, escByte_one hc, List.length_cons]
    omega

theorem char_length {l : Bool} {t s : Text} (h : LenientChar l t s) : (escapeString s).length ≤ t.length := by
  cases h with
  | plain hc => rw [escape_one, escByte_one hc]; simp
  | simple h => rw [escape_one]; cases h <;> decide +kernel
  | @unicode h u hh _ _ =>
    have := escape_utf8 u
    have := hex4_length hh
    simp only [List.length_cons]
    omega
  | @pair h₁ u₁ m ms h₂ u₂ cp hh₁ hh₂ _ _ hm _ =>
    have := escape_utf8 cp
    have := hex4_length hh₁
    have := hex4_length hh₂
    have := mid_length hm
    simp only [escape_append, List.length_append, List.length_cons]
    omega

theorem chars_length {l : Bool} {t s : Text} (h : LenientChars l t s) : (escapeString s).length ≤ t.length := by
  induction h with
  | nil => simp [escapeString_eq]
  | cons h _ ih =>
    have := char_length h
    simp only [escape_append, List.length_append]
    omega

theorem str_length {l : Bool} {t s : Text} (h : LenientStr l t s) : (escapeString s).length + 2 ≤ t.length := by
  obtain ⟨body, h, rfl⟩ := h
  have := chars_length h
  simp only [List.length_cons, List.length_append, List.length_nil]
  omega

/-! ### Values -/

namespace Value

mutual
/-- The length of the compact form, where there is one; each part of a container followed by a separator. -/
def len : Value → Nat
  | .str .null _ => 4
  | .str .string s => (escapeString s).length + 2
  | .str _ s => s.length
  | .arr _ vs => max 2 (lenAll vs + 1)
  | .obj _ ms => max 2 (lenMembers ms + 1)
  | _ => 0
def lenAll : List Value → Nat
  | [] => 0
  | v :: vs => len v + 1 + lenAll vs
def lenMembers : List (Bytes × Value) → Nat
  | [] => 0
  | (k, v) :: ms => (escapeString k).length + 3 + len v + 1 + lenMembers ms
end

theorem lenMembers_perm {ms ns : List (Bytes × Value)} (h : ms.Perm ns) : lenMembers ms = lenMembers ns := by
  induction h with
  | nil => rfl
  | cons m _ ih => obtain ⟨k, v⟩ := m; simp only [lenMembers, ih]
  | swap m n l => obtain ⟨k, v⟩ := m; obtain ⟨k', v'⟩ := n; simp only [lenMembers]; omega
  | trans _ _ h1 h2 => exact h1.trans h2

mutual
theorem dump_len : ∀ (v : Value) (t : Bytes), v.Json → v.dumpTo = .ok t → t.length = v.len
  | .str ty s, t, h, e => by
    cases ty <;> simp only [dumpTo, Out.ok.injEq, reduceCtorEq] at e <;> first
      | (subst e; simp [len])
      | exact absurd h id
  | .arr ty vs, t, h, e => by
    cases ty with
    | array =>
      simp only [Json, Wf] at h
      simp only [dumpTo] at e
      cases h1 : dumpElems vs with
      | ok x =>
        rw [h1] at e
        simp only [Out.bind_ok, Out.ok.injEq] at e
        have := dumpElems_len vs x h h1
        subst e
        simp only [len, List.length_append, List.length_cons, List.length_nil]
        cases vs with
        | nil => simp only [List.isEmpty_nil, if_true] at this; simp only [lenAll] at this ⊢; omega
        | cons v vs => simp only [List.isEmpty_cons, Bool.false_eq_true, if_false] at this; simp only [lenAll] at this ⊢; omega
      | _ => rw [h1] at e; cases e
    | _ => exact absurd h id
  | .arrNull ty, t, h, e => by cases ty <;> exact absurd h id
  | .obj ty ms, t, h, e => by
    cases ty with
    | object =>
      simp only [Json, Wf] at h
      simp only [dumpTo] at e
      cases h1 : dumpMembers ms with
      | ok x =>
        rw [h1] at e
        simp only [Out.bind_ok, Out.ok.injEq] at e
        have := dumpMembers_len ms x h.2 h1
        subst e
        simp only [len, List.length_append, List.length_cons, List.length_nil]
        cases ms with
        | nil => simp only [List.isEmpty_nil, if_true] at this; simp only [lenMembers] at this ⊢; omega
        | cons v vs => obtain ⟨k, v⟩ := v; simp only [List.isEmpty_cons, Bool.false_eq_true, if_false] at this; simp only [lenMembers] at this ⊢; omega
      | _ => rw [h1] at e; cases e
    | _ => exact absurd h id
  | .objNull ty, t, h, e => by cases ty <;> exact absurd h id
theorem dumpElems_len : ∀ (vs : List Value) (t : Bytes), WfAll Number False vs → dumpElems vs = .ok t →
    t.length + (if vs.isEmpty then 0 else 1) = lenAll vs
  | [], t, _, e => by simp only [dumpElems, Out.ok.injEq] at e; subst e; rfl
  | v :: vs, t, h, e => by
    simp only [WfAll] at h
    simp only [dumpElems] at e
    cases h1 : dumpTo v with
    | ok x =>
      cases h2 : dumpElems vs with
      | ok y =>
        rw [h1, h2] at e
        simp only [Out.bind_ok, Out.ok.injEq] at e
        have i1 := dump_len v x h.1 h1
        have i2 := dumpElems_len vs y h.2 h2
        subst e
        cases vs <;> simp_all [lenAll] <;> omega
      | _ => rw [h1, h2] at e; cases e
    | _ => rw [h1] at e; cases e
theorem dumpMembers_len : ∀ (ms : List (Bytes × Value)) (t : Bytes), WfMembers Number False ms → dumpMembers ms = .ok t →
    t.length + (if ms.isEmpty then 0 else 1) = lenMembers ms
  | [], t, _, e => by simp only [dumpMembers, Out.ok.injEq] at e; subst e; rfl
  | (k, v) :: ms, t, h, e => by
    simp only [WfMembers] at h
    simp only [dumpMembers] at e
    cases h1 : dumpTo v with
    | ok x =>
      cases h2 : dumpMembers ms with
      | ok y =>
        rw [h1, h2] at e
        simp only [Out.bind_ok, Out.ok.injEq] at e
        have i1 := dump_len v x h.1 h1
        have i2 := dumpMembers_len ms y h.2 h2
        subst e
        cases ms <;> simp_all [lenMembers] <;> omega
      | _ => rw [h1, h2] at e; cases e
    | _ => rw [h1] at e; cases e
end

mutual
/-- A value is not larger than its compact form, a leaf by at most one. -/
theorem weight_len : ∀ v : Value, v.Json → v.weight ≤ v.len + 1 ∧ (v.IsContainer → v.weight ≤ v.len)
  | .str ty s, h => by
    cases ty <;> first
      | exact absurd h id
      | (simp only [weight, len, IsContainer, type]
         have := (Work.length_escape s).1
         simp only [Json, Wf] at h
         refine ⟨?_, fun h => by simp at h⟩
         first | (subst h; simp) | omega)
  | .arr ty vs, h => by
    cases ty with
    | array =>
      simp only [Json, Wf] at h
      have := weightAll_len vs h
      simp only [weight, len]
      omega
    | _ => exact absurd h id
  | .arrNull ty, h => by cases ty <;> exact absurd h id
  | .obj ty ms, h => by
    cases ty with
    | object =>
      simp only [Json, Wf] at h
      have := weightMembers_len ms h.2
      simp only [weight, len]
      omega
    | _ => exact absurd h id
  | .objNull ty, h => by cases ty <;> exact absurd h id
theorem weightAll_len : ∀ vs : List Value, WfAll Number False vs → weightAll vs ≤ lenAll vs
  | [], _ => by simp [weightAll]
  | v :: vs, h => by
    simp only [WfAll] at h
    have := (weight_len v h.1).1
    have := weightAll_len vs h.2
    simp only [weightAll, lenAll]
    omega
theorem weightMembers_len : ∀ ms : List (Bytes × Value), WfMembers Number False ms → weightMembers ms ≤ lenMembers ms
  | [], _ => by simp [weightMembers]
  | (k, v) :: ms, h => by
    simp only [WfMembers] at h
    have := (weight_len v h.1).1
    have := weightMembers_len ms h.2
    have := (Work.length_escape k).1
    simp only [weightMembers, lenMembers]
    omega
end

end Value

open Value in
/-- A text of a document is at least as long as the compact form of its value. -/
theorem val_len {k l : Bool} {t : Text} {j : Doc} (h : Val (lenient k l) t j) : j.toValue.len ≤ t.length := by
  refine Val.rec (D := lenient k l) (motive_1 := fun t j _ => j.toValue.len ≤ t.length)
    (motive_2 := fun t js _ => lenAll (Doc.toValues js) ≤ t.length + 1)
    (motive_3 := fun t ms _ => lenMembers (Doc.toMembers ms) ≤ t.length + 1) ?_ ?_ ?_ ?_ ?_ ?_ ?_ ?_ ?_ ?_ ?_ ?_ ?_ ?_ ?_ h
  · simp [Doc.toValue, len]
  · simp [Doc.toValue, len]
  · simp [Doc.toValue, len]
  · intro t h; simp [Doc.toValue, len]
  · intro t s h; simpa [Doc.toValue, len] using str_length h
  · intro w h; simp [Doc.toValue, Doc.toValues, len, lenAll]
  · intro t js _ ih
    simp only [Doc.toValue, len, List.length_cons, List.length_append, List.length_nil]
    omega
  · intro w h
    simp only [Doc.toValue, len, lenMembers_perm (sortMembers_perm _), Doc.toMembers, lenMembers, List.length_cons, List.length_append, List.length_nil]
    omega
  · intro t ms h hd ih
    simp only [Doc.toValue, len, lenMembers_perm (sortMembers_perm _), List.length_cons, List.length_append, List.length_nil]
    omega
  · intro w₁ t j w₂ _ hv _ ih
    simp only [Doc.toValues, lenAll, List.length_append]
    omega
  · intro w₁ t j w₂ w₃ _ _ _ _ _ ih
    simp only [Doc.toValues, lenAll, List.length_append, List.length_cons]
    omega
  · intro w₁ t j w₂ ts js _ _ _ _ ih ih'
    simp only [Doc.toValues, lenAll, List.length_append, List.length_cons]
    omega
  · intro w₁ kt k w₂ w₃ t j w₄ _ hk _ _ _ _ ih
    have := str_length hk
    simp only [Doc.toMembers, lenMembers, List.length_append, List.length_cons]
    omega
  · intro w₁ kt k w₂ w₃ t j w₄ w₅ _ _ hk _ _ _ _ _ ih
    have := str_length hk
    simp only [Doc.toMembers, lenMembers, List.length_append, List.length_cons]
    omega
  · intro w₁ kt k w₂ w₃ t j w₄ ts ms _ hk _ _ _ _ _ ih ih'
    have := str_length hk
    simp only [Doc.toMembers, lenMembers, List.length_append, List.length_cons]
    omega

end Meojson
