import Verif.Model.Access
import Verif.Spec.Integer
import Verif.Proofs.Num

/-! Lemmas about decimal texts. -/

set_option autoImplicit false

namespace Meojson
open Spec

theorem digit_ofNat {n : Nat} (h : n < 10) : Digit (UInt8.ofNat (48 + n)) ∧ (UInt8.ofNat (48 + n)).toNat = 48 + n := by
  have : (UInt8.ofNat (48 + n)).toNat = 48 + n := by simp [UInt8.toNat_ofNat']; omega
  refine ⟨?_, this⟩
  unfold Digit
  rw [UInt8.le_iff_toNat_le, UInt8.le_iff_toNat_le, this]
  simp
  omega

theorem digit_toNat {c : UInt8} (h : Digit c) : 48 ≤ c.toNat ∧ c.toNat ≤ 57 := by
  unfold Digit at h
  rw [UInt8.le_iff_toNat_le, UInt8.le_iff_toNat_le] at h
  simpa using h

theorem natTextF_spec {fuel n : Nat} (h : n < fuel) :
    Digits (natTextF fuel n) ∧ decimal (natTextF fuel n) = n ∧ (n ≠ 0 → (natTextF fuel n).head? ≠ some 0x30) := by
  induction fuel generalizing n with
  | zero => omega
  | succ fuel ih =>
    unfold natTextF
    split
    · rename_i hn
      obtain ⟨h1, h2⟩ := digit_ofNat hn
      refine ⟨⟨by simp, by simpa using h1⟩, by simp only [decimal, List.foldl_cons, List.foldl_nil, h2]; omega, ?_⟩
      intro h0 he
      simp only [List.head?_cons, Option.some.injEq] at he
      rw [he] at h2
      simp at h2
      omega
    · rename_i hn
      obtain ⟨⟨h1, h1'⟩, h2, h3⟩ := ih (n := n / 10) (by omega)
      obtain ⟨h4, h5⟩ := digit_ofNat (n := n % 10) (by omega)
      refine ⟨⟨by simp, ?_⟩, ?_, ?_⟩
      · intro c hc
        rcases List.mem_append.1 hc with hc | hc
        · exact h1' c hc
        · rw [List.mem_singleton] at hc; rw [hc]; exact h4
      · unfold decimal at *
        rw [List.foldl_append, h2]
        simp only [List.foldl_cons, List.foldl_nil, h5]
        omega
      · intro _ he
        cases ht : natTextF fuel (n / 10) with
        | nil => exact h1 ht
        | cons c l => rw [ht] at he h3; exact h3 (by omega) (by simpa using he)

theorem natText_intPart (n : Nat) : IntPart (natText n) ∧ decimal (natText n) = n := by
  obtain ⟨h1, h2, h3⟩ := natTextF_spec (fuel := n + 1) (n := n) (by omega)
  refine ⟨?_, h2⟩
  by_cases h : n = 0
  · subst h; exact .inl (by decide)
  · exact .inr ⟨h1, h3 h⟩

theorem intText_intLit (n : Int) : IntLit (intText n) n := by
  unfold intText
  obtain ⟨h1, h2⟩ := natText_intPart n.natAbs
  split
  · exact .inr ⟨_, rfl, h1, by rw [h2]; omega⟩
  · exact .inl ⟨h1, by rw [h2]; omega⟩

theorem Spec.IntPart.digits {t : Text} (h : IntPart t) : Digits t := by
  rcases h with h | h
  · subst h; exact ⟨by simp, by simp; unfold Digit; decide⟩
  · exact h.1

theorem Spec.IntLit.number {t : Text} {n : Int} (h : IntLit t n) : Number t := by
  rcases h with ⟨h, _⟩ | ⟨ds, rfl, h, _⟩
  · exact ⟨[], t, [], [], .inl rfl, h, .inl rfl, .inl rfl, by simp⟩
  · exact ⟨[0x2d], ds, [], [], .inr rfl, h, .inl rfl, .inl rfl, by simp⟩

theorem not_digit_minus : ¬ Digit 0x2d := by unfold Digit; decide

theorem Spec.IntLit.unique {t : Text} {n m : Int} (h : IntLit t n) (h' : IntLit t m) : n = m := by
  rcases h with ⟨h, rfl⟩ | ⟨ds, rfl, h, rfl⟩ <;> rcases h' with ⟨h', rfl⟩ | ⟨ds', he, h', rfl⟩
  · rfl
  · subst he; exact absurd (h.digits.2 0x2d (by simp)) not_digit_minus
  · exact absurd (h'.digits.2 0x2d (by simp)) not_digit_minus
  · simp at he; rw [he]

theorem scanDigits_digits {ds : Bytes} (h : ∀ c ∈ ds, Digit c) (acc : Nat) :
    scanDigits acc ds = (ds.foldl (fun a c => 10 * a + (c.toNat - 48)) acc, []) := by
  induction ds generalizing acc with
  | nil => rfl
  | cons c ds ih =>
    unfold scanDigits
    rw [(isDigit_iff c).2 (h c (by simp))]
    simp only [if_true, List.foldl_cons]
    exact ih (fun c hc => h c (by simp [hc])) _

theorem scanDigits_nil {s : Bytes} {acc n : Nat} (h : scanDigits acc s = (n, [])) : ∀ c ∈ s, Digit c := by
  induction s generalizing acc with
  | nil => simp
  | cons c s ih =>
    unfold scanDigits at h
    split at h
    · rename_i hc
      intro d hd
      rcases List.mem_cons.1 hd with rfl | hd
      · exact (isDigit_iff _).1 hc
      · exact ih h d hd
    · simp at h

theorem minus_ne_of_digits {ds : Bytes} (h : Digits ds) : (ds.head? == some 0x2d) = false := by
  obtain ⟨hne, hd⟩ := h
  cases ds with
  | nil => simp
  | cons c ds =>
    have := hd c (by simp)
    simp
    rintro rfl
    exact not_digit_minus this

/-- `from_chars` up to the end of the text, in terms of runs of digits. -/
theorem tryParseInteger_eq (T : IntTy) (s : Bytes) (n : Int) : tryParseInteger T s = some n ↔
    T.Has n ∧ ((Digits s ∧ n = decimal s) ∨ (T.signed = true ∧ ∃ ds, s = 0x2d :: ds ∧ Digits ds ∧ n = -(decimal ds : Int))) := by
  have body : ∀ (neg : Bool) (ds : Bytes), ((fromCharsDigits T neg ds).bind fun r => if r.2 = [] then some r.1 else none) = some n ↔
      T.Has n ∧ Digits ds ∧ n = applySign neg (decimal ds) := by
    intro neg ds
    unfold fromCharsDigits
    constructor
    · intro h
      rw [Option.bind_eq_some_iff] at h
      obtain ⟨r, he, h⟩ := h
      split at he
      · rename_i hc
        simp only at he
        split at he
        · rename_i hr
          split at h
          · rename_i hnil
            simp only [Option.some.injEq] at he h
            subst he
            have hd := scanDigits_nil (n := (scanDigits 0 ds).1) (Prod.ext rfl hnil)
            have hne : ds ≠ [] := by rintro rfl; simp at hc
            rw [scanDigits_digits hd] at hr h
            refine ⟨?_, ⟨hne, hd⟩, h.symm⟩
            rw [← h]; exact hr
          · simp at h
        · simp at he
      · simp at he
    · rintro ⟨hT, ⟨hne, hd⟩, rfl⟩
      cases ds with
      | nil => exact absurd rfl hne
      | cons c ds =>
        have hc := (isDigit_iff c).2 (hd c (by simp))
        have hs := scanDigits_digits hd 0
        change scanDigits 0 (c :: ds) = (decimal (c :: ds), []) at hs
        simp only [List.head?_cons, Option.map_some, hc, if_true, hs]
        rw [if_pos hT]
        simp
  unfold tryParseInteger fromChars
  by_cases hneg : (T.signed && s.head? == some 0x2d) = true
  · rw [if_pos hneg, body true s.tail]
    simp only [Bool.and_eq_true, beq_iff_eq] at hneg
    cases s with
    | nil => simp at hneg
    | cons c ds =>
      simp at hneg
      obtain ⟨hs, rfl⟩ := hneg
      constructor
      · rintro ⟨h1, h2, h3⟩; exact ⟨h1, .inr ⟨hs, ds, rfl, h2, h3⟩⟩
      · rintro ⟨h1, h2 | ⟨_, ds', he, h2, h3⟩⟩
        · exact absurd (h2.1.2 _ (by simp)) not_digit_minus
        · simp at he; subst he; exact ⟨h1, h2, h3⟩
  · rw [if_neg hneg, body false s]
    constructor
    · rintro ⟨h1, h2, h3⟩; exact ⟨h1, .inl ⟨h2, h3⟩⟩
    · rintro ⟨h1, h2 | ⟨hs, ds, rfl, h2, h3⟩⟩
      · exact ⟨h1, h2⟩
      · simp [hs] at hneg

/-- A run of digits that is a JSON number is an integer part. -/
theorem intPart_of_number {ds : Text} (hn : Number ds) (hd : Digits ds) : IntPart ds := by
  obtain ⟨sign, i, f, e, hs, hi, hf, he, rfl⟩ := hn
  have hsign : sign = [] := by
    rcases hs with rfl | rfl
    · rfl
    · exact absurd (hd.2 0x2d (by simp)) not_digit_minus
  have hf' : f = [] := by
    rcases hf with rfl | ⟨x, _, rfl⟩
    · rfl
    · exact absurd (hd.2 0x2e (by simp)) (by unfold Digit; decide)
  have he' : e = [] := by
    rcases he with rfl | ⟨c, s, x, hc, _, _, rfl⟩
    · rfl
    · have := hd.2 c (by simp)
      rcases hc with rfl | rfl <;> exact absurd this (by unfold Digit; decide)
  subst hsign hf' he'
  simpa using hi

theorem number_minus {ds : Text} (hn : Number (0x2d :: ds)) : Number ds := by
  obtain ⟨sign, i, f, e, hs, hi, hf, he, h⟩ := hn
  rcases hs with rfl | rfl
  · exfalso
    have := hi.digits
    cases i with
    | nil => exact this.1 rfl
    | cons c i => simp at h; rw [← h.1] at this; exact not_digit_minus (this.2 _ (by simp))
  · exact ⟨[], i, f, e, .inl rfl, hi, hf, he, by simpa using h⟩

/-- What `try_parse_integer` accepts among JSON numbers. -/
theorem tryParseInteger_number {T : IntTy} {s : Bytes} (hs : Number s) (h0 : T.signed = true ∨ s ≠ [0x2d, 0x30]) (n : Int) :
    tryParseInteger T s = some n ↔ IntLit s n ∧ T.Has n := by
  rw [tryParseInteger_eq]
  constructor
  · rintro ⟨h1, ⟨h2, h3⟩ | ⟨h2, ds, rfl, h3, h4⟩⟩
    · exact ⟨.inl ⟨intPart_of_number hs h2, h3⟩, h1⟩
    · exact ⟨.inr ⟨ds, rfl, intPart_of_number (number_minus hs) h3, h4⟩, h1⟩
  · rintro ⟨⟨h1, h2⟩ | ⟨ds, rfl, h1, h2⟩, h3⟩
    · exact ⟨h3, .inl ⟨h1.digits, h2⟩⟩
    · refine ⟨h3, .inr ⟨?_, ds, rfl, h1.digits, h2⟩⟩
      rcases h0 with h0 | h0
      · exact h0
      · cases hT : T.signed with
        | true => rfl
        | false =>
          exfalso
          unfold IntTy.Has IntTy.min at h3
          simp only [hT] at h3
          have hz : decimal ds = 0 := by
            have := h3.1
            simp at this
            omega
          rcases h1 with rfl | ⟨⟨hne, hd⟩, hh⟩
          · exact h0 rfl
          · cases ds with
            | nil => exact hne rfl
            | cons c ds =>
              have hc := digit_toNat (hd c (by simp))
              have h48 : c.toNat ≠ 48 := by
                intro h
                apply hh
                simp
                exact UInt8.toNat_inj.1 h
              have : ∀ (l : Bytes) (a : Nat), a ≤ l.foldl (fun a c => 10 * a + (c.toNat - 48)) a := by
                intro l
                induction l with
                | nil => simp
                | cons d l ih => intro a; simp only [List.foldl_cons]; exact Nat.le_trans (by omega) (ih _)
              have := this ds (10 * 0 + (c.toNat - 48))
              unfold decimal at hz
              simp only [List.foldl_cons] at hz
              omega

theorem tryParseInteger_minus_zero {T : IntTy} (h : T.signed = false) : tryParseInteger T [0x2d, 0x30] = none := by
  cases hr : tryParseInteger T [0x2d, 0x30] with
  | none => rfl
  | some n =>
    rw [tryParseInteger_eq, h] at hr
    rcases hr.2 with ⟨h2, _⟩ | ⟨h2, _⟩
    · exact absurd (h2.2 0x2d (by simp)) not_digit_minus
    · simp at h2

theorem tryParseInteger_intText {T : IntTy} {n : Int} : tryParseInteger T (intText n) = if T.Has n then some n else none := by
  have hlit := intText_intLit n
  have h0 : intText n ≠ [0x2d, 0x30] := by
    intro h
    rw [h] at hlit
    have : IntLit [0x2d, 0x30] 0 := .inr ⟨[0x30], rfl, .inl rfl, by decide⟩
    have := hlit.unique this
    subst this
    exact absurd h (by decide)
  have key := fun m => tryParseInteger_number (T := T) hlit.number (.inr h0) m
  split
  · rename_i h; exact (key n).2 ⟨hlit, h⟩
  · rename_i h
    cases hr : tryParseInteger T (intText n) with
    | none => rfl
    | some m =>
      obtain ⟨h1, h2⟩ := (key m).1 hr
      rw [h1.unique hlit] at h2
      exact absurd h2 h

end Meojson
