import Verif.Spec.Convert
import Verif.Proofs.Integer

/-! # Proofs: enum names -/

set_option autoImplicit false

namespace Meojson
open Spec

theorem isLetter_iff (c : UInt8) : isLetter c = true ↔ Letter c := by
  simp [isLetter, Letter, or_assoc]

theorem isDigit_range (c : UInt8) : isDigit c = true ↔ 0x30 ≤ c ∧ c ≤ 0x39 := by
  simp [isDigit]

theorem isValidName_iff (s : Bytes) : isValidName s = true ↔ Identifier s := by
  cases s with
  | nil => simp [isValidName, Identifier]
  | cons c t =>
    simp only [isValidName, Bool.and_eq_true, isLetter_iff, List.all_eq_true, Bool.or_eq_true, isDigit_range]
    constructor
    · rintro ⟨h1, h2⟩; exact ⟨c, t, rfl, h1, h2⟩
    · rintro ⟨c', t', h, h1, h2⟩
      cases h
      exact ⟨h1, h2⟩

theorem lowerByte_toNat (c : UInt8) : (lowerByte c).toNat = if 0x41 ≤ c.toNat ∧ c.toNat ≤ 0x5a then c.toNat + 32 else c.toNat := by
  unfold lowerByte
  have h1 : (0x41 ≤ c && c ≤ 0x5a) = true ↔ 0x41 ≤ c.toNat ∧ c.toNat ≤ 0x5a := by
    simp [UInt8.le_iff_toNat_le]
  by_cases h : 0x41 ≤ c.toNat ∧ c.toNat ≤ 0x5a
  · rw [if_pos (h1.2 h), if_pos h, UInt8.toNat_add]
    have : (32 : UInt8).toNat = 32 := rfl
    omega
  · rw [if_neg (fun x => h (h1.1 x)), if_neg h]

theorem lowerByte_eq (a b : UInt8) : lowerByte a = lowerByte b ↔ SameLetter a b := by
  rw [← UInt8.toNat_inj, lowerByte_toNat, lowerByte_toNat]
  unfold SameLetter
  rw [← UInt8.toNat_inj]
  split <;> split <;> omega

theorem iequalsLoop_iff {a b : Bytes} (h : a.length = b.length) : iequalsLoop a b = true ↔ SameName a b := by
  induction a generalizing b with
  | nil =>
    cases b with
    | nil => exact ⟨fun _ => .nil, fun _ => rfl⟩
    | cons => simp at h
  | cons x a ih =>
    cases b with
    | nil => simp at h
    | cons y b =>
      have h' : a.length = b.length := by simpa using h
      unfold iequalsLoop
      by_cases hxy : lowerByte x = lowerByte y
      · simp only [hxy, ne_eq, not_true_eq_false, if_false, ih h']
        exact ⟨fun h => .cons ((lowerByte_eq x y).1 hxy) h, fun h => by cases h; assumption⟩
      · simp only [hxy, ne_eq, not_false_eq_true, if_true]
        constructor
        · intro h; cases h
        · intro h
          cases h with
          | cons h1 _ => exact absurd ((lowerByte_eq x y).2 h1) hxy

theorem SameName.length {a b : Bytes} (h : SameName a b) : a.length = b.length := by
  induction h with
  | nil => rfl
  | cons _ _ ih => simp [ih]

theorem iequals_iff (a b : Bytes) : iequals a b = true ↔ SameName a b := by
  unfold iequals
  by_cases h : a.length = b.length
  · simp [h, iequalsLoop_iff h]
  · simp only [ne_eq, h, not_false_eq_true, if_true]
    exact ⟨fun h => by simp at h, fun h' => absurd h'.length h⟩

theorem SameLetter.refl (a : UInt8) : SameLetter a a := .inl rfl
theorem SameLetter.symm {a b : UInt8} (h : SameLetter a b) : SameLetter b a := by
  rw [← lowerByte_eq] at *; exact h.symm
theorem SameLetter.trans {a b c : UInt8} (h : SameLetter a b) (h' : SameLetter b c) : SameLetter a c := by
  rw [← lowerByte_eq] at *; exact h.trans h'

theorem SameName.refl : ∀ a : Bytes, SameName a a
  | [] => .nil
  | x :: a => .cons (.refl x) (SameName.refl a)
theorem SameName.symm {a b : Bytes} (h : SameName a b) : SameName b a := by
  induction h with
  | nil => exact .nil
  | cons h _ ih => exact .cons h.symm ih
theorem SameName.trans {a b c : Bytes} (h : SameName a b) (h' : SameName b c) : SameName a c := by
  induction h generalizing c with
  | nil => cases h'; exact .nil
  | cons h _ ih =>
    cases h' with
    | cons h2 h3 => exact .cons (h.trans h2) (ih h3)

theorem identifier_ne {s : Bytes} (h : Identifier s) : s ≠ [] := by
  rintro rfl
  obtain ⟨_, _, h, _⟩ := h
  simp at h

namespace EnumTy

theorem names_eq (E : EnumTy) (i : Int) : E.names i ≠ [] ↔ Identifier (E.text (E.under.cast (i + E.min))) := by
  unfold names
  rw [← isValidName_iff]
  cases h : isValidName (E.text (E.under.cast (i + E.min))) with
  | false => simp [h]
  | true =>
    simp only [h, if_true]
    constructor
    · intro; trivial
    · intro _ h'; rw [h'] at h; simp [isValidName] at h

theorem names_of {E : EnumTy} {i : Int} (h : Identifier (E.text (E.under.cast (i + E.min)))) : E.names i = E.text (E.under.cast (i + E.min)) := by
  unfold names
  rw [if_pos ((isValidName_iff _).2 h)]

theorem ofString_some {E : EnumTy} {s : Bytes} {e : Int} (h : E.ofString s = some e) : ∃ n, E.Named e n ∧ SameName n s := by
  unfold ofString at h
  rw [Option.map_eq_some_iff] at h
  obtain ⟨i, hi, rfl⟩ := h
  have h1 := List.find?_some hi
  have h2 := List.mem_of_find?_eq_some hi
  rw [List.mem_range] at h2
  simp only [Bool.and_eq_true, decide_eq_true_eq, iequals_iff, names_eq] at h1
  obtain ⟨h3, h4⟩ := h1
  rw [names_of h3] at h4
  exact ⟨_, ⟨⟨(i : Int) + E.min, by omega, by unfold range at h2; omega, rfl⟩, rfl, h3⟩, h4⟩

theorem ofString_none {E : EnumTy} {s : Bytes} : E.ofString s = none ↔ ∀ e n, E.Named e n → ¬ SameName n s := by
  constructor
  · rintro h e n ⟨⟨k, h1, h2, rfl⟩, rfl, h3⟩ h4
    unfold ofString at h
    simp only [Option.map_eq_none_iff, List.find?_eq_none, List.mem_range] at h
    have := h (k - E.min).toNat (by unfold range; omega)
    have e1 : ((k - E.min).toNat : Int) = k - E.min := by omega
    rw [e1] at this
    have e2 : k - E.min + E.min = k := by omega
    have h5 : Identifier (E.text (E.under.cast (k - E.min + E.min))) := by rw [e2]; exact h3
    simp only [Bool.and_eq_true, decide_eq_true_eq, iequals_iff, names_of h5] at this
    rw [e2] at this
    exact this ⟨identifier_ne h3, h4⟩
  · intro h
    cases h' : E.ofString s with
    | none => rfl
    | some e =>
      obtain ⟨n, h1, h2⟩ := ofString_some h'
      exact absurd h2 (h e n h1)

theorem wrap_of_has {n : Int} (h : cInt.Has n) : cInt.wrap n = n := by
  unfold IntTy.Has IntTy.min IntTy.max cInt at h
  unfold IntTy.wrap cInt
  simp only [if_true] at h
  simp only [true_and]
  have e1 : ((2 ^ 32 : Nat) : Int) = 4294967296 := by decide
  have e2 : ((2 ^ (32 - 1) : Nat) : Int) = 2147483648 := by decide
  rw [e2] at h
  rw [e1, e2]
  split <;> omega

theorem cInt_has {n : Int} : cInt.Has n ↔ -2147483648 ≤ n ∧ n ≤ 2147483647 := by
  unfold IntTy.Has IntTy.min IntTy.max cInt
  have e2 : ((2 ^ (32 - 1) : Nat) : Int) = 2147483648 := by decide
  simp only [if_true, e2]
  omega

/-- In range: the name of the enumerator. -/
theorem toString_in {E : EnumTy} (hE : E.Compiles) {e : Int} (h1 : E.min ≤ e) (h2 : e ≤ E.max) (h3 : E.under.cast e = e) (h4 : Identifier (E.text e)) :
    E.toString e = .ok (E.text e) := by
  obtain ⟨a, b, c, d⟩ := hE
  rw [cInt_has] at a b d
  have hw : cInt.wrap e = e := wrap_of_has (by rw [cInt_has]; omega)
  have e2 : e - E.min + E.min = e := by omega
  unfold toString
  simp only [hw]
  rw [if_neg (by rw [cInt_has]; omega), if_pos (by unfold range; omega)]
  have h5 : Identifier (E.text (E.under.cast (e - E.min + E.min))) := by rw [e2, h3]; exact h4
  rw [names_of h5, e2, h3]

/-- Out of range, and no overflow: no name. -/
theorem toString_out {E : EnumTy} {e : Int} (he : cInt.Has e) (hs : cInt.Has (e - E.min)) (h : e < E.min ∨ E.max < e) : E.toString e = .ok [] := by
  unfold toString
  simp only [wrap_of_has he]
  rw [if_neg (by simpa using hs), if_neg (by unfold range; omega)]

end EnumTy

/-- A faithful enumerator survives. -/
theorem enum_round {E : EnumTy} {e : Int} (hu : E.under.Has e) (h : E.Faithful e) :
    ∃ v, Value.ofEnum E e = .ok v ∧ v.isEnum E = .ok true ∧ v.asEnum E = .ok e ∧
      ((∃ s, v = .str .string s) ∨ (∃ n, v = .ofInt n)) := by
  unfold EnumTy.Faithful at h
  unfold Value.ofEnum
  split at h
  · rename_i hn
    cases hE : E.under with
    | bool => exact absurd hE h
    | int T =>
      rw [hE] at hu
      replace hu : T.Has e := hu
      have := tryParseInteger_intText (T := T) (n := e)
      rw [if_pos hu] at this
      refine ⟨.ofInt e, by simp [hn], ?_, ?_, .inr ⟨_, rfl⟩⟩
      · simp [Value.isEnum, Value.isInt, Value.ofInt, Value.type, hE, this]
      · simp [Value.asEnum, Value.asInt, Value.ofInt, Value.type, hE, this, Value.basicStr]
  · rename_i hn
    obtain ⟨h0, h1, h2, h3, h4, h5⟩ := h
    have hs := EnumTy.toString_in h0 h1 h2 h3 h4
    have ho : E.ofString (E.text e) = some e := by
      cases ho : E.ofString (E.text e) with
      | none => exact absurd (SameName.refl _) (EnumTy.ofString_none.1 ho e _ ⟨⟨e, h1, h2, h3⟩, rfl, h4⟩)
      | some e' =>
        obtain ⟨n, h6, h7⟩ := EnumTy.ofString_some ho
        rw [h5 e' n h6 h7]
    refine ⟨.str .string (E.text e), by simp [hn, hs, identifier_ne h4], ?_, ?_, .inl ⟨_, rfl⟩⟩
    · simp [Value.isEnum, Value.type, Value.asString, Value.basicStr, Out.noexcept, ho]
    · simp [Value.asEnum, Value.type, Value.asString, Value.basicStr, ho]

end Meojson
