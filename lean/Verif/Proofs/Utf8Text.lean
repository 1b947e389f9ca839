import Verif.Spec.Utf8Text
import Verif.Proofs.ParseComplete
import Verif.Proofs.Escape

/-! Cutting UTF-8 texts at bytes that begin a character, and what the grammar makes of it. -/

set_option autoImplicit false

namespace Meojson
open Spec

/-- A byte that is no continuation byte. -/
def LeadByte (x : UInt8) : Prop := x < 0x80 ∨ 0xC0 ≤ x

/-- How many bytes follow the first byte of a character. -/
def followers (x : UInt8) : Nat := if x < 0x80 then 0 else if x < 0xE0 then 1 else if x < 0xF0 then 2 else 3

theorem encode_form (c : Char) : ∃ x r, String.utf8EncodeChar c = x :: r ∧ LeadByte x ∧ (∀ y ∈ r, 0x80 ≤ y ∧ y < 0xC0) ∧ r.length = followers x := by
  have key : ∀ m : Nat, m < 64 → (0x80 : UInt8) ≤ UInt8.ofNat (m + 128) ∧ UInt8.ofNat (m + 128) < 0xC0 := by decide
  have k0 : ∀ m : Nat, m < 128 → UInt8.ofNat m < 0x80 := by decide
  have k1 : ∀ m : Nat, m < 32 → (0xC0 : UInt8) ≤ UInt8.ofNat (m + 192) ∧ followers (UInt8.ofNat (m + 192)) = 1 := by decide
  have k2 : ∀ m : Nat, m < 16 → (0xC0 : UInt8) ≤ UInt8.ofNat (m + 224) ∧ followers (UInt8.ofNat (m + 224)) = 2 := by decide
  have k3 : ∀ m : Nat, m < 8 → (0xC0 : UInt8) ≤ UInt8.ofNat (m + 240) ∧ followers (UInt8.ofNat (m + 240)) = 3 := by decide
  unfold String.utf8EncodeChar
  simp only []
  split
  · rename_i h
    have hx := k0 _ (show c.val.toNat < 128 by omega)
    exact ⟨_, _, rfl, .inl hx, by simp, by unfold followers; rw [if_pos hx]; rfl⟩
  split
  · have hx := k1 (c.val.toNat / 64 % 32) (by omega)
    refine ⟨_, _, rfl, .inr hx.1, ?_, hx.2.symm⟩
    simp only [List.mem_cons, List.not_mem_nil, or_false, forall_eq]
    exact key _ (by omega)
  split
  · have hx := k2 (c.val.toNat / 4096 % 16) (by omega)
    refine ⟨_, _, rfl, .inr hx.1, ?_, hx.2.symm⟩
    simp only [List.mem_cons, List.not_mem_nil, or_false, forall_eq_or_imp, forall_eq]
    exact ⟨key _ (by omega), key _ (by omega)⟩
  · have hx := k3 (c.val.toNat / 262144 % 8) (by omega)
    refine ⟨_, _, rfl, .inr hx.1, ?_, hx.2.symm⟩
    simp only [List.mem_cons, List.not_mem_nil, or_false, forall_eq_or_imp, forall_eq]
    exact ⟨key _ (by omega), key _ (by omega), key _ (by omega)⟩

theorem utf8_nil : Utf8 [] := ⟨[], rfl⟩

theorem utf8_append {a b : Text} (ha : Utf8 a) (hb : Utf8 b) : Utf8 (a ++ b) := by
  obtain ⟨cs, rfl⟩ := ha
  obtain ⟨ds, rfl⟩ := hb
  exact ⟨cs ++ ds, by simp⟩

theorem utf8_utf8 (cp : Nat) : Utf8 (utf8 cp) := ⟨[Char.ofNat cp], by simp [utf8]⟩

theorem utf8_byte : ∀ {x : UInt8}, x < 0x80 → Utf8 [x] := by
  have : ∀ n : Nat, n < 128 → String.utf8EncodeChar (Char.ofNat n) = [UInt8.ofNat n] := by decide +kernel
  intro x hx
  have h := this x.toNat (UInt8.lt_iff_toNat_lt.1 hx)
  rw [UInt8.ofNat_toNat] at h
  exact ⟨[Char.ofNat x.toNat], by simp [h]⟩

theorem utf8_cons {x : UInt8} {b : Text} (hx : x < 0x80) (hb : Utf8 b) : Utf8 (x :: b) := utf8_append (utf8_byte hx) hb

theorem utf8_ascii {t : Text} (h : ∀ x ∈ t, x < 0x80) : Utf8 t := by
  induction t with
  | nil => exact utf8_nil
  | cons x t ih => exact utf8_cons (h x (by simp)) (ih fun y hy => h y (by simp [hy]))

/-- A UTF-8 text can be cut in front of a byte that begins a character. -/
theorem utf8_split {a b : Text} {x : UInt8} (h : Utf8 (a ++ x :: b)) (hx : LeadByte x) : Utf8 a ∧ Utf8 (x :: b) := by
  obtain ⟨cs, h⟩ := h
  induction cs generalizing a with
  | nil => simp at h
  | cons c cs ih =>
    obtain ⟨y, r, he, -, hr, -⟩ := encode_form c
    rw [List.flatMap_cons] at h
    rcases List.append_eq_append_iff.1 h with ⟨a', h1, h2⟩ | ⟨a', h1, h2⟩
    · cases a' with
      | nil =>
        rw [List.append_nil] at h1
        subst h1
        exact ⟨⟨[c], by simp⟩, by rw [h2]; exact ⟨cs, by simp⟩⟩
      | cons z a' =>
        obtain ⟨rfl, h2⟩ := List.cons.inj h2
        cases a with
        | nil => exact ⟨utf8_nil, ⟨c :: cs, by simpa using h⟩⟩
        | cons w a =>
          exfalso
          rw [he] at h1
          obtain ⟨-, h1⟩ := List.cons.inj h1
          have := hr x (by rw [h1]; simp)
          rcases hx with hx | hx
          · exact UInt8.not_le.2 hx this.1
          · exact UInt8.not_le.2 this.2 hx
    · obtain ⟨h3, h4⟩ := ih (a := a') h2.symm
      subst h1
      exact ⟨utf8_append ⟨[c], by simp⟩ h3, h4⟩

/-- A text at whose begin a UTF-8 text can be cut. -/
def Cut (b : Text) : Prop := b = [] ∨ ∃ x r, b = x :: r ∧ LeadByte x

theorem cut_nil : Cut [] := .inl rfl
theorem cut_cons {x : UInt8} {r : Text} (h : x < 0x80) : Cut (x :: r) := .inr ⟨x, r, rfl, .inl h⟩

theorem cut_append {a b : Text} (ha : Cut a) (hb : Cut b) : Cut (a ++ b) := by
  rcases ha with rfl | ⟨x, r, rfl, hx⟩
  · exact hb
  · exact .inr ⟨x, r ++ b, rfl, hx⟩

theorem utf8_cut {a b : Text} (h : Utf8 (a ++ b)) (hb : Cut b) : Utf8 a ∧ Utf8 b := by
  rcases hb with rfl | ⟨x, r, rfl, hx⟩
  · exact ⟨by simpa using h, utf8_nil⟩
  · exact utf8_split h hx

theorem cut_of_utf8 {b : Text} (h : Utf8 b) : Cut b := by
  obtain ⟨cs, rfl⟩ := h
  cases cs with
  | nil => exact .inl rfl
  | cons c cs =>
    obtain ⟨y, r, he, hy, -, -⟩ := encode_form c
    exact .inr ⟨y, _, by rw [List.flatMap_cons, he]; rfl, hy⟩

theorem cut_append_left {a b : Text} (h : Utf8 a) (h0 : a ≠ []) : Cut (a ++ b) := by
  rcases cut_of_utf8 h with rfl | ⟨x, r, rfl, hx⟩
  · exact absurd rfl h0
  · exact .inr ⟨x, r ++ b, rfl, hx⟩

/-- What follows a UTF-8 text in a UTF-8 text is UTF-8. -/
theorem utf8_rest {a b : Text} (ha : Utf8 a) (h : Utf8 (a ++ b)) : Utf8 b := by
  obtain ⟨cs, rfl⟩ := ha
  induction cs with
  | nil => exact h
  | cons c cs ih =>
    refine ih ?_
    obtain ⟨ds, h⟩ := h
    obtain ⟨x, r, he, -, -, hl⟩ := encode_form c
    cases ds with
    | nil => simp [he] at h
    | cons d ds =>
      obtain ⟨x', r', he', -, -, hl'⟩ := encode_form d
      rw [List.flatMap_cons, List.flatMap_cons, he, he', List.cons_append, List.cons_append, List.cons_append] at h
      obtain ⟨rfl, h⟩ := List.cons.inj h
      rw [List.append_assoc] at h
      replace h := (List.cons.inj h).2
      exact ⟨ds, (List.append_inj h (hl.trans hl'.symm)).2⟩

/-! ### Strings -/

private theorem ascii_hex4 {h : Text} {u : Nat} (hh : Hex4 h u) : ∀ x ∈ h, x < 0x80 := by
  have key : ∀ x : UInt8, hexVal x ≠ none → x < 0x80 := by apply uint8_forall; decide +kernel
  obtain ⟨a, b, c, d, _, _, _, _, rfl, h1, h2, h3, h4, -⟩ := hh
  simp only [List.mem_cons, List.not_mem_nil, or_false, forall_eq_or_imp, forall_eq]
  exact ⟨key a (by simp [h1]), key b (by simp [h2]), key c (by simp [h3]), key d (by simp [h4])⟩

private theorem ascii_u {h : Text} {u : Nat} (hh : Hex4 h u) : Utf8 (0x5c :: 0x75 :: h) :=
  utf8_cons (by decide) (utf8_cons (by decide) (utf8_ascii (ascii_hex4 hh)))

private theorem ascii_simple {l c : UInt8} (h : SimpleEscape l c) : l < 0x80 ∧ c < 0x80 := by cases h <;> decide

private theorem mid_utf8 {loose : Bool} {m ms : Text} (h : Mid loose m ms) : ∀ p r : Text, Cut r → Utf8 (p ++ (m ++ r)) → Utf8 (p ++ ms) ∧ Utf8 r := by
  induction h with
  | nil => intro p r hr h; simpa using utf8_cut h hr
  | @unicode hx u t s h1 _ _ _ ih =>
    intro p r hr h
    obtain ⟨h2, h3⟩ := utf8_split (x := 0x5c) (b := 0x75 :: (hx ++ t) ++ r) h (.inl (by decide))
    have h4 : Utf8 (0x5c :: 0x75 :: hx ++ (t ++ r)) := by simpa using h3
    obtain ⟨h5, h6⟩ := ih [] r hr (utf8_rest (ascii_u h1) h4)
    exact ⟨utf8_append h2 (utf8_append (utf8_utf8 u) h5), h6⟩
  | @plain c t s _ _ _ ih =>
    intro p r hr h
    obtain ⟨h1, h2⟩ := ih (p ++ [c]) r hr (by simpa using h)
    exact ⟨by simpa using h1, h2⟩

/-- In a UTF-8 text every string literal, of the code's language, stands for a UTF-8 text. -/
theorem lenientChars_utf8 {loose : Bool} {body s : Text} (h : LenientChars loose body s) : ∀ p : Text, Utf8 (p ++ body) → Utf8 (p ++ s) := by
  induction h with
  | nil => exact fun p h => h
  | @cons t s ts ss hc _ ih =>
    intro p h
    cases hc with
    | @plain c _ => simpa using ih (p ++ [c]) (by simpa using h)
    | @simple l c hs =>
      obtain ⟨h1, h2⟩ := utf8_split (x := 0x5c) (b := l :: ts) h (.inl (by decide))
      have h3 : Utf8 ts := utf8_rest (a := [0x5c, l]) (utf8_cons (by decide) (utf8_byte (ascii_simple hs).1)) h2
      exact utf8_append h1 (utf8_cons (ascii_simple hs).2 (ih [] h3))
    | @unicode hx u hh _ _ =>
      obtain ⟨h1, h2⟩ := utf8_split (x := 0x5c) (b := 0x75 :: hx ++ ts) h (.inl (by decide))
      exact utf8_append h1 (utf8_append (utf8_utf8 u) (ih [] (utf8_rest (ascii_u hh) h2)))
    | @pair h₁ u₁ m ms h₂ u₂ cp e1 e2 _ _ hm _ =>
      obtain ⟨h1, h2⟩ := utf8_split (x := 0x5c) (b := 0x75 :: (h₁ ++ (m ++ 0x5c :: 0x75 :: h₂)) ++ ts) h (.inl (by decide))
      have h3 : Utf8 (0x5c :: 0x75 :: h₁ ++ (m ++ (0x5c :: 0x75 :: h₂ ++ ts))) := by simpa using h2
      obtain ⟨h4, h5⟩ := mid_utf8 hm [] _ (cut_cons (by decide)) (utf8_rest (ascii_u e1) h3)
      have h6 := ih [] (utf8_rest (ascii_u e2) h5)
      rw [List.append_assoc]
      exact utf8_append h1 (utf8_append h4 (utf8_append (utf8_utf8 cp) h6))

/-- And the other way round for the literals of RFC 8259. -/
theorem strChars_utf8 {body s : Text} (h : StrChars body s) : ∀ p : Text, Utf8 (p ++ s) → Utf8 (p ++ body) := by
  induction h with
  | nil => exact fun p h => h
  | @cons t s ts ss hc _ ih =>
    intro p h
    cases hc with
    | @plain c _ => simpa using ih (p ++ [c]) (by simpa using h)
    | @simple l c hs =>
      obtain ⟨h1, h2⟩ := utf8_split (x := c) (b := ss) h (.inl (ascii_simple hs).2)
      have h3 : Utf8 ss := utf8_rest (a := [c]) (utf8_byte (ascii_simple hs).2) h2
      exact utf8_append h1 (utf8_cons (by decide) (utf8_cons (ascii_simple hs).1 (ih [] h3)))
    | @unicode hx u hh _ _ =>
      obtain ⟨h1, h2⟩ := utf8_cut h (cut_append_left (utf8_utf8 u) (by simp [utf8]))
      exact utf8_append h1 (utf8_append (ascii_u hh) (ih [] (utf8_rest (utf8_utf8 u) h2)))
    | @pair h₁ u₁ h₂ u₂ cp e1 e2 _ _ _ =>
      obtain ⟨h1, h2⟩ := utf8_cut h (cut_append_left (utf8_utf8 cp) (by simp [utf8]))
      have h3 := utf8_append (ascii_u e1) (utf8_append (ascii_u e2) (ih [] (utf8_rest (utf8_utf8 cp) h2)))
      exact utf8_append h1 (by simpa using h3)

theorem lenientStr_utf8 {loose : Bool} {t s : Text} (h : LenientStr loose t s) (ht : Utf8 t) : Utf8 s := by
  obtain ⟨body, hb, rfl⟩ := h
  have h1 : Utf8 (body ++ [0x22]) := utf8_rest (a := [0x22]) (utf8_byte (by decide)) ht
  exact lenientChars_utf8 hb [] (utf8_cut h1 (cut_cons (by decide))).1

theorem str_utf8 {t s : Text} (h : Str t s) (hs : Utf8 s) : Utf8 t := by
  obtain ⟨body, hb, rfl⟩ := h
  exact utf8_cons (by decide) (utf8_append (strChars_utf8 hb [] hs) (utf8_byte (by decide)))

/-! ### Documents -/

theorem mem_textsAll {s : Bytes} {vs : List Value} : s ∈ Value.textsAll vs ↔ ∃ v ∈ vs, s ∈ v.texts := by
  induction vs with
  | nil => simp [Value.textsAll]
  | cons v vs ih => simp [Value.textsAll, ih]

theorem mem_textsMembers {s : Bytes} {ms : List (Bytes × Value)} : s ∈ Value.textsMembers ms ↔ ∃ m ∈ ms, s = m.1 ∨ s ∈ m.2.texts := by
  induction ms with
  | nil => simp [Value.textsMembers]
  | cons m ms ih => obtain ⟨k, v⟩ := m; simp [Value.textsMembers, ih, or_assoc]

theorem mem_texts_sorted {s : Bytes} {ms : List (Bytes × Value)} : s ∈ (Value.obj .object (sortMembers ms)).texts ↔ s ∈ Value.textsMembers ms := by
  rw [Value.texts, mem_textsMembers, mem_textsMembers]
  simp only [(sortMembers_perm ms).mem_iff]

/-- What a dialect has to be like for the texts of UTF-8 documents to be UTF-8. -/
structure KeepsUtf8 (D : Dialect) : Prop where
  ws : ∀ w, D.ws w → Cut w
  quote : ∀ t s, D.str t s → ∃ t', t = 0x22 :: t'
  str : ∀ t s, D.str t s → Utf8 t → Utf8 s

theorem val_cut {D : Dialect} (hD : KeepsUtf8 D) {t : Text} {j : Doc} (h : Val D t j) : Cut t := by
  cases h with
  | num h =>
    obtain ⟨c, t', rfl, hc⟩ := number_head h
    exact cut_cons ((number_ascii h) c (by simp)).2
  | str h => obtain ⟨t', rfl⟩ := hD.quote _ _ h; exact cut_cons (by decide)
  | _ => exact cut_cons (by decide)

mutual
theorem val_utf8 {D : Dialect} (hD : KeepsUtf8 D) {t : Text} {j : Doc} (h : Val D t j) (ht : Utf8 t) : ∀ s ∈ j.toValue.texts, Utf8 s := by
  cases h with
  | null => simp [Doc.toValue, Value.texts]
  | true => simp [Doc.toValue, Value.texts]
  | false => simp [Doc.toValue, Value.texts]
  | num h => simp [Doc.toValue, Value.texts]
  | str h => simpa [Doc.toValue, Value.texts] using hD.str _ _ h ht
  | arrEmpty h => simp [Doc.toValue, Doc.toValues, Value.texts, Value.textsAll]
  | arr h =>
    have h1 := utf8_rest (a := [0x5b]) (utf8_byte (by decide)) ht
    exact elems_utf8 hD h (utf8_cut h1 (cut_cons (by decide))).1
  | objEmpty h => simp [Doc.toValue, Doc.toMembers, mem_texts_sorted, Value.textsMembers]
  | obj h _ =>
    have h1 := utf8_rest (a := [0x7b]) (utf8_byte (by decide)) ht
    intro s hs
    exact members_utf8 hD h (utf8_cut h1 (cut_cons (by decide))).1 s (mem_texts_sorted.1 hs)
theorem elems_utf8 {D : Dialect} (hD : KeepsUtf8 D) {t : Text} {js : List Doc} (h : Elems D t js) (ht : Utf8 t) : ∀ s ∈ Value.textsAll (Doc.toValues js), Utf8 s := by
  cases h with
  | last h1 h2 h3 =>
    have h4 := (utf8_cut ht (hD.ws _ h3)).1
    have h5 := (utf8_cut h4 (val_cut hD h2)).2
    simpa [Doc.toValues, Value.textsAll] using val_utf8 hD h2 h5
  | lastComma _ h1 h2 h3 _ =>
    have h4 := (utf8_cut (utf8_cut ht (cut_cons (by decide))).1 (hD.ws _ h3)).1
    have h5 := (utf8_cut h4 (val_cut hD h2)).2
    simpa [Doc.toValues, Value.textsAll] using val_utf8 hD h2 h5
  | cons h1 h2 h3 h6 =>
    have h7 := utf8_cut ht (cut_cons (by decide))
    have h4 := (utf8_cut h7.1 (hD.ws _ h3)).1
    have h5 := (utf8_cut h4 (val_cut hD h2)).2
    have h8 := utf8_rest (a := [0x2c]) (utf8_byte (by decide)) h7.2
    have i1 := val_utf8 hD h2 h5
    have i2 := elems_utf8 hD h6 h8
    intro s hs
    simp only [Doc.toValues, Value.textsAll, List.mem_append] at hs
    exact hs.elim (i1 s) (i2 s)
theorem members_utf8 {D : Dialect} (hD : KeepsUtf8 D) {t : Text} {ms : List (Text × Doc)} (h : Members D t ms) (ht : Utf8 t) :
    ∀ s ∈ Value.textsMembers (Doc.toMembers ms), Utf8 s := by
  have key : ∀ {w₁ kt k w₂ : Text}, D.str kt k → D.ws w₂ → Utf8 (w₁ ++ kt ++ w₂) → Utf8 k := by
    intro w₁ kt k w₂ h1 h2 h3
    obtain ⟨t', rfl⟩ := hD.quote _ _ h1
    exact hD.str _ _ h1 (utf8_cut (utf8_cut h3 (hD.ws _ h2)).1 (cut_cons (by decide))).2
  cases h with
  | last h1 h2 h3 h4 h5 h6 =>
    have a1 := utf8_cut ht (cut_cons (by decide))
    have a2 := utf8_rest (a := [0x3a]) (utf8_byte (by decide)) a1.2
    have a3 := (utf8_cut (utf8_cut a2 (hD.ws _ h6)).1 (val_cut hD h5)).2
    have i0 := key h2 h3 a1.1
    have i1 := val_utf8 hD h5 a3
    intro s hs
    simp only [Doc.toMembers, Value.textsMembers, List.mem_cons, List.mem_append, List.not_mem_nil, or_false] at hs
    exact hs.elim (fun h => h ▸ i0) (i1 s)
  | lastComma _ h1 h2 h3 h4 h5 h6 h7 =>
    have a1 := utf8_cut ht (cut_cons (by decide))
    have a2 := utf8_rest (a := [0x3a]) (utf8_byte (by decide)) a1.2
    have a3 := (utf8_cut (utf8_cut (utf8_cut a2 (cut_cons (by decide))).1 (hD.ws _ h6)).1 (val_cut hD h5)).2
    have i0 := key h2 h3 a1.1
    have i1 := val_utf8 hD h5 a3
    intro s hs
    simp only [Doc.toMembers, Value.textsMembers, List.mem_cons, List.mem_append, List.not_mem_nil, or_false] at hs
    exact hs.elim (fun h => h ▸ i0) (i1 s)
  | cons h1 h2 h3 h4 h5 h6 h7 =>
    have a1 := utf8_cut ht (cut_cons (by decide))
    have a2 := utf8_rest (a := [0x3a]) (utf8_byte (by decide)) a1.2
    have a4 := utf8_cut a2 (cut_cons (by decide))
    have a3 := (utf8_cut (utf8_cut a4.1 (hD.ws _ h6)).1 (val_cut hD h5)).2
    have a5 := utf8_rest (a := [0x2c]) (utf8_byte (by decide)) a4.2
    have i0 := key h2 h3 a1.1
    have i1 := val_utf8 hD h5 a3
    have i2 := members_utf8 hD h7 a5
    intro s hs
    simp only [Doc.toMembers, Value.textsMembers, List.mem_cons, List.mem_append] at hs
    exact hs.elim (fun h => h ▸ i0) (fun h => h.elim (i1 s) (i2 s))
end

/-- What a dialect has to be like for the documents of UTF-8 texts to be UTF-8. -/
structure GivesUtf8 (D : Dialect) : Prop where
  ws : ∀ w, D.ws w → Utf8 w
  str : ∀ t s, D.str t s → Utf8 s → Utf8 t

mutual
theorem utf8_val {D : Dialect} (hD : GivesUtf8 D) {t : Text} {j : Doc} (h : Val D t j) (hj : ∀ s ∈ j.toValue.texts, Utf8 s) : Utf8 t := by
  cases h with
  | null => exact utf8_ascii (by decide)
  | true => exact utf8_ascii (by decide)
  | false => exact utf8_ascii (by decide)
  | num h => exact utf8_ascii fun x hx => (number_ascii h x hx).2
  | str h => exact hD.str _ _ h (hj _ (by simp [Doc.toValue, Value.texts]))
  | arrEmpty h => exact utf8_cons (by decide) (utf8_append (hD.ws _ h) (utf8_byte (by decide)))
  | arr h => exact utf8_cons (by decide) (utf8_append (utf8_elems hD h hj) (utf8_byte (by decide)))
  | objEmpty h => exact utf8_cons (by decide) (utf8_append (hD.ws _ h) (utf8_byte (by decide)))
  | obj h _ => exact utf8_cons (by decide) (utf8_append (utf8_members hD h fun s hs => hj s (mem_texts_sorted.2 hs)) (utf8_byte (by decide)))
theorem utf8_elems {D : Dialect} (hD : GivesUtf8 D) {t : Text} {js : List Doc} (h : Elems D t js) (hj : ∀ s ∈ Value.textsAll (Doc.toValues js), Utf8 s) : Utf8 t := by
  cases h with
  | last h1 h2 h3 =>
    have i := utf8_val hD h2 fun s hs => hj s (by simp [Doc.toValues, Value.textsAll, hs])
    exact utf8_append (utf8_append (hD.ws _ h1) i) (hD.ws _ h3)
  | lastComma _ h1 h2 h3 h4 =>
    have i := utf8_val hD h2 fun s hs => hj s (by simp [Doc.toValues, Value.textsAll, hs])
    exact utf8_append (utf8_append (utf8_append (hD.ws _ h1) i) (hD.ws _ h3)) (utf8_cons (by decide) (hD.ws _ h4))
  | cons h1 h2 h3 h4 =>
    have i := utf8_val hD h2 fun s hs => hj s (by simp [Doc.toValues, Value.textsAll, hs])
    have i2 := utf8_elems hD h4 fun s hs => hj s (by simp [Doc.toValues, Value.textsAll, hs])
    exact utf8_append (utf8_append (utf8_append (hD.ws _ h1) i) (hD.ws _ h3)) (utf8_cons (by decide) i2)
theorem utf8_members {D : Dialect} (hD : GivesUtf8 D) {t : Text} {ms : List (Text × Doc)} (h : Members D t ms)
    (hj : ∀ s ∈ Value.textsMembers (Doc.toMembers ms), Utf8 s) : Utf8 t := by
  cases h with
  | last h1 h2 h3 h4 h5 h6 =>
    have i0 := hD.str _ _ h2 (hj _ (by simp [Doc.toMembers, Value.textsMembers]))
    have i := utf8_val hD h5 fun s hs => hj s (by simp [Doc.toMembers, Value.textsMembers, hs])
    exact utf8_append (utf8_append (utf8_append (hD.ws _ h1) i0) (hD.ws _ h3))
      (utf8_cons (by decide) (utf8_append (utf8_append (hD.ws _ h4) i) (hD.ws _ h6)))
  | lastComma _ h1 h2 h3 h4 h5 h6 h7 =>
    have i0 := hD.str _ _ h2 (hj _ (by simp [Doc.toMembers, Value.textsMembers]))
    have i := utf8_val hD h5 fun s hs => hj s (by simp [Doc.toMembers, Value.textsMembers, hs])
    exact utf8_append (utf8_append (utf8_append (hD.ws _ h1) i0) (hD.ws _ h3))
      (utf8_cons (by decide) (utf8_append (utf8_append (utf8_append (hD.ws _ h4) i) (hD.ws _ h6)) (utf8_cons (by decide) (hD.ws _ h7))))
  | cons h1 h2 h3 h4 h5 h6 h7 =>
    have i0 := hD.str _ _ h2 (hj _ (by simp [Doc.toMembers, Value.textsMembers]))
    have i := utf8_val hD h5 fun s hs => hj s (by simp [Doc.toMembers, Value.textsMembers, hs])
    have i2 := utf8_members hD h7 fun s hs => hj s (by simp [Doc.toMembers, Value.textsMembers, hs])
    exact utf8_append (utf8_append (utf8_append (hD.ws _ h1) i0) (hD.ws _ h3))
      (utf8_cons (by decide) (utf8_append (utf8_append (utf8_append (hD.ws _ h4) i) (hD.ws _ h6)) (utf8_cons (by decide) i2)))
end

theorem wsChar_ascii {c : UInt8} (h : WsChar c) : c < 0x80 := by rcases h with rfl | rfl | rfl | rfl <;> decide

theorem wsC_cut {w : Text} (h : WsC w) : Cut w := by
  cases h with
  | nil => exact cut_nil
  | char h _ => exact cut_cons (wsChar_ascii h)
  | comment h _ => cases h <;> exact cut_cons (by decide)

theorem ws_utf8 {w : Text} (h : Ws w) : Utf8 w := utf8_ascii fun x hx => wsChar_ascii (h x hx)

theorem lenient_keeps (jsonc loose : Bool) : KeepsUtf8 (lenient jsonc loose) where
  ws := by
    intro w h
    cases jsonc with
    | false => exact cut_of_utf8 (ws_utf8 h)
    | true => exact wsC_cut h
  quote := fun _ _ h => lenientStr_head h
  str := fun _ _ h => lenientStr_utf8 h

theorem rfc8259_keeps : KeepsUtf8 rfc8259 where
  ws := fun _ h => cut_of_utf8 (ws_utf8 h)
  quote := fun _ _ h => lenientStr_head (l := false) (str_lenient h)
  str := fun _ _ h => lenientStr_utf8 (loose := false) (str_lenient h)

theorem rfc8259_gives : GivesUtf8 rfc8259 := ⟨fun _ => ws_utf8, fun _ _ => str_utf8⟩

end Meojson
