import Verif.Proofs.Wide

/-!
# C57: texts of wide characters
-/

set_option autoImplicit false

namespace Meojson
open Wide

/-- A Unicode text as a `std::u32string` and as a `std::string` in UTF-8. -/
def utf32Of (t : List Char) : Units := t.map Char.val
def utf8Of (t : List Char) : Bytes := t.flatMap String.utf8EncodeChar

/-- The claim: a text means the same in both encodings. -/
def C57Claim : Prop := ∀ (jsonc : Bool) (t : List Char), Wide.parser jsonc (utf32Of t) = Meojson.parser ⟨jsonc, none⟩ (utf8Of t)

/-- `json::parse(U"[\"é\"]")` is a string of one byte, E9, which is not UTF-8. -/
theorem C57_refuted : ¬ C57Claim := fun h => by
  have := h false ['[', '"', 'é', '"', ']']
  revert this
  decide +kernel

/-- `json::parse(U"[\"с\"]")`, a Cyrillic letter, is the string `A`; `json::parse(U"[1ı]")`, with a dotless i, is the number 11; and `json::parse(U"[-İ0]")` is
a number with the text `-00`. -/
theorem C57_wrong_text : Wide.parser false (utf32Of ['[', '"', 'с', '"', ']']) = some (.arr .array [.str .string [0x41]]) ∧
    Wide.parser false (utf32Of ['[', '1', 'ı', ']']) = some (.arr .array [.str .number [0x31, 0x31]]) ∧
    Wide.parser false (utf32Of ['[', '-', 'İ', '0', ']']) = some (.arr .array [.str .number [0x2d, 0x30, 0x30]]) := by decide +kernel

/-- `json::parse(U"[\"А\"]")`, another Cyrillic letter, is rejected: its low byte is a control character. -/
theorem C57_rejected : Wide.parser false (utf32Of ['[', '"', 'А', '"', ']']) = none ∧
    Meojson.parser ⟨false, none⟩ (utf8Of ['[', '"', 'А', '"', ']']) = some (.arr .array [.str .string [0xd0, 0x90]]) := by decide +kernel

/-- ASCII texts mean the same in both encodings. -/
theorem C57_partial (jsonc : Bool) (t : List Char) (h : ∀ c ∈ t, c.toNat < 128) : Wide.parser jsonc (utf32Of t) = Meojson.parser ⟨jsonc, none⟩ (utf8Of t) := by
  have e : utf32Of t = up (utf8Of t) := by
    induction t with
    | nil => rfl
    | cons c t ih =>
      have hc : c.val.toNat ≤ 127 := by have := h c (by simp); simp only [Char.toNat] at this; omega
      have h1 : String.utf8EncodeChar c = [c.val.toUInt8] := by
        simp only [String.utf8EncodeChar, hc, if_true]
        congr 1
      have h2 : ch c.val.toUInt8 = c.val := by
        apply UInt32.toNat_inj.1
        simp only [ch, UInt8.toNat_toUInt32, UInt32.toNat_toUInt8]
        omega
      have ih' := ih fun d hd => h d (by simp [hd])
      show c.val :: utf32Of t = up (String.utf8EncodeChar c ++ utf8Of t)
      rw [h1, List.singleton_append, up_cons, h2, ih']
  rw [e, parser_up]

/-- In general, units below 256 are taken for bytes: a wide text of them is parsed like the text of those bytes. -/
theorem C57_latin1 (jsonc : Bool) (s : Bytes) : Wide.parser jsonc (s.map UInt8.toUInt32) = Meojson.parser ⟨jsonc, none⟩ s := parser_up jsonc s

/-- A larger unit in a string stands for its low byte, whatever that is (so a unit like U+0122 puts a quote into the string). -/
theorem C57_truncated (jsonc : Bool) (body : Units) (h : ∀ c ∈ body, 256 ≤ c ∧ 0x20 ≤ c.toUInt8) :
    Wide.parser jsonc (0x5b :: 0x22 :: body ++ [0x22, 0x5d]) = some (.arr .array [.str .string (body.map UInt32.toUInt8)]) := by
  have hb : ∀ c ∈ body, Passed c := fun c hc => by
    obtain ⟨h1, h2⟩ := h c hc
    refine ⟨h2, ?_, ?_⟩ <;> (rintro rfl; exact absurd h1 (by decide))
  have hs := stringLoop_passed ((body ++ [ch 0x22, ch 0x5d]).length + 1) [] [] body [ch 0x5d] hb (by simp)
  have h22 : (0x22 : UInt32) = ch 0x22 := rfl
  have h5b : (0x5b : UInt32) = ch 0x5b := rfl
  have h5d : (0x5d : UInt32) = ch 0x5d := rfl
  have w1 : ∀ (j : Bool) (c : UInt8) (s : Units), c ∉ [0x20, 0x09, 0x0d, 0x0a, 0x2f, 0x00] → Wide.skipWhitespace j (ch c :: s) = .ok true (ch c :: s) := by
    intro j c s hc
    simp only [List.mem_cons, List.not_mem_nil, or_false, not_or] at hc
    simp [Wide.skipWhitespace, Wide.skipWhitespaceF, ch_inj, hc]
  have hf : Wide.parseFuel (0x5b :: 0x22 :: body ++ [0x22, 0x5d]) = (3 * body.length + 12) + 3 := by simp [Wide.parseFuel]; omega
  rw [Wide.parser, hf, h22, h5b, h5d, Wide.parseRun]
  simp only [List.cons_append] at hs ⊢
  rw [w1 _ _ _ (by decide)]
  simp only [WRes.bind, Bool.true_eq_false, if_false, if_true]
  rw [Wide.parseArray]
  simp only [ne_eq, not_true_eq_false, if_false]
  rw [w1 _ _ _ (by decide)]
  simp only [WRes.bind, Bool.true_eq_false, if_false, ch_inj, show ¬ ((0x22 : UInt8) = 0x5d) by decide]
  rw [Wide.arrayLoop, w1 _ _ _ (by decide)]
  simp only [WRes.bind, Bool.true_eq_false, if_false, ch_inj, show ¬ ((0x22 : UInt8) = 0x5d) by decide, and_false]
  rw [Wide.parseValue]
  simp only [ch_inj, ch_le, Wide.parseString, Wide.parseStdstring]
  simp only [List.nil_append, List.length_append, List.length_cons, List.length_nil, Nat.zero_add, Nat.reduceAdd] at hs
  simp [hs, WRes.bind, ch_inj, Wide.skipWhitespace, Wide.skipWhitespaceF, Value.ofArray, low]

/-- Every sequence of code units: the parser returns; it neither reads past the end nor runs on. -/
theorem C57_safe (jsonc : Bool) (s : Units) (steps : Nat) (h : 3 * s.length ≤ steps + 1) :
    Wide.parseRun jsonc steps s = .fail ∨ ∃ v rest, Wide.parseRun jsonc steps s = .ok v rest := by
  rcases parseRun_leaves jsonc steps s h with h | ⟨v, rest, h, _⟩
  · exact .inl h
  · exact .inr ⟨v, rest, h⟩

-- Not vacuous.
example : Wide.parser true (utf32Of "{\"a\": [1, -2.5e3, null, true, \"\\u00e9\\n\"]} // é".toList) =
    some (.obj .object [([0x61], .arr .array [.str .number [0x31], .str .number (ascii "-2.5e3"), .null, .ofBool true, .str .string [0xc3, 0xa9, 0x0a]])]) := by decide +kernel
example : Wide.parser false (utf32Of "[\"Ģ\"]".toList) = some (.arr .array [.str .string [0x22]]) := by decide +kernel

end Meojson
