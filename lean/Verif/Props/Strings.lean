import Verif.Proofs.Padding
import Verif.Proofs.Simd
import Verif.Props.Parse

/-!
# Properties of string literals and of the packed-bytes builds
-/

set_option autoImplicit false

namespace Meojson
open Spec

/-! ## C04: surrogate escapes only as adjacent pairs. False as stated. -/

/-- `["\ud83d\u0041\udca9"]` is accepted by every build, as `A` followed by U+1F4A9. -/
theorem C04_refuted (a : Accel) :
    parse a.traits (ascii "[\"\\ud83d\\u0041\\udca9\"]") = some (.arr .array [.str .string [0x41, 0xf0, 0x9f, 0x92, 0xa9]]) := by
  cases a with
  | none => decide +kernel
  | u32 le => cases le <;> decide +kernel
  | u64 le => cases le <;> decide +kernel
  | sse b => cases b <;> decide +kernel
  | avx2 => decide +kernel
  | neon => decide +kernel

/-- In a packed build plain bytes may stand between the halves too. -/
theorem C04_refuted_packed :
    parse Accel.avx2.traits (ascii "[\"\\ud83dABC\\udca9                                \"]") =
      some (.arr .array [.str .string (ascii "ABC" ++ [0xf0, 0x9f, 0x92, 0xa9] ++ ascii "                                ")]) := by
  decide +kernel

private theorem firstLiteral {k l : Bool} {x : Text} {j : Doc} (h : Reads k l (0x5b :: 0x22 :: x) j) :
    ∃ body s z, LenientChars l body s ∧ x = body ++ 0x22 :: z := by
  obtain ⟨t, r, ⟨hj, w₁, b, w₂, h1, h2, h3, rfl⟩, hr, e⟩ := h
  have hL : Lexical k (lenient k l) := ⟨fun _ h => h, fun _ _ h => lenientStr_true h⟩
  obtain ⟨c, y, rfl, hc1⟩ := val_sig hL h2
  obtain ⟨rfl, rfl, e'⟩ := ws_det (w := []) (c := 0x5b) (x := 0x22 :: x) (x' := y ++ (w₂ ++ r)) (wsOf_nil k) h1
    (by unfold Sig WsChar; decide) hc1.1 (by simpa using e)
  have lit : ∀ {w v u : Text} {j : Doc}, wsOf k w → Val (lenient k l) v j → (0x22 :: x = w ++ v ++ u) →
      ∃ body s z, LenientChars l body s ∧ x = body ++ 0x22 :: z := by
    intro w v u j hw hv ex
    obtain ⟨d, v', rfl, hd⟩ := val_sig hL hv
    obtain ⟨rfl, rfl, ex'⟩ := ws_det (w := []) (c := 0x22) (x := x) (x' := v' ++ u) (wsOf_nil k) hw (sig_of (by simp)) hd.1
      (by simpa using ex)
    obtain ⟨c, y, e1, e2⟩ := val_headOf hL hv
    simp at e1
    obtain ⟨rfl, rfl⟩ := e1
    cases hv with
    | str hs =>
      obtain ⟨body, hb, e1⟩ := hs
      simp at e1
      exact ⟨body, _, u, hb, by rw [ex', e1]; simp⟩
    | num hn => exfalso; change (0x22 : UInt8) = 0x2d ∨ Digit 0x22 at e2; unfold Digit at e2; revert e2; decide
  generalize hb : 0x5b :: y = b at h2
  cases h2 with
  | arrEmpty hw =>
    simp at hb
    rw [hb] at e'
    have := ws_det (w := []) (c := 0x22) (x := x) (wsOf_nil k) hw (sig_of (.inr (.inr (.inr (.inr rfl))))) (sig_of (.inl rfl))
      (x' := w₂ ++ r) (by simpa using e')
    exact absurd this.2.1 (by decide)
  | arr he =>
    simp at hb
    subst hb
    cases he with
    | last hw hv _ => exact lit hw hv (by rw [e']; simp only [List.append_assoc]; rfl)
    | lastComma _ hw hv _ _ => exact lit hw hv (by rw [e']; simp only [List.append_assoc]; rfl)
    | cons hw hv _ _ => exact lit hw hv (by rw [e']; simp only [List.append_assoc]; rfl)
  | objEmpty _ => simp at hb
  | obj _ _ => simp at hb
  | null => simp at hb
  | true => simp at hb
  | false => simp at hb
  | num hn => subst hb; obtain ⟨_, _, e1, e2⟩ := number_head hn; simp at e1; rw [← e1.1] at e2; exfalso; unfold Digit at e2; revert e2; decide
  | str hs => subst hb; obtain ⟨_, e1⟩ := lenientStr_head hs; simp at e1

/-- Full statement: after `\uD8xx` the next thing is a `\uDCxx`, and `\uDCxx` only stands there. Proved, for a literal that is the first element of an array
and any well-formed part `p` before the escape: an unpaired `\uDCxx` is rejected; after `\uD8xx` there is a later `\uDCxx` in the literal, and
only non-surrogate `\u` escapes (in packed builds also plain bytes) stand between (`Mid`). A literal with an unpaired half is thus never accepted. -/
theorem C04_partial (a : Accel) (k : Bool) (p sp h x : Text) (u : Nat) (v : Value) (hp : StrChars p sp) (hx : Hex4 h u)
    (hv : parser ⟨k, a.traits⟩ (0x5b :: 0x22 :: (p ++ 0x5c :: 0x75 :: (h ++ x))) = some v) :
    ¬ LowSurrogate u ∧
    (HighSurrogate u → ∃ m ms h₂ u₂ y, x = m ++ 0x5c :: 0x75 :: (h₂ ++ y) ∧ Mid a.traits.isSome m ms ∧ Hex4 h₂ u₂ ∧ LowSurrogate u₂) := by
  obtain ⟨j, h1, -⟩ := parser_sound (cfg := ⟨k, a.traits⟩) (accelOk a) hv
  obtain ⟨body, s, z, hb, e⟩ := firstLiteral h1
  obtain ⟨b', s', rfl, hb'⟩ := lenientChars_strChars hp hb e.symm
  rw [List.append_assoc] at e
  exact lenientChars_surrogate hx hb' (List.append_cancel_left e).symm

example : Hex4 [0x44, 0x38, 0x33, 0x44] 0xD83D ∧ HighSurrogate 0xD83D ∧
    (parser ⟨false, Accel.neon.traits⟩ (0x5b :: 0x22 :: ([] ++ 0x5c :: 0x75 :: ([0x44, 0x38, 0x33, 0x44] ++ ascii "\\uDE00\"]")))).isSome = true :=
  ⟨Samples.hex2, by unfold HighSurrogate; decide, by decide +kernel⟩

/-- A lone half is rejected, whatever else the document holds, if the text holds no other surrogate escape. -/
theorem C04_lone_rejected (a : Accel) (k : Bool) (p sp h x : Text) (u : Nat) (hp : StrChars p sp) (hx : Hex4 h u)
    (hu : HighSurrogate u ∨ LowSurrogate u) (hs : NoSurrogate x) :
    parser ⟨k, a.traits⟩ (0x5b :: 0x22 :: (p ++ 0x5c :: 0x75 :: (h ++ x))) = none := by
  cases hv : parser ⟨k, a.traits⟩ (0x5b :: 0x22 :: (p ++ 0x5c :: 0x75 :: (h ++ x))) with
  | none => rfl
  | some v =>
    obtain ⟨h1, h2⟩ := C04_partial a k p sp h x u v hp hx hv
    rcases hu with hu | hu
    · obtain ⟨m, ms, h₂, u₂, y, rfl, -, hx₂, hl⟩ := h2 hu
      exact absurd hl (hs h₂ u₂ hx₂ ⟨m, y, by simp⟩).2
    · exact absurd hu h1

example : StrChars [] [] ∧ Hex4 [0x44, 0x38, 0x33, 0x44] 0xD83D ∧ (HighSurrogate 0xD83D ∨ LowSurrogate 0xD83D) ∧ NoSurrogate [0x22, 0x5d] := by
  refine ⟨.nil, Samples.hex2, .inl (by unfold HighSurrogate; decide), ?_⟩
  rintro h u - hi
  have : (0x5c : UInt8) ∈ [0x22, 0x5d] := hi.subset (by simp)
  simp at this

/-! ## C05: the result does not depend on the build. False as stated. -/

theorem C05_refuted : ∃ s, parse Accel.none.traits s = none ∧ (parse (Accel.u64 true).traits s).isSome = true ∧ parse Accel.avx2.traits s = none :=
  ⟨ascii "[\"\\ud83dABC\\udca9  \"]", by decide +kernel⟩

/-- Full statement: all builds return the same. Proved: what the scalar build accepts, every build accepts with the same value. -/
theorem C05_partial (a : Accel) (k : Bool) (s : Text) (v : Value) (h : parser ⟨k, none⟩ s = some v) :
    parser ⟨k, a.traits⟩ s = some v := by
  obtain ⟨j, hr, rfl⟩ := parser_sound (cfg := ⟨k, none⟩) trivial h
  exact parser_complete (cfg := ⟨k, a.traits⟩) (accelOk a) hr

/-- Builds never disagree about the value. -/
theorem C05_value_partial (a b : Accel) (k : Bool) (s : Text) (v w : Value) (h : parser ⟨k, a.traits⟩ s = some v)
    (h' : parser ⟨k, b.traits⟩ s = some w) : v = w := by
  obtain ⟨j, hr, rfl⟩ := parser_sound (cfg := ⟨k, a.traits⟩) (accelOk a) h
  obtain ⟨j', hr', rfl⟩ := parser_sound (cfg := ⟨k, b.traits⟩) (accelOk b) h'
  exact reads_unique hr hr'

/-- On texts without surrogate escapes all builds agree completely. -/
theorem C05_plain_partial (a b : Accel) (k : Bool) (s : Text) (hs : NoSurrogate s) :
    parser ⟨k, a.traits⟩ s = parser ⟨k, b.traits⟩ s := by
  have key : ∀ (a b : Accel) (v : Value), parser ⟨k, a.traits⟩ s = some v → parser ⟨k, b.traits⟩ s = some v := by
    intro a b v h
    obtain ⟨j, hr, rfl⟩ := parser_sound (cfg := ⟨k, a.traits⟩) (accelOk a) h
    exact parser_complete (cfg := ⟨k, b.traits⟩) (accelOk b) (reads_noSurrogate hs hr)
  cases ha : parser ⟨k, a.traits⟩ s with
  | some v => exact (key a b v ha).symm
  | none =>
    cases hb : parser ⟨k, b.traits⟩ s with
    | none => rfl
    | some v => rw [key b a v hb] at ha; simp at ha

/-- On RFC 8259 texts (surrogate pairs included) all builds agree. -/
theorem C05_json_partial (a b : Accel) (t : Text) (j : Doc) (h : JsonText rfc8259 t j) :
    parse a.traits t = parse b.traits t ∧ parsec a.traits t = parsec b.traits t := by
  rw [C01_parse_accepts_json a t j h, C01_parse_accepts_json b t j h, C15_json_partial a t j h, C15_json_partial b t j h]
  exact ⟨rfl, rfl⟩

example : parser ⟨false, none⟩ (ascii "[\"abc\"]") = some (.arr .array [.str .string (ascii "abc")]) := by decide +kernel

/-! ## C18: unicode escapes -/

/-- Inside any well-formed literal, `\uXXXX` of a non-surrogate unit decodes to the UTF-8 form of that code point. -/
theorem C18_unicode (a : Accel) (p sp q sq h : Text) (u : Nat) (hp : StrChars p sp) (hq : StrChars q sq) (hx : Hex4 h u)
    (h1 : ¬ HighSurrogate u) (h2 : ¬ LowSurrogate u) :
    parse a.traits (0x5b :: 0x22 :: (p ++ 0x5c :: 0x75 :: (h ++ q)) ++ [0x22, 0x5d]) =
      some (.arr .array [.str .string (sp ++ utf8 u ++ sq)]) := by
  have happ : ∀ {x sx y sy : Text}, StrChars x sx → StrChars y sy → StrChars (x ++ y) (sx ++ sy) := by
    intro x sx y sy hx hy
    induction hx with
    | nil => exact hy
    | cons h _ ih => simpa using StrChars.cons h ih
  have hs : Str (0x22 :: ((p ++ 0x5c :: 0x75 :: (h ++ q)) ++ [0x22])) (sp ++ utf8 u ++ sq) := by
    refine ⟨_, ?_, rfl⟩
    rw [List.append_assoc]
    exact happ hp (StrChars.cons (.unicode hx h1 h2) hq)
  have := C01_parse_accepts_json a _ _ (⟨rfl, [], _, [], Samples.wsNil, .arr (.last (w₁ := []) (w₂ := []) Samples.wsNil (.str hs) Samples.wsNil),
    Samples.wsNil, rfl⟩ : JsonText rfc8259 _ (.arr [.str _]))
  simpa [Doc.toValue, Doc.toValues] using this

/-- A surrogate pair decodes to the UTF-8 form of the code point it encodes. -/
theorem C18_pair (a : Accel) (p sp q sq h₁ h₂ : Text) (u₁ u₂ : Nat) (hp : StrChars p sp) (hq : StrChars q sq) (hx₁ : Hex4 h₁ u₁)
    (hx₂ : Hex4 h₂ u₂) (h1 : HighSurrogate u₁) (h2 : LowSurrogate u₂) :
    parse a.traits (0x5b :: 0x22 :: (p ++ 0x5c :: 0x75 :: h₁ ++ 0x5c :: 0x75 :: (h₂ ++ q)) ++ [0x22, 0x5d]) =
      some (.arr .array [.str .string (sp ++ utf8 (0x10000 + (u₁ - 0xD800) * 0x400 + (u₂ - 0xDC00)) ++ sq)]) := by
  have happ : ∀ {x sx y sy : Text}, StrChars x sx → StrChars y sy → StrChars (x ++ y) (sx ++ sy) := by
    intro x sx y sy hx hy
    induction hx with
    | nil => exact hy
    | cons h _ ih => simpa using StrChars.cons h ih
  obtain ⟨cp, hcp⟩ : ∃ cp, cp = 0x10000 + (u₁ - 0xD800) * 0x400 + (u₂ - 0xDC00) := ⟨_, rfl⟩
  rw [← hcp]
  have hs : Str (0x22 :: ((p ++ ((0x5c :: 0x75 :: h₁ ++ 0x5c :: 0x75 :: h₂) ++ q)) ++ [0x22])) (sp ++ (utf8 cp ++ sq)) := by
    refine ⟨_, ?_, rfl⟩
    exact happ hp (StrChars.cons (.pair hx₁ hx₂ h1 h2 hcp) hq)
  have := C01_parse_accepts_json a _ _ (⟨rfl, [], _, [], Samples.wsNil, .arr (.last (w₁ := []) (w₂ := []) Samples.wsNil (.str hs) Samples.wsNil),
    Samples.wsNil, rfl⟩ : JsonText rfc8259 _ (.arr [.str _]))
  simpa [Doc.toValue, Doc.toValues] using this

/-- Both spellings of a hexadecimal digit. -/
example : Hex4 [0x30, 0x30, 0x65, 0x39] 0xe9 ∧ Hex4 [0x44, 0x38, 0x33, 0x44] 0xD83D ∧ Hex4 [0x44, 0x45, 0x30, 0x30] 0xDE00 :=
  ⟨Samples.hex1, Samples.hex2, Samples.hex3⟩

end Meojson
