import Verif.Proofs.Distinct
import Verif.Proofs.Simd
import Verif.Props.Samples

/-!
# Properties of `json::parse` and `json::parsec`: what is accepted, and what the result is

`a : Accel` ranges over the builds of the parser (scalar, 4 and 8 byte words of either byte order, SSE2 and SSE4.1, AVX2, NEON).
-/

set_option autoImplicit false

namespace Meojson
open Spec

/-! ## C01: every JSON text is accepted -/

/-- Every RFC 8259 text with a container as root and distinct keys is accepted by every build, with the value it denotes. -/
theorem C01_parse_accepts_json (a : Accel) (t : Text) (j : Doc) (h : JsonText rfc8259 t j) :
    parse a.traits t = some j.toValue :=
  parser_complete (cfg := ⟨false, a.traits⟩) (accelOk a)
    (rfc_reads false h)

example : JsonText rfc8259 Samples.text Samples.doc := Samples.valid
example : parse Accel.avx2.traits Samples.text = some (.obj .object
    [([0x6b], .arr .array [.str .number [0x31, 0x2e, 0x35, 0x65, 0x33], .str .string [0xc3, 0xa9, 0xf0, 0x9f, 0x98, 0x80]])]) := by
  decide +kernel

/-- The document a JSON text spells is determined by the text. -/
theorem C01_reading_is_unique (t : Text) (j j' : Doc) (h : JsonText rfc8259 t j) (h' : JsonText rfc8259 t j') : j = j' := by
  have hL : Lexical false rfc8259 := ⟨fun _ h => h, fun _ _ h => str_lenient h⟩
  obtain ⟨hj, w₁, b, w₂, h1, h2, h3, rfl⟩ := h
  obtain ⟨hj', w₁', b', w₂', h1', h2', h3', e⟩ := h'
  obtain ⟨c, y, rfl, hc1⟩ := val_sig hL h2
  obtain ⟨c', y', rfl, hc1'⟩ := val_sig hL h2'
  have e1 : w₁ ++ c :: (y ++ w₂) = w₁' ++ c' :: (y' ++ w₂') := by simpa using e
  obtain ⟨rfl, rfl, e2⟩ := ws_det (hL.ws _ h1) (hL.ws _ h1') hc1.1 hc1'.1 e1
  exact (val_det hL h2 _ _ _ _ h2' (by simpa using e2) (.inl hj) (.inl hj')).2

example : JsonText rfc8259 Samples.text Samples.doc := Samples.valid

/-! ## C02: nothing else is accepted. False as stated. -/

/-- `{}/x` is accepted by every build and is no JSON text. -/
theorem C02_refuted : ∃ s, (∀ a : Accel, parse a.traits s = some (.obj .object [])) ∧ ¬ ∃ j, JsonText rfc8259 s j := by
  refine ⟨[0x7b, 0x7d, 0x2f, 0x78], fun a => ?_, ?_⟩
  · have := parser_complete (cfg := ⟨false, a.traits⟩) (accelOk a)
      ⟨_, _, emptyObject_text false false, .slash (s := [0x78]) rfl, rfl⟩
    rw [← emptyObject_value]; exact this
  · rintro ⟨j, h⟩
    obtain ⟨c, h1, h2⟩ := jsonText_last rfl h
    simp at h1
    subst h1
    revert h2; unfold WsChar; decide

/-- Full statement: `parse a s = some v → ∃ j, JsonText rfc8259 s j ∧ v = j.toValue`. Proved: an accepted text begins with a text of
the grammar, whose value is the result; what follows is empty or begins with NUL or `/`. Texts with surrogate
escapes are covered by `C02_all_partial`. -/
theorem C02_partial (a : Accel) (s : Text) (v : Value) (hs : NoSurrogate s) (h : parse a.traits s = some v) :
    ∃ t r j, s = t ++ r ∧ JsonText rfc8259 t j ∧ v = j.toValue ∧
      (r = [] ∨ r.head? = some 0x00 ∨ r.head? = some 0x2f) := by
  obtain ⟨j, ⟨t, r, h1, h2, rfl⟩, rfl⟩ := parser_sound (cfg := ⟨false, a.traits⟩) (accelOk a) h
  refine ⟨t, r, j, rfl, rfc_of_lenient hs h1, rfl, ?_⟩
  cases h2 <;> simp_all

/-- A text that holds neither NUL nor `/` nor a surrogate escape is accepted only if it is JSON. -/
theorem C02_plain_partial (a : Accel) (s : Text) (v : Value) (hs : NoSurrogate s) (h0 : 0x00 ∉ s) (hsl : 0x2f ∉ s)
    (h : parse a.traits s = some v) : ∃ j, JsonText rfc8259 s j ∧ v = j.toValue := by
  obtain ⟨t, r, j, rfl, h1, h2, h3⟩ := C02_partial a s v hs h
  have hr : r = [] := by
    cases r with
    | nil => rfl
    | cons c r => rcases h3 with h3 | h3 | h3 <;> simp at h3 <;> subst h3 <;> simp at h0 hsl
  subst hr
  exact ⟨j, by simpa using h1, h2⟩

/-- With surrogate escapes: the same for the dialect in which the halves of a pair may stand apart (`LenientStr`). -/
theorem C02_all_partial (a : Accel) (s : Text) (v : Value) (h : parse a.traits s = some v) :
    ∃ j, Reads false (a.traits.isSome) s j ∧ v = j.toValue :=
  parser_sound (cfg := ⟨false, a.traits⟩) (accelOk a) h

/-- For the scalar build this describes the accepted texts exactly. -/
theorem C02_exact_partial (s : Text) (v : Value) :
    parse none s = some v ↔ ∃ j, Reads false false s j ∧ v = j.toValue := by
  constructor
  · exact parser_sound (cfg := ⟨false, none⟩) trivial
  · rintro ⟨j, h, rfl⟩
    exact parser_complete (cfg := ⟨false, none⟩) trivial h

/-- `[1]` meets the hypotheses. -/
example : NoSurrogate [0x5b, 0x31, 0x5d] ∧ 0x00 ∉ [0x5b, 0x31, 0x5d] ∧ (0x2f : UInt8) ∉ [0x5b, 0x31, 0x5d] ∧
    parse Accel.neon.traits [0x5b, 0x31, 0x5d] = some (.arr .array [.str .number [0x31]]) := by
  refine ⟨?_, by decide, by decide, by decide +kernel⟩
  rintro h u - hi
  have : (0x5c : UInt8) ∈ [0x5b, 0x31, 0x5d] := hi.subset (by simp)
  simp at this

/-! ## C03: nothing but white space after the root. False as stated. -/

/-- A NUL or a slash hides everything after it; in JSONC mode so does a slash that begins no comment. -/
theorem C03_refuted (a : Accel) (g : Text) :
    parse a.traits ([0x7b, 0x7d, 0x2f] ++ g) = some (.obj .object []) ∧
    parse a.traits ([0x7b, 0x7d, 0x00] ++ g) = some (.obj .object []) ∧
    parsec a.traits ([0x7b, 0x7d, 0x00] ++ g) = some (.obj .object []) ∧
    parsec a.traits ([0x7b, 0x7d, 0x2f, 0x78] ++ g) = some (.obj .object []) := by
  have he := fun k => emptyObject_text k false
  refine ⟨?_, ?_, ?_, ?_⟩ <;> rw [← emptyObject_value]
  · exact parser_complete (cfg := ⟨false, a.traits⟩) (accelOk a) ⟨_, 0x2f :: g, he _, .slash rfl, rfl⟩
  · exact parser_complete (cfg := ⟨false, a.traits⟩) (accelOk a) ⟨_, 0x00 :: g, he _, .nul, rfl⟩
  · exact parser_complete (cfg := ⟨true, a.traits⟩) (accelOk a) ⟨_, 0x00 :: g, he _, .nul, rfl⟩
  · exact parser_complete (cfg := ⟨true, a.traits⟩) (accelOk a) ⟨_, 0x2f :: 0x78 :: g, he _, .badSlash rfl (by simp) (by simp), rfl⟩

/-- Full statement: what follows the root is white space. Proved: it is white space (JSONC: and comments) followed by nothing, by NUL, or by `/`
(JSONC: by a final line comment or a `/` that begins no complete comment). -/
theorem C03_partial (a : Accel) (k : Bool) (s : Text) (v : Value) (h : parser ⟨k, a.traits⟩ s = some v) :
    ∃ w t w' r j, s = w ++ t ++ w' ++ r ∧ wsOf k w ∧ Val (lenient k a.traits.isSome) t j ∧ j.isContainer = true ∧ wsOf k w' ∧
      v = j.toValue ∧
      (r = [] ∨ r.head? = some 0x00 ∨
        (r.head? = some 0x2f ∧ (k = true → (∃ x, r = 0x2f :: 0x2f :: x ∧ 0x0a ∉ x) ∨ ¬ ∃ c y, Comment c ∧ r = c ++ y))) := by
  obtain ⟨j, ⟨t, r, ⟨hj, w₁, b, w₂, h1, h2, h3, rfl⟩, hr, rfl⟩, rfl⟩ := parser_sound (cfg := ⟨k, a.traits⟩) (accelOk a) h
  refine ⟨w₁, b, w₂, r, j, rfl, h1, h2, hj, h3, rfl, ?_⟩
  cases hr with
  | eof => exact .inl rfl
  | nul => exact .inr (.inl rfl)
  | slash hk => exact .inr (.inr ⟨rfl, by intro hk'; exact absurd (hk.symm.trans hk') (by decide)⟩)
  | lineEof _ hx => exact .inr (.inr ⟨rfl, fun _ => .inl ⟨_, rfl, hx⟩⟩)
  | badSlash _ hx hy =>
    refine .inr (.inr ⟨rfl, fun _ => .inr ?_⟩)
    rintro ⟨c, y, hc, e⟩
    cases hc <;> simp at e <;> simp [e] at hx hy
  | @openBlock x _ hx =>
    refine .inr (.inr ⟨rfl, fun _ => .inr ?_⟩)
    rintro ⟨c, y, hc, e⟩
    cases hc with
    | line _ => simp at e
    | @block b _ => simp at e; exact hx ⟨b, y, by simp [e]⟩

example : (parser ⟨true, Accel.avx2.traits⟩ (ascii "[1] // done")).isSome = true := by decide +kernel
example : (parser ⟨false, Accel.avx2.traits⟩ (ascii "[1] \t ")).isSome = true := by decide +kernel

/-! ## C14: a repeated key is rejected -/

/-- Among the RFC 8259 texts in which keys may repeat, `parse` accepts exactly those whose objects all have distinct keys.
Keys are compared after decoding. -/
theorem C14_repeated_key_rejected (a : Accel) (t : Text) (j : Doc) (h : JsonText rfc8259Dup t j) :
    (j.Distinct → parse a.traits t = some j.toValue) ∧ (¬ j.Distinct → parse a.traits t = none) := by
  constructor
  · intro hj
    exact C01_parse_accepts_json a t j (jsonText_of_distinct h hj)
  · intro hj
    cases hp : parse a.traits t with
    | none => rfl
    | some v =>
      obtain ⟨j', h', -⟩ := parser_sound (cfg := ⟨false, a.traits⟩) (accelOk a) hp
      exact absurd h' (not_reads_dup (k := false)
        (jsonText_mono (D := rfc8259Dup) (D' := ⟨wsOf false, LenientStr true, false, false⟩) (fun _ h => h) (fun h => h) (fun h => h) h
          (fun t' s _ h => str_lenient h)) hj)

/-- The same for `parsec` and JSONC. -/
theorem C14_repeated_key_rejected_jsonc (a : Accel) (t : Text) (j : Doc) (h : JsonText jsoncDup t j) :
    (j.Distinct → parsec a.traits t = some j.toValue) ∧ (¬ j.Distinct → parsec a.traits t = none) := by
  constructor
  · intro hj
    exact parser_complete (cfg := ⟨true, a.traits⟩) (accelOk a)
      (jsonc_reads (jsonText_of_distinct h hj))
  · intro hj
    cases hp : parsec a.traits t with
    | none => rfl
    | some v =>
      obtain ⟨j', h', -⟩ := parser_sound (cfg := ⟨true, a.traits⟩) (accelOk a) hp
      exact absurd h' (not_reads_dup (k := true)
        (jsonText_mono (D := jsoncDup) (D' := ⟨wsOf true, LenientStr true, true, false⟩) (fun _ h => h) (fun h => h) (fun h => h) h
          (fun t' s _ h => str_lenient h)) hj)

/-- `{"k":1.5e3,"k":1.5e3}` -/
example : ∃ t j, JsonText rfc8259Dup t j ∧ ¬ j.Distinct := by
  refine ⟨_, .obj [([0x6b], .num _), ([0x6b], .num _)], ⟨rfl, _, _, _, Samples.wsNil, .obj (.cons Samples.wsNil Samples.strK Samples.wsNil
    Samples.wsNil (.num Samples.number) Samples.wsNil (.last Samples.wsNil Samples.strK Samples.wsNil Samples.wsNil (.num Samples.number)
    Samples.wsNil)) (by simp [rfc8259Dup]), Samples.wsNil, rfl⟩, by simp [Doc.Distinct]⟩
example : parse Accel.avx2.traits (ascii "[{\"a\":1,\"b\":{\"x\":1,\"\\u0078\":2}}]") = none := by decide +kernel

/-! ## C15: parsec accepts everything parse accepts. False as stated. -/

theorem C15_refuted : ∃ s v, ∀ a : Accel, parse a.traits s = some v ∧ parsec a.traits s = none := by
  refine ⟨ascii "{}/**/x", .obj .object [], fun a => ?_⟩
  cases a with
  | none => decide +kernel
  | u32 le => cases le <;> decide +kernel
  | u64 le => cases le <;> decide +kernel
  | sse b => cases b <;> decide +kernel
  | avx2 => decide +kernel
  | neon => decide +kernel

/-- Full statement: `parse a s = some v → parsec a s = some v`. Proved: the only exception is a text in which a `/` follows the root. -/
theorem C15_partial (a : Accel) (s : Text) (v : Value) (h : parse a.traits s = some v) :
    parsec a.traits s = some v ∨
      ∃ t q j, s = t ++ 0x2f :: q ∧ JsonText (lenient false a.traits.isSome) t j ∧ v = j.toValue := by
  rcases parsec_of_parse (accelOk a) h with h | ⟨t, q, j, h1, h2, h3⟩
  · exact .inl h
  · exact .inr ⟨t, q, j, h3, h1, h2⟩

/-- In particular RFC 8259 texts are accepted by both, with the same result. -/
theorem C15_json_partial (a : Accel) (t : Text) (j : Doc) (h : JsonText rfc8259 t j) : parsec a.traits t = some j.toValue :=
  parser_complete (cfg := ⟨true, a.traits⟩) (accelOk a)
    (rfc_reads true h)

example : ∃ v, parse Accel.avx2.traits Samples.text = some v := ⟨_, C01_parse_accepts_json .avx2 _ _ Samples.valid⟩

/-! ## C16: comments and trailing commas -/

/-- `parsec` accepts every JSONC text. Removing comments, white space and trailing commas gives an RFC 8259 text that `parse` reads to the same value. -/
theorem C16_jsonc (a : Accel) (t : Text) (j : Doc) (h : JsonText jsonc t j) :
    parsec a.traits t = some j.toValue ∧
    ∃ t', t'.Sublist t ∧ JsonText rfc8259 t' j ∧ parse a.traits t' = some j.toValue := by
  constructor
  · exact parser_complete (cfg := ⟨true, a.traits⟩) (accelOk a)
      (jsonc_reads h)
  · obtain ⟨hj, w₁, b, w₂, h1, h2, h3, rfl⟩ := h
    obtain ⟨b', hb, h4⟩ := val_erase (D := jsonc) (D' := rfc8259) Samples.wsNil (fun _ _ h => h) (fun h => h) h2
    have h5 : JsonText rfc8259 b' j := ⟨hj, [], b', [], Samples.wsNil, h4, Samples.wsNil, by simp⟩
    exact ⟨b', hb.trans (List.IsInfix.sublist ⟨w₁, w₂, rfl⟩), h5, C01_parse_accepts_json a _ _ h5⟩

/-- A final line comment needs no line feed. -/
theorem C16_final_line_comment (a : Accel) (t x : Text) (j : Doc) (h : JsonText jsonc t j) (hx : 0x0a ∉ x) :
    parsec a.traits (t ++ [0x2f, 0x2f] ++ x) = some j.toValue :=
  parser_complete (cfg := ⟨true, a.traits⟩) (accelOk a)
    ⟨t, 0x2f :: 0x2f :: x, jsonText_mono (D := jsonc) (D' := lenient true false) (fun _ h => h) (fun h => h) (fun h => h) h (fun _ _ _ h => str_lenient h),
      .lineEof rfl hx, by simp⟩

/-- Conversely, an accepted text (without surrogate escapes, see C04) begins with a JSONC text whose value is the result; what follows is
described by C03. -/
theorem C16_only_jsonc (a : Accel) (s : Text) (v : Value) (hs : NoSurrogate s) (h : parsec a.traits s = some v) :
    ∃ t r j, s = t ++ r ∧ JsonText jsonc t j ∧ v = j.toValue ∧ Stop true r := by
  obtain ⟨j, ⟨t, r, h1, h2, rfl⟩, rfl⟩ := parser_sound (cfg := ⟨true, a.traits⟩) (accelOk a) h
  exact ⟨t, r, j, rfl, jsonc_of_lenient hs h1, rfl, h2⟩

/-- `/**/[1.5e3,]` -/
example : JsonText jsonc ([0x2f, 0x2a, 0x2a, 0x2f] ++ 0x5b :: (([] ++ [0x31, 0x2e, 0x35, 0x65, 0x33] ++ [] ++ 0x2c :: []) ++ [0x5d]) ++ [])
    (.arr [.num [0x31, 0x2e, 0x35, 0x65, 0x33]]) :=
  ⟨rfl, _, _, _, .comment (k := [0x2f, 0x2a, 0x2a, 0x2f]) (t := [])
      (.block (b := []) (by simp [List.infix_cons_iff])) .nil,
    .arr (.lastComma rfl .nil (.num Samples.number) .nil .nil), .nil, rfl⟩
example : (parsec Accel.avx2.traits (ascii "[1, // one\n2,/* two */]")).isSome = true := by decide +kernel

/-! ## C19: number texts -/

/-- A token between brackets is read as a number exactly if it is a number of RFC 8259, and its text is kept. -/
theorem C19_number_text (a : Accel) (k : Bool) (t : Text) :
    parser ⟨k, a.traits⟩ (0x5b :: (t ++ [0x5d])) = some (.arr .array [.str .number t]) ↔ Number t := by
  constructor
  · intro h
    obtain ⟨j, ⟨t', r, ⟨hj, w₁, b, w₂, h1, h2, h3, rfl⟩, hr, e⟩, hv⟩ := parser_sound (cfg := ⟨k, a.traits⟩) (accelOk a) h
    cases h2 with
    | arrEmpty _ => simp [Doc.toValue, Doc.toValues] at hv
    | @arr t'' js hels =>
      simp only [Doc.toValue, Value.arr.injEq, true_and] at hv
      match js, hv with
      | [], hv => simp [Doc.toValues] at hv
      | [.num x], hv =>
        simp [Doc.toValues, Doc.toValue] at hv
        subst hv
        cases hels with
        | last _ h _ => cases h; assumption
        | lastComma _ _ h _ _ => cases h; assumption
        | cons _ _ _ h => cases h
      | [.null], hv => simp [Doc.toValues, Doc.toValue] at hv
      | [.bool true], hv => simp [Doc.toValues, Doc.toValue] at hv
      | [.bool false], hv => simp [Doc.toValues, Doc.toValue] at hv
      | [.str _], hv => simp [Doc.toValues, Doc.toValue] at hv
      | [.arr _], hv => simp [Doc.toValues, Doc.toValue] at hv
      | [.obj _], hv => simp [Doc.toValues, Doc.toValue] at hv
      | _ :: _ :: _, hv => simp [Doc.toValues] at hv
    | objEmpty _ => simp [Doc.toValue] at hv
    | obj _ _ => simp [Doc.toValue] at hv
    | _ => simp [Doc.isContainer] at hj
  · intro h
    have ht : JsonText rfc8259 (0x5b :: (t ++ [0x5d])) (.arr [.num t]) :=
      ⟨rfl, [], _, [], Samples.wsNil, .arr (.last (w₁ := []) (w₂ := []) Samples.wsNil (.num h) Samples.wsNil), Samples.wsNil, by simp⟩
    cases k with
    | false => simpa [parse, Doc.toValue, Doc.toValues] using C01_parse_accepts_json a _ _ ht
    | true => simpa [parsec, Doc.toValue, Doc.toValues] using C15_json_partial a _ _ ht

example : Number [0x31, 0x2e, 0x35, 0x65, 0x33] := Samples.number

end Meojson
