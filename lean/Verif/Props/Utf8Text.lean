import Verif.Proofs.Utf8Text
import Verif.Props.Serialize
import Verif.Props.Invalid

/-!
# C60: UTF-8 in, UTF-8 out
-/

set_option autoImplicit false

namespace Meojson
open Spec

/-- Whatever `parse` or `parsec` reads from a UTF-8 text, in any build, holds UTF-8 strings and keys only: no escape, surrogate or not, smuggles in anything else. -/
theorem C60_parsed (a : Accel) (k : Bool) (s : Text) (v : Value) (hs : Utf8 s) (h : parser ⟨k, a.traits⟩ s = some v) : v.Utf8 := by
  obtain ⟨j, ⟨t, r, ⟨-, w₁, b, w₂, h1, h2, h3, rfl⟩, hr, rfl⟩, rfl⟩ := parser_sound (cfg := ⟨k, a.traits⟩) (accelOk a) h
  have hD := lenient_keeps k a.traits.isSome
  have hcut : Cut r := by cases hr <;> first | exact cut_nil | exact cut_cons (by decide)
  have h4 := (utf8_cut (utf8_cut hs hcut).1 (hD.ws _ h3)).1
  exact val_utf8 hD h2 (utf8_cut h4 (val_cut hD h2)).2

/-- `["é\uD83D\uDE00"]` -/
example : Utf8 (ascii "[\"" ++ [0xc3, 0xa9] ++ ascii "\\uD83D\\uDE00\"]") ∧ parse Accel.avx2.traits (ascii "[\"" ++ [0xc3, 0xa9] ++ ascii "\\uD83D\\uDE00\"]") =
    some (.arr .array [.str .string [0xc3, 0xa9, 0xf0, 0x9f, 0x98, 0x80]]) :=
  ⟨⟨"[\"é\\uD83D\\uDE00\"]".toList, by decide +kernel⟩, by decide +kernel⟩

/-- A JSON text is UTF-8 exactly when the strings and keys of its value are. -/
theorem C60_text (t : Text) (j : Doc) (h : JsonText rfc8259 t j) : Utf8 t ↔ j.toValue.Utf8 := by
  obtain ⟨-, w₁, b, w₂, h1, h2, h3, rfl⟩ := h
  constructor
  · intro ht
    have hD := rfc8259_keeps
    exact val_utf8 hD h2 (utf8_cut (utf8_cut ht (hD.ws _ h3)).1 (val_cut hD h2)).2
  · intro hj
    exact utf8_append (utf8_append (ws_utf8 h1) (utf8_val rfc8259_gives h2 hj)) (ws_utf8 h3)

/-- What `dumps()` and `dumps(n)` write is UTF-8 exactly when the strings and keys of the value are. -/
theorem C60_written (v : Value) (hv : v.Json) (indent : Option Nat) : ∃ t, v.dumps indent = .ok t ∧ (Utf8 t ↔ v.Utf8) := by
  obtain ⟨t, j, h1, h2, rfl, -⟩ := C12_standard v hv indent
  exact ⟨t, h1, val_utf8 rfc8259_keeps h2, utf8_val rfc8259_gives h2⟩

/-- The encoding is not checked: a text that is not UTF-8 is read, and its bytes are kept and written again. -/
theorem C60_unchecked (a : Accel) (s : Bytes) : ∃ t, (Value.arr .array [.str .string s]).dumps = .ok t ∧ parse a.traits t = some (.arr .array [.str .string s]) ∧
    (Utf8 t ↔ Utf8 s) := by
  have hj : (Value.arr .array [.str .string s]).Json := by simp [Value.Json, Value.Wf, Value.WfAll]
  obtain ⟨t, h1, h2, -⟩ := C08_roundtrip a _ hj (.inl rfl)
  obtain ⟨t', h3, h4⟩ := C60_written _ hj none
  obtain rfl : t = t' := by rw [h1] at h3; exact Out.ok.inj h3
  refine ⟨t, h1, h2, h4.trans ?_⟩
  simp [Value.Utf8, Value.texts, Value.textsAll]

example : ¬ Utf8 [0x80] := by
  rintro h
  rcases cut_of_utf8 h with h | ⟨x, r, h, hx⟩
  · simp at h
  · obtain ⟨rfl, -⟩ := List.cons.inj h
    revert hx; unfold LeadByte; decide

end Meojson
