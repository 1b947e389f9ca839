import Verif.Model.Serialize
import Verif.Proofs.Swar
import Verif.Spec.WellFormed

/-!
# Lemmas: escaping
-/

set_option autoImplicit false

namespace Meojson
open Spec

/-- Escaped form of one byte. -/
def escByte (ch : UInt8) : Bytes :=
  match escapeLetter ch with
  | some e => [0x5c, e]
  | none => if ch < 0x20 then [0x5c, 0x75, 0x30, 0x30, hexDigit (ch >>> 4), hexDigit (ch &&& 0x0F)] else [ch]

theorem between_append (p s : Bytes) : between (p ++ s) s = p := by simp [between]

theorem escapeLoop_eq (s : Bytes) : ∀ (result p : Bytes), escapeLoop result (p ++ s) s = result ++ p ++ s.flatMap escByte := by
  induction s with
  | nil => intro result p; simp [escapeLoop, between]
  | cons ch s ih =>
    intro result p
    simp only [escapeLoop, between_append, List.flatMap_cons, escByte]
    have ih0 := fun r => ih r []
    simp only [List.nil_append] at ih0
    split
    · next he => rw [ih0, he]; simp
    · next he =>
      rw [he]
      split
      · rw [ih0]; simp
      · have := ih result (p ++ [ch])
        simp at this
        simp [this]

theorem escapeString_eq (s : Bytes) : escapeString s = s.flatMap escByte := by
  have := escapeLoop_eq s [] []
  simpa [escapeString] using this

private theorem strChar_u {a b c : UInt8} (h : hexVal a ≠ none ∧ hexVal b ≠ none ∧ 16 * (hexVal a).getD 0 + (hexVal b).getD 0 = c.toNat ∧
    utf8 c.toNat = [c] ∧ c.toNat < 0x20) : StrChar [0x5c, 0x75, 0x30, 0x30, a, b] [c] := by
  obtain ⟨h1, h2, h3, h4, h5⟩ := h
  cases ha : hexVal a with
  | none => exact absurd ha h1
  | some x =>
    cases hb : hexVal b with
    | none => exact absurd hb h2
    | some y =>
      rw [ha, hb] at h3
      simp at h3
      rw [← h4]
      refine StrChar.unicode (h := [0x30, 0x30, a, b]) ⟨0x30, 0x30, a, b, 0, 0, x, y, rfl, rfl, rfl, ha, hb, by omega⟩ ?_ ?_ <;>
        (simp only [HighSurrogate, LowSurrogate]; omega)

/-- The bytes that are written as `\u00XX`. -/
private theorem esc_hex : ∀ c : UInt8, escapeLetter c = none → c < 0x20 →
    hexVal (hexDigit (c >>> 4)) ≠ none ∧ hexVal (hexDigit (c &&& 0x0F)) ≠ none ∧
      16 * (hexVal (hexDigit (c >>> 4))).getD 0 + (hexVal (hexDigit (c &&& 0x0F))).getD 0 = c.toNat ∧ utf8 c.toNat = [c] ∧ c.toNat < 0x20 := by
  apply uint8_forall
  decide +kernel

private theorem esc_plain : ∀ c : UInt8, escapeLetter c = none → ¬ c < 0x20 → Unescaped c := by
  apply uint8_forall
  unfold Unescaped
  decide +kernel

theorem escapeLetter_simple {c e : UInt8} (h : escapeLetter c = some e) : SimpleEscape e c := by
  unfold escapeLetter at h
  repeat (split at h; next hc => (subst hc; cases h; constructor))
  simp at h

theorem escByte_char (c : UInt8) : StrChar (escByte c) [c] := by
  unfold escByte
  split
  · next e he => exact .simple (escapeLetter_simple he)
  · next he =>
    split
    · next hc => exact strChar_u (esc_hex c he hc)
    · next hc => exact .plain (esc_plain c he hc)

theorem escape_chars (s : Bytes) : StrChars (escapeString s) s := by
  rw [escapeString_eq]
  induction s with
  | nil => exact .nil
  | cons c s ih => simpa using StrChars.cons (escByte_char c) ih

theorem escape_str (s : Bytes) : Str (0x22 :: (escapeString s ++ [0x22])) s := ⟨_, escape_chars s, rfl⟩

theorem escByte_printable : ∀ c : UInt8, ∀ d ∈ escByte c, 0x20 ≤ d ∧ (0x80 ≤ d → d = c) := by
  apply uint8_forall
  decide +kernel

theorem escapeString_printable (s : Bytes) : ∀ d ∈ escapeString s, 0x20 ≤ d ∧ (0x80 ≤ d → d ∈ s) := by
  rw [escapeString_eq]
  intro d hd
  obtain ⟨c, hc, hd⟩ := List.mem_flatMap.1 hd
  obtain ⟨h1, h2⟩ := escByte_printable c d hd
  exact ⟨h1, fun h => h2 h ▸ hc⟩

theorem number_ascii {t : Text} (h : Number t) : ∀ c ∈ t, 0x20 ≤ c ∧ c < 0x80 := by
  have hd : ∀ c : UInt8, Digit c → 0x20 ≤ c ∧ c < 0x80 := by
    apply uint8_forall
    unfold Digit
    decide +kernel
  obtain ⟨sign, i, f, e, hs, hi, hf, he, rfl⟩ := h
  intro c hc
  simp only [List.mem_append] at hc
  rcases hc with ((hc | hc) | hc) | hc
  · rcases hs with rfl | rfl
    · simp at hc
    · simp at hc; subst hc; decide
  · rcases hi with rfl | ⟨⟨-, hi⟩, -⟩
    · simp at hc; subst hc; decide
    · exact hd c (hi c hc)
  · rcases hf with rfl | ⟨ds, ⟨-, hds⟩, rfl⟩
    · simp at hc
    · rcases List.mem_cons.1 hc with rfl | hc
      · decide
      · exact hd c (hds c hc)
  · rcases he with rfl | ⟨x, sg, ds, hx, hsg, ⟨-, hds⟩, rfl⟩
    · simp at hc
    · rcases List.mem_cons.1 hc with rfl | hc
      · rcases hx with rfl | rfl <;> decide
      · rcases List.mem_append.1 hc with hc | hc
        · rcases hsg with rfl | rfl | rfl <;> simp at hc <;> subst hc <;> decide
        · exact hd c (hds c hc)

end Meojson
