import Verif.Spec.Grammar

/-!
# The string literals the code accepts

RFC 8259 leaves a lone surrogate escape without meaning. The library's reader keeps a pending high half and
accepts more than adjacent pairs: between the halves there may be other `\u` escapes, and with a packed-bytes
trait also plain bytes. `loose` says whether plain bytes are possible.
-/

namespace Meojson.Spec

/-- What may stand between the two halves of a surrogate pair, and the bytes it contributes. -/
inductive Mid (loose : Bool) : Text → Text → Prop
  | nil : Mid loose [] []
  | unicode {h u t s} : Hex4 h u → ¬ HighSurrogate u → ¬ LowSurrogate u → Mid loose t s →
      Mid loose (0x5c :: 0x75 :: (h ++ t)) (utf8 u ++ s)
  | plain {c t s} : loose = true → Unescaped c → Mid loose t s → Mid loose (c :: t) (c :: s)

/-- One character, with gaps allowed inside pairs. -/
inductive LenientChar (loose : Bool) : Text → Text → Prop
  | plain {c} : Unescaped c → LenientChar loose [c] [c]
  | simple {l c} : SimpleEscape l c → LenientChar loose [0x5c, l] [c]
  | unicode {h u} : Hex4 h u → ¬ HighSurrogate u → ¬ LowSurrogate u → LenientChar loose (0x5c :: 0x75 :: h) (utf8 u)
  | pair {h₁ u₁ m ms h₂ u₂ cp} : Hex4 h₁ u₁ → Hex4 h₂ u₂ → HighSurrogate u₁ → LowSurrogate u₂ → Mid loose m ms →
      cp = pairCp u₁ u₂ → LenientChar loose (0x5c :: 0x75 :: (h₁ ++ (m ++ 0x5c :: 0x75 :: h₂))) (ms ++ utf8 cp)

inductive LenientChars (loose : Bool) : Text → Text → Prop
  | nil : LenientChars loose [] []
  | cons {t s ts ss} : LenientChar loose t s → LenientChars loose ts ss → LenientChars loose (t ++ ts) (s ++ ss)

/-- A string literal of the lenient language. -/
def LenientStr (loose : Bool) (t s : Text) : Prop := ∃ body, LenientChars loose body s ∧ t = 0x22 :: (body ++ [0x22])

end Meojson.Spec

namespace Meojson
open Spec

/-- The white space of the two modes: with comments in JSONC. -/
def wsOf (j : Bool) : Text → Prop := if j then WsC else Ws

/-- A text after which the reader does not look for more: end of text, NUL, and in strict mode `/`, in JSONC mode
a `/` that begins no complete comment. A final line comment without line feed counts as end of text. -/
inductive Stop (j : Bool) : Text → Prop
  | eof : Stop j []
  | nul {s} : Stop j (0x00 :: s)
  | slash {s} : j = false → Stop j (0x2f :: s)
  | lineEof {t} : j = true → 0x0a ∉ t → Stop j (0x2f :: 0x2f :: t)
  | badSlash {s} : j = true → s.head? ≠ some 0x2f → s.head? ≠ some 0x2a → Stop j (0x2f :: s)
  | openBlock {s} : j = true → ¬ [0x2a, 0x2f] <:+: s → Stop j (0x2f :: 0x2a :: s)

/-- The dialect the library reads: its white space, its string literals, and in JSONC trailing commas. -/
def lenient (jsonc loose : Bool) : Dialect := ⟨wsOf jsonc, LenientStr loose, jsonc, true⟩

/-- `s` is a text of that dialect, followed by nothing, or by something the reader does not look at. -/
def Reads (jsonc loose : Bool) (s : Text) (j : Doc) : Prop :=
  ∃ t r, JsonText (lenient jsonc loose) t j ∧ Stop jsonc r ∧ s = t ++ r

/-- No `\uD800` to `\uDFFF` occurs in the text. -/
def NoSurrogate (s : Text) : Prop :=
  ∀ h u, Hex4 h u → 0x5c :: 0x75 :: h <:+: s → ¬ HighSurrogate u ∧ ¬ LowSurrogate u

end Meojson
