/-!
# Specification: JSON (RFC 8259) and JSONC texts

Independent of the model. A grammar is an inductive relation between a text and the document it
spells. `Doc` keeps the members of an object in source order.
-/

namespace Meojson.Spec

/-- A text. -/
abbrev Text := List UInt8

/-- What a JSON text spells. Numbers are kept as text, because JSON does not bound their precision. -/
inductive Doc where
  | null
  | bool (b : Bool)
  | num (text : Text)
  | str (s : Text)
  | arr (elems : List Doc)
  | obj (members : List (Text × Doc))

/-! ### Numbers: RFC 8259 section 6 -/

/-- `DIGIT` -/
def Digit (c : UInt8) : Prop := 0x30 ≤ c ∧ c ≤ 0x39

/-- `1*DIGIT` -/
def Digits (t : Text) : Prop := t ≠ [] ∧ ∀ c ∈ t, Digit c

/-- `int = zero / ( digit1-9 *DIGIT )` -/
def IntPart (t : Text) : Prop := t = [0x30] ∨ (Digits t ∧ t.head? ≠ some 0x30)

/-- `[ frac ]`, `frac = decimal-point 1*DIGIT` -/
def FracPart (t : Text) : Prop := t = [] ∨ ∃ ds, Digits ds ∧ t = 0x2e :: ds

/-- `[ exp ]`, `exp = e [ minus / plus ] 1*DIGIT` -/
def ExpPart (t : Text) : Prop :=
  t = [] ∨ ∃ e sign ds, (e = 0x65 ∨ e = 0x45) ∧ (sign = [] ∨ sign = [0x2b] ∨ sign = [0x2d]) ∧
    Digits ds ∧ t = e :: (sign ++ ds)

/-- `number = [ minus ] int [ frac ] [ exp ]` -/
def Number (t : Text) : Prop :=
  ∃ sign i f e, (sign = [] ∨ sign = [0x2d]) ∧ IntPart i ∧ FracPart f ∧ ExpPart e ∧ t = sign ++ i ++ f ++ e

/-! ### Strings: RFC 8259 section 7 -/

/-- Value of a hexadecimal digit. -/
def hexVal (c : UInt8) : Option Nat :=
  let n := c.toNat
  if 48 ≤ n ∧ n ≤ 57 then some (n - 48)
  else if 97 ≤ n ∧ n ≤ 102 then some (n - 97 + 10)
  else if 65 ≤ n ∧ n ≤ 70 then some (n - 65 + 10)
  else none

/-- `Hex4 t u`: `t` is four hexadecimal digits spelling the code unit `u`. -/
def Hex4 (t : Text) (u : Nat) : Prop :=
  ∃ a b c d x y z w, t = [a, b, c, d] ∧ hexVal a = some x ∧ hexVal b = some y ∧ hexVal c = some z ∧
    hexVal d = some w ∧ u = 4096 * x + 256 * y + 16 * z + w

def HighSurrogate (u : Nat) : Prop := 0xD800 ≤ u ∧ u ≤ 0xDBFF
def LowSurrogate (u : Nat) : Prop := 0xDC00 ≤ u ∧ u ≤ 0xDFFF

/-- UTF-8 (RFC 3629) of a scalar value, by Lean's own encoder. -/
def utf8 (cp : Nat) : Text := String.utf8EncodeChar (Char.ofNat cp)

/-- The code point of a surrogate pair (RFC 2781 section 2.2). -/
def pairCp (hi lo : Nat) : Nat := 0x10000 + (hi - 0xD800) * 0x400 + (lo - 0xDC00)

/-- The character escapes `\" \\ \/ \b \f \n \r \t`: letter and byte. -/
inductive SimpleEscape : UInt8 → UInt8 → Prop
  | quote : SimpleEscape 0x22 0x22
  | backslash : SimpleEscape 0x5c 0x5c
  | slash : SimpleEscape 0x2f 0x2f
  | b : SimpleEscape 0x62 0x08
  | f : SimpleEscape 0x66 0x0c
  | n : SimpleEscape 0x6e 0x0a
  | r : SimpleEscape 0x72 0x0d
  | t : SimpleEscape 0x74 0x09

/-- A byte that may stand unescaped in a string. RFC 8259 asks for UTF-8; bytes from 0x80 up are all
admitted here, i.e. encoding validity is not part of this grammar. -/
def Unescaped (c : UInt8) : Prop := 0x20 ≤ c ∧ c ≠ 0x22 ∧ c ≠ 0x5c

/-- One `char` of a string and the bytes it stands for. -/
inductive StrChar : Text → Text → Prop
  | plain {c} : Unescaped c → StrChar [c] [c]
  | simple {l c} : SimpleEscape l c → StrChar [0x5c, l] [c]
  | unicode {h u} : Hex4 h u → ¬ HighSurrogate u → ¬ LowSurrogate u → StrChar (0x5c :: 0x75 :: h) (utf8 u)
  | pair {h₁ u₁ h₂ u₂ cp} : Hex4 h₁ u₁ → Hex4 h₂ u₂ → HighSurrogate u₁ → LowSurrogate u₂ → cp = pairCp u₁ u₂ →
      StrChar (0x5c :: 0x75 :: h₁ ++ 0x5c :: 0x75 :: h₂) (utf8 cp)

/-- `*char` -/
inductive StrChars : Text → Text → Prop
  | nil : StrChars [] []
  | cons {t s ts ss} : StrChar t s → StrChars ts ss → StrChars (t ++ ts) (s ++ ss)

/-- `string = quotation-mark *char quotation-mark` -/
def Str (t s : Text) : Prop := ∃ body, StrChars body s ∧ t = 0x22 :: (body ++ [0x22])

/-! ### White space and comments -/

def WsChar (c : UInt8) : Prop := c = 0x20 ∨ c = 0x09 ∨ c = 0x0a ∨ c = 0x0d

/-- `ws` -/
def Ws (t : Text) : Prop := ∀ c ∈ t, WsChar c

/-- A comment that ends before the end of the text: `// ... LF` or `/* ... */`. -/
inductive Comment : Text → Prop
  | line {b} : 0x0a ∉ b → Comment (0x2f :: 0x2f :: (b ++ [0x0a]))
  | block {b} : ¬ [0x2a, 0x2f] <:+: b ++ [0x2a] → Comment (0x2f :: 0x2a :: (b ++ [0x2a, 0x2f]))

/-- White space and comments. -/
inductive WsC : Text → Prop
  | nil : WsC []
  | char {c t} : WsChar c → WsC t → WsC (c :: t)
  | comment {k t} : Comment k → WsC t → WsC (k ++ t)

/-! ### Values -/

/-- The parameters in which dialects differ: what may stand between tokens, what a string literal is,
whether a comma may stand before a closing bracket, and whether the keys of an object have to be distinct. -/
structure Dialect where
  ws : Text → Prop
  str : Text → Text → Prop
  trailingComma : Bool
  distinctKeys : Bool

mutual

/-- `value` -/
inductive Val (D : Dialect) : Text → Doc → Prop
  | null : Val D [0x6e, 0x75, 0x6c, 0x6c] .null
  | true : Val D [0x74, 0x72, 0x75, 0x65] (.bool true)
  | false : Val D [0x66, 0x61, 0x6c, 0x73, 0x65] (.bool false)
  | num {t} : Number t → Val D t (.num t)
  | str {t s} : D.str t s → Val D t (.str s)
  | arrEmpty {w} : D.ws w → Val D (0x5b :: (w ++ [0x5d])) (.arr [])
  | arr {t js} : Elems D t js → Val D (0x5b :: (t ++ [0x5d])) (.arr js)
  | objEmpty {w} : D.ws w → Val D (0x7b :: (w ++ [0x7d])) (.obj [])
  /-- The keys of an object are distinct. (RFC 8259: SHOULD be unique; the library documents duplicates as errors.) -/
  | obj {t ms} : Members D t ms → (D.distinctKeys = Bool.true → (ms.map Prod.fst).Nodup) → Val D (0x7b :: (t ++ [0x7d])) (.obj ms)

/-- `ws value ws *( , ws value ws )` and, in some dialects, a final `, ws` -/
inductive Elems (D : Dialect) : Text → List Doc → Prop
  | last {w₁ t j w₂} : D.ws w₁ → Val D t j → D.ws w₂ → Elems D (w₁ ++ t ++ w₂) [j]
  | lastComma {w₁ t j w₂ w₃} : D.trailingComma = Bool.true → D.ws w₁ → Val D t j → D.ws w₂ → D.ws w₃ →
      Elems D (w₁ ++ t ++ w₂ ++ 0x2c :: w₃) [j]
  | cons {w₁ t j w₂ ts js} : D.ws w₁ → Val D t j → D.ws w₂ → Elems D ts js →
      Elems D (w₁ ++ t ++ w₂ ++ 0x2c :: ts) (j :: js)

/-- `ws string ws : ws value ws *( , ws string ws : ws value ws )` -/
inductive Members (D : Dialect) : Text → List (Text × Doc) → Prop
  | last {w₁ kt k w₂ w₃ t j w₄} : D.ws w₁ → D.str kt k → D.ws w₂ → D.ws w₃ → Val D t j → D.ws w₄ →
      Members D (w₁ ++ kt ++ w₂ ++ 0x3a :: (w₃ ++ t ++ w₄)) [(k, j)]
  | lastComma {w₁ kt k w₂ w₃ t j w₄ w₅} : D.trailingComma = Bool.true → D.ws w₁ → D.str kt k → D.ws w₂ → D.ws w₃ →
      Val D t j → D.ws w₄ → D.ws w₅ →
      Members D (w₁ ++ kt ++ w₂ ++ 0x3a :: (w₃ ++ t ++ w₄ ++ 0x2c :: w₅)) [(k, j)]
  | cons {w₁ kt k w₂ w₃ t j w₄ ts ms} : D.ws w₁ → D.str kt k → D.ws w₂ → D.ws w₃ → Val D t j → D.ws w₄ →
      Members D ts ms →
      Members D (w₁ ++ kt ++ w₂ ++ 0x3a :: (w₃ ++ t ++ w₄ ++ 0x2c :: ts)) ((k, j) :: ms)

end

/-- The root is an array or an object. -/
def Doc.isContainer : Doc → Bool
  | .arr _ | .obj _ => true
  | _ => false

/-- `JSON-text = ws value ws`, with a container as root. -/
def JsonText (D : Dialect) (t : Text) (j : Doc) : Prop :=
  j.isContainer = true ∧ ∃ w₁ b w₂, D.ws w₁ ∧ Val D b j ∧ D.ws w₂ ∧ t = w₁ ++ b ++ w₂

/-- RFC 8259, with distinct keys. -/
def rfc8259 : Dialect := ⟨Ws, Str, false, true⟩

/-- RFC 8259, repeated keys allowed. -/
def rfc8259Dup : Dialect := ⟨Ws, Str, false, false⟩

/-- JSON with comments and trailing commas. -/
def jsonc : Dialect := ⟨WsC, Str, true, true⟩

/-- The same, repeated keys allowed. -/
def jsoncDup : Dialect := ⟨WsC, Str, true, false⟩

mutual
/-- Every object in the document has distinct keys. -/
def Doc.Distinct : Doc → Prop
  | .arr js => DistinctAll js
  | .obj ms => (ms.map Prod.fst).Nodup ∧ DistinctMembers ms
  | _ => True
def Doc.DistinctAll : List Doc → Prop
  | [] => True
  | j :: js => j.Distinct ∧ DistinctAll js
def Doc.DistinctMembers : List (Text × Doc) → Prop
  | [] => True
  | (_, j) :: ms => j.Distinct ∧ DistinctMembers ms
end

end Meojson.Spec
