import Verif.Model.PackedBytes
import Verif.Spec.Lenient

/-!
# The language each build reads

A build that scans strings block by block looks at the bytes of a block before it knows whether they belong to the string. Whether plain bytes between
the halves of a surrogate pair are passed over depends on how many bytes of text follow them. This grammar therefore relates a piece of text
*and the text after it* to what the piece spells. Apart from that it is the grammar of `Verif.Spec.Grammar`.
-/

set_option autoImplicit false

namespace Meojson.Spec

/-- As `Dialect`; `str r t s`: the literal `t`, followed by `r`, spells `s`. -/
structure LDialect where
  ws : Text → Prop
  str : Text → Text → Text → Prop
  trailingComma : Bool
  distinctKeys : Bool

mutual

/-- `LVal D r t j`: `t`, followed by `r`, spells the value `j`. -/
inductive LVal (D : LDialect) : Text → Text → Doc → Prop
  | null {r} : LVal D r [0x6e, 0x75, 0x6c, 0x6c] .null
  | true {r} : LVal D r [0x74, 0x72, 0x75, 0x65] (.bool true)
  | false {r} : LVal D r [0x66, 0x61, 0x6c, 0x73, 0x65] (.bool false)
  | num {r t} : Number t → LVal D r t (.num t)
  | str {r t s} : D.str r t s → LVal D r t (.str s)
  | arrEmpty {r w} : D.ws w → LVal D r (0x5b :: (w ++ [0x5d])) (.arr [])
  | arr {r t js} : LElems D (0x5d :: r) t js → LVal D r (0x5b :: (t ++ [0x5d])) (.arr js)
  | objEmpty {r w} : D.ws w → LVal D r (0x7b :: (w ++ [0x7d])) (.obj [])
  | obj {r t ms} : LMembers D (0x7d :: r) t ms → (D.distinctKeys = Bool.true → (ms.map Prod.fst).Nodup) →
      LVal D r (0x7b :: (t ++ [0x7d])) (.obj ms)

inductive LElems (D : LDialect) : Text → Text → List Doc → Prop
  | last {r w₁ t j w₂} : D.ws w₁ → LVal D (w₂ ++ r) t j → D.ws w₂ → LElems D r (w₁ ++ t ++ w₂) [j]
  | lastComma {r w₁ t j w₂ w₃} : D.trailingComma = Bool.true → D.ws w₁ → LVal D (w₂ ++ 0x2c :: (w₃ ++ r)) t j → D.ws w₂ → D.ws w₃ →
      LElems D r (w₁ ++ t ++ w₂ ++ 0x2c :: w₃) [j]
  | cons {r w₁ t j w₂ ts js} : D.ws w₁ → LVal D (w₂ ++ 0x2c :: (ts ++ r)) t j → D.ws w₂ → LElems D r ts js →
      LElems D r (w₁ ++ t ++ w₂ ++ 0x2c :: ts) (j :: js)

inductive LMembers (D : LDialect) : Text → Text → List (Text × Doc) → Prop
  | last {r w₁ kt k w₂ w₃ t j w₄} : D.ws w₁ → D.str (w₂ ++ 0x3a :: (w₃ ++ (t ++ (w₄ ++ r)))) kt k → D.ws w₂ → D.ws w₃ →
      LVal D (w₄ ++ r) t j → D.ws w₄ →
      LMembers D r (w₁ ++ kt ++ w₂ ++ 0x3a :: (w₃ ++ t ++ w₄)) [(k, j)]
  | lastComma {r w₁ kt k w₂ w₃ t j w₄ w₅} : D.trailingComma = Bool.true → D.ws w₁ →
      D.str (w₂ ++ 0x3a :: (w₃ ++ (t ++ (w₄ ++ 0x2c :: (w₅ ++ r))))) kt k → D.ws w₂ → D.ws w₃ →
      LVal D (w₄ ++ 0x2c :: (w₅ ++ r)) t j → D.ws w₄ → D.ws w₅ →
      LMembers D r (w₁ ++ kt ++ w₂ ++ 0x3a :: (w₃ ++ t ++ w₄ ++ 0x2c :: w₅)) [(k, j)]
  | cons {r w₁ kt k w₂ w₃ t j w₄ ts ms} : D.ws w₁ →
      D.str (w₂ ++ 0x3a :: (w₃ ++ (t ++ (w₄ ++ 0x2c :: (ts ++ r))))) kt k → D.ws w₂ → D.ws w₃ →
      LVal D (w₄ ++ 0x2c :: (ts ++ r)) t j → D.ws w₄ → LMembers D r ts ms →
      LMembers D r (w₁ ++ kt ++ w₂ ++ 0x3a :: (w₃ ++ t ++ w₄ ++ 0x2c :: ts)) ((k, j) :: ms)

end

/-! ### String literals -/

/-- How a build scans: the size of a block, and whether a block is a number whose most significant byte is the first in memory. -/
structure Blocks where
  step : Nat
  bigEndian : Bool

/-- The plain bytes `p`, followed by the escape `r`, may stand between the halves of a pair. `none`: a build without blocks.

Blocks are counted from the beginning of `p`. Either `p` fills its blocks, or the block in which `p` ends fits into the text. The subtraction with which a
big-endian word looks for a backslash carries into the byte before it, and takes a `]` there for another backslash. -/
def Passes (b : Option Blocks) (p r : Text) : Prop :=
  p = [] ∨ ∃ B, b = some B ∧ (∀ c ∈ p, Unescaped c) ∧
    (B.step ∣ p.length ∨
      ((p.length / B.step + 1) * B.step ≤ (p ++ r).length ∧ (B.bigEndian = true → p.getLast? ≠ some 0x5d)))

/-- What may stand between the two halves of a surrogate pair, and the bytes it contributes: runs of plain bytes, separated by escapes. `pass p r` says
that the run `p` may stand before the escape `r`. -/
inductive MidAt (pass : Text → Text → Prop) : Text → Text → Text → Prop
  | last {r p} : pass p r → MidAt pass r p p
  | unicode {r p h u t s} : pass p (0x5c :: 0x75 :: (h ++ (t ++ r))) → Hex4 h u → ¬ HighSurrogate u → ¬ LowSurrogate u → MidAt pass r t s →
      MidAt pass r (p ++ 0x5c :: 0x75 :: (h ++ t)) (p ++ (utf8 u ++ s))

inductive CharAt (pass : Text → Text → Prop) : Text → Text → Text → Prop
  | plain {r c} : Unescaped c → CharAt pass r [c] [c]
  | simple {r l c} : SimpleEscape l c → CharAt pass r [0x5c, l] [c]
  | unicode {r h u} : Hex4 h u → ¬ HighSurrogate u → ¬ LowSurrogate u → CharAt pass r (0x5c :: 0x75 :: h) (utf8 u)
  | pair {r h₁ u₁ m ms h₂ u₂ cp} : Hex4 h₁ u₁ → Hex4 h₂ u₂ → HighSurrogate u₁ → LowSurrogate u₂ →
      MidAt pass (0x5c :: 0x75 :: (h₂ ++ r)) m ms → cp = pairCp u₁ u₂ →
      CharAt pass r (0x5c :: 0x75 :: (h₁ ++ (m ++ 0x5c :: 0x75 :: h₂))) (ms ++ utf8 cp)

inductive CharsAt (pass : Text → Text → Prop) : Text → Text → Text → Prop
  | nil {r} : CharsAt pass r [] []
  | cons {r t s ts ss} : CharAt pass (ts ++ r) t s → CharsAt pass r ts ss → CharsAt pass r (t ++ ts) (s ++ ss)

/-- A string literal, followed by `r`. -/
def StrAt (pass : Text → Text → Prop) (r t s : Text) : Prop :=
  ∃ body, CharsAt pass (0x22 :: r) body s ∧ t = 0x22 :: (body ++ [0x22])

end Meojson.Spec

namespace Meojson
open Spec

/-- The blocks of each build: 4, 8, 16 or 32 bytes. -/
def Accel.blocks : Accel → Option Blocks
  | .none => .none
  | .u32 le => some ⟨4, !le⟩
  | .u64 le => some ⟨8, !le⟩
  | .sse _ => some ⟨16, false⟩
  | .avx2 => some ⟨32, false⟩
  | .neon => some ⟨16, false⟩

/-- The dialect of a build. -/
def located (jsonc : Bool) (b : Option Blocks) : LDialect := ⟨wsOf jsonc, StrAt (Passes b), jsonc, true⟩

/-- `s` is a text of that dialect, followed by nothing, or by something the reader does not look at. -/
def ReadsAt (jsonc : Bool) (b : Option Blocks) (s : Text) (j : Doc) : Prop :=
  ∃ w₁ t w₂ r, wsOf jsonc w₁ ∧ LVal (located jsonc b) (w₂ ++ r) t j ∧ wsOf jsonc w₂ ∧ Stop jsonc r ∧ j.isContainer = true ∧
    s = w₁ ++ t ++ w₂ ++ r

end Meojson
