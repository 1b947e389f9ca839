import Verif.Model.Parser
import Verif.Spec.Grammar

/-!
# Specification: what the parser needs of a packed-bytes trait

A block of `step` bytes is scanned for bytes that cannot be copied verbatim. The parser is correct if
the scan never steps over such a byte.
-/

namespace Meojson
open Spec

/-- The word computed for a block by `skip_string_literal_with_accel` (parser_impl.hpp:472-475). -/
def Traits.scan (T : Traits) (block : Bytes) : T.W :=
  T.bitwiseOr (T.bitwiseOr (T.less (T.load block) 32) (T.equal (T.load block) 0x22)) (T.equal (T.load block) 0x5c)

/-- The trait is usable: a block that is read lies in one piece, a block reported clean holds only plain bytes, and in another block the
reported index lies inside the block and only plain bytes stand before it. -/
structure Traits.Sound (T : Traits) : Prop where
  pos : 0 < T.step
  whole : ∀ n, T.step ≤ n → T.whole n = true
  clean : ∀ b : Bytes, b.length = T.step → T.isAllZero (T.scan b) = true → ∀ c ∈ b, Unescaped c
  index : ∀ b : Bytes, b.length = T.step → T.isAllZero (T.scan b) = false →
    T.firstNonzeroByte (T.scan b) < T.step ∧ ∀ c ∈ b.take (T.firstNonzeroByte (T.scan b)), Unescaped c

/-- `none` stands for a build without packed bytes. -/
def AccelOk : Option Traits → Prop
  | none => True
  | some T => T.Sound

end Meojson
