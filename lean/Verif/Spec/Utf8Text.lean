import Verif.Spec.WellFormed

/-!
# Specification: UTF-8 texts

A text is UTF-8 if it is the concatenation of the encodings, by Lean's own encoder, of Unicode scalar values (Lean's `Char`).
-/

set_option autoImplicit false

namespace Meojson.Spec

/-- The text is well-formed UTF-8 (RFC 3629). -/
def Utf8 (t : Text) : Prop := ∃ cs : List Char, t = cs.flatMap String.utf8EncodeChar

end Meojson.Spec

namespace Meojson
open Spec

/-- Every string and every key inside the value is UTF-8. -/
def Value.Utf8 (v : Value) : Prop := ∀ s ∈ v.texts, Spec.Utf8 s

end Meojson
