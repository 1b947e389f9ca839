import Verif.Model.EnumName
import Verif.Spec.Convert

/-! # Specification: declarations of enums that the library can name -/

set_option autoImplicit false

namespace Meojson

/-- The compiler's spelling of the type has no `=` and no `;` in it and that of the scope no `;`, as for every enum that is not a member of a template with such a
character as an argument; and the enumerators have ASCII names. -/
structure EnumDecl.Spellable (D : EnumDecl) : Prop where
  type_eq : (0x3d : UInt8) ∉ D.type
  type_semi : (0x3b : UInt8) ∉ D.type
  scope_form : D.scope = [] ∨ ∃ s, D.scope = s ++ [0x3a]
  scope_semi : (0x3b : UInt8) ∉ D.scope
  names : ∀ x ∈ D.items, Identifier x.1

/-- `s` is the name of the first enumerator with the value `e`. -/
def EnumDecl.Declares (D : EnumDecl) (s : Bytes) (e : Int) : Prop :=
  ∃ before after, D.items = before ++ (s, e) :: after ∧ ∀ x ∈ before, x.2 ≠ e

end Meojson
