import Verif.Spec.Convert
import Verif.Spec.WellFormed

/-! # Specification: types whose values are written in one way only -/

set_option autoImplicit false

namespace Meojson
open Spec

mutual
/-- Whatever is read as a value of the type is what that value is written as, if it is JSON without the number `-0`. Not so for floating-point numbers (`1.0`, `1.00`), enums (their names in any case,
or numbers), sets (in any order), structs (with other members besides) and tuples of one element. -/
def Ty.OneForm : Ty → Prop
  | .bool | .int _ | .string | .null | .json | .jarray | .jobject => True
  | .nullable _ t => t.OneForm
  | .seq t => t.OneForm
  | .fixed _ t => t.OneForm
  | .tuple ts => ts.size ≠ 1 ∧ ts.OneForm
  | .variant ts => ts.OneForm
  | .map t => t.OneForm
  | .user U => ∀ v x, v.Sound → U.load v = some x → U.dump x = some v
  | .float _ | .enum _ | .set _ _ | .struct _ => False
def Tys.OneForm : Tys → Prop
  | .nil => True
  | .cons t ts => t.OneForm ∧ ts.OneForm
end

/-- A JSON value in which the number `-0` does not occur. -/
abbrev Value.NoMinusZero (v : Value) : Prop := v.Wf (fun s => Number s ∧ s ≠ [0x2d, 0x30]) False

/-- Not an optional at the outside. -/
def Ty.NotOptional : Ty → Prop
  | .nullable .optional _ => False
  | _ => True

end Meojson
