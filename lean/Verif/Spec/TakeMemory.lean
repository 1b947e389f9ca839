import Verif.Model.TakeMemory
import Verif.Spec.Take

/-! What is assumed of the memory, and which conversions leave their source alone when it runs out. -/

set_option autoImplicit false

namespace Meojson
open Spec Value

/-- A conversion with `const&` gives what it gives with enough memory, or throws `std::bad_alloc` because one of its requests was refused. -/
def Memory.Fair (M : Memory) (F : Floats) : Prop :=
  ∀ t v n, n ≤ (M.copy t v n).2 ∧ ((M.copy t v n).1 = t.as F v ∨ (M.copy t v n).1 = .throw .badAlloc ∧ ∃ i, n ≤ i ∧ i < (M.copy t v n).2 ∧ M.gives i = false)

/-- There is enough memory. -/
def Memory.Ample (M : Memory) : Prop := ∀ i, M.gives i = true

/-- The conversion only reads, also if it is from an rvalue: numbers, texts, classes and the like, maps of such, and nullable wrappers and variants of them. -/
def Ty.Untouched : Ty → Prop
  | .bool | .int _ | .float _ | .string | .null | .enum _ | .struct _ | .user _ => True
  | .map t => t ≠ .json
  | .nullable _ t => t.Untouched
  | .variant ts => ts.chosen = none
  | _ => False

mutual
/-- Nothing is moved out of the value before the last request for memory: `json::value` as element only in a container that reserves or asks for nothing, and behind a pointer nothing that is moved or
cleared. -/
def Ty.Careful (M : Memory) : Ty → Prop
  | .json => True
  | .jarray => False
  | .jobject => False
  | .seq t => t ≠ .json ∨ M.reserves (.seq t) = true
  | .set _ t => t ≠ .json
  | .fixed _ _ => True
  | .map t => t ≠ .json
  | .nullable .pointer t => t.Careful M ∧ t.Untouched
  | .nullable .optional t => t.Careful M
  | .tuple ts => (ts.size = 1 → ts.Careful M) ∧ (ts.size ≠ 1 → ∀ i, ts.get? i ≠ some .json)
  | .variant ts => ts.chosen = none ∨ ts.Careful M
  | _ => True
def Tys.Careful (M : Memory) : Tys → Prop
  | .nil => True
  | .cons t ts => t.Careful M ∧ ts.Careful M
end

/-- What may be left of `v`: as in C55, or, if it was empty, a tag of a container that was not to be had. -/
def Leaves (v w : Value) : Prop := Remains v w ∨ Blank v ∧ (w = v.retag .array ∨ w = v.retag .object)

end Meojson
