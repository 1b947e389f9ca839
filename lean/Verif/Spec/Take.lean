import Mathlib.Data.List.Forall2
import Verif.Spec.Convert

/-!
# Specification: converting from an rvalue

Which values are empty, and what a conversion that takes its source apart leaves of it.
-/

set_option autoImplicit false

namespace Meojson
namespace Spec

/-- Null, the empty string, the empty array or the empty object. -/
def Blank (v : Value) : Prop := v.type = .null ∨ v = .str .string [] ∨ v = .arr .array [] ∨ v = .obj .object []

/-- What a moved-from value looks like: the text emptied, or a null pointer under the old tag. -/
inductive Gone : Value → Value → Prop
  | str {t s} : Gone (.str t s) (.str t [])
  | arr {t vs} : Gone (.arr t vs) (.arrNull t)
  | obj {t ms} : Gone (.obj t ms) (.objNull t)

/-- Untouched, or moved from. -/
def Spent (v w : Value) : Prop := w = v ∨ Gone v w

/-- What may be left of `v`: at most one level has been taken apart. -/
inductive Remains : Value → Value → Prop
  | whole {v w} : Spent v w → Remains v w
  | madeArray {v} : Blank v → Remains v (.arr .array [])
  | madeObject {v} : Blank v → Remains v (.obj .object [])
  | cleared {vs} : Remains (.arr .array vs) (.arr .array [])
  | elements {vs ws} : List.Forall₂ Spent vs ws → Remains (.arr .array vs) (.arr .array ws)
  | members {ms ns} : List.Forall₂ (fun a b => b.1 = a.1 ∧ Spent a.2 b.2) ms ns → Remains (.obj .object ms) (.obj .object ns)

end Spec

mutual
/-- No tuple of two or more elements with a `json::value` among them is built from the value itself. -/
def Ty.NoSplit : Ty → Prop
  | .nullable _ t => t.NoSplit
  | .tuple ts => (ts.size = 1 → ts.NoSplit) ∧ (ts.size ≠ 1 → ∀ i, ts.get? i ≠ some .json)
  | .variant ts => ts.NoSplit
  | _ => True
def Tys.NoSplit : Tys → Prop
  | .nil => True
  | .cons t ts => t.NoSplit ∧ ts.NoSplit
end

mutual
/-- Nothing is moved out of the value that it would still have to give: not the whole value, no members of an object, and no elements of an array except by conversions that clear
the array whenever they move. -/
def Ty.Closed : Ty → Prop
  | .json => False
  | .jobject => False
  | .map t => t ≠ .json
  | .nullable _ t => t.Closed
  | .tuple ts => (ts.size = 1 → ts.Closed) ∧ (ts.size ≠ 1 → ∀ i, ts.get? i ≠ some .json)
  | .variant ts => ts.chosen = none ∨ ts.Closed
  | _ => True
def Tys.Closed : Tys → Prop
  | .nil => True
  | .cons t ts => t.Closed ∧ ts.Closed
end

/-- The result is an array type of C++ or of the library, other than a tuple with one element: what is taken from the elements of a JSON array. -/
def Ty.OfElements : Ty → Prop
  | .jarray | .seq _ | .set _ _ | .fixed _ _ => True
  | .tuple ts => ts.size ≠ 1
  | _ => False

/-- The conversion only reads: numbers, booleans, strings, null, enums, structs, types with conversions of the user. -/
def Ty.Reads : Ty → Prop
  | .bool | .int _ | .float _ | .string | .null | .enum _ | .struct _ | .user _ => True
  | _ => False

end Meojson
