import Verif.Model.StoreMemory
import Verif.Spec.Take

/-! What a conversion to JSON may leave of its source, and which conversions leave it alone when they fail. -/

set_option autoImplicit false

namespace Meojson
open Spec Value

/-- There is enough memory. -/
def Maker.Ample (M : Maker) : Prop := ∀ i, M.gives i = true

/-- What may be left of a C++ object: the same object, in which some texts, arrays, objects and values are moved from. Containers keep their sizes, maps their keys, and variants their alternatives. -/
inductive Drained : CVal → CVal → Prop
  | same {x} : Drained x x
  | text {s} : Drained (.str s) (.str [])
  | value {v} : Drained (.json v) (.json v.emptied)
  | array {vs} : Drained (.jarray vs) (.jarray [])
  | object {ms} : Drained (.jobject ms) (.jobject [])
  | content {x y} : Drained x y → Drained (.just x) (.just y)
  | elements {xs ys} : List.Forall₂ Drained xs ys → Drained (.list xs) (.list ys)
  | alternative {i x y} : Drained x y → Drained (.alt i x) (.alt i y)
  | members {ms ns : List (Bytes × CVal)} : ns.map Prod.fst = ms.map Prod.fst → List.Forall₂ Drained (ms.map Prod.snd) (ns.map Prod.snd) → Drained (.map ms) (.map ns)

mutual
/-- Nothing is moved out of an argument of this category. -/
def Ty.Inert : Ty → Cat → Prop
  | .json, c | .jarray, c | .jobject, c | .string, c => c ≠ .rv
  | .nullable w t, c => t.Inert (c.content w)
  | .seq t, c | .map t, c => t.Inert c.element
  | .set _ t, c => t.Inert c.setElement
  | .fixed _ t, c => t.Inert c.part
  | .tuple ts, c | .variant ts, c => ts.Inert c.part
  | .struct fs, _ => fs.Inert
  | _, _ => True
def Tys.Inert : Tys → Cat → Prop
  | .nil, _ => True
  | .cons t ts, c => t.Inert c ∧ ts.Inert c
def Fields.Inert : Fields → Prop
  | .done => True
  | .opt rest | .key _ rest => rest.Inert
  | .var _ _ t rest => t.Inert .constLv ∧ rest.Inert
end

mutual
/-- The conversion asks for nothing and cannot fail: texts and values that are moved, also inside nullable wrappers and variants. -/
def Ty.Quiet : Ty → Cat → Prop
  | .json, c | .string, c => c = .rv
  | .nullable w t, c => t.Quiet (c.content w)
  | .variant ts, c => ts.Quiet c.part
  | _, _ => False
def Tys.Quiet : Tys → Cat → Prop
  | .nil, _ => True
  | .cons t ts, c => t.Quiet c ∧ ts.Quiet c
end

mutual
/-- Nothing can fail any more when the first part is moved. -/
def Ty.Atomic (M : Maker) : Ty → Cat → Prop
  | .nullable w t, c => t.Atomic M (c.content w)
  | .seq t, c => t.Inert c.element ∨ M.sized (.seq t) = true ∧ t.Quiet c.element
  | .set _ t, c => t.Inert c.setElement ∨ t.Quiet c.setElement
  | .fixed _ t, c => t.Inert c.part ∨ t.Quiet c.part
  | .tuple ts, c => ts.InOrder M c.part
  | .variant ts, c => ts.Atomic M c.part
  | .map t, c => t.Inert c.element
  | .struct fs, _ => fs.Inert
  | _, _ => True
def Tys.Atomic (M : Maker) : Tys → Cat → Prop
  | .nil, _ => True
  | .cons t ts, c => t.Atomic M c ∧ ts.Atomic M c
/-- First elements that are only read, then at most one that can fail. -/
def Tys.InOrder (M : Maker) : Tys → Cat → Prop
  | .nil, _ => True
  | .cons t ts, c => t.Inert c ∧ ts.InOrder M c ∨ t.Atomic M c ∧ ts.Quiet c
end

end Meojson
