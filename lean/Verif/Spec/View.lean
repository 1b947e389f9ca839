import Verif.Model.View

/-! # Specification: texts inside a value, and views of them -/

set_option autoImplicit false

namespace Meojson.Spec

/-- `TextIn v p s`: following `p`, numbers of elements and of members in the order of their keys, one gets from `v` to the JSON string `s`. -/
inductive TextIn : Value → List Nat → Bytes → Prop
  | here {s} : TextIn (.str .string s) [] s
  | elem {vs i w p s} : vs[i]? = some w → TextIn w p s → TextIn (.arr .array vs) (i :: p) s
  | member {ms i k w p s} : ms[i]? = some (k, w) → TextIn w p s → TextIn (.obj .object ms) (i :: p) s

/-- `std::string_view` occurs in the type. -/
def _root_.Meojson.VTy.hasView : VTy → Bool
  | .view => true
  | .string => false
  | .seq t | .fixed _ t | .map t | .nullable _ t => t.hasView
  | .pair t u => t.hasView || u.hasView

/-- The type is a map, or a nullable wrapper around one. -/
def _root_.Meojson.VTy.isMap : VTy → Bool
  | .map _ => true
  | .nullable _ t => t.isMap
  | _ => false

/-- The code of Model/Convert.lean for the type with `std::string` in place of `std::string_view`. -/
def _root_.Meojson.VTy.owned : VTy → Ty
  | .view => .string
  | .string => .string
  | .seq t => .seq t.owned
  | .fixed n t => .fixed n t.owned
  | .pair t u => .tuple (.cons t.owned (.cons u.owned .nil))
  | .map t => .map t.owned
  | .nullable w t => .nullable w t.owned

/-- The texts in an object of that type. -/
def _root_.Meojson.VTy.texts : VTy → CVal → List Bytes
  | .view, .str s => [s]
  | .string, .str s => [s]
  | .seq t, .list xs => xs.flatMap t.texts
  | .fixed _ t, .list xs => xs.flatMap t.texts
  | .pair t u, .list [x, y] => t.texts x ++ u.texts y
  | .map t, .map es => es.flatMap fun e => e.1 :: t.texts e.2
  | .nullable _ t, .just x => t.texts x
  | _, _ => []

end Meojson.Spec
