import Verif.Spec.Convert
import Verif.Model.StoreWork

/-! Wrappers that are directly inside each other, and values that can be moved as they are. -/

set_option autoImplicit false

namespace Meojson

mutual
/-- How many constructors make one and the same value: one for each nullable wrapper or variant around it, and its own. -/
def Ty.layers : Ty → Nat
  | .nullable _ t => t.layers + 1
  | .variant ts => ts.layers + 1
  | _ => 1
def Tys.layers : Tys → Nat
  | .nil => 0
  | .cons t ts => max t.layers ts.layers
end

mutual
/-- No class has two members with one key, and less than `K` constructors make one value. -/
def Ty.Neat (K : Nat) : Ty → Prop
  | .nullable w t => (Ty.nullable w t).layers < K ∧ t.Neat K
  | .variant ts => (Ty.variant ts).layers < K ∧ ts.Neat K
  | .seq t => 1 < K ∧ t.Neat K
  | .set _ t => 1 < K ∧ t.Neat K
  | .fixed _ t => 1 < K ∧ t.Neat K
  | .map t => 1 < K ∧ t.Neat K
  | .tuple ts => 1 < K ∧ ts.Neat K
  | .struct fs => 1 < K ∧ (fs.members.map (·.key)).Nodup ∧ fs.Neat K
  | _ => 1 < K
def Tys.Neat (K : Nat) : Tys → Prop
  | .nil => True
  | .cons t ts => t.Neat K ∧ ts.Neat K
def Fields.Neat (K : Nat) : Fields → Prop
  | .done => True
  | .opt rest => rest.Neat K
  | .key _ rest => rest.Neat K
  | .var _ _ t rest => t.Neat K ∧ rest.Neat K
end

mutual
/-- Texts and JSON values, in sequences, arrays, tuples, variants and nullable wrappers. -/
def Ty.Carried : Ty → Prop
  | .json | .jarray | .jobject | .string | .null => True
  | .nullable _ t => t.Carried
  | .seq t => t.Carried
  | .fixed _ t => t.Carried
  | .tuple ts => ts.Carried
  | .variant ts => ts.Carried
  | _ => False
def Tys.Carried : Tys → Prop
  | .nil => True
  | .cons t ts => t.Carried ∧ ts.Carried
end

mutual
/-- The objects of C++ that a value consists of, where a text or a JSON value is one, however long it is. -/
def CVal.pieces : CVal → Nat
  | .list xs => 1 + CVal.piecesAll xs
  | .just x => 1 + x.pieces
  | .alt _ x => 1 + x.pieces
  | _ => 1
def CVal.piecesAll : List CVal → Nat
  | [] => 0
  | x :: xs => x.pieces + CVal.piecesAll xs
end

end Meojson
