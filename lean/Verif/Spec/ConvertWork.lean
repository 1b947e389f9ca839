import Verif.Spec.Convert
import Verif.Spec.Work

/-! How large a type is, and classes written in C++ that contain themselves. -/

set_option autoImplicit false

namespace Meojson

mutual
/-- How many types and members are mentioned in a type, each as often as it is mentioned. -/
def Ty.extent : Ty → Nat
  | .nullable _ t => t.extent + 1
  | .seq t => t.extent + 1
  | .set _ t => t.extent + 1
  | .fixed _ t => t.extent + 1
  | .map t => t.extent + 1
  | .tuple ts => ts.extent + 1
  | .variant ts => ts.extent + 1
  | .struct fs => fs.extent + 1
  | _ => 1
def Tys.extent : Tys → Nat
  | .nil => 0
  | .cons t ts => t.extent + 1 + ts.extent
def Fields.extent : Fields → Nat
  | .done => 0
  | .opt rest => rest.extent
  | .key _ rest => rest.extent
  | .var _ _ t rest => t.extent + 1 + rest.extent
end

mutual
/-- How many types are inside each other. -/
def Ty.height : Ty → Nat
  | .nullable _ t => t.height + 1
  | .seq t => t.height + 1
  | .set _ t => t.height + 1
  | .fixed _ t => t.height + 1
  | .map t => t.height + 1
  | .tuple ts => ts.height + 1
  | .variant ts => ts.height + 1
  | .struct fs => fs.height + 1
  | _ => 1
def Tys.height : Tys → Nat
  | .nil => 0
  | .cons t ts => max t.height ts.height
def Fields.height : Fields → Nat
  | .done => 0
  | .opt rest => rest.height
  | .key _ rest => rest.height
  | .var _ _ t rest => max t.height rest.height
end

mutual
/-- How many functions look at one and the same value: a nullable wrapper and its content, a tuple with one element and this element, a class and each of its members. -/
def Ty.own : Ty → Nat
  | .nullable _ t => t.own + 1
  | .tuple ts => ts.ownOne + 1
  | .struct fs => fs.members.length + 1
  | _ => 1
def Tys.ownOne : Tys → Nat
  | .cons t .nil => t.own
  | _ => 0
end

mutual
/-- No `std::variant` occurs in the type, no class has two members with one key, and less than `K` functions look at one value. -/
def Ty.Modest (K : Nat) : Ty → Prop
  | .variant _ => False
  | .nullable w t => (Ty.nullable w t).own < K ∧ t.Modest K
  | .seq t => 1 < K ∧ t.Modest K
  | .set _ t => 1 < K ∧ t.Modest K
  | .fixed _ t => 1 < K ∧ t.Modest K
  | .map t => 1 < K ∧ t.Modest K
  | .tuple ts => (Ty.tuple ts).own < K ∧ ts.Modest K
  | .struct fs => (Ty.struct fs).own < K ∧ (fs.members.map (·.key)).Nodup ∧ fs.Modest K
  | _ => 1 < K
def Tys.Modest (K : Nat) : Tys → Prop
  | .nil => True
  | .cons t ts => t.Modest K ∧ ts.Modest K
def Fields.Modest (K : Nat) : Fields → Prop
  | .done => True
  | .opt rest => rest.Modest K
  | .key _ rest => rest.Modest K
  | .var _ _ t rest => t.Modest K ∧ rest.Modest K
end

/-! ### Classes that contain themselves

A class of C++ that contains itself is no `Ty`, but the conversion of one document only gets to finitely many levels of it: what it does is what it does with the class written out to more
levels than the document has, whatever type stands at the bottom. -/

/-- `struct Node { std::vector<Node> next; MEO_JSONIZATION(next) };` written out `n` times, with `bottom` in the place of the innermost `Node`. -/
def Chain (bottom : Ty) : Nat → Ty
  | 0 => bottom
  | n + 1 => .struct (.var (ascii "next") (.list []) (.seq (Chain bottom n)) .done)

/-- `{"next":[{"next":[…{"next":[]}…]}]}` -/
def chainDoc : Nat → Value
  | 0 => .obj .object [(ascii "next", .arr .array [])]
  | n + 1 => .obj .object [(ascii "next", .arr .array [chainDoc n])]

/-- `struct Node { std::vector<std::variant<std::pair<Node, int>, std::pair<Node, std::string>>> kids; MEO_JSONIZATION(kids) };` written out `n` times. -/
def Tree (bottom : Ty) : Nat → Ty
  | 0 => bottom
  | n + 1 =>
    .struct (.var (ascii "kids") (.list [])
      (.seq (.variant (.cons (.tuple (.cons (Tree bottom n) (.cons (.int cInt) .nil))) (.cons (.tuple (.cons (Tree bottom n) (.cons .string .nil))) .nil)))) .done)

/-- `{"kids":[[{"kids":[[…{"kids":[]}…,"x"]]},"x"]]}` -/
def treeDoc : Nat → Value
  | 0 => .obj .object [(ascii "kids", .arr .array [])]
  | n + 1 => .obj .object [(ascii "kids", .arr .array [.arr .array [treeDoc n, .str .string (ascii "x")]])]

end Meojson
