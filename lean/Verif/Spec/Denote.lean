import Verif.Spec.Grammar
import Verif.Model.Value

/-!
# Specification: the `json::value` a document denotes

Arrays keep the order of their elements. An object holds its members in ascending byte order of the
keys (`List`'s own lexicographic order on bytes, and core's `mergeSort`), because that is the order in which a
`json::object` is iterated and printed.
-/

namespace Meojson
open Spec

/-- Members in ascending order of keys. -/
def sortMembers {β : Type} (ms : List (Bytes × β)) : List (Bytes × β) :=
  ms.mergeSort fun a b => decide (a.1 ≤ b.1)

mutual
/-- The value a document denotes. -/
def Spec.Doc.toValue : Doc → Value
  | .null => .str .null []
  | .bool true => .str .boolean [0x74, 0x72, 0x75, 0x65]
  | .bool false => .str .boolean [0x66, 0x61, 0x6c, 0x73, 0x65]
  | .num t => .str .number t
  | .str s => .str .string s
  | .arr js => .arr .array (toValues js)
  | .obj ms => .obj .object (sortMembers (toMembers ms))
def Spec.Doc.toValues : List Doc → List Value
  | [] => []
  | j :: js => j.toValue :: toValues js
def Spec.Doc.toMembers : List (Bytes × Doc) → List (Bytes × Value)
  | [] => []
  | (k, j) :: ms => (k, j.toValue) :: toMembers ms
end

end Meojson
