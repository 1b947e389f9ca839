import Verif.Model.Convert

/-! Types whose conversion from an rvalue moves nothing. -/

set_option autoImplicit false

namespace Meojson

def Ty.NotJson : Ty → Prop
  | .json => False
  | _ => True

def Tys.NotJson : Tys → Prop
  | .nil => True
  | .cons t ts => t.NotJson ∧ ts.NotJson

mutual
/-- No `json::value` is the type, or its element, or its mapped type, or the content of a nullable wrapper. What is further inside does not matter. -/
def Ty.Copied : Ty → Prop
  | .json | .jarray | .jobject => False
  | .nullable _ t => t.Copied
  | .seq t => t.NotJson
  | .set _ t => t.NotJson
  | .fixed _ t => t.NotJson
  | .map t => t.NotJson
  | .tuple ts => ts.NotJson ∧ (ts.size = 1 → ts.Copied)
  | .variant ts => ts.NotJson ∧ ts.Copied
  | _ => True
def Tys.Copied : Tys → Prop
  | .nil => True
  | .cons t ts => t.Copied ∧ ts.Copied
end

end Meojson
