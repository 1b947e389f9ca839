import Verif.Spec.Denote

/-!
# Specification: well-formed values

The C++ type does not tie the tag to the payload. A value is well formed if they agree at every depth.
-/

namespace Meojson
open Spec

namespace Value

mutual
/-- Tag and payload agree at every depth, keys ascend strictly, number texts satisfy `num`, and an invalid value occurs only if `inv`. -/
def Wf (num : Bytes → Prop) (inv : Prop) : Value → Prop
  | .str .invalid s => inv ∧ s = []
  | .str .null s => s = []
  | .str .boolean s => s = [0x74, 0x72, 0x75, 0x65] ∨ s = [0x66, 0x61, 0x6c, 0x73, 0x65]
  | .str .number s => num s
  | .str .string _ => True
  | .arr .array vs => WfAll num inv vs
  | .obj .object ms => ms.Pairwise (fun a b => a.1 < b.1) ∧ WfMembers num inv ms
  | _ => False
def WfAll (num : Bytes → Prop) (inv : Prop) : List Value → Prop
  | [] => True
  | v :: vs => v.Wf num inv ∧ WfAll num inv vs
def WfMembers (num : Bytes → Prop) (inv : Prop) : List (Bytes × Value) → Prop
  | [] => True
  | (_, v) :: ms => v.Wf num inv ∧ WfMembers num inv ms
end

/-- A value that stands for a JSON document: well formed, no invalid value inside, and all numbers are JSON numbers. -/
abbrev Json (v : Value) : Prop := v.Wf Number False

/-- Tag and payload agree at every depth and keys ascend strictly. Nothing is said about number texts. -/
abbrev Sound (v : Value) : Prop := v.Wf (fun _ => True) True

/-- Array or object. -/
def IsContainer (v : Value) : Prop := v.type = .array ∨ v.type = .object

mutual
/-- An invalid value occurs somewhere inside. -/
def HasInvalid : Value → Prop
  | .str ty _ => ty = .invalid
  | .arr ty vs => ty = .invalid ∨ AnyInvalid vs
  | .arrNull ty => ty = .invalid
  | .obj ty ms => ty = .invalid ∨ MembersInvalid ms
  | .objNull ty => ty = .invalid
def AnyInvalid : List Value → Prop
  | [] => False
  | v :: vs => v.HasInvalid ∨ AnyInvalid vs
def MembersInvalid : List (Bytes × Value) → Prop
  | [] => False
  | (_, v) :: ms => v.HasInvalid ∨ MembersInvalid ms
end

mutual
/-- All strings and keys inside. -/
def texts : Value → List Bytes
  | .str ty s => if ty = .string then [s] else []
  | .arr _ vs => textsAll vs
  | .obj _ ms => textsMembers ms
  | _ => []
def textsAll : List Value → List Bytes
  | [] => []
  | v :: vs => v.texts ++ textsAll vs
def textsMembers : List (Bytes × Value) → List Bytes
  | [] => []
  | (k, v) :: ms => k :: (v.texts ++ textsMembers ms)
end

end Value
end Meojson
