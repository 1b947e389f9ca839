import Verif.Model.Value

/-! How large and how deep a value is. -/

set_option autoImplicit false

namespace Meojson.Value

mutual
/-- The number of values in a value, itself included, and of bytes in its texts and keys. -/
def weight : Value → Nat
  | .str _ s => 1 + s.length
  | .arr _ vs => 1 + weightAll vs
  | .obj _ ms => 1 + weightMembers ms
  | .arrNull _ | .objNull _ => 1
def weightAll : List Value → Nat
  | [] => 0
  | v :: vs => weight v + weightAll vs
def weightMembers : List (Bytes × Value) → Nat
  | [] => 0
  | (k, v) :: ms => k.length + weight v + weightMembers ms
end

mutual
/-- How many arrays and objects are inside each other. -/
def nesting : Value → Nat
  | .arr .array vs => nestingAll vs + 1
  | .obj .object ms => nestingMembers ms + 1
  | _ => 0
def nestingAll : List Value → Nat
  | [] => 0
  | v :: vs => max (nesting v) (nestingAll vs)
def nestingMembers : List (Bytes × Value) → Nat
  | [] => 0
  | (_, v) :: ms => max (nesting v) (nestingMembers ms)
end

mutual
/-- How many values a value consists of, itself included. -/
def count : Value → Nat
  | .arr .array vs => countAll vs + 1
  | .obj .object ms => countMembers ms + 1
  | _ => 1
def countAll : List Value → Nat
  | [] => 0
  | v :: vs => count v + countAll vs
def countMembers : List (Bytes × Value) → Nat
  | [] => 0
  | (_, v) :: ms => count v + countMembers ms
end

/-! The same by payload alone, whatever the tags say. -/

mutual
/-- How many arrays and objects a value contains, itself included. -/
def containers : Value → Nat
  | .arr _ vs => containersAll vs + 1
  | .obj _ ms => containersMembers ms + 1
  | _ => 0
def containersAll : List Value → Nat
  | [] => 0
  | v :: vs => containers v + containersAll vs
def containersMembers : List (Bytes × Value) → Nat
  | [] => 0
  | (_, v) :: ms => containers v + containersMembers ms
end

mutual
/-- How many values a value consists of, itself included. -/
def parts : Value → Nat
  | .arr _ vs => partsAll vs + 1
  | .obj _ ms => partsMembers ms + 1
  | _ => 1
def partsAll : List Value → Nat
  | [] => 0
  | v :: vs => parts v + partsAll vs
def partsMembers : List (Bytes × Value) → Nat
  | [] => 0
  | (_, v) :: ms => parts v + partsMembers ms
end

mutual
/-- How many values are inside each other, the outermost included. -/
def levels : Value → Nat
  | .arr _ vs => levelsAll vs + 1
  | .obj _ ms => levelsMembers ms + 1
  | _ => 1
def levelsAll : List Value → Nat
  | [] => 0
  | v :: vs => max (levels v) (levelsAll vs)
def levelsMembers : List (Bytes × Value) → Nat
  | [] => 0
  | (_, v) :: ms => max (levels v) (levelsMembers ms)
end

end Meojson.Value
