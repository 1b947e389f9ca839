import Verif.Model.Literal

/-!
# How often the parts of a literal are copied
-/

set_option autoImplicit false

namespace Meojson.Lit

mutual
/-- The values and bytes in a literal as it is written. -/
def weight : Lit → Nat
  | .leaf v => v.weight
  | .array es => 1 + weightAll es
  | .object ms | .braces _ ms => 1 + weightMembers ms
def weightAll : List Lit → Nat
  | [] => 0
  | e :: es => e.weight + weightAll es
def weightMembers : List (Bytes × Lit) → Nat
  | [] => 0
  | (k, e) :: ms => k.length + e.weight + weightMembers ms
end

mutual
/-- How many braces are inside each other. -/
def depth : Lit → Nat
  | .leaf _ => 0
  | .array es => depthAll es + 1
  | .object ms | .braces _ ms => depthMembers ms + 1
def depthAll : List Lit → Nat
  | [] => 0
  | e :: es => max e.depth (depthAll es)
def depthMembers : List (Bytes × Lit) → Nat
  | [] => 0
  | (_, e) :: ms => max e.depth (depthMembers ms)
end

mutual
/-- No key is written twice in one object. -/
def Distinct : Lit → Prop
  | .leaf _ => True
  | .array es => DistinctAll es
  | .object ms | .braces _ ms => (ms.map Prod.fst).Nodup ∧ DistinctMembers ms
def DistinctAll : List Lit → Prop
  | [] => True
  | e :: es => e.Distinct ∧ DistinctAll es
def DistinctMembers : List (Bytes × Lit) → Prop
  | [] => True
  | (_, e) :: ms => e.Distinct ∧ DistinctMembers ms
end

mutual
/-- Each value and each byte times the number of its copies: one for each pair of braces around it, a second one (if `twice`) for braces that are the bare value of a member, and `n` for
what is around all of it. -/
def shares (twice : Bool) (n : Nat) : Lit → Nat
  | .leaf v => n * v.weight
  | .array es => n + sharesAll twice (n + 1) es
  | .object ms | .braces _ ms => n + sharesMembers twice (n + 1) ms
def sharesAll (twice : Bool) (n : Nat) : List Lit → Nat
  | [] => 0
  | e :: es => e.shares twice n + sharesAll twice n es
def sharesMembers (twice : Bool) (n : Nat) : List (Bytes × Lit) → Nat
  | [] => 0
  | (k, e) :: ms =>
    (if e.bare && twice then (n + 1) * k.length + e.shares twice (n + 1) else n * k.length + e.shares twice n) + sharesMembers twice n ms
end

end Meojson.Lit

namespace Meojson

mutual
/-- A value written as a literal, with class names, or (`bare`) without them where there can be none. -/
def Value.written (bare : Bool) : Value → Lit
  | .arr .array vs => .array (writtenAll bare vs)
  | .obj .object [] => .object []
  | .obj .object (m :: ms) => if bare then .braces false (writtenMembers bare (m :: ms)) else .object (writtenMembers bare (m :: ms))
  | v => .leaf v
def Value.writtenAll (bare : Bool) : List Value → List Lit
  | [] => []
  | v :: vs => v.written bare :: writtenAll bare vs
def Value.writtenMembers (bare : Bool) : List (Bytes × Value) → List (Bytes × Lit)
  | [] => []
  | (k, v) :: ms => (k, v.written bare) :: writtenMembers bare ms
end

/-- `n` arrays around a value, `json::array{json::array{...}}`. -/
def Lit.arrays (v : Value) : Nat → Lit
  | 0 => .leaf v
  | n + 1 => .array [arrays v n]

/-- `n` bare braces around a value, `{{k, {{k, ...}}}}`. -/
def Lit.objects (k : Bytes) (v : Value) : Nat → Lit
  | 0 => .leaf v
  | n + 1 => .braces false [(k, objects k v n)]

end Meojson
