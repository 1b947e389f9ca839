import Verif.Model.Containers

/-!
# Specification: finite maps and sequences

A finite map is a function from keys to optional values; a sequence is a function from positions together with a length. Both are written without
reference to how the containers are stored.
-/

set_option autoImplicit false

namespace Meojson.Spec

/-- A finite map. -/
abbrev FMap := Bytes → Option Value

namespace FMap
def empty : FMap := fun _ => none
/-- `k` now maps to `v`. -/
def put (f : FMap) (k : Bytes) (v : Value) : FMap := fun x => if x = k then some v else f x
/-- `k` is no key any more. -/
def remove (f : FMap) (k : Bytes) : FMap := fun x => if x = k then none else f x
/-- The union in which `g` wins. -/
def union (f g : FMap) : FMap := fun x => match g x with | some v => some v | none => f x
/-- The first occurrence of each key in a list. -/
def ofList (l : List (Bytes × Value)) : FMap := fun x => (l.find? fun e => e.1 = x).map Prod.snd
end FMap

/-- What each call means for a finite map. -/
def objSpec (f : FMap) : ObjCall → FMap × Answer
  | .emplace k v => (f.put k v, .flag (f k).isNone)
  | .index k => (match f k with | some v => (f, .ref v) | none => (f.put k .null, .ref .null))
  | .indexAssign k v => (f.put k v, .unit)
  | .erase k => (f.remove k, .flag (f k).isSome)
  | .clear => (FMap.empty, .unit)
  | .orAssign o => (f.union (FMap.ofList o), .unit)

def objSpecAll (f : FMap) : List ObjCall → FMap × List Answer
  | [] => (f, [])
  | c :: cs => let r := objSpec f c; let rest := objSpecAll r.1 cs; (rest.1, r.2 :: rest.2)

/-- A finite sequence: a length, and an element at each position below it. -/
structure FSeq where
  len : Nat
  get : Nat → Option Value

/-- What each call means for a sequence. -/
def arrSpec (q : FSeq) : ArrCall → FSeq × Answer
  | .emplaceBack v => (⟨q.len + 1, fun i => if i = q.len then some v else q.get i⟩, .ref v)
  | .indexAssign i v => (⟨q.len, fun j => if j = i ∧ j < q.len then some v else q.get j⟩, .unit)
  | .erase i => if i < q.len then (⟨q.len - 1, fun j => if j < i then q.get j else q.get (j + 1)⟩, .flag true) else (q, .flag false)
  | .clear => (⟨0, fun _ => none⟩, .unit)
  | .plusAssign o => (⟨q.len + o.length, fun i => if i < q.len then q.get i else o[i - q.len]?⟩, .unit)

def arrSpecAll (q : FSeq) : List ArrCall → FSeq × List Answer
  | [] => (q, [])
  | c :: cs => let r := arrSpec q c; let rest := arrSpecAll r.1 cs; (rest.1, r.2 :: rest.2)

end Meojson.Spec
