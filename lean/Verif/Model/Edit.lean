import Verif.Model.Mutate
import Verif.Model.Heap

/-!
# Statements on a part of a document: `doc["a"][2]["b"] = x`

value_impl.hpp:980-1005: each `operator[]` returns a reference to a part of the value before it, and the last reference is what the statement works on. Here references are not objects: a change
of the part is a change of the whole. (That references do this is C70; `C92_heap` compares with the heap model.) The value on the right of `=` is evaluated first ([expr.ass]).
-/

set_option autoImplicit false

namespace Meojson
open Mem

/-- `v[s1][s2]...`, and then `f` on what this refers to. An exception on the way leaves the parts that were made before it. -/
def Value.follow {α : Type} : List Sel → (Value → Value.Mut α) → Value → Value.Mut α
  | [], f, v => f v
  | .key k :: path, f, v =>
    match v.indexKey k with
    | (.obj t ms, .ok x) => let r := x.follow path f; (.obj t (RawObject.insertOrAssign k r.1 ms), r.2)
    | (w, .ok _) => (w, .ub)
    | (w, .throw e) => (w, .throw e)
    | (w, .ub) => (w, .ub)
  | .pos i :: path, f, v =>
    match v.indexPos i with
    | (.arr t vs, .ok x) => let r := x.follow path f; (.arr t (vs.set i r.1), r.2)
    | (w, .ok _) => (w, .ub)
    | (w, .throw e) => (w, .throw e)
    | (w, .ub) => (w, .ub)

/-- Statements that change a value. -/
inductive Edit where
  /-- `= x`, value_impl.hpp:846-854 -/
  | assign (x : Value)
  /-- `.emplace(x)`, 749-751 -/
  | emplaceBack (x : Value)
  /-- `.emplace(k, x)`, 752-754 -/
  | emplaceKey (k : Bytes) (x : Value)
  /-- `.erase(i)`, 417-420 -/
  | erasePos (i : Nat)
  /-- `.erase(k)`, 422-425 -/
  | eraseKey (k : Bytes)
  /-- `.clear()`, 757-760 -/
  | clear

/-- What the statement does to the value; the `bool` that `erase` returns is not kept. -/
def Edit.on : Edit → Value → Value.Mut Unit
  | .assign x, _ => (x, .ok ())
  | .emplaceBack x, v => v.emplaceBack x
  | .emplaceKey k x, v => v.emplaceKey k x
  | .erasePos i, v => ((v.erasePos i).1, (v.erasePos i).2.bind fun _ => .ok ())
  | .eraseKey k, v => ((v.eraseKey k).1, (v.eraseKey k).2.bind fun _ => .ok ())
  | .clear, v => (v.clear, .ok ())

/-- Statements on parts of one document, one after the other, up to the first exception. -/
def Value.edits : List (List Sel × Edit) → Value → Value.Mut Unit
  | [], v => (v, .ok ())
  | (p, e) :: es, v =>
    match v.follow p e.on with
    | (w, .ok ()) => w.edits es
    | (w, o) => (w, o)

end Meojson
