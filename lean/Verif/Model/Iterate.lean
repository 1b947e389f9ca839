import Verif.Model.Containers

/-!
# Iterators

include/common/array_impl.hpp:160-188, 306-365, object_impl.hpp:99-119, 246-274. The iterators of a `json::array` are those of its `std::vector`, the iterators of a `json::object` those of its
`std::map`; what they do, and which calls make them invalid, is taken from the standard ([vector.modifiers], [associative.reqmts]).

A container comes with variables for iterators, numbered. An array iterator is a position, an object iterator the key of a node, or the end; a variable without a valid iterator has none. Using
such a variable is undefined, for reading, for stepping, for comparing and for erasing alike.

* An erased element makes the iterators to it and behind it invalid, `end()` included. The other elements of an object keep their iterators.
* Appending to an array without room makes all of its iterators invalid; with room, only `end()`. How much room there is after that is not specified (`extra`).
* Inserting a key makes no iterator of an object invalid.
* Swapping and moving containers are not modelled here.
-/

set_option autoImplicit false

namespace Meojson.Iterate

/-- A `json::array` and the iterators into it. -/
structure Arr where
  elems : List Value
  /-- `capacity()` of the vector, at least the size -/
  capacity : Nat
  pos : Nat → Option Nat

namespace Arr

def set (a : Arr) (x : Nat) (i : Nat) : Arr := { a with pos := fun y => if y = x then some i else a.pos y }

/-- `x = a.begin()`, array_impl.hpp:306-309, and `x = a.end()`, 311-314; those for const arrays (316-334) are the same positions. -/
def begin_ (a : Arr) (x : Nat) : Arr := a.set x 0
def end_ (a : Arr) (x : Nat) : Arr := a.set x a.elems.length

/-- `x = y` -/
def copy (a : Arr) (x y : Nat) : Out Arr := match a.pos y with | some i => .ok (a.set x i) | none => .ub

/-- `++x` -/
def next (a : Arr) (x : Nat) : Out Arr :=
  match a.pos x with
  | some i => if i < a.elems.length then .ok (a.set x (i + 1)) else .ub
  | none => .ub

/-- `--x` -/
def prev (a : Arr) (x : Nat) : Out Arr :=
  match a.pos x with
  | some (i + 1) => .ok (a.set x i)
  | _ => .ub

/-- `x - a.begin()` -/
def index (a : Arr) (x : Nat) : Out Nat := match a.pos x with | some i => .ok i | none => .ub

/-- `x = a.begin() + i` -/
def jump (a : Arr) (x i : Nat) : Out Arr := if i ≤ a.elems.length then .ok (a.set x i) else .ub

/-- `*x` -/
def read (a : Arr) (x : Nat) : Out Value :=
  match a.pos x with
  | some i => match a.elems[i]? with | some v => .ok v | none => .ub
  | none => .ub

/-- `*x = v` -/
def write (a : Arr) (x : Nat) (v : Value) : Out Arr :=
  match a.pos x with
  | some i => if i < a.elems.length then .ok { a with elems := a.elems.set i v } else .ub
  | none => .ub

/-- `x == y` -/
def same (a : Arr) (x y : Nat) : Out Bool :=
  match a.pos x, a.pos y with
  | some i, some j => .ok (i = j)
  | _, _ => .ub

/-- `a.erase(x)`, array_impl.hpp:168-175. The first line compares. -/
def erase (a : Arr) (x : Nat) : Out (Bool × Arr) :=
  match a.pos x with
  | some i =>
    if i = a.elems.length then .ok (false, a)
    else .ok (true, { a with elems := a.elems.eraseIdx i, pos := fun y => (a.pos y).filter (· < i) })
  | none => .ub

/-- `a.push_back(v)`, 177-188 -/
def push (a : Arr) (extra : Nat) (v : Value) : Arr :=
  if a.elems.length < a.capacity then { a with elems := a.elems ++ [v], pos := fun y => (a.pos y).filter (· < a.elems.length) }
  else ⟨a.elems ++ [v], a.elems.length + 1 + extra, fun _ => none⟩

/-- `a.clear()`, 155-158 -/
def clear (a : Arr) : Arr := { a with elems := [], pos := fun _ => none }

/-- `x == a.end()` -/
def atEnd (a : Arr) (x : Nat) : Out Bool :=
  match a.pos x with
  | some i => .ok (i = a.elems.length)
  | none => .ub

/-- `for (; x0 != a.end(); ) body`, at most `n` rounds; `none`: it has not ended by then. -/
def loop (body : Arr → Out Arr) : Nat → Arr → Option (Out Arr)
  | 0, _ => none
  | n + 1, a =>
    match a.atEnd 0 with
    | .ok true => some (.ok a)
    | .ok false => match body a with | .ok a => loop body n a | .throw e => some (.throw e) | .ub => some .ub
    | .throw e => some (.throw e)
    | .ub => some .ub

/-- `if (p(*it)) a.erase(it); else ++it;` -/
def eraseStep (p : Value → Bool) (a : Arr) : Out Arr :=
  (a.read 0).bind fun v => if p v then (a.erase 0).bind fun r => .ok r.2 else a.next 0

/-- `if (p(*it)) { auto i = it - a.begin(); a.erase(it); it = a.begin() + i; } else ++it;` -/
def againStep (p : Value → Bool) (a : Arr) : Out Arr :=
  (a.read 0).bind fun v => if p v then (a.index 0).bind fun i => (a.erase 0).bind fun r => r.2.jump 0 i else a.next 0

/-- `if (p(a[i])) a.erase(i); else ++i;` in a loop `for (size_t i = 0; i < a.size(); )`; 160-166 -/
def byIndex (p : Value → Bool) : Nat → Nat → List Value → Option (Out (List Value))
  | 0, _, _ => none
  | n + 1, i, vs =>
    if i < ArrayData.size vs then
      match ArrayData.index vs i with
      | .ok v => if p v then byIndex p n i (ArrayData.erase vs i).1 else byIndex p n (i + 1) vs
      | .throw e => some (.throw e)
      | .ub => some .ub
    else some (.ok vs)

/-- `for (auto& v : a) body`: the end (variable 1) is asked for once, [stmt.ranged]. The body gets the element and may change the array. -/
def forEach (body : Value → Arr → Arr) : Nat → Arr → List Value → Option (Out (Arr × List Value))
  | 0, _, _ => none
  | n + 1, a, seen =>
    match a.same 0 1 with
    | .ok true => some (.ok (a, seen))
    | .ok false =>
      match a.read 0 with
      | .ok v => match (body v a).next 0 with | .ok a => forEach body n a (seen ++ [v]) | .throw e => some (.throw e) | .ub => some .ub
      | .throw e => some (.throw e)
      | .ub => some .ub
    | .throw e => some (.throw e)
    | .ub => some .ub

/-- `for (auto r = a.rbegin(); r != a.rend(); ++r)`, 336-364: a reverse iterator refers to what is in front of its base ([reverse.iter.elem]); `n` is the position of the base. -/
def backward (a : Arr) : Nat → Out (List Value)
  | 0 => .ok []
  | i + 1 => match a.elems[i]? with | some v => (backward a i).bind fun l => .ok (v :: l) | none => .ub

end Arr

/-- A `json::object` and the iterators into it; `some none` is the end. -/
structure Obj where
  members : List (Bytes × Value)
  pos : Nat → Option (Option Bytes)

/-- What comes behind the node with a key. -/
def after (k : Bytes) : List (Bytes × Value) → Option Bytes
  | [] => none
  | m :: ms => if m.1 = k then ms.head?.map Prod.fst else after k ms

namespace Obj

def set (o : Obj) (x : Nat) (k : Option Bytes) : Obj := { o with pos := fun y => if y = x then some k else o.pos y }

/-- `x = o.begin()`, object_impl.hpp:246-249, and `x = o.end()`, 251-254; those for const objects (256-274) are the same nodes. -/
def begin_ (o : Obj) (x : Nat) : Obj := o.set x (o.members.head?.map Prod.fst)
def end_ (o : Obj) (x : Nat) : Obj := o.set x none

/-- `x = y` -/
def copy (o : Obj) (x y : Nat) : Out Obj := match o.pos y with | some k => .ok (o.set x k) | none => .ub

/-- `++x` -/
def next (o : Obj) (x : Nat) : Out Obj :=
  match o.pos x with
  | some (some k) => .ok (o.set x (after k o.members))
  | _ => .ub

/-- `*x` -/
def read (o : Obj) (x : Nat) : Out (Bytes × Value) :=
  match o.pos x with
  | some (some k) => match RawObject.find k o.members with | some v => .ok (k, v) | none => .ub
  | _ => .ub

/-- `x->second = v`; the key is const. -/
def write (o : Obj) (x : Nat) (v : Value) : Out Obj :=
  match o.pos x with
  | some (some k) => .ok { o with members := RawObject.insertOrAssign k v o.members }
  | _ => .ub

/-- `x == y` -/
def same (o : Obj) (x y : Nat) : Out Bool :=
  match o.pos x, o.pos y with
  | some k, some l => .ok (k = l)
  | _, _ => .ub

/-- `o.erase(x)`, object_impl.hpp:99-106 -/
def erase (o : Obj) (x : Nat) : Out (Bool × Obj) :=
  match o.pos x with
  | some (some k) => .ok (true, ⟨(RawObject.erase k o.members).1, fun y => (o.pos y).filter (· ≠ some k)⟩)
  | some none => .ok (false, o)
  | none => .ub

/-- `o.emplace(k, v)`, 108-119 -/
def emplace (o : Obj) (k : Bytes) (v : Value) : Obj := { o with members := RawObject.insertOrAssign k v o.members }

/-- `x == o.end()` -/
def atEnd (o : Obj) (x : Nat) : Out Bool :=
  match o.pos x with
  | some k => .ok k.isNone
  | none => .ub

/-- `for (; x0 != o.end(); ) body`, at most `n` rounds. -/
def loop (body : Obj → Out Obj) : Nat → Obj → Option (Out Obj)
  | 0, _ => none
  | n + 1, o =>
    match o.atEnd 0 with
    | .ok true => some (.ok o)
    | .ok false => match body o with | .ok o => loop body n o | .throw e => some (.throw e) | .ub => some .ub
    | .throw e => some (.throw e)
    | .ub => some .ub

/-- `if (p(*it)) o.erase(it++); else ++it;`: the copy that `it++` returns is variable 1. -/
def eraseStep (p : Bytes × Value → Bool) (o : Obj) : Out Obj :=
  (o.read 0).bind fun m => if p m then (o.copy 1 0).bind fun o => (o.next 0).bind fun o => (o.erase 1).bind fun r => .ok r.2 else o.next 0

/-- `if (p(*it)) o.erase(it); ++it;` -/
def naiveStep (p : Bytes × Value → Bool) (o : Obj) : Out Obj :=
  (o.read 0).bind fun m => if p m then (o.erase 0).bind fun r => r.2.next 0 else o.next 0

/-- `for (auto& [k, v] : o) body` -/
def forEach (body : Bytes × Value → Obj → Obj) : Nat → Obj → List (Bytes × Value) → Option (Out (Obj × List (Bytes × Value)))
  | 0, _, _ => none
  | n + 1, o, seen =>
    match o.same 0 1 with
    | .ok true => some (.ok (o, seen))
    | .ok false =>
      match o.read 0 with
      | .ok m => match (body m o).next 0 with | .ok o => forEach body n o (seen ++ [m]) | .throw e => some (.throw e) | .ub => some .ub
      | .throw e => some (.throw e)
      | .ub => some .ub
    | .throw e => some (.throw e)
    | .ub => some .ub

end Obj

end Meojson.Iterate
