import Verif.Model.TakeMemory
import Verif.Model.Mutate

/-!
# Operators `+` and `|` with operands of either kind, when memory may be refused

value_impl.hpp:1007-1037 and 1051-1081, with array_impl.hpp:9-19, 376-400 and object_impl.hpp:9-21, 286-310. Each operator has four overloads: either operand may be an lvalue or an rvalue. An operation
gives what is left of both operands, the outcome, and the number of the next request for memory. The requests, in order:

* A left operand that is an rvalue goes through the non-const `as_array()` or `as_object()` (640-666): the tag of an empty value is set, then a container is asked for.
* A left operand that is an lvalue is copied (`array temp = *this`): a buffer if there are elements, and copies of them; or nodes, keys and copies of the members.
* `reserve` and the copies of the elements of the right operand, or nothing for elements that are moved. As in libstdc++, a range insertion at the end that throws leaves the vector as it was; the standard
  leaves this open.
* `insert_or_assign` of each member. If there is a member with the key: the copy assignment (846-852) sets the tag and then asks for the copy, the move assignment (854) asks for nothing. Otherwise a node,
  its key, and the copy of the value, if it is copied.
* `std::make_unique` for the result, after the operator on the containers has returned; its constructor takes the container over. When it is reached, a left operand that is an rvalue has been moved from: as
  in Model/Mutate.lean, its container is empty.

Simplifications: how many requests a copy, a key and `reserve` make are parameters; the operands are different objects and hold what their tags announce; a text that is moved from is empty, as in
libstdc++. What is left of a value moved from is `Value.emptied` of Model/Convert.lean.
-/

set_option autoImplicit false

namespace Meojson

/-- The memory and the library. Requests are numbered. -/
structure Joiner where
  /-- Whether a request is granted. -/
  gives : Nat → Bool
  /-- Requests of a copy of a value. -/
  copies : Value → Nat
  /-- Requests of `reserve`, for so many elements and so many more. -/
  room : Nat → Nat → Nat
  /-- Requests for a node with this key. -/
  nodes : Bytes → Nat

namespace Joiner
variable (J : Joiner)

/-- So many requests, one after the other. False if one is refused. -/
def grant : Nat → Nat → Bool × Nat
  | 0, n => (true, n)
  | k + 1, n => if J.gives n then grant k (n + 1) else (false, n + 1)

/-- First the requests, then the rest. `x` is what there is if they are refused. -/
def first {σ α : Type} (k : Nat) (x : σ) (f : Nat → Held σ α) (n : Nat) : Held σ α :=
  match J.grant k n with
  | (true, n) => f n
  | (false, n) => (x, .throw .badAlloc, n)

/-- `throw exception(…)`, in place of which comes `std::bad_alloc` if there is no memory for the text. -/
def complain {σ α : Type} (x : σ) (n : Nat) : Held σ α := (x, .throw (if J.gives n then .json else .badAlloc), n + 1)

/-- `append_array` and `append_array_move`, array_impl.hpp:9-19. `mv` tells whether the right operand is an rvalue. -/
def append (mv : Bool) (vs xs : List Value) (n : Nat) : Held (List Value × List Value) Unit :=
  J.first (J.room vs.length xs.length + if mv then 0 else (xs.map J.copies).sum) (vs, xs)
    (fun n => ((vs ++ xs, if mv then xs.map Value.emptied else xs), .ok (), n)) n

/-- `merge_object` and `merge_object_move`, object_impl.hpp:9-21. -/
def merge (mv : Bool) : List (Bytes × Value) → List (Bytes × Value) → Nat → Held (List (Bytes × Value) × List (Bytes × Value)) Unit
  | ms, [], n => ((ms, []), .ok (), n)
  | ms, (k, x) :: ns, n =>
    let rest := fun n => let r := merge mv (RawObject.insertOrAssign k x ms) ns n; ((r.1.1, (k, if mv then x.emptied else x) :: r.1.2), r.2)
    let copy := if mv then 0 else J.copies x
    match RawObject.find k ms with
    | some old => J.first copy (RawObject.insertOrAssign k (old.retag x.type) ms, (k, x) :: ns) rest n
    | none => J.first (J.nodes k + copy) (ms, (k, x) :: ns) rest n

/-- `make_unique` for the result of the operator on the containers, or what is left when that throws. `after` and `during` give the left operand. -/
def box {σ : Type} (wrap : σ → Value) (during : σ → Value) (after : Value) (r : Held (σ × σ) Unit) : Held (Value × σ) Value :=
  match r.2.1 with
  | .ok () => J.first 1 (after, r.1.2) (fun n => ((after, r.1.2), .ok (wrap r.1.1), n)) r.2.2
  | .throw e => ((during r.1.1, r.1.2), .throw e, r.2.2)
  | .ub => ((during r.1.1, r.1.2), .ub, r.2.2)

/-- The left operand is an lvalue: its container is copied first. -/
def fromCopy {σ : Type} (view : Out σ) (wrap : σ → Value) (cost : σ → Nat) (join : σ → σ → Nat → Held (σ × σ) Unit) (v : Value) (b : σ) (n : Nat) : Held (Value × σ) Value :=
  match view with
  | .ok a => J.first (cost a) (v, b) (fun n => J.box wrap (fun _ => v) v (join a b n)) n
  | .throw .json => J.complain (v, b) n
  | .throw e => ((v, b), .throw e, n)
  | .ub => ((v, b), .ub, n)

/-- The left operand is an rvalue: its own container is changed and then moved from. -/
def inPlace {σ : Type} (view : Out σ) (t : VType) (none : σ) (wrap : VType → σ → Value) (join : σ → σ → Nat → Held (σ × σ) Unit) (v : Value) (b : σ) (n : Nat) :
    Held (Value × σ) Value :=
  match v.empty with
  | .ok true => J.first 1 (v.retag t, b) (fun n => J.box (wrap t) (wrap t) (wrap t none) (join none b n)) n
  | .ok false =>
    match view with
    | .ok a => J.box (wrap t) (wrap v.type) (wrap v.type none) (join a b n)
    | .throw .json => J.complain (v, b) n
    | .throw e => ((v, b), .throw e, n)
    | .ub => ((v, b), .ub, n)
  | .throw e => ((v, b), .throw e, n)
  | .ub => ((v, b), .ub, n)

/-- Requests of `array temp = *this`. -/
def arrayCost (vs : List Value) : Nat := (if vs = [] then 0 else 1) + (vs.map J.copies).sum

/-- Requests of `object temp = *this`. -/
def objectCost (ms : List (Bytes × Value)) : Nat := (ms.map fun e => J.nodes e.1 + J.copies e.2).sum

/-- `operator+`, value_impl.hpp:1051-1081. `lmv` and `rmv` tell which operands are rvalues. -/
def plus (lmv rmv : Bool) (v : Value) (xs : List Value) (n : Nat) : Held (Value × List Value) Value :=
  if lmv then J.inPlace v.asArray .array [] .arr (J.append rmv) v xs n else J.fromCopy v.asArray (.arr .array) J.arrayCost (J.append rmv) v xs n

/-- `operator|`, value_impl.hpp:1007-1037. -/
def or (lmv rmv : Bool) (v : Value) (ns : List (Bytes × Value)) (n : Nat) : Held (Value × List (Bytes × Value)) Value :=
  if lmv then J.inPlace v.asObject .object [] .obj (J.merge rmv) v ns n else J.fromCopy v.asObject (.obj .object) J.objectCost (J.merge rmv) v ns n

end Joiner
end Meojson
