import Verif.Model.Heap

/-!
# References to values

`at` and `operator[]` return references to `json::value` objects that lie in the buffer of a `std::vector` or in a node of a `std::map`
(include/common/value_impl.hpp:407-415, 973-1005, array_impl.hpp:190-193, 366-374, object_impl.hpp:84-87, 276-284). Here a reference names such an object, so that one can
ask whether a reference obtained before a statement designates a value afterwards, and which.

* A reference to an element names the array and the index. Whether the buffer of the array was exchanged for a larger one in the meantime is not recorded: the
  specification (Spec/Reference.lean) promises nothing about the elements themselves when an array grows.
* A reference to a member names the object and the key: a node of a `std::map` stays where it is until it is erased.
* Addresses are not used twice (Model/Heap.lean), so a reference into something that was destroyed never comes back to life.
-/

set_option autoImplicit false

namespace Meojson.Mem

/-- What a reference to a `json::value` designates: a variable, an element of the array at `a`, or a member of the object at `a`. -/
inductive Ref where
  | var (x : Nat)
  | elem (a : Addr) (i : Nat)
  | member (a : Addr) (k : Bytes)
deriving DecidableEq, Repr

/-- The array or object that a reference points into. -/
def Ref.cell : Ref → Option Addr
  | .var _ => none
  | .elem a _ | .member a _ => some a

/-- Where the referenced object lies; `none`: it is not there (any more). -/
def State.slot (st : State) : Ref → Option Loc
  | .var x => if (st.var x).isSome then some (.var x) else none
  | .elem a i =>
    match st.heap.cell a with
    | some (.arr vs) => if i < vs.length then some (.child a i) else none
    | _ => none
  | .member a k =>
    match st.heap.cell a with
    | some (.obj ms) => (keyIndex k ms).map (.child a)
    | _ => none

/-- The object that a reference designates; `none`: the reference dangles. -/
def State.deref (st : State) (r : Ref) : Option HVal := (st.slot r).bind st.read

/-- The reference that `v.at(i)` or `v.at(k)` returns if there is such an element or member (the references that `operator[]` returns are the same). -/
def HVal.under (v : HVal) : Sel → Option Ref
  | .pos i => match v with | ⟨.array, .arr (some a)⟩ => some (.elem a i) | _ => none
  | .key k => match v with | ⟨.object, .obj (some a)⟩ => some (.member a k) | _ => none

/-- The reference that `r[s1][s2]...` returns. -/
def State.follow (st : State) : Ref → List Sel → Option Ref
  | r, [] => if (st.deref r).isSome then some r else none
  | r, s :: path => (st.deref r).bind fun v => (v.under s).bind fun r => st.follow r path

/-- The reference that the expression `x[s1][s2]...` returns. -/
def State.refer (st : State) (p : Place) : Option Ref := st.follow (.var p.x) p.path

/-- The array or object in a value, to which `as_array()` and `as_object()` return a reference (value_impl.hpp:622-667). -/
def HVal.container (v : HVal) : Option Addr :=
  match v with
  | ⟨.array, .arr (some a)⟩ | ⟨.object, .obj (some a)⟩ => some a
  | _ => none

/-- The array or object in the value that the expression `x[s1][s2]...` names. -/
def State.containerAt (st : State) (p : Place) : Option Addr := (st.refer p).bind fun r => (st.deref r).bind HVal.container

/-- A reference to a `json::array` or `json::object` dangles when there is no such object any more. -/
def State.alive (st : State) (a : Addr) : Bool := (st.heap.cell a).isSome

end Meojson.Mem
