import Verif.Model.Reference

/-!
# Expressions that hand out references

`json::parse(s)->as_array()`, `f().at("k")`, `*v.find("k")`: an expression starts at a variable or at an object that a function returns, and calls accessors one after the other. Some return a
reference or a pointer into the value they are called on, some return an object of their own. At the end of the full expression the objects that have no name are destroyed ([class.temporary]).
Declarations: include/common/value.hpp:348-349, 358-363, 377-387, 430-433, array.hpp:143, 183-185, 210-211, object.hpp:99, 121-123, 141-142; definitions: value_impl.hpp:407-415, 470-492, 622-666,
681-729, 973-1005, array_impl.hpp:190-193, 291-304, 366-374, object_impl.hpp:84-87, 230-244, 276-284. Apart from `as<T>()` none has a ref-qualifier: all may be called on objects without a name.

* An expression is translated into statements of Model/Heap.lean and the place of the result. The accessors find what they look for: `at` throws if it does not, `operator[]` with a position is
  undefined (C25), `find` and `find_value` return nothing.
* `o["k"]` of an object is translated like `v["k"]` of the value that contains it (which would replace the object if it is empty; no other reference to it exists then that the expression uses).
* `json::value(e)` is modelled for values only, and copies. C++ moves instead if `e` is a part of an object without a name; what is left there is destroyed with that object.
* `get(...)` with a default returns an object as `find` does. Views of text are in Model/View.lean, iterators in Model/Iterate.lean.
-/

set_option autoImplicit false

namespace Meojson.Mem

/-- The type of an expression. -/
inductive Kind where
  | value
  | array
  | object
  /-- `const json::value*` -/
  | pointer
  /-- `std::optional<json::value>` -/
  | optional
deriving DecidableEq, Repr

/-- Where an expression starts; not with a pointer. -/
inductive Start where
  /-- A variable of type `json::value`, `json::array`, `json::object` or `std::optional<json::value>`; the array or object lies in a value that nobody else sees. -/
  | name (kind : Kind) (const : Bool) (x : Nat)
  /-- A call of a function that returns such an object, for instance `json::parse(s)`, or the end of a cast, `(json::object)v["k"]`. The object is created as number `x`. -/
  | call (kind : Kind) (x : Nat) (v : Value)

/-- One accessor. -/
inductive Accessor where
  /-- `.at(s)` -/
  | get (s : Sel)
  /-- `[s]` -/
  | index (s : Sel)
  /-- `.as_array()` -/
  | asArray
  /-- `.as_object()` -/
  | asObject
  /-- `.find_value(s)` -/
  | findValue (s : Sel)
  /-- `.find(s)`, which creates object number `x` -/
  | find (s : Sel) (x : Nat)
  /-- `*e`, `e->` and, for an optional, `e.value()` -/
  | star
  /-- `json::value(e)` and `e.as<json::value>()`, which create object number `x` -/
  | copy (x : Nat)
deriving DecidableEq

/-- What an expression denotes: its type, whether that is `const`, whether it is an object that the last step created, and the value it is, points to, or lies in. -/
structure Denotes where
  kind : Kind
  const : Bool
  fresh : Bool
  place : Place
deriving DecidableEq

def Place.sub (p : Place) (s : Sel) : Place := ⟨p.x, p.path ++ [s]⟩

def Start.ops : Start → List Op
  | .name _ _ _ => []
  | .call _ x v => [.init x v]

def Start.denotes : Start → Denotes
  | .name k c x => ⟨k, c, false, ⟨x, []⟩⟩
  | .call k x _ => ⟨k, false, true, ⟨x, []⟩⟩

/-- What is done and what comes out; `none`: the expression does not compile. -/
def Accessor.apply (e : Denotes) : Accessor → Option (List Op × Denotes)
  | .get s =>
    match e.kind, s with
    | .value, _ | .array, .pos _ | .object, .key _ => some ([], ⟨.value, true, false, e.place.sub s⟩)
    | _, _ => none
  | .index s =>
    match e.kind, s, e.const with
    | .value, .pos _, true | .array, .pos _, true => some ([], ⟨.value, true, false, e.place.sub s⟩)
    | .value, .pos _, false => some ([.asArray e.place], ⟨.value, false, false, e.place.sub s⟩)
    | .array, .pos _, false => some ([], ⟨.value, false, false, e.place.sub s⟩)
    | .value, .key k, false | .object, .key k, false => some ([.index e.place k], ⟨.value, false, false, e.place.sub s⟩)
    | _, _, _ => none
  | .asArray =>
    match e.kind with
    | .value => some (if e.const then [] else [.asArray e.place], ⟨.array, e.const, false, e.place⟩)
    | _ => none
  | .asObject =>
    match e.kind with
    | .value => some (if e.const then [] else [.asObject e.place], ⟨.object, e.const, false, e.place⟩)
    | _ => none
  | .findValue s =>
    match e.kind, s with
    | .value, _ | .array, .pos _ | .object, .key _ => some ([], ⟨.pointer, true, false, e.place.sub s⟩)
    | _, _ => none
  | .find s x =>
    match e.kind, s with
    | .value, _ | .array, .pos _ | .object, .key _ => some ([.copyInit x (e.place.sub s)], ⟨.optional, false, true, ⟨x, []⟩⟩)
    | _, _ => none
  | .star =>
    match e.kind with
    | .pointer => some ([], ⟨.value, true, false, e.place⟩)
    | .optional => some ([], ⟨.value, e.const, false, e.place⟩)
    | _ => none
  | .copy x =>
    match e.kind with
    | .value => some ([.copyInit x e.place], ⟨.value, false, true, ⟨x, []⟩⟩)
    | _ => none

/-- The numbers of the objects that an accessor creates. -/
def Accessor.makes : Accessor → List Nat
  | .find _ x | .copy x => [x]
  | _ => []

def Start.makes : Start → List Nat
  | .name _ _ _ => []
  | .call _ x _ => [x]

/-- A whole expression. -/
def chain : Denotes → List Accessor → Option (List Op × Denotes)
  | e, [] => some ([], e)
  | e, a :: as => (a.apply e).bind fun r => (chain r.2 as).map fun s => (r.1 ++ s.1, s.2)

/-- The objects that are destroyed at the end of `auto&& r = e;`, the last one first: all that have been created, but not the one that `r` is bound to. -/
def ended (s : Start) (as : List Accessor) (e : Denotes) : List Nat :=
  ((s.makes ++ as.flatMap Accessor.makes).filter fun x => !(e.fresh && x == e.place.x)).reverse

/-- What is designated in memory: a value, or an array or object. -/
inductive Target where
  | value (r : Ref)
  | container (a : Addr)

def State.target (st : State) (e : Denotes) : Option Target :=
  match e.kind with
  | .array | .object => (st.containerAt e.place).map .container
  | _ => (st.refer e.place).map .value

/-- It is still there. -/
def State.there (st : State) : Target → Bool
  | .value r => (st.deref r).isSome
  | .container a => st.alive a

end Meojson.Mem
