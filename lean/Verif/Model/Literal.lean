import Verif.Model.Containers
import Verif.Spec.Work

/-!
# Values written down as nested braces, counting what is copied

`json::array{1, json::object{{"a", 2}}}`, `json::value v = {{"a", {{"b", 1}}}}`: array.hpp:35 and array_impl.hpp:29-32, object.hpp:34 and object_impl.hpp:31-34, value.hpp:76 and value_impl.hpp:200-204.
The elements between braces are first made in an array of the compiler's own, in which they are `const`; the constructor then copies them into its vector or map. The
`std::make_move_iterator` of object_impl.hpp:32 does not help, as nothing can be moved out of a `const` element. A value with a class name before its braces moves into the element it is
written for (`value(array&&)`, `value(object&&)`, `value(value&&)`), and braces without a name make an element of an array in place. A member `{key, {...}}` with bare braces for its
value goes through `pair(const T1&, const T2&)`, as the type of the braces is not deduced for `pair(U1&&, U2&&)`: the key and the value are made, copied into the pair, and
only then copied into the map. The choice of constructors and the numbers of copies were compared with g++ 13 on classes of our own with the same constructors, as C++17, C++20 and C++23.

Left out: conversions of other types on the way (they are leaves here, made in place); memory that runs out; the making of the leaves and keys themselves, which is done once, and the destruction
of what was copied. `json::array{x}` with a single `x` that is a `json::array` makes an array with one element, as the standard and g++ have it; clang took it for a copy
of `x` until it followed the resolution of core issue 2137.
-/

set_option autoImplicit false

namespace Meojson

/-- A value as it is written in a program. -/
inductive Lit where
  /-- something without braces -/
  | leaf (v : Value)
  /-- `json::array{e, ...}` -/
  | array (es : List Lit)
  /-- `json::object{{k, e}, ...}` -/
  | object (ms : List (Bytes × Lit))
  /-- `json::value{{k, e}, ...}` with `named`, else `{{k, e}, ...}` -/
  | braces (named : Bool) (ms : List (Bytes × Lit))

/-- How the standard library does it. -/
structure Shelf where
  /-- `std::pair` takes braces for its second member by `pair(U1&&, U2&&)` (default template arguments, since C++23) -/
  pairMoves : Bool
  /-- the range constructor of `std::map` looks for the key before it copies the member -/
  looksFirst : Bool
deriving DecidableEq, Repr

/-- Braces without a class name. -/
def Lit.bare : Lit → Bool
  | .braces false _ => true
  | _ => false

/-- What was made, and the values and bytes that were copied for it. -/
structure Made (α : Type) where
  value : α
  copied : Nat

section
variable (S : Shelf)

/-- `object(std::initializer_list)`, object_impl.hpp:31-34 -/
def Made.object (r : Made (List (Bytes × Value))) : Made Value :=
  let m := ObjectData.ofInit r.value []
  ⟨.ofObject m, r.copied + if S.looksFirst then Value.weightMembers m else Value.weightMembers r.value⟩

mutual
def Lit.make : Lit → Made Value
  | .leaf v => ⟨v, 0⟩
  | .array es =>
    let r := Lit.makeAll es
    ⟨.ofArray r.value, r.copied + Value.weightAll r.value⟩
  | .object ms => (Lit.makeMembers ms).object S
  -- `{}` is `value()`, value.hpp:49
  | .braces _ [] => ⟨.null, 0⟩
  | .braces _ (m :: ms) => (Lit.makeMembers (m :: ms)).object S
/-- The elements between the braces of an array. -/
def Lit.makeAll : List Lit → Made (List Value)
  | [] => ⟨[], 0⟩
  | e :: es =>
    let r := e.make
    let s := Lit.makeAll es
    ⟨r.value :: s.value, r.copied + s.copied⟩
/-- The pairs between the braces of an object. -/
def Lit.makeMembers : List (Bytes × Lit) → Made (List (Bytes × Value))
  | [] => ⟨[], 0⟩
  | (k, e) :: ms =>
    let r := e.make
    let s := Lit.makeMembers ms
    ⟨(k, r.value) :: s.value, r.copied + (if e.bare && !S.pairMoves then k.length + r.value.weight else 0) + s.copied⟩
end
end

end Meojson
