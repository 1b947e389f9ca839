import Verif.Model.Dispatch

/-!
# What the library takes a class for

`_utils::is_container`, `is_map`, ... (utils.hpp:38-104) look at the members of a class. What they find decides which constructor of `json::value` takes it (value.hpp:127-284), which
conversion function makes it (value.hpp:534-645), and which functions the bodies of these call: `array(const collection_t&)` and its relatives (array_impl.hpp:38-137),
`object(const map_t&)` (object_impl.hpp:36-62), `array::as` (array_impl.hpp:430-512), `object::as` (object_impl.hpp:340-371).

A class is represented by what these functions see of it. Its elements are of a type that can be converted both ways, and the user has written no conversions for the class (see
`Dispatch`). Classes with a constructor of their own (`std::string`) or that convert to one of them (`std::filesystem::path`) are left out, as is `std::variant`. "Does not compile"
covers a call without a best overload as well as an error inside the body that was chosen. Compared with g++ 13 on a program of our own with constructors of the same form.
-/

set_option autoImplicit false

namespace Meojson.Classify
open Dispatch (Takes forward rvalue)

/-- How the class is written. -/
inductive Form where
  /-- `C<T, n>`: a type and a number -/
  | sized (n : Nat)
  /-- `C<Ts...>` with `k` types; what `std::tuple_size` is specialised to, if it is -/
  | types (k : Nat) (tupleSize : Option Nat)
  | other
deriving DecidableEq

/-- The `key_type`: `std::string`; another type that a `std::string` can be made from; something else. -/
inductive Key where
  | string
  | text
  | other
deriving DecidableEq

structure Class where
  form : Form
  /-- `begin()`, of an iterator whose value type is the member `value_type` of the class -/
  range : Bool := false
  /-- `traits_type` is `std::char_traits<value_type>` -/
  chars : Bool := false
  key : Option Key := none
  mapped : Bool := false
  /-- conversion to `bool` -/
  bool : Bool := false
  /-- `*x` -/
  deref : Bool := false
  /-- one of `std::optional`, `std::shared_ptr`, `std::unique_ptr`, which `value` has conversion functions for -/
  pointer : Bool := false
  /-- default constructor -/
  default : Bool := true
  emplaceBack : Bool := false
  /-- `emplace(x)` for an element, `emplace(k, x)` for a map -/
  emplace : Bool := false
  /-- `at(i)` -/
  indexed : Bool := false
  /-- the iterators refer to objects, and are not proxies -/
  refs : Bool := true
deriving DecidableEq

namespace Class

/-- utils.hpp:45-49 -/
def isString (x : Class) : Bool := x.chars

/-- utils.hpp:51-55 -/
def isContainer (x : Class) : Bool := x.range && !x.isString

/-- utils.hpp:57-60 -/
def isMap (x : Class) : Bool := x.key.isSome && x.mapped && x.isContainer

/-- utils.hpp:62-65 -/
def isFixed (x : Class) : Bool :=
  match x.form with
  | .sized _ => true
  | _ => false

/-- utils.hpp:72-75 -/
def isCollection (x : Class) : Bool := x.isContainer && !x.isMap && !x.isFixed

/-- utils.hpp:77-85; a class is no pointer. -/
def isNullable (x : Class) : Bool := x.bool && x.deref

/-- utils.hpp:105-109 -/
def isTupleLike (x : Class) : Bool :=
  match x.form with
  | .types k (some n) => k = n
  | _ => false

/-- The additional condition on maps, value.hpp:258 -/
def isTextMap (x : Class) : Bool := x.isMap && x.key = some .string

end Class

/-- The kinds of constructors and conversions -/
inductive Kind where
  | nullable | fixed | collection | tupleLike | map
deriving DecidableEq, Repr

/-- A viable constructor; `special` if its parameter has the form of a template and is not just `T`. -/
structure Cand where
  kind : Kind
  takes : Takes
  special : Bool
deriving DecidableEq

/-- The constructors that take an `x` of the given category, value.hpp:127-284. A `T&&` takes a const rvalue as a `const` class: that is still a container, but does not have the form
`C<T, n>` that makes it a fixed array. -/
def writers (x : Class) (c : Cat) : List Cand :=
  let form (k : Kind) : List Cand := ⟨k, .constRef, true⟩ :: if c = .rv then [⟨k, .rvalueRef, true⟩] else []
  (if x.isNullable then [⟨.nullable, .constRef, false⟩, ⟨.nullable, forward c, false⟩] else []) ++
  (if x.isFixed then form .fixed else []) ++
  (if x.isCollection then [⟨.collection, .constRef, false⟩] else []) ++
  (if (c = .rv && x.isCollection) || (c = .constRv && x.isContainer && !x.isMap) then [⟨.collection, .rvalueRef, false⟩] else []) ++
  (if x.isTupleLike then form .tupleLike else []) ++
  (if x.isTextMap then ⟨.map, .constRef, false⟩ :: if rvalue c then [⟨.map, .rvalueRef, false⟩] else [] else [])

/-- [over.match.best] among templates: the better binding, then the more special template ([temp.func.order]). -/
def Cand.better (c : Cat) (a b : Cand) : Bool :=
  if a.takes.better c b.takes then true
  else if b.takes.better c a.takes then false
  else (a.special && !b.special) || (a.special == b.special && a.takes = .constRef && b.takes = .sameRef)

/-- The one that is better than all others. -/
def chosen (x : Class) (c : Cat) : Option Cand :=
  ((writers x c).zipIdx.find? fun a => (writers x c).zipIdx.all fun b => a.2 = b.2 || a.1.better c b.1).map (·.1)

/-- Whether its body compiles: `arr.at(i)`, array_impl.hpp:51-71; `for (auto& val : coll)`, array_impl.hpp:100, and `for (auto& [key, val] : m)`, object_impl.hpp:59, need references. -/
def Cand.body (x : Class) (a : Cand) : Bool :=
  match a.kind with
  | .fixed => x.indexed
  | .collection | .map => a.takes = .constRef || x.refs
  | .nullable | .tupleLike => true

/-- `json::value(x)` compiles. -/
def writes (x : Class) (c : Cat) : Bool := (chosen x c).any (Cand.body x)

/-- The conversion function, value.hpp:538-645. Two that are viable are equally good; for the pointers those that are made for them are more special. -/
def reader (x : Class) : Option Kind :=
  if x.pointer then some .nullable
  else if x.isCollection || x.isFixed || x.isTupleLike then
    if x.isTextMap then none
    else if x.isFixed then some .fixed
    else if x.isCollection then some .collection
    else some .tupleLike
  else if x.isTextMap then some .map
  else none

/-- `static_cast<T>(v)` compiles. -/
def reads (x : Class) : Bool :=
  match reader x with
  | some .fixed => x.default && x.indexed
  | some .collection => x.default && (x.emplaceBack || x.emplace)
  | some .tupleLike => x.default
  | some .map => x.default && x.emplace
  | some .nullable => true
  | none => false

/-- What `is<T>()` takes the class for, value_impl.hpp:281-337. -/
def checker (x : Class) : Option Kind :=
  if x.isNullable then some .nullable
  else if x.isCollection then some .collection
  else if x.isFixed then some .fixed
  else if x.isTupleLike then some .tupleLike
  else if x.isMap then some .map
  else none

end Meojson.Classify
