import Verif.Model.Convert

/-!
# Which conversion a type gets when the user has written one

A user can write `to_json`, `check_json`, `from_json` as members of a class, or in a specialisation of `ext::jsonization` for any type, also for one the library has a conversion
for; there also `move_to_json` and `move_from_json` (utils.hpp:23-34, utils.hpp:170-266). `is<T>()` and `as<T>()` choose by a chain of `if constexpr` (value_impl.hpp:258-340,
681-729); `json::value(x)` and `static_cast<T>(v)` by overload resolution among the constructors (value.hpp:49-309) and conversion functions (value.hpp:447-645), [over.match.best] and
[temp.func.order] of the C++ standard. `none` stands for a program that does not compile. The choices were compared with g++ 13 on a program of our own with the same
signatures (not the library).

A type is of exactly one kind; a class with, say, both `begin()` and `operator*` is left out.
-/

set_option autoImplicit false

namespace Meojson.Dispatch

/-- What the library sees in a type, utils.hpp:38-104.

* `own`: has a constructor and a conversion function of its own that are no templates: `bool`, the numbers from `int` on, `std::string`, `std::monostate`, `json::array`, ...
* `refused`: `char`, `wchar_t`, `char16_t`, `char32_t`, whose constructors are deleted, value.hpp:306-309
* `small`: `signed char`, `unsigned char`, `short`, `unsigned short`: `int` has a constructor that they convert to (pointers are left out)
* `nullable`: `std::optional`, `std::shared_ptr`, `std::unique_ptr`; `wrapper`: another class with `operator bool` and `operator*`
* `other`: a class that is nothing of the rest. -/
inductive Kind where
  | own | refused | small | enumeration | nullable | wrapper | variant | fixed | collection | tupleLike | map | other
deriving DecidableEq, Repr

/-- What the user has written for the type: in the class (`...Member`), in a specialisation of `ext::jsonization` (`...Spec`). -/
structure Hooks where
  toMember : Bool := false
  toSpec : Bool := false
  moveToSpec : Bool := false
  checkMember : Bool := false
  checkSpec : Bool := false
  fromMember : Bool := false
  fromSpec : Bool := false
  moveFromSpec : Bool := false
deriving DecidableEq

/-- What does the conversion -/
inductive Via where
  | builtIn
  | member
  | spec
  | moveSpec
deriving DecidableEq, Repr

/-- How a function takes its argument (or, for a conversion function, the object it is called on). -/
inductive Takes where
  | byValue
  | constRef
  /-- `X&&` -/
  | rvalueRef
  /-- `X&` or `const X&`, deduced from a `T&&` -/
  | sameRef
deriving DecidableEq

/-- A viable function: `exact` unless the argument (or the result) has to be converted, `special` if the type of its template has the form `std::variant<Ts...>` and not just `T`. -/
structure Cand where
  via : Via
  takes : Takes
  template : Bool := true
  special : Bool := false
  exact : Bool := true
  deleted : Bool := false
deriving DecidableEq

/-- Whether the first binds its reference better, [over.ics.rank]/3.2: an rvalue to `&&`; to a type that is less `const`. -/
def Takes.better (c : Cat) : Takes → Takes → Bool
  | .rvalueRef, .constRef => c = .rv || c = .constRv
  | .sameRef, .constRef => c = .lv
  | _, _ => false

/-- [temp.func.order] -/
def Cand.moreSpecial (a b : Cand) : Bool :=
  (a.special && !b.special) || (a.special == b.special && a.takes = .constRef && (b.takes = .sameRef))

/-- [over.match.best]: the better conversion, then what is no template, then the more special template. -/
def Cand.better (c : Cat) (a b : Cand) : Bool :=
  if a.exact != b.exact then a.exact
  else if a.takes.better c b.takes then true
  else if b.takes.better c a.takes then false
  else if a.template != b.template then b.template
  else a.template && a.moreSpecial b && !b.moreSpecial a

/-- The function that is better than all others; it must not be deleted. -/
def resolve (c : Cat) (cands : List Cand) : Option Via :=
  match cands.zipIdx.find? fun x => cands.zipIdx.all fun y => x.2 = y.2 || x.1.better c y.1 with
  | some x => if x.1.deleted then none else some x.1.via
  | none => none

/-- How `T&&` takes an argument of a category. -/
def forward : Cat → Takes
  | .lv | .constLv => .sameRef
  | .rv | .constRv => .rvalueRef

def rvalue (c : Cat) : Bool := c = .rv || c = .constRv

/-- The constructors made for users' conversions, value.hpp:98-126 -/
def userWriters (h : Hooks) (c : Cat) : List Cand :=
  (if h.toMember then [⟨.member, .constRef, true, false, true, false⟩] else []) ++
  (if h.toSpec then [⟨.spec, .constRef, true, false, true, false⟩] else []) ++
  if h.moveToSpec && rvalue c then [⟨.moveSpec, .rvalueRef, true, false, true, false⟩] else []

/-- The library's own, value.hpp:49-97 and 127-309. Most stand back if there is a `to_json`. A `T&&` for a container does not take lvalues: `T` would be a reference, and a
reference is no container. `std::variant<Ts...>&&` does not take const rvalues. -/
def ownWriters (k : Kind) (h : Hooks) (c : Cat) : List Cand :=
  let general (viable : Bool) : List Cand :=
    if h.toMember || h.toSpec then [] else
      ⟨.builtIn, .constRef, true, false, true, false⟩ :: if viable then [⟨.builtIn, forward c, true, false, true, false⟩] else []
  let form : List Cand :=
    if h.toMember || h.toSpec then [] else
      ⟨.builtIn, .constRef, true, true, true, false⟩ :: if c = .rv then [⟨.builtIn, .rvalueRef, true, true, true, false⟩] else []
  match k with
  | .own => [⟨.builtIn, .byValue, false, false, true, false⟩]
  | .refused => [⟨.builtIn, .byValue, false, false, true, true⟩]
  | .small => [⟨.builtIn, .byValue, false, false, false, false⟩]
  | .enumeration => [⟨.builtIn, .byValue, true, false, true, false⟩]
  | .nullable | .wrapper => general true
  | .collection | .map => general (rvalue c)
  | .variant | .fixed | .tupleLike => form
  | .other => []

/-- `json::value(x)`. The body for `move_to_json` needs an rvalue that is not const. -/
def write (k : Kind) (h : Hooks) (c : Cat) : Option Via :=
  (resolve c (ownWriters k h c ++ userWriters h c)).filter fun w => !(w = .moveSpec && c = .constRv)

/-- The conversion functions made for users' conversions, value.hpp:502-532; here `c` is the category of the `json::value`. -/
def userReaders (h : Hooks) (c : Cat) : List Cand :=
  (if h.fromMember then [⟨.member, .constRef, true, false, true, false⟩] else []) ++
  (if h.fromSpec then [⟨.spec, .constRef, true, false, true, false⟩] else []) ++
  if h.moveFromSpec && c = .rv then [⟨.moveSpec, .rvalueRef, true, false, true, false⟩] else []

/-- The library's own, value.hpp:447-500 and 534-645. For a `small` type several are equally good. `std::optional` has a constructor that takes anything its content can be made from,
which is better than any conversion function; the other two nullable types and `std::variant` have conversion functions of the form `std::shared_ptr<T>`. -/
def ownReaders (k : Kind) (h : Hooks) (c : Cat) : List Cand :=
  let form : List Cand := ⟨.builtIn, .constRef, true, true, true, false⟩ :: if c = .rv then [⟨.builtIn, .rvalueRef, true, true, true, false⟩] else []
  let general : List Cand :=
    if h.fromMember || h.fromSpec then [] else
      ⟨.builtIn, .constRef, true, false, true, false⟩ :: if c = .rv then [⟨.builtIn, .rvalueRef, true, false, true, false⟩] else []
  match k with
  | .own => [⟨.builtIn, .constRef, false, false, true, false⟩]
  | .refused | .small => [⟨.builtIn, .constRef, false, false, false, false⟩, ⟨.builtIn, .constRef, false, false, false, false⟩]
  | .enumeration => [⟨.builtIn, .constRef, true, false, true, false⟩]
  | .nullable | .variant => form
  | .collection | .map | .fixed | .tupleLike => general
  | .wrapper | .other => []

/-- `static_cast<T>(v)` -/
def cast (k : Kind) (h : Hooks) (c : Cat) : Option Via := resolve c (ownReaders k h c ++ userReaders h c)

/-- `is<T>()`, value_impl.hpp:258-340: users' functions come first. -/
def is (k : Kind) (h : Hooks) : Option Via :=
  if h.checkMember then some .member
  else if h.checkSpec then some .spec
  else if k = .other then none
  else some .builtIn

/-- `v.as<T>()`: `as() const&`, value_impl.hpp:681-704, for lvalues and const rvalues, and `as() &&`, 706-729, for rvalues. The latter does not ask for `from_json` in a specialisation, and
casts an lvalue. -/
def as (k : Kind) (h : Hooks) (c : Cat) : Option Via :=
  if c = .rv then
    if h.fromMember then some .member
    else if h.moveFromSpec then some .moveSpec
    else cast k h .lv
  else
    if h.fromMember then some .member
    else if h.fromSpec then some .spec
    else cast k h .constLv

end Meojson.Dispatch
