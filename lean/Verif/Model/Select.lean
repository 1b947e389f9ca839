import Verif.Model.Entry

/-!
# Which `parse` a call means

`json::parse` and `json::parsec` are overloaded (parser.hpp:67-77): a template for any content, a function for C strings, and for `parse` a function for streams. Which of them a call means is decided by the rules of
overload resolution for the argument's type (C++17, [over.match.best], [over.ics.rank]).
-/

set_option autoImplicit false

namespace Meojson.Select

/-- What the argument is. -/
inductive Arg where
  /-- `std::string`, `std::string_view`, `std::vector<char>`, ... -/
  | container
  /-- a string literal, or `const char a[N]` -/
  | constArray
  /-- `char a[N]` -/
  | array
  | constPointer
  /-- `char*` -/
  | pointer
  /-- an lvalue of type `std::istream` -/
  | istream
  /-- an lvalue of a class derived from it: `std::ifstream`, `std::istringstream` -/
  | derivedStream
deriving DecidableEq, Repr

/-- The overloads: parser.hpp:67-68, 70, 77. -/
inductive Overload where
  | content
  | cString
  | stream
deriving DecidableEq, Repr

/-- How well an argument fits a parameter, as far as the overloads differ: `exact` is the identity, possibly after turning an array into a pointer, which does not count
([over.ics.rank]/3.2.1); `moreConst` binds a reference to a more `const` type than another overload does (3.2.6), or adds a `const` behind a pointer (3.2.5: the identity is better);
`base` is a conversion to a base class. -/
inductive Fit where
  | exact
  | moreConst
  | base
deriving DecidableEq, Repr

def Fit.rank : Fit → Nat
  | .exact => 0
  | .moreConst => 1
  | .base => 2

/-- The fit of an argument to an overload. None: not viable. The template `parse(const parsing_t&)` fits everything exactly, except that for a stream the overload with `std::istream&` is less `const`. -/
def fit : Arg → Overload → Option Fit
  | .istream, .content => some .moreConst
  | _, .content => some .exact
  | .constArray, .cString | .constPointer, .cString => some .exact
  | .array, .cString | .pointer, .cString => some .moreConst
  | .istream, .stream => some .exact
  | .derivedStream, .stream => some .base
  | _, _ => none

/-- Whether an overload takes that many arguments: the stream overload has two more with defaults, parser.hpp:77. -/
def Overload.takes : Overload → Nat → Bool
  | .stream, n => 1 ≤ n && n ≤ 3
  | _, n => n = 1

/-- The overload a call with `n` arguments means, out of some of which functions come before the template: the best fit, and among equal ones a function rather than the template. -/
def best (os : List Overload) (a : Arg) (n : Nat) : Option Overload :=
  let viable := os.filter fun o => o.takes n && (fit a o).isSome
  viable.find? fun o => viable.all fun o' => ((fit a o).map Fit.rank).getD 0 ≤ ((fit a o').map Fit.rank).getD 0

/-- `parse`, parser.hpp:67-70, 77. -/
def select : Arg → Nat → Option Overload := best [.cString, .stream, .content]

/-- `parsec`, parser.hpp:72-75, has no overload for streams. -/
def selectC : Arg → Nat → Option Overload := best [.cString, .content]

/-- Whether a call then compiles: the template needs a content with a `const_iterator`, parser.hpp:23. -/
def Overload.accepts (a : Arg) : Option Overload → Bool
  | some .content => a = .container
  | some _ => true
  | none => false

def compiles (a : Arg) (n : Nat) : Bool := Overload.accepts a (select a n)

def compilesC (a : Arg) (n : Nat) : Bool := Overload.accepts a (selectC a n)

end Meojson.Select
