import Verif.Spec.Classify

/-!
# Which classes can be converted, as g++ decides it

The rows were printed by a program of our own with constructors and conversion functions of the same form (not the library), compiled with g++ 13 -std=c++20: whether a const lvalue, an
lvalue, an rvalue, a const rvalue can be written, and whether the class can be read: 1 yes, A ambiguous, 0 no for another reason.
-/

set_option autoImplicit false

namespace Meojson.Classify.Table

def letter (x : Class) (c : Cat) : Char :=
  if writes x c then '1' else if (chosen x c).isNone && !(writers x c).isEmpty then 'A' else '0'

def row (x : Class) : String := String.ofList ([Cat.constLv, .lv, .rv, .constRv].map (letter x) ++ [if reads x then '1' else '0'])

/-- `begin()` and `emplace`, `operator bool` and `operator*` -/
def both : Class := { form := .other, range := true, bool := true, deref := true, emplace := true }
/-- the same with a key and a mapped type -/
def bothMap : Class := { both with key := some .string, mapped := true }
/-- `template <class T, size_t n> struct Mat { T x[n]; };` -/
def mat : Class := { form := .sized 3 }
/-- `C<T, n>` with `at`, `operator bool` and `operator*` -/
def nulFix : Class := { form := .sized 3, indexed := true, bool := true, deref := true }
/-- `C<T>` with `begin()`, `emplace`, and `std::tuple_size` 1 -/
def tup : Class := { form := .types 1 (some 1), range := true, emplace := true }

open Meojson.Classify.Std

def rows : List (Class × String) := [
  (vector, "11111"), (vectorBool, "11001"), (deque, "11111"), (list, "11111"), (forwardList, "11110"), (set, "11111"), (initializerList, "11110"),
  (map, "11111"), (intMap, "00000"), (viewMap, "00000"), (array 3, "11111"), (span 3, "00010"), (pair, "11111"), (tuple 2, "11111"), (tuple 0, "11111"),
  (optional, "11111"), (uniquePtr, "11111"), (sharedPtr, "11111"), (stack, "00000"), (wstring, "00000"), (valarray, "00000"), (bitset, "00000"),
  (both, "A1AA1"), (bothMap, "A1AA1"), (mat, "00000"), (nulFix, "11111"), (tup, "11111")]

example : rows.all (fun x => row x.1 = x.2) = true := by decide +kernel

end Meojson.Classify.Table
