import Verif.Model.Construct

/-!
# What an argument in the place of a key or a position means

The functions of `value`, `array` and `object` that look up, change or remove one element take a `size_t pos`, or a `const std::string& key`, or are overloaded for both:

* `value::contains`, `exists`, `at`, `erase`, `find`, `find_value` (include/common/value.hpp:334-340, 348-352, 358-363) and the non-const `value::operator[]` (value.hpp:431-433): both;
* `value::operator[] const` (value.hpp:430), and the functions of `array` (include/common/array.hpp:139-143, 183-185, 193, 210-211): positions;
* the functions of `object` (include/common/object.hpp:95-99, 121-123, 131, 141-142): keys; `erase` of arrays and objects is overloaded for iterators (array.hpp:194, object.hpp:132);
* `get` makes a tuple of references of its arguments (include/common/value_impl.hpp:427-438, include/common/array_impl.hpp:258-269, include/common/object_impl.hpp:195-206). A value looks at the
  types of its keys (value_impl.hpp:440-470); the first key of `array::get` and `object::get` goes to a `size_t` or a `const std::string&` (array_impl.hpp:271-289, object_impl.hpp:208-228).

Here is which overload an argument gets, and with which value. A conversion to `size_t` is a standard conversion and better than one to `std::string`, which is user-defined. Conversion functions
of `json::value` are explicit (value.hpp:451-645) and do not take part. The choices were compared with g++ 13 on a small program of our own with the same signatures (Tests/Keys.lean).
-/

set_option autoImplicit false

namespace Meojson.Keys
open Construct

/-- An argument. -/
inductive Given where
  /-- the literal `0`, which is a null pointer constant -/
  | zero
  | int (a : Arith) (n : Int)
  | flt (a : Arith) (x : Fl)
  | enumeration (isScoped : Bool) (n : Int)
  /-- a pointer to `char`, an array or a string literal -/
  | chars (p : Chars)
  | nullptr
  | string (s : Bytes)
  | view (s : Bytes)
  /-- a `json::value` -/
  | value
  /-- another pointer -/
  | pointer
  | arrayIterator
  | objectIterator

/-- What the call means: the element at a position, the member with a key, the one an iterator refers to; it does not compile; it is undefined. -/
inductive Means where
  | position (n : Nat)
  | key (k : Bytes)
  | iterator
  | refused
  | undefined
deriving DecidableEq, Repr

inductive Callee where
  | both
  | positions
  | keys
  | arrayErase
  | objectErase
  /-- a key of `value::get`, and of all `get` but the first -/
  | valuePath
  /-- the first key of `array::get` -/
  | arrayPath
  /-- the first key of `object::get` -/
  | objectPath
deriving DecidableEq, Repr

/-- The integer that a number loses its fraction to, [conv.fpint]; none for infinities and NaN. -/
def whole : Fl → Option Int
  | .fin neg m e =>
    let n : Nat := if 0 ≤ e then m * 2 ^ e.toNat else m / 2 ^ (-e).toNat
    some (if neg then -(n : Int) else n)
  | _ => none

/-- The implicit conversion to a `size_t` of `w` bits: integers modulo 2^w; for floating-point numbers undefined if the integer does not fit. -/
def toSize (w : Nat) : Given → Option Means
  | .zero => some (.position 0)
  | .int _ n | .enumeration false n => some (.position (n % (2 ^ w : Nat)).toNat)
  | .flt _ x =>
    some (match whole x with
      | some n => if 0 ≤ n ∧ n < (2 ^ w : Nat) then .position n.toNat else .undefined
      | none => .undefined)
  | _ => none

/-- The implicit conversion to `std::string`. From a null pointer it is undefined; since C++23 (`new`) `std::string(nullptr)` is deleted. -/
def toKey (new : Bool) : Given → Option Means
  | .zero | .nullptr => if new then none else some .undefined
  | .chars p => some (match p with | some m => if (0 : UInt8) ∈ m then .key (m.takeWhile (· ≠ 0)) else .undefined | none => .undefined)
  | .string s => some (.key s)
  | _ => none

/-- An argument that has been bound to a reference is no literal any more. -/
def Given.bound : Given → Given
  | .zero => .int .int 0
  | x => x

/-- `std::is_constructible_v<std::string, T>`; explicit constructors count. For a `json::value`, with its many explicit conversions, nothing depends on the answer: a key that passes the test and
does not convert to `const std::string&` does not compile either. -/
def stringable (new : Bool) : Given → Bool
  | .chars _ | .string _ | .view _ => true
  | .nullptr => !new
  | _ => false

/-- `std::is_integral_v<T>` -/
def integral : Given → Bool
  | .zero | .int _ _ => true
  | _ => false

def means (w : Nat) (new : Bool) : Callee → Given → Means
  | .both, x => (toSize w x).getD ((toKey new x).getD .refused)
  | .positions, x => (toSize w x).getD .refused
  | .keys, x => (toKey new x).getD .refused
  | .arrayErase, x => match x with | .arrayIterator => .iterator | x => (toSize w x).getD .refused
  | .objectErase, x => match x with | .objectIterator => .iterator | x => (toKey new x).getD .refused
  | .valuePath, x => if stringable new x then (toKey new x.bound).getD .refused else if integral x then (toSize w x).getD .refused else .refused
  | .arrayPath, x => (toSize w x.bound).getD .refused
  | .objectPath, x => (toKey new x.bound).getD .refused

end Meojson.Keys
