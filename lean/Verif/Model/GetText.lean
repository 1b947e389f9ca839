import Verif.Model.Access

/-!
# `get` with a default that is a text

include/common/value_impl.hpp:425-468, array_impl.hpp:271-289, object_impl.hpp:208-228, utils.hpp:138-171.

`getPath` in Model/Access.lean is `get` for a default of a type `T` that is returned as it is. If `std::string` can be constructed from `T` (`should_return_string`,
utils.hpp:144-145) the functions of array and object return a `std::string`, and `value::get_helper` is `is_object() ? <std::string> : default_value` (value_impl.hpp:444, 448, 460
and 463). The type of that conditional expression is `std::string` if the default converts to it implicitly. A `std::string_view` does not; but a `std::string` converts
to a `std::string_view`, so that is the type, and the `std::string` is a temporary that dies at the end of the `return` statement. (Checked with g++ 13 on an expression of
our own with these types.) With a longer path the two `return` statements of `object::get_helper` then have different types, and the call does not compile.

From a null pointer a `std::string` cannot be constructed: undefined (libstdc++ throws `std::logic_error`). Until C++20 the type traits say it can be from `nullptr`.
-/

set_option autoImplicit false

namespace Meojson

/-- A default whose type makes `should_return_string` true. -/
inductive TextDefault where
  /-- `std::string` -/
  | string (s : Bytes)
  /-- a literal, an array of `char`, or a `const char*`; `none` is a null pointer -/
  | cstr (p : Option Bytes)
  /-- `std::string_view` -/
  | view (s : Bytes)
  /-- `nullptr` -/
  | nullptr

/-- What a text the caller gets lives in: a `std::string` of its own; for a view, the text the caller passed, the value, or a temporary that is gone. -/
inductive Home where
  | own
  | default
  | value
  | gone
deriving DecidableEq

namespace Value

/-- `std::string(default_value)`, `default_or_string`, utils.hpp:147-156. -/
def TextDefault.str : TextDefault → Out Bytes
  | .string s => .ok s
  | .cstr (some s) => .ok s
  | .cstr none => .ub
  | .view s => .ok s
  | .nullptr => .ub

/-- `is<T>()` for the type of the default, value_impl.hpp:278-280 and 302-304. -/
def TextDefault.is (d : TextDefault) (v : Value) : Bool :=
  match d with
  | .nullptr => decide (v.type = .null)
  | _ => decide (v.type = .string)

/-- `json_value_or_default`, utils.hpp:158-171: `as<std::string>()`, whatever the default. -/
def textOrDefault (d : TextDefault) (v : Value) : Out Bytes := if ¬ TextDefault.is d v then TextDefault.str d else v.asString

/-- `get` along a path for a default other than a view, value_impl.hpp:440-468, array_impl.hpp:271-289 and object_impl.hpp:208-228: a `std::string` in every branch. -/
def getTextPath (d : TextDefault) : List PathKey → Value → Out Bytes
  | [], v => textOrDefault d v
  | .key k :: rest, v =>
    if v.type = .object then
      v.asObject.bind fun ms =>
      match RawObject.find k ms with
      | some x => getTextPath d rest x
      | none => TextDefault.str d
    else TextDefault.str d
  | .pos i :: rest, v =>
    if v.type = .array then
      v.asArray.bind fun vs =>
      match vs[toSizeT i]? with
      | some x => getTextPath d rest x
      | none => TextDefault.str d
    else TextDefault.str d

/-- `object::get(key, default)`, object_impl.hpp:219-228 -/
def objGetText (k : Bytes) (d : TextDefault) (ms : List (Bytes × Value)) : Out Bytes :=
  match RawObject.find k ms with
  | none => TextDefault.str d
  | some x => textOrDefault d x

/-- `array::get(pos, default)`, array_impl.hpp:281-289 -/
def arrGetText (i : Int) (d : TextDefault) (vs : List Value) : Out Bytes :=
  match vs[toSizeT i]? with
  | none => TextDefault.str d
  | some x => textOrDefault d x

/-- The second operand of the conditional expression, converted to its type. -/
def condFound (d : TextDefault) (s : Bytes) : Home × Bytes :=
  match d with
  | .view _ => (.gone, s)
  | _ => (.own, s)

/-- The third operand of the conditional expression, converted to its type. -/
def condDefault (d : TextDefault) : Out (Home × Bytes) :=
  match d with
  | .view s => .ok (.default, s)
  | d => (TextDefault.str d).bind fun s => .ok (.own, s)

/-- `value::get(key, default)` and `value::get(pos, default)`, value_impl.hpp:455-468 -/
def getText (p : PathKey) (d : TextDefault) (v : Value) : Out (Home × Bytes) :=
  match p with
  | .key k => if v.type = .object then (v.asObject.bind fun ms => objGetText k d ms).bind fun s => .ok (condFound d s) else condDefault d
  | .pos i => if v.type = .array then (v.asArray.bind fun vs => arrGetText i d vs).bind fun s => .ok (condFound d s) else condDefault d

/-- `as_string_view() const`, 612-620, and `operator std::string_view() const&`: a view of the text in the value. -/
def asView (v : Value) : Out (Home × Bytes) := v.asString.bind fun s => .ok (.value, s)

end Value

/-- Reading what the caller got, after the call. -/
def readText (r : Home × Bytes) : Out Bytes := if r.1 = .gone then .ub else .ok r.2

end Meojson
