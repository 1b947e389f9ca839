import Verif.Model.Compare
import Verif.Model.Integer

/-!
# Const member functions of `json::value`, `json::array` and `json::object`

include/common/value_impl.hpp:208-666, array_impl.hpp:135-193 and 291-304, object_impl.hpp:64-87 and 230-244.

An exception that leaves a `noexcept` function calls `std::terminate`; the model counts that, and the dereference of a null pointer, as `ub`. Positions are
natural numbers, as no vector is larger than `size_t` can say.
-/

set_option autoImplicit false

namespace Meojson
namespace Value

/-- `as_basic_type_str`, value_impl.hpp:731-739: `std::get<std::string>(_raw_data)`. -/
def basicStr : Value → Out Bytes
  | .str _ s => .ok s
  | _ => .throw .badVariant

/-- `value_info() const noexcept`, value_impl.hpp:373-405: what matters is that it looks at the size of an array or object (394, 397). An exception
inside is caught (402-404); a null pointer is not. -/
def valueInfo : Value → Out Unit
  | .arrNull .array => .ub
  | .objNull .object => .ub
  | _ => .ok ()

/-- `throw exception("Type error: ..., " + value_info())`. -/
def typeError {α : Type} (v : Value) : Out α := v.valueInfo.bind fun _ => .throw .json

/-- `empty() const noexcept`, value_impl.hpp:213-227. -/
def empty (v : Value) : Out Bool :=
  match v.type with
  | .null => .ok true
  | .string => match v with | .str _ s => .ok s.isEmpty | _ => .ub
  | .array => match v with | .arr _ vs => .ok vs.isEmpty | _ => .ub
  | .object => match v with | .obj _ ms => .ok ms.isEmpty | _ => .ub
  | _ => .ok false

/-- `as_boolean() const`, 494-510. -/
def asBoolean (v : Value) : Out Bool :=
  if v.type = .boolean then
    v.basicStr.bind fun s =>
    if s = [0x74, 0x72, 0x75, 0x65] then .ok true
    else if s = [0x66, 0x61, 0x6c, 0x73, 0x65] then .ok false
    else .throw .json
  else v.typeError

/-- `as_integer() const` and its siblings for `unsigned`, `long`, `unsigned long`, `long long`, `unsigned long long`, 512-570, with `parse_integer`,
19-28. -/
def asInt (T : IntTy) (v : Value) : Out Int :=
  if v.type = .number then
    v.basicStr.bind fun s =>
    match tryParseInteger T s with
    | some n => .ok n
    | none => .throw .json
  else v.typeError

/-- `is<T>() const noexcept` for an integer type, 290-297. -/
def isInt (T : IntTy) (v : Value) : Out Bool :=
  if v.type = .number then
    match v with
    | .str _ s => .ok (tryParseInteger T s).isSome
    | _ => .ub
  else .ok false

/-- `as_string() const` and `as_string_view() const`, 602-620. -/
def asString (v : Value) : Out Bytes := if v.type = .string then v.basicStr else v.typeError

/-- `as_array() const`, 622-629. -/
def asArray (v : Value) : Out (List Value) :=
  if v.type = .array then
    match v with
    | .arr _ vs => .ok vs
    | .arrNull _ => .ub
    | _ => .throw .badVariant
  else v.typeError

/-- `as_object() const`, 631-638. -/
def asObject (v : Value) : Out (List (Bytes × Value)) :=
  if v.type = .object then
    match v with
    | .obj _ ms => .ok ms
    | .objNull _ => .ub
    | _ => .throw .badVariant
  else v.typeError

/-- `operator std::nullptr_t` and `operator std::monostate`, 953-971. -/
def asNull (v : Value) : Out Unit := if v.type = .null then .ok () else v.typeError

/-- `contains(key)`, 342-345; `exists(key)`, 352-355, calls it. -/
def containsKey (k : Bytes) (v : Value) : Out Bool :=
  if v.type = .object then v.asObject.bind fun ms => .ok (RawObject.find k ms).isSome else .ok false

/-- `contains(pos)`, 347-350; `exists(pos)`, 357-360, calls it. -/
def containsPos (i : Nat) (v : Value) : Out Bool :=
  if v.type = .array then v.asArray.bind fun vs => .ok (decide (i < vs.length)) else .ok false

/-- `at(key) const`, 412-415, with `object::at`, object_impl.hpp:84-87. -/
def atKey (k : Bytes) (v : Value) : Out Value :=
  v.asObject.bind fun ms =>
  match RawObject.find k ms with
  | some x => .ok x
  | none => .throw .outOfRange

/-- `at(pos) const`, 407-410, with `array::at`, array_impl.hpp:190-193. -/
def atPos (i : Nat) (v : Value) : Out Value :=
  v.asArray.bind fun vs =>
  match vs[i]? with
  | some x => .ok x
  | none => .throw .outOfRange

/-- `find_value(key) const`, 489-492, with object_impl.hpp:240-244. -/
def findKey (k : Bytes) (v : Value) : Out (Option Value) :=
  if v.type = .object then v.asObject.bind fun ms => .ok (RawObject.find k ms) else .ok none

/-- `find_value(pos) const`, 484-487, with array_impl.hpp:301-304. -/
def findPos (i : Nat) (v : Value) : Out (Option Value) :=
  if v.type = .array then v.asArray.bind fun vs => .ok (if i < vs.length then vs[i]? else none) else .ok none

/-- `operator[](pos) const`, 973-978. Reading past the end of the vector is undefined. -/
def indexPosC (i : Nat) (v : Value) : Out Value :=
  v.asArray.bind fun vs =>
  match vs[i]? with
  | some x => .ok x
  | none => .ub

/-- `find<T>(key) const`, 477-482, for a type with the given `is<T>()` and `as<T>()`. -/
def findKeyAs {α : Type} (is : Value → Out Bool) (as : Value → Out α) (k : Bytes) (v : Value) : Out (Option α) :=
  (v.findKey k).bind fun
  | none => .ok none
  | some x => (is x).bind fun b => if b then (as x).bind fun y => .ok (some y) else .ok none

/-- `find<T>(pos) const`, 470-475. -/
def findPosAs {α : Type} (is : Value → Out Bool) (as : Value → Out α) (i : Nat) (v : Value) : Out (Option α) :=
  (v.findPos i).bind fun
  | none => .ok none
  | some x => (is x).bind fun b => if b then (as x).bind fun y => .ok (some y) else .ok none

/-- A key or position in a path given to `get`. Positions are of any integer type and are converted to `size_t` (64 bits). -/
inductive PathKey where
  | key (k : Bytes)
  | pos (i : Int)

/-- Conversion of an integer to a 64-bit `size_t`. -/
def toSizeT (i : Int) : Nat := (i % (2 ^ 64 : Nat)).toNat

/-- `value::get_helper`, 441-468, with array_impl.hpp:271-289, object_impl.hpp:208-228 and `json_value_or_default`, utils.hpp:158-171. The overload for a
path of one key ends in `json_value_or_default`; the model reaches it at the end of the path. -/
def getPath {α : Type} (is : Value → Out Bool) (as : Value → Out α) (dflt : α) : List PathKey → Value → Out α
  | [], v => (is v).bind fun b => if b then as v else .ok dflt
  | .key k :: rest, v =>
    if v.type = .object then
      v.asObject.bind fun ms =>
      match RawObject.find k ms with
      | some x => getPath is as dflt rest x
      | none => .ok dflt
    else .ok dflt
  | .pos i :: rest, v =>
    if v.type = .array then
      v.asArray.bind fun vs =>
      match vs[toSizeT i]? with
      | some x => getPath is as dflt rest x
      | none => .ok dflt
    else .ok dflt

end Value
end Meojson
