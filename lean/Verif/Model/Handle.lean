import Verif.Model.Serialize
import Verif.Model.Access

/-!
# `json::array` and `json::object` by themselves

include/common/array_impl.hpp:135-153, 190-304, 414-428, object_impl.hpp:64-87, 120-244, 324-338: the const member functions a program calls on an array or an
object that is not wrapped in a `json::value`; `value::all`, value_impl.hpp:832-845; and the three `operator<<`.

An array is the list of its elements, an object the list of its members in the order of the map.

Iterators (array_impl.hpp:306-365, object_impl.hpp:246-304) are those of the `std::vector` and the `std::map`: walking from `begin()` to `end()` is walking along
the list (Model/Iterate.lean has them as objects). An `operator<<` writes a `std::string` to a stream; here the model is the string (Model/Ostream.lean has the stream).
-/

set_option autoImplicit false

namespace Meojson
namespace Value

/-! ### Arrays -/

/-- `array::contains`, array_impl.hpp:145-148; `exists` (150-153) calls it. -/
def arrContains (i : Nat) (vs : List Value) : Bool := decide (i < vs.length)

/-- `array::at`, 190-193 -/
def arrAt (i : Nat) (vs : List Value) : Out Value :=
  match vs[i]? with
  | some x => .ok x
  | none => .throw .outOfRange

/-- `_array_data[pos]`, undefined behind the end -/
def arrIndex (i : Nat) (vs : List Value) : Out Value :=
  match vs[i]? with
  | some x => .ok x
  | none => .ub

/-- `array::find_value`, 301-304 -/
def arrFind (i : Nat) (vs : List Value) : Out (Option Value) :=
  if arrContains i vs then (arrIndex i vs).bind fun x => .ok (some x) else .ok none

/-- `array::find<T>`, 291-299 -/
def arrFindAs {α : Type} (is : Value → Out Bool) (as : Value → Out α) (i : Nat) (vs : List Value) : Out (Option α) :=
  (arrFind i vs).bind fun
  | none => .ok none
  | some x => (is x).bind fun b => if b then (as x).bind fun y => .ok (some y) else .ok none

/-- `array::get`, 258-288: a position and, for a longer path, what `value::get_helper` does with the rest. -/
def arrGet {α : Type} (is : Value → Out Bool) (as : Value → Out α) (dflt : α) (i : Int) (rest : List PathKey) (vs : List Value) : Out α :=
  if arrContains (toSizeT i) vs then (arrIndex (toSizeT i) vs).bind fun x => getPath is as dflt rest x else .ok dflt

/-- `array::all<T>`, 247-256. The model of `is<T>() const noexcept` is `is`. -/
def arrAll (is : Value → Out Bool) : List Value → Out Bool
  | [] => .ok true
  | v :: vs => (is v).bind fun b => if b then arrAll is vs else .ok false

/-- `array::to_string`, 195-200, with `dump_to`, 202-212 -/
def arrToString (vs : List Value) : Out Bytes := (dumpElems vs).bind fun t => .ok ([0x5b] ++ t ++ [0x5d])

/-- `array::format(indent, indent_times)`, 214-219, with `format_to`, 221-235 -/
def arrFormat (indent times : Nat) (vs : List Value) : Out Bytes :=
  (formatElems indent times vs).bind fun t => .ok ([0x5b, 0x0a] ++ t ++ spaces indent times ++ [0x5d])

/-- `array::dumps`, 237-240, and `format(indent)`, 242-245 -/
def arrDumps (vs : List Value) (indent : Option Nat := none) : Out Bytes :=
  match indent with
  | some n => arrFormat n 0 vs
  | none => arrToString vs

/-- `array::operator==`, 414-417: the sizes, then `std::equal`. -/
def arrEq (vs ws : List Value) : Out Bool := if vs.length ≠ ws.length then .ok false else eqElems vs ws

/-- `array::operator!=`, 419-422 -/
def arrNe (vs ws : List Value) : Out Bool := (arrEq vs ws).bind fun b => .ok (!b)

/-- `operator<<(std::ostream&, const array&)`, 424-428; `format()` has the indent 4 (array.hpp:149). -/
def arrStream (vs : List Value) : Out Bytes := arrFormat 4 0 vs

/-! ### Objects -/

/-- `object::contains`, object_impl.hpp:64-67; `exists` (79-82) calls it. -/
def objContains (k : Bytes) (ms : List (Bytes × Value)) : Bool := (RawObject.find k ms).isSome

/-- `object::at`, 84-87 -/
def objAt (k : Bytes) (ms : List (Bytes × Value)) : Out Value :=
  match RawObject.find k ms with
  | some x => .ok x
  | none => .throw .outOfRange

/-- `object::find_value`, 240-244 -/
def objFind (k : Bytes) (ms : List (Bytes × Value)) : Option Value := RawObject.find k ms

/-- `object::find<T>`, 230-238 -/
def objFindAs {α : Type} (is : Value → Out Bool) (as : Value → Out α) (k : Bytes) (ms : List (Bytes × Value)) : Out (Option α) :=
  match objFind k ms with
  | none => .ok none
  | some x => (is x).bind fun b => if b then (as x).bind fun y => .ok (some y) else .ok none

/-- `object::get`, 194-228 -/
def objGet {α : Type} (is : Value → Out Bool) (as : Value → Out α) (dflt : α) (k : Bytes) (rest : List PathKey) (ms : List (Bytes × Value)) : Out α :=
  match RawObject.find k ms with
  | none => .ok dflt
  | some x => getPath is as dflt rest x

/-- `object::all<T>`, 184-193 -/
def objAll (is : Value → Out Bool) : List (Bytes × Value) → Out Bool
  | [] => .ok true
  | (_, v) :: ms => (is v).bind fun b => if b then objAll is ms else .ok false

/-- `object::to_string`, 121-126, with `dump_to`, 128-143 -/
def objToString (ms : List (Bytes × Value)) : Out Bytes := (dumpMembers ms).bind fun t => .ok ([0x7b] ++ t ++ [0x7d])

/-- `object::format(indent, indent_times)`, 145-150, with `format_to`, 152-172 -/
def objFormat (indent times : Nat) (ms : List (Bytes × Value)) : Out Bytes :=
  (formatMembers indent times ms).bind fun t => .ok ([0x7b, 0x0a] ++ t ++ spaces indent times ++ [0x7d])

/-- `object::dumps`, 174-177, and `format(indent)`, 179-182 -/
def objDumps (ms : List (Bytes × Value)) (indent : Option Nat := none) : Out Bytes :=
  match indent with
  | some n => objFormat n 0 ms
  | none => objToString ms

/-- `object::operator==`, 324-327: the sizes, then `std::equal`. -/
def objEq (ms ns : List (Bytes × Value)) : Out Bool := if ms.length ≠ ns.length then .ok false else eqMembers ms ns

/-- `object::operator!=`, 329-332 -/
def objNe (ms ns : List (Bytes × Value)) : Out Bool := (objEq ms ns).bind fun b => .ok (!b)

/-- `operator<<(std::ostream&, const object&)`, 334-338 -/
def objStream (ms : List (Bytes × Value)) : Out Bytes := objFormat 4 0 ms

/-! ### Values -/

/-- `value::all<T>`, value_impl.hpp:832-845 -/
def all (is : Value → Out Bool) (v : Value) : Out Bool :=
  if v.type = .array then v.asArray.bind (arrAll is)
  else if v.type = .object then v.asObject.bind (objAll is)
  else .ok false

/-- `operator<<(std::ostream&, const value&)`, value_impl.hpp:1122-1126; `format()` has the indent 4 (value.hpp:413). -/
def stream (v : Value) : Out Bytes := formatTo 4 0 v

end Value
end Meojson
