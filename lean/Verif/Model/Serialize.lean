import Verif.Model.Parser

/-!
# Serialisation: `dumps`, `to_string`, `format`

The C++ functions append to a `std::string&`; the model returns the appended bytes. Model/Pour.lean has them as they are. An exception
leaves the caller's local string to be destroyed (value_impl.hpp:762-767, 795-800), so no partial text is
observable. `value_info()` (373-405) only builds exception texts.
-/

namespace Meojson

/-- `_utils::hex_digit`, utils.hpp:389-392. -/
def hexDigit (v : UInt8) : UInt8 := if v < 10 then 0x30 + v else 0x61 + v - 10

/-- The `switch` of `append_escaped_string`, utils.hpp:403-427. -/
def escapeLetter (ch : UInt8) : Option UInt8 :=
  if ch = 0x22 then some 0x22
  else if ch = 0x5c then some 0x5c
  else if ch = 0x08 then some 0x62
  else if ch = 0x0c then some 0x66
  else if ch = 0x0a then some 0x6e
  else if ch = 0x0d then some 0x72
  else if ch = 0x09 then some 0x74
  else none

/-- The loop of `append_escaped_string`, utils.hpp:401-443: `result`, `no_escape_beg`, `cur`. -/
def escapeLoop : Bytes → Bytes → Bytes → Bytes
  | result, beg, [] => result ++ between beg []
  | result, beg, ch :: s =>
    match escapeLetter ch with
    | some e => escapeLoop (result ++ between beg (ch :: s) ++ [0x5c, e]) s s
    | none =>
      if ch < 0x20 then
        escapeLoop (result ++ between beg (ch :: s)
          ++ [0x5c, 0x75, 0x30, 0x30, hexDigit (ch >>> 4), hexDigit (ch &&& 0x0F)]) s s
      else escapeLoop result beg s

/-- `_utils::escape_string`, utils.hpp:446-453; `append_escaped_string(out, str)` appends it to `out`. -/
def escapeString (str : Bytes) : Bytes := escapeLoop [] str str

/-- `out.append(n, ' ')` with `n = indent * times` computed in 64-bit `size_t`. That it throws `std::length_error` or `std::bad_alloc` if the result is too long is in Model/Pour.lean. -/
def spaces (indent times : Nat) : Bytes := List.replicate ((indent * times) % 2 ^ 64) 0x20

namespace Value

mutual

/-- `value::dump_to`, value_impl.hpp:769-793. `std::get` of another alternative throws; dereferencing a null
pointer is undefined. -/
def dumpTo : Value → Out Bytes
  | .str ty s =>
    match ty with
    | .null => .ok [0x6e, 0x75, 0x6c, 0x6c]
    | .boolean | .number => .ok s
    | .string => .ok ([0x22] ++ escapeString s ++ [0x22])
    | .array | .object => .throw .badVariant
    | .invalid => .throw .json
  | .arr ty vs =>
    match ty with
    | .null => .ok [0x6e, 0x75, 0x6c, 0x6c]
    | .array => (dumpElems vs).bind fun t => .ok ([0x5b] ++ t ++ [0x5d])
    | .boolean | .number | .string | .object => .throw .badVariant
    | .invalid => .throw .json
  | .arrNull ty =>
    match ty with
    | .null => .ok [0x6e, 0x75, 0x6c, 0x6c]
    | .array => .ub
    | .boolean | .number | .string | .object => .throw .badVariant
    | .invalid => .throw .json
  | .obj ty ms =>
    match ty with
    | .null => .ok [0x6e, 0x75, 0x6c, 0x6c]
    | .object => (dumpMembers ms).bind fun t => .ok ([0x7b] ++ t ++ [0x7d])
    | .boolean | .number | .string | .array => .throw .badVariant
    | .invalid => .throw .json
  | .objNull ty =>
    match ty with
    | .null => .ok [0x6e, 0x75, 0x6c, 0x6c]
    | .object => .ub
    | .boolean | .number | .string | .array => .throw .badVariant
    | .invalid => .throw .json

/-- The loop of `array::dump_to`, array_impl.hpp:205-210. -/
def dumpElems : List Value → Out Bytes
  | [] => .ok []
  | v :: vs =>
    (dumpTo v).bind fun t =>
    (dumpElems vs).bind fun ts =>
    .ok (t ++ (if vs.isEmpty then [] else [0x2c]) ++ ts)

/-- The loop of `object::dump_to`, object_impl.hpp:131-141. -/
def dumpMembers : List (Bytes × Value) → Out Bytes
  | [] => .ok []
  | (k, v) :: ms =>
    (dumpTo v).bind fun t =>
    (dumpMembers ms).bind fun ts =>
    .ok ([0x22] ++ escapeString k ++ [0x22, 0x3a] ++ t ++ (if ms.isEmpty then [] else [0x2c]) ++ ts)

end

mutual

/-- `value::format_to`, value_impl.hpp:802-820. -/
def formatTo (indent : Nat) : Nat → Value → Out Bytes
  | _, .str ty s =>
    match ty with
    | .array | .object => .throw .badVariant
    | _ => dumpTo (.str ty s)
  | times, .arr ty vs =>
    match ty with
    | .array =>
      (formatElems indent times vs).bind fun t =>
      .ok ([0x5b, 0x0a] ++ t ++ spaces indent times ++ [0x5d])
    | _ => dumpTo (.arr ty vs)
  | _, .arrNull ty => dumpTo (.arrNull ty)
  | times, .obj ty ms =>
    match ty with
    | .object =>
      (formatMembers indent times ms).bind fun t =>
      .ok ([0x7b, 0x0a] ++ t ++ spaces indent times ++ [0x7d])
    | _ => dumpTo (.obj ty ms)
  | _, .objNull ty => dumpTo (.objNull ty)

/-- The loop of `array::format_to`, array_impl.hpp:225-232. -/
def formatElems (indent : Nat) : Nat → List Value → Out Bytes
  | _, [] => .ok []
  | times, v :: vs =>
    (formatTo indent (times + 1) v).bind fun t =>
    (formatElems indent times vs).bind fun ts =>
    .ok (spaces indent (times + 1) ++ t ++ (if vs.isEmpty then [] else [0x2c]) ++ [0x0a] ++ ts)

/-- The loop of `object::format_to`, object_impl.hpp:156-169. -/
def formatMembers (indent : Nat) : Nat → List (Bytes × Value) → Out Bytes
  | _, [] => .ok []
  | times, (k, v) :: ms =>
    (formatTo indent (times + 1) v).bind fun t =>
    (formatMembers indent times ms).bind fun ts =>
    .ok (spaces indent (times + 1) ++ [0x22] ++ escapeString k ++ [0x22, 0x3a, 0x20] ++ t
      ++ (if ms.isEmpty then [] else [0x2c]) ++ [0x0a] ++ ts)

end

/-- `value::dumps(indent)`, value_impl.hpp:822-825 (and `to_string`, `format`). -/
def dumps (v : Value) (indent : Option Nat := none) : Out Bytes :=
  match indent with
  | some n => formatTo n 0 v
  | none => dumpTo v

end Value

end Meojson
