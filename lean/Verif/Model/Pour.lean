import Verif.Model.Serialize

/-!
# Serialisation into one string that grows

Model/Serialize.lean returns the text. In the source every function gets a `std::string& out` and appends to it, so what has been written before is in `out` as well, and `out` may have to move to a larger
buffer, may be as long as a string can be, or may be refused memory. Here the functions are as in the source: each takes the string as it is and leaves it as it is afterwards, call by call.

* A `std::string` has a buffer of `small` bytes inside; a larger one is asked for when needed, one byte more than its capacity for the final NUL. The old one is given back after the text has been carried over.
* `out.append(no_escape_beg, cur)` gets iterators of a `std::string_view`, which are pointers or are unwrapped to pointers. No temporary string is made.
* An exception leaves `out` as it was before the call that threw it (the strong guarantee of `append` and `push_back`).
* The numbers `indent * indent_times` are computed in 64-bit `size_t` as in Model/Serialize.lean.
-/

set_option autoImplicit false

namespace Meojson

/-- A `std::string` of some standard library. -/
structure Str where
  /-- The capacity of an empty string. -/
  small : Nat
  /-- `max_size()` -/
  max : Nat
  /-- The new capacity of a string with this capacity that is to hold so many bytes. -/
  grow : Nat → Nat → Nat
  /-- Whether the request with this number for so many bytes is granted. -/
  gives : Nat → Nat → Bool

/-- The string that is written to, and what has been done to it. -/
structure Sink where
  text : Bytes
  cap : Nat
  /-- The bytes carried over to larger buffers. -/
  moved : Nat
  /-- How many buffers have been asked for. -/
  requests : Nat
  /-- How many bytes they have together. -/
  asked : Nat
  /-- The most that was held at any time. -/
  peak : Nat

/-- How a function that writes to a string ends, and the string. -/
structure Poured where
  res : Out Unit
  sink : Sink

/-- `std::string str;` -/
def Str.empty (L : Str) : Sink := ⟨[], L.small, 0, 0, 0, 0⟩

/-- The size of the buffer of a string with this capacity. -/
def Str.block (L : Str) (cap : Nat) : Nat := if cap ≤ L.small then 0 else cap + 1

/-- To a larger buffer of capacity `cap`. -/
def Sink.moveTo (L : Str) (s : Sink) (cap : Nat) : Sink :=
  ⟨s.text, cap, s.moved + s.text.length, s.requests + 1, s.asked + (cap + 1), Nat.max s.peak (L.block s.cap + (cap + 1))⟩

/-- `push_back`, `operator+=` and `append`. -/
def Str.put (L : Str) (t : Bytes) (s : Sink) : Poured :=
  let need := s.text.length + t.length
  if need ≤ s.cap then ⟨.ok (), { s with text := s.text ++ t }⟩
  else if L.max < need then ⟨.throw .lengthError, s⟩
  else
    let cap := L.grow s.cap need
    if L.gives s.requests (cap + 1) = false then ⟨.throw .badAlloc, s⟩
    else
      let s := s.moveTo L cap
      ⟨.ok (), { s with text := s.text ++ t }⟩

/-- `reserve` -/
def Str.reserve (L : Str) (n : Nat) (s : Sink) : Poured :=
  if n ≤ s.cap then ⟨.ok (), s⟩
  else if L.max < n then ⟨.throw .lengthError, s⟩
  else
    let cap := L.grow s.cap n
    if L.gives s.requests (cap + 1) = false then ⟨.throw .badAlloc, s⟩
    else ⟨.ok (), s.moveTo L cap⟩

/-- One after the other, unless the first throws. -/
def Poured.andThen (r : Poured) (f : Sink → Poured) : Poured :=
  match r.res with
  | .ok () => f r.sink
  | .throw e => ⟨.throw e, r.sink⟩
  | .ub => ⟨.ub, r.sink⟩

/-- Nothing is written. -/
def Sink.done (s : Sink) : Poured := ⟨.ok (), s⟩
def Sink.throw (e : Exn) (s : Sink) : Poured := ⟨.throw e, s⟩
def Sink.ub (s : Sink) : Poured := ⟨.ub, s⟩

/-- The loop of `append_escaped_string`, utils.hpp:401-443: `no_escape_beg`, `cur`, `result`. -/
def pourEscapeLoop (L : Str) : Bytes → Bytes → Sink → Poured
  | beg, [], out => L.put (between beg []) out
  | beg, ch :: s, out =>
    match escapeLetter ch with
    | some e =>
      (L.put (between beg (ch :: s)) out).andThen fun out =>
      (L.put [0x5c] out).andThen fun out =>
      (L.put [e] out).andThen fun out =>
      pourEscapeLoop L s s out
    | none =>
      if ch < 0x20 then
        (L.put (between beg (ch :: s)) out).andThen fun out =>
        (L.put [0x5c, 0x75, 0x30, 0x30] out).andThen fun out =>
        (L.put [hexDigit (ch >>> 4)] out).andThen fun out =>
        (L.put [hexDigit (ch &&& 0x0F)] out).andThen fun out =>
        pourEscapeLoop L s s out
      else pourEscapeLoop L beg s out

/-- `append_escaped_string`, utils.hpp:394-443. -/
def pourEscaped (L : Str) (str : Bytes) (out : Sink) : Poured := pourEscapeLoop L str str out

/-- `escape_string`, utils.hpp:446-453. -/
def escapeStringS (L : Str) (str : Bytes) : Poured :=
  (L.reserve str.length L.empty).andThen fun out => pourEscaped L str out

namespace Value

/-- Another alternative than the type says, or none: `dump_to` and `format_to` of a value whose type is array or object, value_impl.hpp:784-789. -/
def pourBroken : Value → Sink → Poured
  | .arrNull .array, out => out.ub
  | .objNull .object, out => out.ub
  | _, out => out.throw .badVariant

mutual
/-- `value::dump_to`, value_impl.hpp:769-793. -/
def pour (L : Str) : Value → Sink → Poured
  | .arr .array vs, out =>
    (L.put [0x5b] out).andThen fun out =>
    (pourElems L vs out).andThen fun out =>
    L.put [0x5d] out
  | .obj .object ms, out =>
    (L.put [0x7b] out).andThen fun out =>
    (pourMembers L ms out).andThen fun out =>
    L.put [0x7d] out
  | v, out =>
    match v.type with
    | .null => L.put [0x6e, 0x75, 0x6c, 0x6c] out
    | .boolean | .number =>
      match v with
      | .str _ s => L.put s out
      | _ => out.throw .badVariant
    | .string =>
      (L.put [0x22] out).andThen fun out =>
      match v with
      | .str _ s =>
        (pourEscaped L s out).andThen fun out =>
        L.put [0x22] out
      | _ => out.throw .badVariant
    | .array | .object => pourBroken v out
    | .invalid => out.throw .json
/-- The loop of `array::dump_to`, array_impl.hpp:205-210. -/
def pourElems (L : Str) : List Value → Sink → Poured
  | [], out => out.done
  | v :: vs, out =>
    (pour L v out).andThen fun out =>
    (if vs.isEmpty then out.done else L.put [0x2c] out).andThen fun out =>
    pourElems L vs out
/-- The loop of `object::dump_to`, object_impl.hpp:131-141. -/
def pourMembers (L : Str) : List (Bytes × Value) → Sink → Poured
  | [], out => out.done
  | (k, v) :: ms, out =>
    (L.put [0x22] out).andThen fun out =>
    (pourEscaped L k out).andThen fun out =>
    (L.put [0x22] out).andThen fun out =>
    (L.put [0x3a] out).andThen fun out =>
    (pour L v out).andThen fun out =>
    (if ms.isEmpty then out.done else L.put [0x2c] out).andThen fun out =>
    pourMembers L ms out
end

mutual
/-- `value::format_to`, value_impl.hpp:802-820. -/
def pourFormat (L : Str) (indent : Nat) : Nat → Value → Sink → Poured
  | times, .arr .array vs, out =>
    (L.put [0x5b] out).andThen fun out =>
    (L.put [0x0a] out).andThen fun out =>
    (pourFormatElems L indent times vs out).andThen fun out =>
    (L.put (spaces indent times) out).andThen fun out =>
    L.put [0x5d] out
  | times, .obj .object ms, out =>
    (L.put [0x7b] out).andThen fun out =>
    (L.put [0x0a] out).andThen fun out =>
    (pourFormatMembers L indent times ms out).andThen fun out =>
    (L.put (spaces indent times) out).andThen fun out =>
    L.put [0x7d] out
  | _, v, out =>
    match v.type with
    | .null | .boolean | .number | .string => pour L v out
    | .array | .object => pourBroken v out
    | .invalid => out.throw .json
/-- The loop of `array::format_to`, array_impl.hpp:225-232. -/
def pourFormatElems (L : Str) (indent : Nat) : Nat → List Value → Sink → Poured
  | _, [], out => out.done
  | times, v :: vs, out =>
    (L.put (spaces indent (times + 1)) out).andThen fun out =>
    (pourFormat L indent (times + 1) v out).andThen fun out =>
    (if vs.isEmpty then out.done else L.put [0x2c] out).andThen fun out =>
    (L.put [0x0a] out).andThen fun out =>
    pourFormatElems L indent times vs out
/-- The loop of `object::format_to`, object_impl.hpp:156-169. -/
def pourFormatMembers (L : Str) (indent : Nat) : Nat → List (Bytes × Value) → Sink → Poured
  | _, [], out => out.done
  | times, (k, v) :: ms, out =>
    (L.put (spaces indent (times + 1)) out).andThen fun out =>
    (L.put [0x22] out).andThen fun out =>
    (pourEscaped L k out).andThen fun out =>
    (L.put [0x22] out).andThen fun out =>
    (L.put [0x3a] out).andThen fun out =>
    (L.put [0x20] out).andThen fun out =>
    (pourFormat L indent (times + 1) v out).andThen fun out =>
    (if ms.isEmpty then out.done else L.put [0x2c] out).andThen fun out =>
    (L.put [0x0a] out).andThen fun out =>
    pourFormatMembers L indent times ms out
end

/-- `dumps(indent)`, value_impl.hpp:822-825: `to_string`, 762-767, or `format`, 795-800 and 827-830, which start with an empty string and return it. -/
def dumpsS (L : Str) (v : Value) (indent : Option Nat := none) : Poured :=
  match indent with
  | some n => pourFormat L n 0 v L.empty
  | none => pour L v L.empty

end Value

end Meojson
