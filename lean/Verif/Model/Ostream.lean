import Verif.Model.Handle

/-!
# Printing to a stream

The three `operator<<`, include/common/value_impl.hpp:1122-1126, array_impl.hpp:424-428, object_impl.hpp:334-338: `out << val.format(); return out;`. The text is made first
(`Value.stream`, `arrStream`, `objStream` in Model/Handle.lean); what goes to the stream is a `std::string`, by the operator of the standard library ([string.io], [ostream.formatted.reqmts]).

A stream is what has been written to it, whether it is `good()`, and the parts of its format that the operator for strings looks at: `width()`, `fill()`, and whether the adjustment is `left`.
Anything else (`internal`, `right`, none) pads in front. Base, precision and the like are not looked at: a number is text already. The buffer behind the stream takes every byte.
-/

set_option autoImplicit false

namespace Meojson

structure Ostream where
  written : Bytes := []
  good : Bool := true
  /-- `std::streamsize` is signed. -/
  width : Int := 0
  fill : UInt8 := 0x20
  left : Bool := false

/-- How much is put beside a text: `width()` is a minimum. -/
def Ostream.pad (os : Ostream) (t : Bytes) : Bytes := List.replicate (os.width - t.length).toNat os.fill

/-- `os << t` for a `std::string`; `width(0)` afterwards. A stream that is not good writes nothing. -/
def Ostream.put (os : Ostream) (t : Bytes) : Ostream :=
  if os.good then { os with written := os.written ++ (if os.left then t ++ os.pad t else os.pad t ++ t), width := 0 }
  else os

/-- `os << v`, value_impl.hpp:1122-1126 -/
def Ostream.value (os : Ostream) (v : Value) : Out Ostream := v.stream.bind fun t => .ok (os.put t)

/-- `os << arr`, array_impl.hpp:424-428 -/
def Ostream.array (os : Ostream) (vs : List Value) : Out Ostream := (Value.arrStream vs).bind fun t => .ok (os.put t)

/-- `os << obj`, object_impl.hpp:334-338 -/
def Ostream.object (os : Ostream) (ms : List (Bytes × Value)) : Out Ostream := (Value.objStream ms).bind fun t => .ok (os.put t)

end Meojson
