import Verif.Model.Parser

/-!
# Entry points around the parser

include/parser/parser_impl.hpp:605-686: C strings, streams, files, literals.
-/

namespace Meojson

/-- `std::string_view { content }` for a `const char*`: the bytes before the first NUL of the memory the pointer points to. Reading past the
memory when it holds no NUL is undefined. -/
def cString (mem : Bytes) : Out Bytes := if 0x00 ∈ mem then .ok (mem.takeWhile (· ≠ 0x00)) else .ub

/-- `parse(const char*)`, parser_impl.hpp:605-608. -/
def parseCStr (accel : Option Traits) (mem : Bytes) : Out (Option Value) := (cString mem).bind fun s => .ok (parse accel s)

/-- `parsec(const char*)`, parser_impl.hpp:652-655. -/
def parsecCStr (accel : Option Traits) (mem : Bytes) : Out (Option Value) := (cString mem).bind fun s => .ok (parsec accel s)

/-- What `parse(std::istream&)` sees of a stream: the result of `tellg` after seeking to the end (`none` is -1) and the
bytes that `read` delivers from the start. In text mode there may be fewer than `tellg` says. -/
structure Stream where
  tellg : Option Nat
  data : Bytes

/-- `std::string::max_size()` in recent versions of libstdc++, one less than the largest position a stream can report. Before it was about half of this; no memory could be had for what lies between. -/
def maxString : Nat := 2 ^ 63 - 2

/-- Lines 612-618: a string of `tellg` NUL bytes, overwritten by what `read` delivers. `std::string(-1, '\0')` throws
`std::length_error`, and so does any size beyond `max_size()`. (A smaller size that cannot be allocated is not modelled.) -/
def readAll (st : Stream) : Out Bytes :=
  match st.tellg with
  | none => .throw .lengthError
  | some n => if maxString < n then .throw .lengthError else .ok (st.data.take n ++ List.replicate (n - st.data.length) 0x00)

/-- Lines 620-630. -/
def dropBom (str : Bytes) : Bytes :=
  match str with
  | b0 :: b1 :: b2 :: rest => if b0 = 0xEF ∧ b1 = 0xBB ∧ b2 = 0xBF then rest else str
  | _ => str

/-- `parse(std::istream&, bool, bool)`, parser_impl.hpp:610-632. -/
def parseStream (accel : Option Traits) (st : Stream) (checkBom withComments : Bool) : Out (Option Value) :=
  (readAll st).bind fun str =>
  let str := if checkBom then dropBom str else str
  .ok (if withComments then parsec accel str else parse accel str)

/-- `open(path, bool, bool)`, parser_impl.hpp:634-644; `none` is a file that cannot be opened. On Linux a
directory can be opened, and its `tellg` after seeking to the end is `2 ^ 63 - 1`. -/
def openFile (accel : Option Traits) (file : Option Stream) (checkBom withComments : Bool) : Out (Option Value) :=
  match file with
  | none => .ok none
  | some st => parseStream accel st checkBom withComments

/-- `operator""_jvalue`, parser_impl.hpp:664-667, and `operator""_json`, 659-662. -/
def jvalueLit (accel : Option Traits) (s : Bytes) : Value := (parse accel s).getD .null

/-- `operator""_jarray`, parser_impl.hpp:669-673. The `as_array` called here is the non-const one, guarded by `is_array`; on an array value it returns the payload. -/
def jarrayLit (accel : Option Traits) (s : Bytes) : Out (List Value) :=
  match jvalueLit accel s with
  | .arr .array vs => .ok vs
  | .arrNull .array => .ub
  | v => if v.type = .array then .throw .badVariant else .ok []

/-- `operator""_jobject`, parser_impl.hpp:675-679. -/
def jobjectLit (accel : Option Traits) (s : Bytes) : Out (List (Bytes × Value)) :=
  match jvalueLit accel s with
  | .obj .object ms => .ok ms
  | .objNull .object => .ub
  | v => if v.type = .object then .throw .badVariant else .ok []

end Meojson
