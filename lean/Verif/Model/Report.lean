import Verif.Model.Access
import Verif.Model.EnumName
import Verif.Model.Serialize

/-!
# What an exception says: `type_name`, `value_info`, `what`

include/common/value_impl.hpp:367-405 and exception.hpp:10-31. Model/Access.lean only says when an exception is thrown; this file says with which text. Allocation does not
fail (an exception in the `catch` of `value_info`, 403, would end the program).
-/

set_option autoImplicit false

namespace Meojson

/-- `enum class value_type : char`, value.hpp:33-44, with what `MEOJSON_ENUM_RANGE` (enum_reflection.hpp:16) declares -/
def valueTypeDecl : EnumDecl :=
  { under := .int ⟨true, 8⟩, min := 0, max := 6, type := ascii "json::value::value_type", scope := ascii "json::value::value_type::",
    items := [(ascii "invalid", 0), (ascii "null", 1), (ascii "boolean", 2), (ascii "string", 3), (ascii "number", 4), (ascii "array", 5), (ascii "object", 6),
      (ascii "_MEOJSON_ENUM_MIN", 0), (ascii "_MEOJSON_ENUM_MAX", 6)] }

/-- The number of an enumerator of `value_type`. -/
def VType.num : VType → Int
  | .invalid => 0
  | .null => 1
  | .boolean => 2
  | .string => 3
  | .number => 4
  | .array => 5
  | .object => 6

namespace Value

/-- `type_name() const noexcept`, value_impl.hpp:367-371 -/
def typeName (c : Compiler) (v : Value) : Out Bytes :=
  ((valueTypeDecl.toEnum c).toString v.type.num).bind fun name => .ok (if name.isEmpty then ascii "unknown" else name)

/-- The statements of the `try` block, 376-400, after `info` has its first part. -/
def infoBody (info : Bytes) (v : Value) : Out Bytes :=
  match v.type with
  | .null | .invalid => .ok info
  | .boolean | .number | .string =>
    v.dumpTo.bind fun str_repr =>
    if 100 < str_repr.length then .ok (info ++ (ascii ", value=" ++ str_repr.take 100 ++ ascii "..."))
    else .ok (info ++ (ascii ", value=" ++ str_repr))
  | .array => v.asArray.bind fun vs => .ok (info ++ (ascii ", size=" ++ natText vs.length))
  | .object => v.asObject.bind fun ms => .ok (info ++ (ascii ", size=" ++ natText ms.length))

/-- `value_info() const noexcept`, 373-405 -/
def infoText (c : Compiler) (v : Value) : Out Bytes :=
  (v.typeName c).bind fun name =>
  match v.infoBody (ascii "type=" ++ name) with
  | .throw _ => .ok (ascii "type=" ++ name)
  | r => r

end Value

/-- `exception::what() const noexcept`, exception.hpp:28, as the text the caller sees: up to the first NUL byte. -/
def whatText (msg : Bytes) : Bytes := if msg.isEmpty then ascii "Unknown exception" else msg.takeWhile (· ≠ 0)

end Meojson
