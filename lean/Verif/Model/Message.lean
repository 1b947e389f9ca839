import Verif.Model.Convert
import Verif.Model.Report

/-!
# What the exception of a failed conversion says

`value::as<T>() const&` once more, as in Model/Convert.lean, with the text of the `json::exception` it throws: value_impl.hpp:19-54, 494-638, 681-703, 953-972, 1151-1159, value.hpp:483-521,
array_impl.hpp:431-472.

* The names of the number types in the texts depend on the type and not on its size (`long` and `long long` may have the same size): `Names` says which name goes with which size. A conversion that
  involves two types of one size and different names is not covered.
* A `from_json` of the user's that throws an exception of its own counts as one that returns false.
-/

set_option autoImplicit false

namespace Meojson

/-- How a conversion ends: with a result; with a `json::exception` and its text; with another exception; undefined. -/
inductive Told (α : Type) where
  | ok (a : α)
  | error (text : Bytes)
  | other (e : Exn)
  | ub

namespace Told

def bind {α β : Type} (r : Told α) (f : α → Told β) : Told β :=
  match r with
  | .ok a => f a
  | .error m => .error m
  | .other e => .other e
  | .ub => .ub

/-- The outcome without the text. -/
def plain {α : Type} : Told α → Out α
  | .ok a => .ok a
  | .error _ => .throw .json
  | .other e => .throw e
  | .ub => .ub

/-- A step that throws no text of the library's. -/
def lift {α : Type} : Out α → Told α
  | .ok a => .ok a
  | .throw e => .other e
  | .ub => .ub

end Told

/-- The last argument of `parse_integer` and `parse_floating`: `"integer"`, `"unsigned"`, `"long"`, ..., `"float"`, `"double"`, `"long double"`. -/
structure Names where
  int : IntTy → Bytes
  float : FloatFmt → Bytes

/-- `throw exception(text + value_info());` -/
def Value.complain {α : Type} (c : Compiler) (text : Bytes) (v : Value) : Told α := (Told.lift (v.infoText c)).bind fun info => .error (text ++ info)

/-- `"Type error: cannot convert to "` target `", expected="` kind `", "` -/
def wanted (target kind : Bytes) : Bytes := ascii "Type error: cannot convert to " ++ target ++ ascii ", expected=" ++ kind ++ ascii ", "

/-- `"Parse error: cannot convert number '" + str + "' to " + target_type`, value_impl.hpp:27, 53 -/
def unreadable (str target : Bytes) : Bytes := ascii "Parse error: cannot convert number '" ++ str ++ ascii "' to " ++ target

/-- value_impl.hpp:690, 697; value.hpp:507, 519 -/
def notLoaded : Bytes := ascii "Deserialization failed: from_json() returned false, "

namespace Value
variable (c : Compiler) (N : Names)

/-- `as_boolean() const`, 494-510 -/
def asBooleanT (v : Value) : Told Bool :=
  if v.type = .boolean then
    (Told.lift v.basicStr).bind fun s =>
    if s = [0x74, 0x72, 0x75, 0x65] then .ok true
    else if s = [0x66, 0x61, 0x6c, 0x73, 0x65] then .ok false
    else .error (ascii "Parse error: invalid boolean value '" ++ s ++ ascii "'")
  else v.complain c (wanted (ascii "boolean") (ascii "boolean"))

/-- `as_integer() const` and its siblings, 512-570, with `parse_integer`, 19-28 -/
def asIntT (T : IntTy) (v : Value) : Told Int :=
  if v.type = .number then
    (Told.lift v.basicStr).bind fun s =>
    match tryParseInteger T s with
    | some n => .ok n
    | none => .error (unreadable s (N.int T))
  else v.complain c (wanted (N.int T) (ascii "number"))

/-- `as_float() const` and its siblings, 572-600, with `parse_floating`, 30-54 -/
def asFloatT (F : Floats) (f : FloatFmt) (v : Value) : Told Fl :=
  if v.type = .number then
    (Told.lift v.basicStr).bind fun s =>
    match F.read f s with
    | some x => .ok x
    | none => .error (unreadable s (N.float f))
  else v.complain c (wanted (N.float f) (ascii "number"))

/-- `as_string() const`, 602-610 -/
def asStringT (v : Value) : Told Bytes := if v.type = .string then Told.lift v.basicStr else v.complain c (wanted (ascii "string") (ascii "string"))

/-- `as_string_view() const`, 612-620 -/
def asStringViewT (v : Value) : Told Bytes := if v.type = .string then Told.lift v.basicStr else v.complain c (wanted (ascii "string_view") (ascii "string"))

/-- `as_array() const`, 622-629 -/
def asArrayT (v : Value) : Told (List Value) := if v.type = .array then Told.lift v.asArray else v.complain c (wanted (ascii "array") (ascii "array"))

/-- `as_object() const`, 631-638 -/
def asObjectT (v : Value) : Told (List (Bytes × Value)) := if v.type = .object then Told.lift v.asObject else v.complain c (wanted (ascii "object") (ascii "object"))

/-- `operator std::nullptr_t() const`, 953-961 -/
def asNullptrT (v : Value) : Told Unit := if v.type = .null then .ok () else v.complain c (wanted (ascii "nullptr_t") (ascii "null"))

/-- `operator std::monostate() const`, 963-971 -/
def asMonostateT (v : Value) : Told Unit := if v.type = .null then .ok () else v.complain c (wanted (ascii "monostate") (ascii "null"))

/-- `operator enum_t() const`, value.hpp:483-500 -/
def asEnumT (E : EnumTy) (v : Value) : Told Int :=
  if v.type = .string then
    (v.asStringViewT c).bind fun s =>
    match E.ofString s with
    | some e => .ok e
    | none => v.complain c (ascii "Cannot convert to enum: invalid enum string value, ")
  else if v.type = .number then
    match E.under with
    | .bool => (v.asBooleanT c).bind fun b => .ok (if b then 1 else 0)
    | .int T => v.asIntT c N T
  else v.complain c (ascii "Cannot convert to enum: expected string or number type, ")

end Value

/-- Converts the elements one after the other. -/
def eachTold {α β : Type} (f : α → Told β) : List α → Told (List β)
  | [] => .ok []
  | v :: vs => (f v).bind fun x => (eachTold f vs).bind fun xs => .ok (x :: xs)

/-- array_impl.hpp:436 -/
def wrongSize (expected actual : Nat) : Bytes := ascii "Array size mismatch: expected=" ++ natText expected ++ ascii ", actual=" ++ natText actual

/-- array_impl.hpp:463 -/
def wrongTupleSize (expected actual : Nat) : Bytes := ascii "Array size mismatch for tuple conversion: expected=" ++ natText expected ++ ascii ", actual=" ++ natText actual

section
variable (F : Floats) (c : Compiler) (N : Names)

mutual
/-- `value::as<T>() const&`, value_impl.hpp:681-703, with the conversion operators and constructors that `static_cast<T>` selects. `Ty.null` is `std::monostate`. -/
def Ty.asT : Ty → Value → Told CVal
  | .json, v => (Told.lift v.copied).bind fun v => .ok (.json v)
  | .struct fs, v =>
    let r := fs.loadT {} v fs.defaults
    r.1.bind fun
    | none => .ok (.list r.2)
    | some _ => v.complain c notLoaded
  | .user U, v =>
    match U.load v with
    | some x => .ok x
    | none => v.complain c notLoaded
  | .bool, v => (v.asBooleanT c).bind fun b => .ok (.bool b)
  | .null, v => (v.asMonostateT c).bind fun _ => .ok .null
  | .nullable .pointer t, v => if v.type = .null then .ok .nothing else (t.asT v).bind fun x => .ok (.just x)
  | .nullable .optional t, v => (t.asT v).bind fun x => .ok (.just x)
  | .enum E, v => (v.asEnumT c N E).bind fun e => .ok (.enum e)
  | .int T, v => (v.asIntT c N T).bind fun n => .ok (.int n)
  | .float f, v => (v.asFloatT c N F f).bind fun x => .ok (.flt x)
  | .string, v => (v.asStringT c).bind fun s => .ok (.str s)
  | .jarray, v => (v.asArrayT c).bind fun vs => (eachTold (fun v => Told.lift v.copied) vs).bind fun vs => .ok (.jarray vs)
  | .seq t, v => (v.asArrayT c).bind fun vs => (eachTold t.asT vs).bind fun xs => .ok (.list xs)
  | .set lt t, v => (v.asArrayT c).bind fun vs => (eachTold t.asT vs).bind fun xs => .ok (.list (xs.foldl (fun l x => setInsert lt x l) []))
  | .fixed n t, v =>
    (v.asArrayT c).bind fun vs => if vs.length = n then (eachTold t.asT vs).bind fun xs => .ok (.list xs) else .error (wrongSize n vs.length)
  | .tuple ts, v =>
    if ts.size = 1 then (ts.asNthT 0 v).bind fun x => .ok (.list [x])
    else (v.asArrayT c).bind fun vs => if vs.length = ts.size then (ts.asAllT vs).bind fun xs => .ok (.list xs) else .error (wrongTupleSize ts.size vs.length)
  | .variant ts, v =>
    match ts.chosen with
    | some i => (ts.asNthT i v).bind fun x => .ok (.alt i x)
    | none => ts.asAnyT 0 v
  | .jobject, v => (v.asObjectT c).bind fun ms => (eachTold (fun e => (Told.lift e.2.copied).bind fun w => .ok (e.1, w)) ms).bind fun ms => .ok (.jobject ms)
  | .map t, v =>
    (v.asObjectT c).bind fun ms =>
    (eachTold (fun e => (t.asT e.2).bind fun x => .ok (e.1, x)) ms).bind fun es =>
    .ok (.map (es.foldl (fun m e => (RawObject.emplace e.1 e.2 m).1) []))
/-- `as_tuple_helper`, array_impl.hpp:537-542 -/
def Tys.asAllT : Tys → List Value → Told (List CVal)
  | .nil, _ => .ok []
  | .cons _ _, [] => .ub
  | .cons t ts, v :: vs => (t.asT v).bind fun x => (ts.asAllT vs).bind fun xs => .ok (x :: xs)
/-- Construction of an alternative or element: `static_cast<T>` for the type at this position -/
def Tys.asNthT : Tys → Nat → Value → Told CVal
  | .nil, _, _ => .ub
  | .cons t _, 0, v => t.asT v
  | .cons _ ts, i + 1, v => ts.asNthT i v
/-- `to_variant_helper`, value_impl.hpp:1151-1159 -/
def Tys.asAnyT : Tys → Nat → Value → Told CVal
  | .nil, _, v => v.complain c (ascii "Type error: cannot convert to any variant alternative, ")
  | .cons t ts, i, v => (Told.lift (t.is F v)).bind fun b => if b then (t.asT v).bind fun x => .ok (.alt i x) else ts.asAnyT (i + 1) v
/-- `loader::_from_json`, jsonization.hpp:140-196 -/
def Fields.loadT : Fields → NextState → Value → List CVal → Told (Option Bytes) × List CVal
  | .done, _, _, dst => (.ok none, dst)
  | .opt rest, st, v, dst => rest.loadT { st with isOptional := true } v dst
  | .key k rest, st, v, dst => rest.loadT { st with overrideKey := some k } v dst
  | .var _ _ _ _, _, _, [] => (.ub, [])
  | .var name _ t rest, st, v, d :: dst =>
    match v.findKey (st.keyFor name) with
    | .ok (some w) =>
      match t.is F w with
      | .ok true =>
        match t.asT w with
        | .ok x => let r := rest.loadT {} v dst; (r.1, x :: r.2)
        | .error m => (.error m, d :: dst)
        | .other e => (.other e, d :: dst)
        | .ub => (.ub, d :: dst)
      | .ok false => (.ok (some (st.keyFor name)), d :: dst)
      | .throw e => (.other e, d :: dst)
      | .ub => (.ub, d :: dst)
    | .ok none => if st.isOptional then let r := rest.loadT {} v dst; (r.1, d :: r.2) else (.ok (some (st.keyFor name)), d :: dst)
    | .throw e => (.other e, d :: dst)
    | .ub => (.ub, d :: dst)
end

end

end Meojson
