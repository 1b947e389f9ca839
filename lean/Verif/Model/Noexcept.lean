import Verif.Model.Convert
import Verif.Model.Report

/-!
# Functions that promise not to throw, when something inside them does

`is<T>()`, `type_name()` and `value_info()` are `noexcept` (value.hpp:330-346): an exception that leaves them ends the program by `std::terminate`, which is `ub` here. Two things can
throw inside: an allocation, and functions of the user's. Model/Convert and Model/Report leave both out; here they are put in.

`is<T>()` makes texts only in the `check_json` that `MEO_CHECKJSON` writes: the argument of `find_value` and the `error_key` (jsonization.hpp:96-116). `value_info()` makes texts throughout and
catches what is thrown, but not in the `catch` block itself (value_impl.hpp:403).
-/

set_option autoImplicit false

namespace Meojson

/-- What the program runs in. -/
structure Env where
  /-- the length up to which a `std::string` needs no memory: 15 for libstdc++ and MSVC, 22 for libc++ -/
  inside : Nat
  /-- whether there is memory for longer ones -/
  memory : Bool
  /-- whether the user's `check_json` throws for a value -/
  throws : User → Value → Bool
  /-- whether the default constructor of a struct throws, value_impl.hpp:266 -/
  fails : Fields → Bool

/-- A text can be made. -/
def Env.holds (e : Env) (s : Bytes) : Bool := e.memory || s.length ≤ e.inside

section Checks
variable (F : Floats) (e : Env)

mutual
/-- `is<T>()`, value_impl.hpp:258-340, as `Ty.is`. -/
def Ty.isIn : Ty → Value → Out Bool
  | .json, _ => .ok true
  | .struct fs, v => if e.fails fs then .ub else (fs.checkIn {} v).noexcept.bind fun r => .ok r.isNone
  | .user U, v => if e.throws U v then .ub else .ok (U.check v)
  | .bool, v => .ok (v.type = .boolean)
  | .null, v => .ok (v.type = .null)
  | .nullable _ t, v => if v.type = .null then .ok true else t.isIn v
  | .enum E, v => v.isEnum E
  | .int T, v => v.isInt T
  | .float f, v => v.isFloat F f
  | .string, v => .ok (v.type = .string)
  | .jarray, v => .ok (v.type = .array)
  | .seq t, v => if v.type = .array then v.asArray.noexcept.bind fun vs => allAre t.isIn vs else .ok false
  | .set _ t, v => if v.type = .array then v.asArray.noexcept.bind fun vs => allAre t.isIn vs else .ok false
  | .fixed n t, v =>
    if v.type = .array then v.asArray.noexcept.bind fun vs => if vs.length = n then allAre t.isIn vs else .ok false else .ok false
  | .tuple ts, v =>
    if v.type = .array then v.asArray.noexcept.bind fun vs => if vs.length = ts.size then ts.areAllIn vs else .ok false else .ok false
  | .variant ts, v => ts.isAnyIn v
  | .jobject, v => .ok (v.type = .object)
  | .map t, v => if v.type = .object then v.asObject.noexcept.bind fun ms => allAre (fun m => t.isIn m.2) ms else .ok false
/-- `is_tuple_helper`, value_impl.hpp:668-673 -/
def Tys.areAllIn : Tys → List Value → Out Bool
  | .nil, _ => .ok true
  | .cons _ _, [] => .ub
  | .cons t ts, v :: vs => (t.isIn v).bind fun b => if b then ts.areAllIn vs else .ok false
/-- `is_variant_helper`, 675-679 -/
def Tys.isAnyIn : Tys → Value → Out Bool
  | .nil, _ => .ok false
  | .cons t ts, v => (t.isIn v).bind fun b => if b then .ok true else ts.isAnyIn v
/-- `checker::_check_json`, jsonization.hpp:84-138, which may throw: none for true, otherwise `error_key`. -/
def Fields.checkIn : Fields → NextState → Value → Out (Option Bytes)
  | .done, _, _ => .ok none
  | .opt rest, st, v => rest.checkIn { st with isOptional := true } v
  | .key k rest, st, v => rest.checkIn { st with overrideKey := some k } v
  | .var name _ t rest, st, v =>
    if !e.holds (st.keyFor name) then .throw .badAlloc
    else (v.findKey (st.keyFor name)).bind fun
      | some w => (t.isIn w).bind fun b => if b then rest.checkIn {} v else .ok (some (st.keyFor name))
      | none => if st.isOptional then rest.checkIn {} v else .ok (some (st.keyFor name))
end

end Checks

namespace Value
variable (e : Env)

/-- `type_name()`, value_impl.hpp:367-371 -/
def typeNameIn (c : Compiler) (v : Value) : Out Bytes := (v.typeName c).bind fun s => if e.holds s then .ok s else .ub

/-- A text that is made inside the `try` block. -/
def make (s : Bytes) : Out Bytes := if e.holds s then .ok s else .throw .badAlloc

/-- The statements of the `try` block, 376-400, after the first. -/
def infoBodyIn (info : Bytes) (v : Value) : Out Bytes :=
  let add (s : Bytes) : Out Bytes := (make e s).bind fun s => make e (info ++ s)
  match v.type with
  | .null | .invalid => .ok info
  | .boolean | .number | .string =>
    v.dumpTo.bind fun str_repr => (make e str_repr).bind fun str_repr =>
    if 100 < str_repr.length then add (ascii ", value=" ++ str_repr.take 100 ++ ascii "...") else add (ascii ", value=" ++ str_repr)
  | .array => v.asArray.bind fun vs => add (ascii ", size=" ++ natText vs.length)
  | .object => v.asObject.bind fun ms => add (ascii ", size=" ++ natText ms.length)

/-- `value_info()`, 373-405. The `catch` block makes the same text as the first statement of the `try` block. -/
def infoTextIn (c : Compiler) (v : Value) : Out Bytes :=
  let first : Out Bytes := (v.typeNameIn e c).bind fun name => make e (ascii "type=" ++ name)
  match first.bind fun info => v.infoBodyIn e info with
  | .throw _ => first.noexcept
  | r => r

end Value

end Meojson
