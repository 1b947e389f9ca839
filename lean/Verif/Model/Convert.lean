import Verif.Model.Access
import Verif.Model.Float

/-!
# Conversions between C++ values and `json::value`

`value::is<T>` (include/common/value_impl.hpp:259-340), `value::as<T>` (681-729) with the conversion operators (883-971, value.hpp:483-648), `array::as<T>`
(array_impl.hpp:430-474), `object::as<T>` (object_impl.hpp:340-353); the converting constructors (value_impl.hpp:87-204 and 1128-1149, value.hpp:82-279,
array_impl.hpp:40-133, object_impl.hpp:36-62); enum reflection (enum_reflection.hpp); the functions behind `MEO_JSONIZATION` (reflection/jsonization.hpp).

C++ types are the terms of `Ty`, and C++ values those of `CVal`. The compile-time dispatch (`if constexpr`, overload resolution) becomes a case distinction on the
type. `as<T>()` ends in `static_cast<T>(*this)` (value_impl.hpp:702), that is, in overload resolution among the constructors of `T`. For three class templates of
the standard library a converting constructor fits better than the conversion operator of `value` followed by the copy or move constructor, because it takes the
value as it is: `std::optional<T>` (from anything that `T` can be constructed from), `std::tuple<T>` with one element (likewise), and `std::variant<Ts...>` (if the
value converts implicitly to an alternative). The conversion operators written for them (value.hpp:537-552, 589-594, 604-613) are not called then. These rules of C++17
and C++20 were checked with a compiler (g++ 13, libstdc++) on a class with the same operators, not on the library. Left out: `std::unordered_set` and `std::unordered_map` (as `std::set` and `std::map`, up to the order), `std::filesystem::path` (as a string), and types that `as<T>` rejects at compile time. Recursion depth and memory are not bounded here.
-/

set_option autoImplicit false

namespace Meojson

/-- Leaving a `noexcept` function by an exception calls `std::terminate`; counted as undefined behaviour. -/
def Out.noexcept {α : Type} : Out α → Out α
  | .throw _ => .ub
  | r => r

/-- Conversion to an integer type, modulo a power of two. -/
def IntTy.wrap (T : IntTy) (n : Int) : Int :=
  let r := n % (2 ^ T.bits : Nat)
  if T.signed ∧ (2 ^ (T.bits - 1) : Nat) ≤ r then r - (2 ^ T.bits : Nat) else r

/-- `int` -/
abbrev cInt : IntTy := ⟨true, 32⟩

/-! ### Enum reflection, enum_reflection.hpp -/

/-- The underlying type of an enum. (`as<T>` compiles for `bool` and for the integer types from `int` upwards.) -/
inductive Under where
  | bool
  | int (T : IntTy)

/-- `static_cast` of an `int` to an enum with this underlying type. -/
def Under.cast : Under → Int → Int
  | .bool, n => if n = 0 then 0 else 1
  | .int T, n => T.wrap n

/-- The values of an enum with this (fixed) underlying type. -/
def Under.Has : Under → Int → Prop
  | .bool, n => n = 0 ∨ n = 1
  | .int T, n => T.Has n

/-- An enum type: `min` and `max` are `enum_range<E>::min` and `max` (157-162; by default -128 and 128), `text v` is what `name<E, v>()` (22-78) cuts out of the
compiler's name for the function, and `asNumber` tells whether `MEOJSON_ENUM_AS_NUMBER` is defined. -/
structure EnumTy where
  under : Under
  min : Int
  max : Int
  text : Int → Bytes
  asNumber : Bool

def isLetter (c : UInt8) : Bool := (0x61 ≤ c && c ≤ 0x7a) || (0x41 ≤ c && c ≤ 0x5a) || c == 0x5f

/-- `is_valid`, 80-111: the text is an identifier. (The search for parentheses and braces, 105-108, cannot find any after the loop.) -/
def isValidName : Bytes → Bool
  | [] => false
  | c :: s => isLetter c && s.all fun c => isLetter c || isDigit c

/-- `enum_name_storage<E>::range`, 178 -/
def EnumTy.range (E : EnumTy) : Int := E.max - E.min + 1

/-- `enum_name_storage<E>::names[i]`, 164-170 and 179 -/
def EnumTy.names (E : EnumTy) (i : Int) : Bytes :=
  let n := E.text (E.under.cast (i + E.min))
  if isValidName n then n else []

/-- `enum_to_string`, 182-196. The difference is of type `int`; if it overflows the behaviour is undefined. -/
def EnumTy.toString (E : EnumTy) (e : Int) : Out Bytes :=
  let idx := cInt.wrap e - E.min
  if ¬ cInt.Has idx then .ub
  else if 0 ≤ idx ∧ idx < E.range then .ok (E.names idx)
  else .ok []

/-- `c += 32` for a capital letter, 206-211 -/
def lowerByte (c : UInt8) : UInt8 := if 0x41 ≤ c && c ≤ 0x5a then c + 32 else c

/-- The loop of `iequals`, 203-215, for texts of equal length. -/
def iequalsLoop : Bytes → Bytes → Bool
  | a :: as, b :: bs => if lowerByte a ≠ lowerByte b then false else iequalsLoop as bs
  | _, _ => true

/-- `iequals`, 198-217 -/
def iequals (a b : Bytes) : Bool := if a.length ≠ b.length then false else iequalsLoop a b

/-- `string_to_enum`, 219-235: the first match. -/
def EnumTy.ofString (E : EnumTy) (s : Bytes) : Option Int :=
  ((List.range E.range.toNat).find? fun i : Nat => E.names i ≠ [] && iequals (E.names i) s).map fun i : Nat => E.under.cast (i + E.min)

/-! ### C++ values and types -/

/-- A C++ value of a supported type.

* `flt`: floating point; `null`: `std::monostate` or `nullptr`; `json`, `jarray`, `jobject`: the library's own types;
* `nothing`, `just`: a nullable wrapper (`std::optional`, `std::unique_ptr`, `std::shared_ptr`) without and with content;
* `list`: a collection, `std::array`, tuple or pair, or the members of a struct in the order of its `MEO_JSONIZATION`;
* `alt i x`: a `std::variant` that holds `x` as its alternative number `i`;
* `map`: a `std::map<std::string, T>`, in iteration order. -/
inductive CVal where
  | bool (b : Bool)
  | int (n : Int)
  | flt (x : Fl)
  | str (s : Bytes)
  | null
  | json (v : Value)
  | jarray (vs : List Value)
  | jobject (ms : List (Bytes × Value))
  | nothing
  | just (x : CVal)
  | enum (e : Int)
  | list (xs : List CVal)
  | alt (i : Nat) (x : CVal)
  | map (ms : List (Bytes × CVal))

/-- `std::optional`, or one of the smart pointers. They differ in what `*wrapper` is for a const wrapper: const, or not. -/
inductive Wrapper where
  | optional
  | pointer

/-- A type whose conversions the user writes, as members `to_json`, `check_json`, `from_json` or in a specialisation of `ext::jsonization` (utils.hpp:24-30 and 176-237). The
bodies are parameters; assumed of them is that they return or throw `json::exception`, and that `check_json` returns (it is called from a `noexcept` function). `load` is
`from_json` into a fresh object, none if it returns false or throws; `dump` is `to_json`, none if it throws. `has` tells the values of the type apart; the model does not use it.
Left out: `move_to_json` and `move_from_json`, and a `json::value` that converts to the type by a constructor of the type. -/
structure User where
  has : CVal → Prop
  check : Value → Bool
  load : Value → Option CVal
  dump : CVal → Option Value

mutual
/-- A supported C++ type.

* `set lt t`: `std::set` with the order `lt`; `seq t`: `std::vector`, `std::list`, `std::deque`; `fixed n t`: `std::array<T, n>`;
* `tuple`: `std::tuple`, and `std::pair`; `map t`: `std::map<std::string, T>`;
* `struct fs`: a class with `MEO_JSONIZATION(fs)`; `user U`: a class with conversions of the user's. -/
inductive Ty where
  | bool
  | int (T : IntTy)
  | float (f : FloatFmt)
  | string
  | null
  | json
  | jarray
  | jobject
  | nullable (w : Wrapper) (t : Ty)
  | enum (E : EnumTy)
  | seq (t : Ty)
  | set (lt : CVal → CVal → Bool) (t : Ty)
  | fixed (n : Nat) (t : Ty)
  | tuple (ts : Tys)
  | variant (ts : Tys)
  | map (t : Ty)
  | struct (fs : Fields)
  | user (U : User)
/-- A list of types. -/
inductive Tys where
  | nil
  | cons (t : Ty) (ts : Tys)
/-- The arguments of `MEO_JSONIZATION`, jsonization.hpp:426-472: members, each after any number of the tags `MEO_OPT` and `MEO_KEY(k)`. `dflt` is the value the member
has in `T {}`. -/
inductive Fields where
  | done
  | opt (rest : Fields)
  | key (k : Bytes) (rest : Fields)
  | var (name : Bytes) (dflt : CVal) (t : Ty) (rest : Fields)
end

/-- `next_state_t`, jsonization.hpp:22-26 -/
structure NextState where
  isOptional : Bool := false
  overrideKey : Option Bytes := none

/-- The key in use for a member, `if (state.override_key) key = ...`, jsonization.hpp:59-61. -/
def NextState.keyFor (st : NextState) (name : Bytes) : Bytes := st.overrideKey.getD name

/-- The machine's conversion of floating-point numbers to text (`_utils::to_basic_string`, utils.hpp:476-491) and back (`std::stof`, `stod`, `stold` where they read the
whole text and do not throw). -/
structure Floats where
  print : FloatFmt → Fl → Bytes
  read : FloatFmt → Bytes → Option Fl

namespace Value

mutual
/-- No null pointer inside (a moved-from value has one). -/
def intact : Value → Bool
  | .str .. => true
  | .arr _ vs => intactAll vs
  | .obj _ ms => intactMembers ms
  | .arrNull _ | .objNull _ => false
def intactAll : List Value → Bool
  | [] => true
  | v :: vs => v.intact && intactAll vs
def intactMembers : List (Bytes × Value) → Bool
  | [] => true
  | (_, v) :: ms => v.intact && intactMembers ms
end

/-- `value(const value&)`, value_impl.hpp:80-84, with `deep_copy`, 1103-1120, which dereferences every pointer inside. -/
def copied (v : Value) : Out Value := if v.intact then .ok v else .ub

/-- What the defaulted move constructor (value_impl.hpp:86) leaves behind: an emptied string or a null pointer under the old tag. -/
def emptied : Value → Value
  | .str t _ => .str t []
  | .arr t _ => .arrNull t
  | .arrNull t => .arrNull t
  | .obj t _ => .objNull t
  | .objNull t => .objNull t

/-- `as_float() const` and its siblings, value_impl.hpp:572-600, with `parse_floating`, 30-54. -/
def asFloat (F : Floats) (f : FloatFmt) (v : Value) : Out Fl :=
  if v.type = .number then
    v.basicStr.bind fun s =>
    match F.read f s with
    | some x => .ok x
    | none => .throw .json
  else v.typeError

/-- `is<T>() const noexcept` for a floating-point type, 290-301, with `can_parse_floating`, 56-75. -/
def isFloat (F : Floats) (f : FloatFmt) (v : Value) : Out Bool :=
  if v.type = .number then
    match v with
    | .str _ s => .ok (F.read f s).isSome
    | _ => .ub
  else .ok false

/-- `operator enum_t() const`, value.hpp:483-500 -/
def asEnum (E : EnumTy) (v : Value) : Out Int :=
  if v.type = .string then
    v.asString.bind fun s =>
    match E.ofString s with
    | some e => .ok e
    | none => v.typeError
  else if v.type = .number then
    match E.under with
    | .bool => v.asBoolean.bind fun b => .ok (if b then 1 else 0)
    | .int T => v.asInt T
  else v.typeError

/-- `is<T>() const noexcept` for an enum, value_impl.hpp:284-289 -/
def isEnum (E : EnumTy) (v : Value) : Out Bool :=
  if v.type = .string then v.asString.noexcept.bind fun s => .ok (E.ofString s).isSome
  else
    match E.under with
    | .bool => .ok (v.type = .boolean)
    | .int T => v.isInt T

/-- `value(enum_t)`, value.hpp:82-95 -/
def ofEnum (E : EnumTy) (e : Int) : Out Value :=
  if E.asNumber then
    .ok (match E.under with
      | .bool => .ofBool (e ≠ 0)
      | .int _ => .ofInt e)
  else (E.toString e).bind fun s => if s = [] then .throw .json else .ok (.str .string s)

end Value

/-- The loops of `array::all`, array_impl.hpp:247-256, and `object::all`, object_impl.hpp:184-193. -/
def allAre {α : Type} (p : α → Out Bool) : List α → Out Bool
  | [] => .ok true
  | v :: vs => (p v).bind fun b => if b then allAre p vs else .ok false

/-- Converts the elements one after the other. -/
def eachOf {α β : Type} (f : α → Out β) : List α → Out (List β)
  | [] => .ok []
  | v :: vs => (f v).bind fun x => (eachOf f vs).bind fun xs => .ok (x :: xs)

/-- `std::set::emplace` for an order `lt` -/
def setInsert {α : Type} (lt : α → α → Bool) (x : α) : List α → List α
  | [] => [x]
  | y :: ys => if lt x y then x :: y :: ys else if lt y x then y :: setInsert lt x ys else y :: ys

/-- `sizeof...(Ts)` -/
def Tys.size : Tys → Nat
  | .nil => 0
  | .cons _ ts => ts.size + 1

/-- The position of `json::value` among the types. -/
def Tys.jsonAt : Tys → Option Nat
  | .nil => none
  | .cons .json _ => some 0
  | .cons _ ts => ts.jsonAt.map (· + 1)

/-- The alternative that overload resolution chooses for an argument of type `json::value`: the type itself if it is among them, otherwise the only one it converts
to. (The alternatives of a variant that `as` compiles for are different types.) -/
def chosenOf (json : Option Nat) (others : List Nat) : Option Nat :=
  match json, others with
  | some i, _ => some i
  | none, [i] => some i
  | none, _ => none

mutual
/-- `std::is_convertible_v<const json::value&, T>`: implicit conversion. The conversion operators of `value` are explicit and do not count; the constructors of
`std::optional`, of a one-element `std::tuple` and of `std::variant` do. -/
def Ty.implicit : Ty → Bool
  | .json => true
  | .nullable .optional t => t.implicit
  | .tuple ts => ts.implicitOne
  | .variant ts => (chosenOf ts.jsonAt (ts.implicits 0)).isSome
  | _ => false
/-- One type, to which a value converts implicitly. -/
def Tys.implicitOne : Tys → Bool
  | .cons t ts => ts.size = 0 && t.implicit
  | .nil => false
/-- The positions, counted from `i`, of the types to which a value converts implicitly. -/
def Tys.implicits : Tys → Nat → List Nat
  | .nil, _ => []
  | .cons t ts, i => if t.implicit then i :: ts.implicits (i + 1) else ts.implicits (i + 1)
end

/-- The alternative of `std::variant<Ts...>` that its converting constructor makes of a `json::value`, if that constructor takes part. -/
def Tys.chosen (ts : Tys) : Option Nat := chosenOf ts.jsonAt (ts.implicits 0)

section Checks
variable (F : Floats)

mutual
/-- `value::is<T>() const noexcept`, value_impl.hpp:259-340, in its order -/
def Ty.is : Ty → Value → Out Bool
  | .json, _ => .ok true
  | .struct fs, v => (fs.check {} v).bind fun e => .ok e.isNone
  | .user U, v => .ok (U.check v)
  | .bool, v => .ok (v.type = .boolean)
  | .null, v => .ok (v.type = .null)
  | .nullable _ t, v => if v.type = .null then .ok true else t.is v
  | .enum E, v => v.isEnum E
  | .int T, v => v.isInt T
  | .float f, v => v.isFloat F f
  | .string, v => .ok (v.type = .string)
  | .jarray, v => .ok (v.type = .array)
  | .seq t, v => if v.type = .array then v.asArray.noexcept.bind fun vs => allAre t.is vs else .ok false
  | .set _ t, v => if v.type = .array then v.asArray.noexcept.bind fun vs => allAre t.is vs else .ok false
  | .fixed n t, v =>
    if v.type = .array then v.asArray.noexcept.bind fun vs => if vs.length = n then allAre t.is vs else .ok false else .ok false
  | .tuple ts, v =>
    if v.type = .array then v.asArray.noexcept.bind fun vs => if vs.length = ts.size then ts.areAll vs else .ok false else .ok false
  | .variant ts, v => ts.isAny v
  | .jobject, v => .ok (v.type = .object)
  | .map t, v => if v.type = .object then v.asObject.noexcept.bind fun ms => allAre (fun e => t.is e.2) ms else .ok false
/-- `is_tuple_helper`, value_impl.hpp:668-673; `operator[]` past the end is undefined. -/
def Tys.areAll : Tys → List Value → Out Bool
  | .nil, _ => .ok true
  | .cons _ _, [] => .ub
  | .cons t ts, v :: vs => (t.is v).bind fun b => if b then ts.areAll vs else .ok false
/-- `is_variant_helper`, 675-679 -/
def Tys.isAny : Tys → Value → Out Bool
  | .nil, _ => .ok false
  | .cons t ts, v => (t.is v).bind fun b => if b then .ok true else ts.isAny v
/-- `checker::_check_json`, jsonization.hpp:84-138: none for true, otherwise `error_key` -/
def Fields.check : Fields → NextState → Value → Out (Option Bytes)
  | .done, _, _ => .ok none
  | .opt rest, st, v => rest.check { st with isOptional := true } v
  | .key k rest, st, v => rest.check { st with overrideKey := some k } v
  | .var name _ t rest, st, v =>
    (v.findKey (st.keyFor name)).noexcept.bind fun
    | some w => (t.is w).bind fun b => if b then rest.check {} v else .ok (some (st.keyFor name))
    | none => if st.isOptional then rest.check {} v else .ok (some (st.keyFor name))
end

end Checks

/-- The members of `T {}`. -/
def Fields.defaults : Fields → List CVal
  | .done => []
  | .opt rest => rest.defaults
  | .key _ rest => rest.defaults
  | .var _ d _ rest => d :: rest.defaults

section Loads
variable (F : Floats)

mutual
/-- `value::as<T>() const&`, value_impl.hpp:681-703, with the conversion operators and constructors that `static_cast<T>` selects -/
def Ty.as : Ty → Value → Out CVal
  | .json, v => v.copied.bind fun v => .ok (.json v)
  | .struct fs, v =>
    let r := fs.load {} v fs.defaults
    r.1.bind fun
    | none => .ok (.list r.2)
    | some _ => v.typeError
  | .user U, v =>
    match U.load v with
    | some x => .ok x
    | none => v.typeError
  | .bool, v => v.asBoolean.bind fun b => .ok (.bool b)
  | .null, v => v.asNull.bind fun _ => .ok .null
  | .nullable .pointer t, v => if v.type = .null then .ok .nothing else (t.as v).bind fun x => .ok (.just x)
  | .nullable .optional t, v => (t.as v).bind fun x => .ok (.just x)
  | .enum E, v => (v.asEnum E).bind fun e => .ok (.enum e)
  | .int T, v => (v.asInt T).bind fun n => .ok (.int n)
  | .float f, v => (v.asFloat F f).bind fun x => .ok (.flt x)
  | .string, v => v.asString.bind fun s => .ok (.str s)
  | .jarray, v => v.asArray.bind fun vs => (eachOf Value.copied vs).bind fun vs => .ok (.jarray vs)
  | .seq t, v => v.asArray.bind fun vs => (eachOf t.as vs).bind fun xs => .ok (.list xs)
  | .set lt t, v => v.asArray.bind fun vs => (eachOf t.as vs).bind fun xs => .ok (.list (xs.foldl (fun l x => setInsert lt x l) []))
  | .fixed n t, v =>
    v.asArray.bind fun vs => if vs.length = n then (eachOf t.as vs).bind fun xs => .ok (.list xs) else .throw .json
  | .tuple ts, v =>
    if ts.size = 1 then (ts.asNth 0 v).bind fun x => .ok (.list [x])
    else v.asArray.bind fun vs => if vs.length = ts.size then (ts.asAll vs).bind fun xs => .ok (.list xs) else .throw .json
  | .variant ts, v =>
    match ts.chosen with
    | some i => (ts.asNth i v).bind fun x => .ok (.alt i x)
    | none => ts.asAny 0 v
  | .jobject, v => v.asObject.bind fun ms => (eachOf (fun e => e.2.copied.bind fun w => .ok (e.1, w)) ms).bind fun ms => .ok (.jobject ms)
  | .map t, v =>
    v.asObject.bind fun ms =>
    (eachOf (fun e => (t.as e.2).bind fun x => .ok (e.1, x)) ms).bind fun es =>
    .ok (.map (es.foldl (fun m e => (RawObject.emplace e.1 e.2 m).1) []))
/-- `as_tuple_helper`, array_impl.hpp:537-542 -/
def Tys.asAll : Tys → List Value → Out (List CVal)
  | .nil, _ => .ok []
  | .cons _ _, [] => .ub
  | .cons t ts, v :: vs => (t.as v).bind fun x => (ts.asAll vs).bind fun xs => .ok (x :: xs)
/-- Construction of an alternative or element: `static_cast<T>` for the type at this position -/
def Tys.asNth : Tys → Nat → Value → Out CVal
  | .nil, _, _ => .ub
  | .cons t _, 0, v => t.as v
  | .cons _ ts, i + 1, v => ts.asNth i v
/-- `to_variant_helper`, value_impl.hpp:1151-1159. The assignment `result = as<Ts>()` selects the alternative of exactly that type. -/
def Tys.asAny : Tys → Nat → Value → Out CVal
  | .nil, _, v => v.typeError
  | .cons t ts, i, v => (t.is F v).bind fun b => if b then (t.as v).bind fun x => .ok (.alt i x) else ts.asAny (i + 1) v
/-- `loader::_from_json`, jsonization.hpp:140-196. The members `dst` may be assigned before the function fails or an exception passes through: they are part of the result. -/
def Fields.load : Fields → NextState → Value → List CVal → Out (Option Bytes) × List CVal
  | .done, _, _, dst => (.ok none, dst)
  | .opt rest, st, v, dst => rest.load { st with isOptional := true } v dst
  | .key k rest, st, v, dst => rest.load { st with overrideKey := some k } v dst
  | .var _ _ _ _, _, _, [] => (.ub, [])
  | .var name _ t rest, st, v, d :: dst =>
    match v.findKey (st.keyFor name) with
    | .ok (some w) =>
      match t.is F w with
      | .ok true =>
        match t.as w with
        | .ok x => let r := rest.load {} v dst; (r.1, x :: r.2)
        | .throw e => (.throw e, d :: dst)
        | .ub => (.ub, d :: dst)
      | .ok false => (.ok (some (st.keyFor name)), d :: dst)
      | .throw e => (.throw e, d :: dst)
      | .ub => (.ub, d :: dst)
    | .ok none => if st.isOptional then let r := rest.load {} v dst; (r.1, d :: r.2) else (.ok (some (st.keyFor name)), d :: dst)
    | .throw e => (.throw e, d :: dst)
    | .ub => (.ub, d :: dst)
end

end Loads

/-- The value category of a constructor argument: `const T&`, `T&`, `T&&`, `const T&&`. -/
inductive Cat where
  | constLv
  | lv
  | rv
  | constRv
deriving DecidableEq, Repr

namespace Cat
/-- The content of an optional: `value(*wrapper)` for a const lvalue, `value(std::move(*wrapper))` otherwise, value.hpp:127-148. The second constructor takes a
forwarding reference and its conditions hold for a non-const lvalue too. -/
def content : Wrapper → Cat → Cat
  | .optional, .constLv => .constLv
  | .optional, .lv => .rv
  | .optional, .rv => .rv
  | .optional, .constRv => .constRv
  | .pointer, .constLv => .lv
  | .pointer, .lv => .rv
  | .pointer, .rv => .rv
  | .pointer, .constRv => .rv

/-- The elements of a collection or map: `const auto&` for an lvalue; `std::move(val)` for an rvalue, value.hpp:198-223 and 254-279, array_impl.hpp:72-102,
object_impl.hpp:36-62. The conditions of the rvalue constructor do not hold for a reference type. -/
def element : Cat → Cat
  | .rv => .rv
  | .constRv => .constRv
  | _ => .constLv

/-- The elements of a `std::set` are const. -/
def setElement : Cat → Cat
  | .rv => .constRv
  | .constRv => .constRv
  | _ => .constLv

/-- The elements of a `std::array` or tuple and the content of a variant: moved from a non-const rvalue only, value.hpp:150-196 and 225-252. -/
def part : Cat → Cat
  | .rv => .rv
  | _ => .constLv
end Cat

/-- Converts and collects both the results and what is left of the sources. -/
def eachBoth {α β : Type} (f : α → Out (β × α)) : List α → Out (List β × List α)
  | [] => .ok ([], [])
  | x :: xs => (f x).bind fun r => (eachBoth f xs).bind fun rs => .ok (r.1 :: rs.1, r.2 :: rs.2)

section Stores
variable (F : Floats)

mutual
/-- The constructors `json::value(x)`: the new value, and what `x` is afterwards. `x` that is no value of the type gives `ub`. -/
def Ty.store : Ty → Cat → CVal → Out (Value × CVal)
  | .json, c, .json v => if c = .rv then .ok (v, .json v.emptied) else v.copied.bind fun w => .ok (w, .json v)
  | .jarray, c, .jarray vs =>
    if c = .rv then .ok (.ofArray vs, .jarray []) else (eachOf Value.copied vs).bind fun ws => .ok (.ofArray ws, .jarray vs)
  | .jobject, c, .jobject ms =>
    if c = .rv then .ok (.ofObject ms, .jobject [])
    else (eachOf (fun e : Bytes × Value => e.2.copied.bind fun w => .ok (e.1, w)) ms).bind fun ws => .ok (.ofObject ws, .jobject ms)
  | .bool, _, .bool b => .ok (.ofBool b, .bool b)
  | .int _, _, .int n => .ok (.ofInt n, .int n)
  | .float f, _, .flt x => .ok (.str .number (F.print f x), .flt x)
  | .string, c, .str s => .ok (.str .string s, .str (if c = .rv then [] else s))
  | .null, _, .null => .ok (.null, .null)
  | .enum E, _, .enum e => (Value.ofEnum E e).bind fun v => .ok (v, .enum e)
  | .nullable _ _, _, .nothing => .ok (.null, .nothing)
  | .nullable w t, c, .just x => (t.store (c.content w) x).bind fun r => .ok (r.1, .just r.2)
  | .seq t, c, .list xs => (eachBoth (t.store c.element) xs).bind fun r => .ok (.ofArray r.1, .list r.2)
  | .set _ t, c, .list xs => (eachBoth (t.store c.setElement) xs).bind fun r => .ok (.ofArray r.1, .list r.2)
  | .fixed _ t, c, .list xs => (eachBoth (t.store c.part) xs).bind fun r => .ok (.ofArray r.1, .list r.2)
  | .tuple ts, c, .list xs => (ts.storeAll c.part xs).bind fun r => .ok (.ofArray r.1, .list r.2)
  | .variant ts, c, .alt i x => (ts.storeAlt c.part i x).bind fun r => .ok (r.1, .alt i r.2)
  | .map t, c, .map ms =>
    (eachBoth (fun e : Bytes × CVal => (t.store c.element e.2).bind fun r => .ok ((e.1, r.1), (e.1, r.2))) ms).bind fun r =>
    .ok (.ofObject (r.1.foldl (fun m e => (RawObject.emplace e.1 e.2 m).1) []), .map r.2)
  | .struct fs, _, .list xs => (fs.dump {} xs []).bind fun r => .ok (.ofObject r.1, .list r.2)
  | .user U, _, x =>
    match U.dump x with
    | some v => .ok (v, x)
    | none => .throw .json
  | _, _, _ => .ub
/-- `construct_from_tuple_helper` and its move variant, array_impl.hpp:523-535 -/
def Tys.storeAll : Tys → Cat → List CVal → Out (List Value × List CVal)
  | .nil, _, [] => .ok ([], [])
  | .cons t ts, c, x :: xs => (t.store c x).bind fun r => (ts.storeAll c xs).bind fun rs => .ok (r.1 :: rs.1, r.2 :: rs.2)
  | _, _, _ => .ub
/-- `std::visit` in the variant constructors, value_impl.hpp:1128-1149 -/
def Tys.storeAlt : Tys → Cat → Nat → CVal → Out (Value × CVal)
  | .nil, _, _, _ => .ub
  | .cons t _, c, 0, x => t.store c x
  | .cons _ ts, c, i + 1, x => ts.storeAlt c i x
/-- `dumper::_to_json`, jsonization.hpp:47-82; members are taken by const reference, and `object::emplace` is `insert_or_assign` (object_impl.hpp:108-113). -/
def Fields.dump : Fields → NextState → List CVal → List (Bytes × Value) → Out (List (Bytes × Value) × List CVal)
  | .done, _, [], m => .ok (m, [])
  | .opt rest, st, xs, m => rest.dump { st with isOptional := true } xs m
  | .key k rest, st, xs, m => rest.dump { st with overrideKey := some k } xs m
  | .var name _ t rest, st, x :: xs, m =>
    (t.store .constLv x).bind fun r =>
    (rest.dump {} xs (RawObject.insertOrAssign (st.keyFor name) r.1 m)).bind fun rs => .ok (rs.1, r.2 :: rs.2)
  | _, _, _, _ => .ub
end

end Stores

end Meojson
