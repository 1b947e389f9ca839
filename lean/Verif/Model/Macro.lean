import Verif.Model.Convert

/-!
# The macros of `MEO_JSONIZATION`

jsonization.hpp:204-472: the preprocessor turns the list of members into one call of `dumper::_to_json`, `checker::_check_json` or `loader::_from_json`, and overload
resolution (47-196) takes that call apart again. `Fields` (Convert.lean) starts from the end of this; here is what comes before.

`none` stands for a program that does not compile. Assumed: a name in the list is the name of a data member of the class, neither a bit-field nor const, and not the name of
a macro; it is none of the parameters and local variables the macros call `_meojson_jsonization_...`. Empty arguments are left out.
-/

set_option autoImplicit false

namespace Meojson.Macro

/-- `MEO_OPT` or `MEO_KEY("...")`, jsonization.hpp:471-472 -/
inductive Tag where
  | opt
  | key (k : Bytes)
deriving DecidableEq

/-- What the user writes between two commas: tags and the name of a member. -/
structure Item where
  tags : List Tag
  name : Bytes

/-- What stands between two commas after the arguments have been expanded: each tag ends with a comma of its own, 471-472. -/
inductive Arg where
  | tag (t : Tag)
  | name (n : Bytes)
deriving DecidableEq

def Item.args (i : Item) : List Arg := i.tags.map .tag ++ [.name i.name]

/-- `__VA_ARGS__` -/
def vaArgs (is : List Item) : List Arg := is.flatMap Item.args

/-- An argument of `_MEOJSON_ARG_COUNT1` -/
inductive Slot where
  | num (n : Nat)
  | arg (a : Arg)

/-- `_MEOJSON_ARG_COUNT`, 281-348, hands `0, args..., 64, 63, ..., 0` to `_MEOJSON_ARG_COUNT1`, 350-418, which selects the parameter `N` after `_0` to `_64`. -/
def argCount (as : List Arg) : Option Slot := (Slot.num 0 :: (as.map .arg ++ (List.range 65).reverse.map .num))[65]?

/-- An argument of the call that the macros write -/
inductive Piece where
  | str (s : Bytes)
  | expr (a : Arg)
deriving DecidableEq

/-- `_MEOJSON_STRINGIZE`, 206-208. The quotes of a `MEO_KEY` are left out; this text is never used. -/
def stringize : Arg → Bytes
  | .tag .opt => ascii "json::_jsonization_helper::next_is_optional_t {}"
  | .tag (.key k) => ascii "json::_jsonization_helper::next_override_key_t { " ++ k ++ ascii " }"
  | .name n => n

/-- `_MEOJSON_KEY_VALUE`, 425 -/
def keyValue (a : Arg) : List Piece := [.str (stringize a), .expr a]

/-- `_MEOJSON_FOR_EACH_1` to `_MEOJSON_FOR_EACH_64`, 216-279, applied to the first `n` arguments; there are no others of this name. `_MEOJSON_FOR_EACH_1` takes exactly one. -/
def forEach : Nat → List Arg → Option (List Piece)
  | 0, _ => none
  | 1, [a] => some (keyValue a)
  | 1, _ => none
  | n + 2, as => if 64 < n + 2 then none else match as with
    | [] => none
    | a :: as => (forEach (n + 1) as).map (keyValue a ++ ·)

/-- `_MEOJSON_FOR_EACH`, 420-422: the count is pasted to a macro name; if it is no number, that gives no macro. -/
def forEachOf (as : List Arg) : Option (List Piece) :=
  match argCount as with
  | some (.num n) => forEach n as
  | _ => none

/-- `next_override_key_t::key` is a `const char*`, which becomes a `std::string` at `emplace` and `find_value`. -/
def cString (k : Bytes) : Bytes := k.takeWhile (· ≠ 0)

/-- An instance of one of the overloads that take a member, 57, 96, 150: whether it is optional, under which key, which member. -/
structure Access where
  optional : Bool
  key : Bytes
  name : Bytes
deriving DecidableEq

/-- Overload resolution, 47-82 (and likewise 84-138, 140-196). The state is there after a tag only; `va_arg_end` is accepted without it only. -/
def resolve : List Piece → Option NextState → Option (List Access)
  | [], none => some []
  | .str _ :: .expr (.tag .opt) :: rest, st => resolve rest (some { st.getD {} with isOptional := true })
  | .str _ :: .expr (.tag (.key k)) :: rest, st => resolve rest (some { st.getD {} with overrideKey := some (cString k) })
  | .str s :: .expr (.name n) :: rest, st =>
    (resolve rest none).map (⟨(st.getD {}).isOptional, (st.getD {}).keyFor s, n⟩ :: ·)
  | _, _ => none

/-- What `MEO_JSONIZATION(is...)` compiles to -/
def compile (is : List Item) : Option (List Access) := (forEachOf (vaArgs is)).bind fun ps => resolve ps none

/-- An object of the class: the values of its data members. -/
abbrev Self := Bytes → CVal

def Self.set (self : Self) (n : Bytes) (x : CVal) : Self := fun n' => if n' = n then x else self n'

/-- The name of the local variable of `MEO_TOJSON`, jsonization.hpp:431. In the body it hides a member of the same name. -/
def local_ : Bytes := ascii "result"

section
variable (F : Floats) (ty : Bytes → Ty)

/-- `to_json()`, 428-436 with 47-65: the object, and what the members are afterwards (C51). -/
def toJson : List Access → Self → List (Bytes × Value) → Out (List (Bytes × Value) × Self)
  | [], self, m => .ok (m, self)
  | a :: as, self, m =>
    if a.name = local_ then (Ty.jobject.store F .constLv (.jobject m)).bind fun r => toJson as self (RawObject.insertOrAssign a.key r.1 m)
    else ((ty a.name).store F .constLv (self a.name)).bind fun r => toJson as (self.set a.name r.2) (RawObject.insertOrAssign a.key r.1 m)

/-- `check_json(in, error_key)`, 444-450 with 84-118: none for true, otherwise `error_key` -/
def checkJson : List Access → Value → Out (Option Bytes)
  | [], _ => .ok none
  | a :: as, v =>
    (v.findKey a.key).bind fun
    | some w => ((ty a.name).is F w).bind fun b => if b then checkJson as v else .ok (some a.key)
    | none => if a.optional then checkJson as v else .ok (some a.key)

/-- `from_json(in, error_key)`, 458-464 with 140-176. The object may be changed before the function fails or an exception passes through. -/
def fromJson : List Access → Value → Self → Out (Option Bytes) × Self
  | [], _, self => (.ok none, self)
  | a :: as, v, self =>
    match v.findKey a.key with
    | .ok (some w) =>
      match (ty a.name).is F w with
      | .ok true =>
        match (ty a.name).as F w with
        | .ok x => fromJson as v (self.set a.name x)
        | .throw e => (.throw e, self)
        | .ub => (.ub, self)
      | .ok false => (.ok (some a.key), self)
      | .throw e => (.throw e, self)
      | .ub => (.ub, self)
    | .ok none => if a.optional then fromJson as v self else (.ok (some a.key), self)
    | .throw e => (.throw e, self)
    | .ub => (.ub, self)
end

end Meojson.Macro
