import Verif.Model.Take
import Verif.Model.Message

/-!
# What the exception of a failed conversion from an rvalue says

`static_cast<T>(std::move(v))` and `std::move(v).as<T>()` once more, as in Model/Take.lean, with the text of the `json::exception`: value_impl.hpp:640-666, 705-729, 1161-1169, array_impl.hpp:475-521.
Besides, the conversions for which the user has written an `ext::jsonization` with `move_from_json`: value.hpp:524-534, value_impl.hpp:719-725, array.hpp:256-266, object.hpp:187-197.
-/

set_option autoImplicit false

namespace Meojson
open Value

/-- Elements from rvalues, one after the other. -/
def takeEachT {α β : Type} (f : α → α × Told β) : List α → List α × Told (List β)
  | [] => ([], .ok [])
  | v :: vs =>
    match f v with
    | (w, .ok x) => let r := takeEachT f vs; (w :: r.1, r.2.bind fun xs => .ok (x :: xs))
    | (w, .error m) => (w :: vs, .error m)
    | (w, .other e) => (w :: vs, .other e)
    | (w, .ub) => (w :: vs, .ub)

/-- `_array_data.clear()` before the return, array_impl.hpp:488, 504, 515. -/
def clearAfterT {α : Type} : List Value × Told α → List Value × Told α
  | (_, .ok x) => ([], .ok x)
  | r => r

/-- Wraps the result. -/
def wrapTakenT {σ α β : Type} (f : α → β) (r : σ × Told α) : σ × Told β := (r.1, r.2.bind fun x => .ok (f x))

namespace Value
variable (c : Compiler)

/-- The non-const `as_array()`, value_impl.hpp:640-652, and a change of what it refers to. -/
def onArrayT {α : Type} (v : Value) (f : List Value → List Value × Told α) : Value × Told α :=
  match v.empty with
  | .ok true => let r := f []; (.arr .array r.1, r.2)
  | .ok false =>
    match v.asArrayT c with
    | .ok vs => let r := f vs; (.arr v.type r.1, r.2)
    | .error m => (v, .error m)
    | .other e => (v, .other e)
    | .ub => (v, .ub)
  | .throw e => (v, .other e)
  | .ub => (v, .ub)

/-- The non-const `as_object()`, 654-666. -/
def onObjectT {α : Type} (v : Value) (f : List (Bytes × Value) → List (Bytes × Value) × Told α) : Value × Told α :=
  match v.empty with
  | .ok true => let r := f []; (.obj .object r.1, r.2)
  | .ok false =>
    match v.asObjectT c with
    | .ok ms => let r := f ms; (.obj v.type r.1, r.2)
    | .error m => (v, .error m)
    | .other e => (v, .other e)
    | .ub => (v, .ub)
  | .throw e => (v, .other e)
  | .ub => (v, .ub)

end Value

section
variable (F : Floats) (c : Compiler) (N : Names)

/-- `value::as<T>() &&`, value_impl.hpp:705-729 -/
def Ty.asRvT : Ty → Value → Value × Told CVal
  | .json, v => (v.emptied, .ok (.json v))
  | t, v => (v, t.asT F c N v)

/-- `move_as_tuple_helper`, array_impl.hpp:544-549 -/
def Tys.takeAllT : Tys → List Value → List Value × Told (List CVal)
  | .nil, vs => (vs, .ok [])
  | .cons _ _, [] => ([], .ub)
  | .cons t ts, v :: vs =>
    match t.asRvT F c N v with
    | (w, .ok x) => let r := ts.takeAllT vs; (w :: r.1, r.2.bind fun xs => .ok (x :: xs))
    | (w, .error m) => (w :: vs, .error m)
    | (w, .other e) => (w :: vs, .other e)
    | (w, .ub) => (w :: vs, .ub)

/-- `move_to_variant_helper`, value_impl.hpp:1161-1169 -/
def Tys.takeAnyT : Tys → Nat → Value → Value × Told CVal
  | .nil, _, v => (v, v.complain c (ascii "Type error: cannot convert to any variant alternative, "))
  | .cons t ts, i, v =>
    match t.is F v with
    | .ok true => wrapTakenT (.alt i) (t.asRvT F c N v)
    | .ok false => ts.takeAnyT (i + 1) v
    | .throw e => (v, .other e)
    | .ub => (v, .ub)

mutual
/-- `static_cast<T>(std::move(v))` -/
def Ty.takeT : Ty → Value → Value × Told CVal
  | .json, v => (v.emptied, .ok (.json v))
  | .nullable .pointer t, v => if v.type = .null then (v, .ok .nothing) else wrapTakenT .just (t.takeT v)
  | .nullable .optional t, v => wrapTakenT .just (t.takeT v)
  | .jarray, v => v.onArrayT c fun vs => clearAfterT (wrapTakenT .jarray (takeEachT (fun w => (w.emptied, .ok w)) vs))
  | .seq t, v => v.onArrayT c fun vs => clearAfterT (wrapTakenT .list (takeEachT (t.asRvT F c N) vs))
  | .set lt t, v => v.onArrayT c fun vs => clearAfterT (wrapTakenT (fun xs => .list (xs.foldl (fun l x => setInsert lt x l) [])) (takeEachT (t.asRvT F c N) vs))
  | .fixed n t, v =>
    v.onArrayT c fun vs => if vs.length = n then clearAfterT (wrapTakenT .list (takeEachT (t.asRvT F c N) vs)) else (vs, .error (wrongSize n vs.length))
  | .tuple ts, v =>
    if ts.size = 1 then wrapTakenT (fun x => .list [x]) (ts.takeNthT 0 v)
    else v.onArrayT c fun vs =>
      if vs.length = ts.size then clearAfterT (wrapTakenT .list (ts.takeAllT F c N vs)) else (vs, .error (wrongTupleSize ts.size vs.length))
  | .variant ts, v =>
    match ts.chosen with
    | some i => wrapTakenT (.alt i) (ts.takeNthT i v)
    | none => ts.takeAnyT F c N 0 v
  | .jobject, v => v.onObjectT c fun ms => wrapTakenT .jobject (takeEachT (fun e : Bytes × Value => ((e.1, e.2.emptied), .ok (e.1, e.2))) ms)
  | .map t, v =>
    v.onObjectT c fun ms =>
    wrapTakenT (fun es => .map (es.foldl (fun m e => (RawObject.emplace e.1 e.2 m).1) []))
      (takeEachT (fun e : Bytes × Value => let r := t.asRvT F c N e.2; ((e.1, r.1), r.2.bind fun x => .ok (e.1, x))) ms)
  | t, v => (v, t.asT F c N v)
/-- Construction of an alternative or element from the rvalue. -/
def Tys.takeNthT : Tys → Nat → Value → Value × Told CVal
  | .nil, _, v => (v, .ub)
  | .cons t _, 0, v => t.takeT v
  | .cons _ ts, i + 1, v => ts.takeNthT i v
end

end

/-- A `move_from_json(json::value&&, T&)` of the user's: the object it makes, or nothing if it returns false, and what it leaves of the value. -/
structure Mover where
  run : Value → Option CVal × Value

namespace Mover

/-- value.hpp:531, value_impl.hpp:722 -/
def refused : Bytes := ascii "Deserialization failed: move_from_json() returned false, "

/-- `static_cast<T>(std::move(v))` and `std::move(v).as<T>()`, value.hpp:527-534, value_impl.hpp:719-725 -/
def convert (c : Compiler) (M : Mover) (v : Value) : Value × Told CVal :=
  match M.run v with
  | (some x, w) => (w, .ok x)
  | (none, w) => (w, w.complain c refused)

/-- `static_cast<T>(std::move(a))` for a `json::array`, array.hpp:259-266. The parameter is a `json::value&&`: it refers to a temporary made by `value(array&&)` (value_impl.hpp:182-186),
which has taken the elements over. -/
def convertArray (M : Mover) (vs : List Value) : List Value × Told CVal :=
  match (M.run (.arr .array vs)).1 with
  | some x => ([], .ok x)
  | none => ([], .error (ascii "Deserialization failed: move_from_json() returned false for array, size=" ++ natText ([] : List Value).length))

/-- The same for a `json::object`, object.hpp:190-197, with `value(object&&)`, value_impl.hpp:194-198. A `std::map` that has been moved from is empty in all implementations. -/
def convertObject (M : Mover) (ms : List (Bytes × Value)) : List (Bytes × Value) × Told CVal :=
  match (M.run (.obj .object ms)).1 with
  | some x => ([], .ok x)
  | none => ([], .error (ascii "Deserialization failed: move_from_json() returned false for object, size=" ++ natText ([] : List (Bytes × Value)).length))

end Mover

end Meojson
