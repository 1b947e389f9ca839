import Verif.Model.Convert
import Verif.Model.Mutate

/-!
# Conversions from an rvalue: `static_cast<T>(std::move(v))` and `std::move(v).as<T>()`

`value::as() &&` (include/common/value_impl.hpp:705-729), the conversion operators with `&&` (value.hpp:546-552, 564-570, 582-588, 595-596, 617-626, 639-648;
value_impl.hpp:1161-1169 and 1178-1182), `array::as() &&` (array_impl.hpp:475-521), `move_as_tuple_helper` (544-549), `object::as() &&` (object_impl.hpp:355-368); the
operators of `array` and `object` (array.hpp:279-289, object.hpp:210-220) call the latter.

As in Model/Convert.lean, `static_cast<T>` is overload resolution. For an rvalue it selects the same constructors of `std::optional`, of a one-element `std::tuple` and of
`std::variant`, and otherwise the conversion operator with `&&` where there is one. For `json::array` and `json::object` that is the operator template for
collections and maps and not `operator array() const` (the implicit object parameter is less const). Inside `value::as() &&` the expression is `static_cast<T>(*this)`, and
`*this` is an lvalue: the operators with `const&` are selected there. `ext::jsonization` with `move_from_json`, which the user writes: Model/TakeText.lean.
-/

set_option autoImplicit false

namespace Meojson
open Value

/-- Converts one element after the other, from rvalues, until one throws: what is left of the sources, and the results. -/
def takeEach {α β : Type} (f : α → α × Out β) : List α → List α × Out (List β)
  | [] => ([], .ok [])
  | v :: vs =>
    match f v with
    | (w, .ok x) => let r := takeEach f vs; (w :: r.1, r.2.bind fun xs => .ok (x :: xs))
    | (w, .throw e) => (w :: vs, .throw e)
    | (w, .ub) => (w :: vs, .ub)

/-- `_array_data.clear()` before the return, array_impl.hpp:488, 504, 515. -/
def clearAfter {α : Type} : List Value × Out α → List Value × Out α
  | (_, .ok x) => ([], .ok x)
  | r => r

/-- Wraps the result. -/
def wrapTaken {σ α β : Type} (f : α → β) (r : σ × Out α) : σ × Out β := (r.1, r.2.bind fun x => .ok (f x))

/-- The move constructor of `value`, value_impl.hpp:86. -/
def Value.movedOut (v : Value) : Mut Value := (v.emptied, .ok v)

section Takes
variable (F : Floats)

/-- `value::as<T>() &&`, value_impl.hpp:705-729: only a `json::value` is moved. -/
def Ty.asRv : Ty → Value → Mut CVal
  | .json, v => wrapTaken .json v.movedOut
  | t, v => (v, t.as F v)

/-- `move_as_tuple_helper`, array_impl.hpp:544-549 -/
def Tys.takeAll : Tys → List Value → List Value × Out (List CVal)
  | .nil, vs => (vs, .ok [])
  | .cons _ _, [] => ([], .ub)
  | .cons t ts, v :: vs =>
    match t.asRv F v with
    | (w, .ok x) => let r := ts.takeAll vs; (w :: r.1, r.2.bind fun xs => .ok (x :: xs))
    | (w, .throw e) => (w :: vs, .throw e)
    | (w, .ub) => (w :: vs, .ub)

/-- `move_to_variant_helper`, value_impl.hpp:1161-1169 -/
def Tys.takeAny : Tys → Nat → Value → Mut CVal
  | .nil, _, v => (v, v.typeError)
  | .cons t ts, i, v =>
    match t.is F v with
    | .ok true => wrapTaken (.alt i) (t.asRv F v)
    | .ok false => ts.takeAny (i + 1) v
    | .throw e => (v, .throw e)
    | .ub => (v, .ub)

mutual
/-- `static_cast<T>(std::move(v))`: what is left of `v`, and the result. -/
def Ty.take : Ty → Value → Mut CVal
  | .json, v => wrapTaken .json v.movedOut
  | .nullable .pointer t, v => if v.type = .null then (v, .ok .nothing) else wrapTaken .just (t.take v)
  | .nullable .optional t, v => wrapTaken .just (t.take v)
  | .jarray, v => v.onArray fun vs => clearAfter (wrapTaken .jarray (takeEach movedOut vs))
  | .seq t, v => v.onArray fun vs => clearAfter (wrapTaken .list (takeEach (t.asRv F) vs))
  | .set lt t, v => v.onArray fun vs => clearAfter (wrapTaken (fun xs => .list (xs.foldl (fun l x => setInsert lt x l) [])) (takeEach (t.asRv F) vs))
  | .fixed n t, v => v.onArray fun vs => if vs.length = n then clearAfter (wrapTaken .list (takeEach (t.asRv F) vs)) else (vs, .throw .json)
  | .tuple ts, v =>
    if ts.size = 1 then wrapTaken (fun x => .list [x]) (ts.takeNth 0 v)
    else v.onArray fun vs => if vs.length = ts.size then clearAfter (wrapTaken .list (ts.takeAll F vs)) else (vs, .throw .json)
  | .variant ts, v =>
    match ts.chosen with
    | some i => wrapTaken (.alt i) (ts.takeNth i v)
    | none => ts.takeAny F 0 v
  | .jobject, v =>
    v.onObject fun ms => wrapTaken .jobject (takeEach (fun e : Bytes × Value => ((e.1, e.2.emptied), .ok (e.1, e.2))) ms)
  | .map t, v =>
    v.onObject fun ms =>
    wrapTaken (fun es => .map (es.foldl (fun m e => (RawObject.emplace e.1 e.2 m).1) []))
      (takeEach (fun e : Bytes × Value => let r := t.asRv F e.2; ((e.1, r.1), r.2.bind fun x => .ok (e.1, x))) ms)
  | t, v => (v, t.as F v)
/-- Construction of an alternative or element from the rvalue. -/
def Tys.takeNth : Tys → Nat → Value → Mut CVal
  | .nil, _, v => (v, .ub)
  | .cons t _, 0, v => t.take v
  | .cons _ ts, i + 1, v => ts.takeNth i v
end

end Takes

end Meojson
