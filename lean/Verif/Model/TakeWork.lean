import Verif.Model.Take
import Verif.Model.ConvertWork

/-!
# Conversions from an rvalue, counting the work

The work of `static_cast<T>(std::move(v))`, Model/Take.lean, counted as in Model/ConvertWork.lean: calls, passes through loops, bytes read or copied. A `json::value` that is moved counts one,
whatever is in it. The elements of an array and the members of an object are converted by `value::as() &&` (array_impl.hpp:485, 498, 501, 548, object_impl.hpp:361), where all but `json::value`
is `static_cast<T>(*this)` of an lvalue (value_impl.hpp:727): there the work is that of `as() const&`. The keys of an object are copied (object_impl.hpp:361). What `_array_data.clear()` destroys
is not counted.
-/

set_option autoImplicit false

namespace Meojson
open Value

/-- The loops of Model/Take.lean, which end with the first element that throws. `done` is what an element costs besides once it is converted. -/
def takeEachTicks {α β : Type} (f : α → α × Out β) (cost done : α → Nat) : List α → Nat
  | [] => 0
  | v :: vs =>
    match (f v).2 with
    | .ok _ => cost v + done v + 1 + takeEachTicks f cost done vs
    | _ => cost v + 1

/-- The elements behind `as_array()`. None if it throws. -/
def Value.elementsM (v : Value) : List Value := match v.asArrayM.2 with | .ok vs => vs | _ => []
/-- The members behind `as_object()`. -/
def Value.membersM (v : Value) : List (Bytes × Value) := match v.asObjectM.2 with | .ok ms => ms | _ => []

section
variable (F : Floats)

/-- `value::as<T>() &&`, value_impl.hpp:705-729 -/
def Ty.asRvTicks : Ty → Value → Nat
  | .json, _ => 1
  | t, v => (t.asW F v).ticks

/-- `move_as_tuple_helper`, array_impl.hpp:544-549 -/
def Tys.takeAllTicks : Tys → List Value → Nat
  | .nil, _ => 0
  | .cons _ _, [] => 0
  | .cons t ts, v :: vs =>
    match (t.asRv F v).2 with
    | .ok _ => t.asRvTicks F v + 1 + ts.takeAllTicks vs
    | _ => t.asRvTicks F v + 1

/-- `move_to_variant_helper`, value_impl.hpp:1161-1169 -/
def Tys.takeAnyTicks : Tys → Value → Nat
  | .nil, _ => 0
  | .cons t ts, v =>
    match t.is F v with
    | .ok true => (t.isW F v).ticks + t.asRvTicks F v
    | .ok false => (t.isW F v).ticks + ts.takeAnyTicks v
    | _ => (t.isW F v).ticks

mutual
/-- `static_cast<T>(std::move(v))` -/
def Ty.takeTicks : Ty → Value → Nat
  | .json, _ => 1
  | .nullable .pointer t, v => if v.type = .null then 1 else t.takeTicks v + 1
  | .nullable .optional t, v => t.takeTicks v + 1
  | .jarray, v => takeEachTicks movedOut (fun _ => 0) (fun _ => 0) v.elementsM + 1
  | .seq t, v => takeEachTicks (t.asRv F) (t.asRvTicks F) (fun _ => 0) v.elementsM + 1
  | .set _ t, v => takeEachTicks (t.asRv F) (t.asRvTicks F) (fun _ => 0) v.elementsM + 1
  | .fixed n t, v => (if v.elementsM.length = n then takeEachTicks (t.asRv F) (t.asRvTicks F) (fun _ => 0) v.elementsM else 0) + 1
  | .tuple ts, v => (if ts.size = 1 then ts.takeNthTicks 0 v else if v.elementsM.length = ts.size then ts.takeAllTicks F v.elementsM else 0) + 1
  | .variant ts, v =>
    (match ts.chosen with
    | some i => ts.takeNthTicks i v
    | none => ts.takeAnyTicks F v) + 1
  | .jobject, v => takeEachTicks (fun e : Bytes × Value => ((e.1, e.2.emptied), Out.ok (e.1, e.2))) (fun _ => 0) (fun e => e.1.length) v.membersM + 1
  | .map t, v =>
    takeEachTicks (fun e : Bytes × Value => let r := t.asRv F e.2; ((e.1, r.1), r.2.bind fun x => .ok (e.1, x))) (fun e => t.asRvTicks F e.2) (fun e => e.1.length) v.membersM + 1
  | t, v => (t.asW F v).ticks
/-- Construction of an alternative or element from the rvalue. -/
def Tys.takeNthTicks : Tys → Nat → Value → Nat
  | .nil, _, _ => 0
  | .cons t _, 0, v => t.takeTicks v
  | .cons _ ts, i + 1, v => ts.takeNthTicks i v
end
end

end Meojson
