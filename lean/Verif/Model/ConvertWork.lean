import Verif.Model.Work
import Verif.Model.Convert
import Verif.Spec.Work

/-!
# Conversions from JSON, counting the work

`is<T>() const` and `as<T>() const&` of Model/Convert.lean once more with a count. `ticks` grows by one for each call of `is` or `as` (and of the conversion operators it leads to), each pass
through a loop over elements or members, each member of a tuple and each member of a class; a conversion that reads or copies a text counts its bytes besides, and a copy of a
`json::value`, `json::array` or `json::object` counts the values and bytes in it. Not counted: the search for a key in the map, the comparisons in a `std::set` or `std::map` that is filled,
the comparisons with the names of an enumeration, and the functions that the user writes. `depth` is not used. Proofs/ConvertWork.lean shows that the results are those of
Model/Convert.lean.
-/

set_option autoImplicit false

namespace Meojson
open Work

/-- The bytes of the value's own text. -/
def Value.textLength : Value → Nat
  | .str _ s => s.length
  | _ => 0

/-- `array::all`, array_impl.hpp:247-256, and `object::all`, object_impl.hpp:184-193. -/
def allAreW {α : Type} (p : α → Work Bool) : List α → Work Bool
  | [] => ret (.ok true)
  | v :: vs => ((p v).bind fun b => if b then allAreW p vs else ret (.ok false)).tick

/-- The loops of `array::as`, array_impl.hpp:438-457, and `object::as`, object_impl.hpp:341-347. -/
def eachOfW {α β : Type} (f : α → Work β) : List α → Work (List β)
  | [] => ret (.ok [])
  | v :: vs => ((f v).bind fun x => (eachOfW f vs).bind fun xs => ret (.ok (x :: xs))).tick

section
variable (F : Floats)

mutual
/-- `value::is<T>() const noexcept`, value_impl.hpp:259-340 -/
def Ty.isW : Ty → Value → Work Bool
  | .struct fs, v => ((fs.checkW {} v).bind fun e => ret (.ok e.isNone)).tick
  | .nullable _ t, v => (if v.type = .null then ret (.ok true) else t.isW v).tick
  | .seq t, v => (if v.type = .array then (ret v.asArray.noexcept).bind fun vs => allAreW t.isW vs else ret (.ok false)).tick
  | .set _ t, v => (if v.type = .array then (ret v.asArray.noexcept).bind fun vs => allAreW t.isW vs else ret (.ok false)).tick
  | .fixed n t, v =>
    (if v.type = .array then (ret v.asArray.noexcept).bind fun vs => if vs.length = n then allAreW t.isW vs else ret (.ok false) else ret (.ok false)).tick
  | .tuple ts, v =>
    (if v.type = .array then (ret v.asArray.noexcept).bind fun vs => if vs.length = ts.size then ts.areAllW vs else ret (.ok false) else ret (.ok false)).tick
  | .variant ts, v => (ts.isAnyW v).tick
  | .map t, v => (if v.type = .object then (ret v.asObject.noexcept).bind fun ms => allAreW (fun e => t.isW e.2) ms else ret (.ok false)).tick
  | t, v => ⟨t.is F v, 1 + v.textLength, 0⟩
/-- `is_tuple_helper`, value_impl.hpp:668-673 -/
def Tys.areAllW : Tys → List Value → Work Bool
  | .nil, _ => ret (.ok true)
  | .cons _ _, [] => ret .ub
  | .cons t ts, v :: vs => ((t.isW v).bind fun b => if b then ts.areAllW vs else ret (.ok false)).tick
/-- `is_variant_helper`, 675-679 -/
def Tys.isAnyW : Tys → Value → Work Bool
  | .nil, _ => ret (.ok false)
  | .cons t ts, v => (t.isW v).bind fun b => if b then ret (.ok true) else ts.isAnyW v
/-- `checker::_check_json`, jsonization.hpp:84-138 -/
def Fields.checkW : Fields → NextState → Value → Work (Option Bytes)
  | .done, _, _ => ret (.ok none)
  | .opt rest, st, v => rest.checkW { st with isOptional := true } v
  | .key k rest, st, v => rest.checkW { st with overrideKey := some k } v
  | .var name _ t rest, st, v =>
    ((ret (v.findKey (st.keyFor name)).noexcept).bind fun
    | some w => (t.isW w).bind fun b => if b then rest.checkW {} v else ret (.ok (some (st.keyFor name)))
    | none => if st.isOptional then rest.checkW {} v else ret (.ok (some (st.keyFor name)))).tick
end

mutual
/-- `value::as<T>() const&`, value_impl.hpp:681-703 -/
def Ty.asW : Ty → Value → Work CVal
  | .json, v => ⟨Ty.json.as F v, v.weight, 0⟩
  | .jarray, v => ⟨Ty.jarray.as F v, v.weight, 0⟩
  | .jobject, v => ⟨Ty.jobject.as F v, v.weight, 0⟩
  | .struct fs, v =>
    let r := fs.loadW {} v fs.defaults
    (r.1.bind fun
    | none => ret (.ok (.list r.2))
    | some _ => ret v.typeError).tick
  | .nullable .pointer t, v => (if v.type = .null then ret (.ok .nothing) else (t.asW v).bind fun x => ret (.ok (.just x))).tick
  | .nullable .optional t, v => ((t.asW v).bind fun x => ret (.ok (.just x))).tick
  | .seq t, v => ((ret v.asArray).bind fun vs => (eachOfW t.asW vs).bind fun xs => ret (.ok (.list xs))).tick
  | .set lt t, v => ((ret v.asArray).bind fun vs => (eachOfW t.asW vs).bind fun xs => ret (.ok (.list (xs.foldl (fun l x => setInsert lt x l) [])))).tick
  | .fixed n t, v =>
    ((ret v.asArray).bind fun vs => if vs.length = n then (eachOfW t.asW vs).bind fun xs => ret (.ok (.list xs)) else ret (.throw .json)).tick
  | .tuple ts, v =>
    (if ts.size = 1 then (ts.asNthW 0 v).bind fun x => ret (.ok (.list [x]))
    else (ret v.asArray).bind fun vs => if vs.length = ts.size then (ts.asAllW vs).bind fun xs => ret (.ok (.list xs)) else ret (.throw .json)).tick
  | .variant ts, v =>
    (match ts.chosen with
    | some i => (ts.asNthW i v).bind fun x => ret (.ok (CVal.alt i x))
    | none => ts.asAnyW 0 v).tick
  | .map t, v =>
    ((ret v.asObject).bind fun ms =>
    (eachOfW (fun e => (t.asW e.2).bind fun x => ⟨.ok (e.1, x), e.1.length, 0⟩) ms).bind fun es =>
    ret (.ok (.map (es.foldl (fun m e => (RawObject.emplace e.1 e.2 m).1) [])))).tick
  | t, v => ⟨t.as F v, 1 + v.textLength, 0⟩
/-- `as_tuple_helper`, array_impl.hpp:537-542 -/
def Tys.asAllW : Tys → List Value → Work (List CVal)
  | .nil, _ => ret (.ok [])
  | .cons _ _, [] => ret .ub
  | .cons t ts, v :: vs => ((t.asW v).bind fun x => (ts.asAllW vs).bind fun xs => ret (.ok (x :: xs))).tick
/-- Construction of an alternative or element -/
def Tys.asNthW : Tys → Nat → Value → Work CVal
  | .nil, _, _ => ret .ub
  | .cons t _, 0, v => t.asW v
  | .cons _ ts, i + 1, v => ts.asNthW i v
/-- `to_variant_helper`, value_impl.hpp:1151-1159 -/
def Tys.asAnyW : Tys → Nat → Value → Work CVal
  | .nil, _, v => ret v.typeError
  | .cons t ts, i, v => (t.isW F v).bind fun b => if b then (t.asW v).bind fun x => ret (.ok (CVal.alt i x)) else ts.asAnyW (i + 1) v
/-- `loader::_from_json`, jsonization.hpp:140-196: each member is checked with `is` and then read with `as`, 158-159. -/
def Fields.loadW : Fields → NextState → Value → List CVal → Work (Option Bytes) × List CVal
  | .done, _, _, dst => (ret (.ok none), dst)
  | .opt rest, st, v, dst => rest.loadW { st with isOptional := true } v dst
  | .key k rest, st, v, dst => rest.loadW { st with overrideKey := some k } v dst
  | .var _ _ _ _, _, _, [] => (ret .ub, [])
  | .var name _ t rest, st, v, d :: dst =>
    match v.findKey (st.keyFor name) with
    | .ok (some w) =>
      let b := t.isW F w
      match b.res with
      | .ok true =>
        let x := t.asW w
        match x.res with
        | .ok y => let r := rest.loadW {} v dst; (⟨r.1.res, 1 + b.ticks + x.ticks + r.1.ticks, 0⟩, y :: r.2)
        | .throw e => (⟨.throw e, 1 + b.ticks + x.ticks, 0⟩, d :: dst)
        | .ub => (⟨.ub, 1 + b.ticks + x.ticks, 0⟩, d :: dst)
      | .ok false => (⟨.ok (some (st.keyFor name)), 1 + b.ticks, 0⟩, d :: dst)
      | .throw e => (⟨.throw e, 1 + b.ticks, 0⟩, d :: dst)
      | .ub => (⟨.ub, 1 + b.ticks, 0⟩, d :: dst)
    | .ok none =>
      if st.isOptional then let r := rest.loadW {} v dst; (r.1.tick, d :: r.2) else ((ret (.ok (some (st.keyFor name)))).tick, d :: dst)
    | .throw e => ((ret (.throw e)).tick, d :: dst)
    | .ub => ((ret .ub).tick, d :: dst)
end

end

end Meojson
