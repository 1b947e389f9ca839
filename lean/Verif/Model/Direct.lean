import Verif.Model.Take

/-!
# Conversions of `json::array` and `json::object` themselves

array.hpp:41-137 with array_impl.hpp:40-133, object.hpp:39-85 with object_impl.hpp:36-62: what `json::array(x)` and `json::object(x)` make of an object of another type. Since no constructor is
`explicit`, this is also what happens where an array or object is expected, as in `v += x` and `v |= x`. array.hpp:232-290 with array_impl.hpp:430-474, object.hpp:163-220 with
object_impl.hpp:340-353: what `arr.as<T>()` and `obj.as<T>()` give for the types of the standard library, and `static_cast<T>(arr)`, `static_cast<T>(obj)` for classes with conversions of
their own.

A `json::value` becomes an array through the copy or move constructor of `array`, for which explicit conversion functions are candidates ([over.match.copy]): `operator array() const`
(value.hpp:476) for a const value or an lvalue, and the template `operator T() &&` (value.hpp:617-626) for an rvalue, since `json::array` is a collection too. `val.to_json()` is an rvalue. Checked with
g++ 13 on classes of our own with these members.

`none`: this does not compile, or is not among these functions. Left out: `move_to_json`, `move_from_json`; `to_json` of the user's that returns something else than `json::value`; `as()` of an
rvalue (for values see `Take`); `static_cast` to the types of the standard library, where their constructors take part.
-/

set_option autoImplicit false

namespace Meojson

section
variable (F : Floats)

/-- Copies of the elements of an array. -/
def copyElems (vs : List Value) : Out (List Value) := eachOf Value.copied vs
/-- Copies of the members of an object. -/
def copyMembers (ms : List (Bytes × Value)) : Out (List (Bytes × Value)) := eachOf (fun e : Bytes × Value => e.2.copied.bind fun w => .ok (e.1, w)) ms

/-- `json::array(std::move(v))`: what is left of `v`, and the array. value.hpp:617-626, array_impl.hpp:490-505. -/
def Value.moveToArray (v : Value) : Value.Mut (List Value) := v.onArray fun vs => clearAfter (takeEach Value.movedOut vs)
/-- `json::object(std::move(v))`. value.hpp:639-648, object_impl.hpp:355-368. -/
def Value.moveToObject (v : Value) : Value.Mut (List (Bytes × Value)) := v.onObject fun ms => takeEach (fun e : Bytes × Value => ((e.1, e.2.emptied), .ok (e.1, e.2))) ms

/-- `json::array(x)`, and what `x` is afterwards. -/
def Ty.toArray : Ty → Cat → CVal → Option (Out (List Value × CVal))
  | .jarray, c, .jarray vs => some (if c = .rv then .ok (vs, .jarray []) else (copyElems vs).bind fun ws => .ok (ws, .jarray vs))
  | .json, c, .json v =>
    some (if c = .rv then v.moveToArray.2.bind fun vs => .ok (vs, .json v.moveToArray.1) else v.asArray.bind fun vs => (copyElems vs).bind fun ws => .ok (ws, .json v))
  | .fixed _ t, c, .list xs => some ((eachBoth (t.store F c.part) xs).bind fun r => .ok (r.1, .list r.2))
  | .seq t, c, .list xs => some ((eachBoth (t.store F c.element) xs).bind fun r => .ok (r.1, .list r.2))
  | .set _ t, c, .list xs => some ((eachBoth (t.store F c.setElement) xs).bind fun r => .ok (r.1, .list r.2))
  | .tuple ts, c, .list xs => some ((ts.storeAll F c.part xs).bind fun r => .ok (r.1, .list r.2))
  | .struct fs, _, .list xs => some ((fs.dump F {} xs []).bind fun r => (Value.ofObject r.1).moveToArray.2.bind fun vs => .ok (vs, .list r.2))
  | .user U, _, x =>
    some (match U.dump x with
      | some v => v.moveToArray.2.bind fun vs => .ok (vs, x)
      | none => .throw .json)
  | _, _, _ => none

/-- `json::object(x)`, and what `x` is afterwards. -/
def Ty.toObject : Ty → Cat → CVal → Option (Out (List (Bytes × Value) × CVal))
  | .jobject, c, .jobject ms => some (if c = .rv then .ok (ms, .jobject []) else (copyMembers ms).bind fun ns => .ok (ns, .jobject ms))
  | .json, c, .json v =>
    some (if c = .rv then v.moveToObject.2.bind fun ms => .ok (ms, .json v.moveToObject.1) else v.asObject.bind fun ms => (copyMembers ms).bind fun ns => .ok (ns, .json v))
  | .map t, c, .map es =>
    some ((eachBoth (fun e : Bytes × CVal => (t.store F c.element e.2).bind fun r => .ok ((e.1, r.1), (e.1, r.2))) es).bind fun r =>
      .ok (r.1.foldl (fun m e => (RawObject.emplace e.1 e.2 m).1) [], .map r.2))
  | .struct fs, _, .list xs => some ((fs.dump F {} xs []).bind fun r => (Value.ofObject r.1).moveToObject.2.bind fun ms => .ok (ms, .list r.2))
  | .user U, _, x =>
    some (match U.dump x with
      | some v => v.moveToObject.2.bind fun ms => .ok (ms, x)
      | none => .throw .json)
  | _, _, _ => none

/-- `dst.from_json(*this)` on a fresh object, where the argument becomes a `json::value` that holds a copy. -/
def Ty.fromCopy : Ty → Value → Option (Out CVal)
  | .struct fs, v =>
    some ((fs.load F {} v fs.defaults).1.bind fun
      | none => .ok (.list (fs.load F {} v fs.defaults).2)
      | some _ => .throw .json)
  | .user U, v => some (match U.load v with | some x => .ok x | none => .throw .json)
  | _, _ => none

/-- `arr.as<T>()`, array_impl.hpp:430-474, and `static_cast<T>(arr)` for classes, array.hpp:232-252. -/
def Ty.ofArray : Ty → List Value → Option (Out CVal)
  | .fixed n t, vs => some (if vs.length ≠ n then .throw .json else (eachOf (t.as F) vs).bind fun xs => .ok (.list xs))
  | .seq t, vs => some ((eachOf (t.as F) vs).bind fun xs => .ok (.list xs))
  | .set lt t, vs => some ((eachOf (t.as F) vs).bind fun xs => .ok (.list (xs.foldl (fun l x => setInsert lt x l) [])))
  | .tuple ts, vs => some (if vs.length ≠ ts.size then .throw .json else (ts.asAll F vs).bind fun xs => .ok (.list xs))
  | .struct fs, vs => some ((copyElems vs).bind fun ws => ((Ty.struct fs).fromCopy F (.ofArray ws)).getD .ub)
  | .user U, vs => some ((copyElems vs).bind fun ws => ((Ty.user U).fromCopy F (.ofArray ws)).getD .ub)
  | _, _ => none

/-- `obj.as<T>()`, object_impl.hpp:340-353, and `static_cast<T>(obj)` for classes, object.hpp:163-183. -/
def Ty.ofObject : Ty → List (Bytes × Value) → Option (Out CVal)
  | .map t, ms =>
    some ((eachOf (fun e : Bytes × Value => (t.as F e.2).bind fun x => .ok (e.1, x)) ms).bind fun es => .ok (.map (es.foldl (fun m e => (RawObject.emplace e.1 e.2 m).1) [])))
  | .struct fs, ms => some ((copyMembers ms).bind fun ns => ((Ty.struct fs).fromCopy F (.ofObject ns)).getD .ub)
  | .user U, ms => some ((copyMembers ms).bind fun ns => ((Ty.user U).fromCopy F (.ofObject ns)).getD .ub)
  | _, _ => none

end

end Meojson
