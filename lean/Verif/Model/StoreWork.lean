import Verif.Model.Work
import Verif.Model.Convert
import Verif.Spec.Work

/-!
# Conversions to JSON, counting the work

The constructors `json::value(x)` of Model/Convert.lean once more with a count. `ticks` grows by one for each call of a constructor of `json::value`, each pass through a loop over elements or
members, each element of a tuple and each member of a class; a text that is made or copied counts its bytes besides (a text that is moved does not), and a copy of a `json::value`,
`json::array` or `json::object` counts the values and bytes in it. The keys of a map and of the members of a class are always copied: object_impl.hpp:46 and 60 take them from
`const std::string`, jsonization.hpp:64 makes them from `const char*`. Arrays are reserved in advance (array_impl.hpp:50, 67, 82, 98, 116, 131) for sources that know their size. Not counted: the search
for the place of a key in the map, the comparisons with the names of an enumeration, the functions that the user writes, and the buffers of a source without `size()`.
`depth` is not used. Proofs/StoreWork.lean shows that the results are those of Model/Convert.lean.
-/

set_option autoImplicit false

namespace Meojson
open Work

/-- The loops over a collection and over a map: one pass, what `f` does and what `also` says besides. -/
def eachBothW {α β : Type} (also : α → Nat) (f : α → Work (β × α)) : List α → Work (List β × List α)
  | [] => ret (.ok ([], []))
  | x :: xs => (f x).bind fun r => (eachBothW also f xs).bind fun rs => ⟨.ok (r.1 :: rs.1, r.2 :: rs.2), 1 + also x, 0⟩

/-- A value that is made in one call: the bytes of its text, if it has one. -/
def madeW (r : Out (Value × CVal)) : Work (Value × CVal) := ⟨r, match r with | .ok x => x.1.weight | _ => 1, 0⟩

section
variable (F : Floats)

mutual
/-- `json::value(x)`, the constructors of value.hpp:48-320 -/
def Ty.storeW : Ty → Cat → CVal → Work (Value × CVal)
  | .json, c, .json v => if c = .rv then ⟨Ty.json.store F c (.json v), 1, 0⟩ else ⟨Ty.json.store F c (.json v), v.weight, 0⟩
  | .jarray, c, .jarray vs => if c = .rv then ⟨Ty.jarray.store F c (.jarray vs), 1, 0⟩ else ⟨Ty.jarray.store F c (.jarray vs), 1 + Value.weightAll vs, 0⟩
  | .jobject, c, .jobject ms => if c = .rv then ⟨Ty.jobject.store F c (.jobject ms), 1, 0⟩ else ⟨Ty.jobject.store F c (.jobject ms), 1 + Value.weightMembers ms, 0⟩
  | .string, c, .str s => ⟨Ty.string.store F c (.str s), if c = .rv then 1 else 1 + s.length, 0⟩
  | .nullable _ _, _, .nothing => ⟨.ok (.null, .nothing), 1, 0⟩
  | .nullable w t, c, .just x => ((t.storeW (c.content w) x).bind fun r => ret (.ok (r.1, .just r.2))).tick
  | .seq t, c, .list xs => ((eachBothW (fun _ => 0) (t.storeW c.element) xs).bind fun r => ret (.ok (.ofArray r.1, .list r.2))).tick
  | .set _ t, c, .list xs => ((eachBothW (fun _ => 0) (t.storeW c.setElement) xs).bind fun r => ret (.ok (.ofArray r.1, .list r.2))).tick
  | .fixed _ t, c, .list xs => ((eachBothW (fun _ => 0) (t.storeW c.part) xs).bind fun r => ret (.ok (.ofArray r.1, .list r.2))).tick
  | .tuple ts, c, .list xs => ((ts.storeAllW c.part xs).bind fun r => ret (.ok (.ofArray r.1, .list r.2))).tick
  | .variant ts, c, .alt i x => ((ts.storeAltW c.part i x).bind fun r => ret (.ok (r.1, .alt i r.2))).tick
  | .map t, c, .map ms =>
    ((eachBothW (fun e => e.1.length) (fun e : Bytes × CVal => (t.storeW c.element e.2).bind fun r => ret (.ok ((e.1, r.1), (e.1, r.2)))) ms).bind fun r =>
    ret (.ok (.ofObject (r.1.foldl (fun m e => (RawObject.emplace e.1 e.2 m).1) []), .map r.2))).tick
  | .struct fs, _, .list xs => ((fs.dumpW {} xs []).bind fun r => ret (.ok (.ofObject r.1, .list r.2))).tick
  | .user U, c, x => ⟨(Ty.user U).store F c x, 1, 0⟩
  | t, c, x => madeW (t.store F c x)
/-- `construct_from_tuple_helper` and its move variant, array_impl.hpp:523-535 -/
def Tys.storeAllW : Tys → Cat → List CVal → Work (List Value × List CVal)
  | .nil, _, [] => ret (.ok ([], []))
  | .cons t ts, c, x :: xs => (t.storeW c x).bind fun r => ((ts.storeAllW c xs).bind fun rs => ret (.ok (r.1 :: rs.1, r.2 :: rs.2))).tick
  | _, _, _ => ret .ub
/-- `std::visit` in the variant constructors, value_impl.hpp:1128-1149 -/
def Tys.storeAltW : Tys → Cat → Nat → CVal → Work (Value × CVal)
  | .nil, _, _, _ => ret .ub
  | .cons t _, c, 0, x => t.storeW c x
  | .cons _ ts, c, i + 1, x => ts.storeAltW c i x
/-- `dumper::_to_json`, jsonization.hpp:47-82 -/
def Fields.dumpW : Fields → NextState → List CVal → List (Bytes × Value) → Work (List (Bytes × Value) × List CVal)
  | .done, _, [], m => ret (.ok (m, []))
  | .opt rest, st, xs, m => rest.dumpW { st with isOptional := true } xs m
  | .key k rest, st, xs, m => rest.dumpW { st with overrideKey := some k } xs m
  | .var name _ t rest, st, x :: xs, m =>
    (t.storeW .constLv x).bind fun r =>
    (rest.dumpW {} xs (RawObject.insertOrAssign (st.keyFor name) r.1 m)).bind fun rs => ⟨.ok (rs.1, r.2 :: rs.2), 1 + (st.keyFor name).length, 0⟩
  | _, _, _, _ => ret .ub
end
end

end Meojson
