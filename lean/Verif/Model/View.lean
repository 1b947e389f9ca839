import Verif.Model.Take

/-!
# `std::string_view` out of a value

`operator std::string_view() const&` (include/common/value.hpp:473, value_impl.hpp:938-941) gives a view of the text inside the value; the overload with `&&` is deleted (value.hpp:474).
The other conversions reach it from inside: `value::as() &&` through `static_cast<T>(*this)` (value_impl.hpp:727), where `*this` is an lvalue, and the conversions of arrays and
objects through the `as` of their elements (array_impl.hpp:430-549, object_impl.hpp:341-368).

Model/Convert.lean has no code for `std::string_view`: there a result is its contents. Here a result is the sequence of the texts in it, from left to right, and each text comes with where it
lives. Modelled are types made of `std::string_view` and `std::string` by collections, `std::array`, `std::pair`, maps from strings, and nullable wrappers.
-/

set_option autoImplicit false

namespace Meojson
open Value

/-- The types. -/
inductive VTy where
  | view
  | string
  | seq (t : VTy)
  | fixed (n : Nat) (t : VTy)
  | pair (t u : VTy)
  | map (t : VTy)
  | nullable (w : Wrapper) (t : VTy)

/-- Where the characters of a text are: in a `std::string` of the result; in the string that `path` leads to in the source, by numbers of elements and members; or in a string
that has been destroyed. -/
inductive Ref where
  | own
  | at (path : List Nat)
  | gone
deriving DecidableEq

/-- A text of the result: where it is, and what it was when the conversion read it. -/
structure Text where
  ref : Ref
  bytes : Bytes
deriving DecidableEq

/-- Converts the parts one after the other; `f i` converts part number `i`. -/
def eachAt {α β : Type} (f : Nat → α → Out β) : Nat → List α → Out (List β)
  | _, [] => .ok []
  | i, v :: vs => (f i v).bind fun x => (eachAt f (i + 1) vs).bind fun xs => .ok (x :: xs)

/-- The texts of a map: keys, which are copies, and what is in the mapped objects. -/
def mapTexts (es : List (Bytes × List Text)) : List Text := es.flatMap fun e => ⟨.own, e.1⟩ :: e.2

/-- `as<T>() const&`, `as<T>() &&` and `static_cast<T>` of an lvalue: value_impl.hpp:681-729, value.hpp:472-473, 536-543, 554-562, 572-580, 598-610, 628-637, array_impl.hpp:430-473,
object_impl.hpp:341-353. `p` is the path of the value in the source. -/
def VTy.as : VTy → List Nat → Value → Out (List Text)
  | .view, p, v => v.asString.bind fun s => .ok [⟨.at p, s⟩]
  | .string, _, v => v.asString.bind fun s => .ok [⟨.own, s⟩]
  | .seq t, p, v => v.asArray.bind fun vs => (eachAt (fun i w => t.as (p ++ [i]) w) 0 vs).bind fun xs => .ok xs.flatten
  | .fixed n t, p, v =>
    v.asArray.bind fun vs => if vs.length = n then (eachAt (fun i w => t.as (p ++ [i]) w) 0 vs).bind fun xs => .ok xs.flatten else .throw .json
  | .pair t u, p, v =>
    v.asArray.bind fun vs =>
    match vs with
    | [x, y] => (t.as (p ++ [0]) x).bind fun xs => (u.as (p ++ [1]) y).bind fun ys => .ok (xs ++ ys)
    | _ => .throw .json
  | .map t, p, v =>
    v.asObject.bind fun ms =>
    (eachAt (fun i (e : Bytes × Value) => (t.as (p ++ [i]) e.2).bind fun x => .ok (e.1, x)) 0 ms).bind fun es =>
    .ok (mapTexts (es.foldl (fun m e => (RawObject.emplace e.1 e.2 m).1) []))
  | .nullable .pointer t, p, v => if v.type = .null then .ok [] else t.as p v
  | .nullable .optional t, p, v => t.as p v

/-- The source of the views has been destroyed. -/
def Text.outlived (x : Text) : Text :=
  match x.ref with
  | .at _ => { x with ref := .gone }
  | _ => x

/-- `_array_data.clear()` before the return, array_impl.hpp:488, 504, 515: it destroys the elements, and with them the strings that views among the texts refer to. -/
def clearViewed : List Value × Out (List Text) → List Value × Out (List Text)
  | (_, .ok xs) => ([], .ok (xs.map Text.outlived))
  | r => r

/-- `static_cast<T>(std::move(v))`: what is left of `v`, and the texts. value.hpp:546-552, 564-570, 582-588, 617-626, 639-648; array_impl.hpp:475-521, object_impl.hpp:355-368. The
elements and members are converted by `as() &&`. For types that are not `movable` it does not compile. -/
def VTy.take : VTy → List Nat → Value → Mut (List Text)
  | .seq t, p, v => v.onArray fun vs => clearViewed (vs, (eachAt (fun i w => t.as (p ++ [i]) w) 0 vs).bind fun xs => .ok xs.flatten)
  | .fixed n t, p, v =>
    v.onArray fun vs => if vs.length = n then clearViewed (vs, (eachAt (fun i w => t.as (p ++ [i]) w) 0 vs).bind fun xs => .ok xs.flatten) else (vs, .throw .json)
  | .pair t u, p, v =>
    v.onArray fun vs =>
    match vs with
    | [x, y] => clearViewed (vs, (t.as (p ++ [0]) x).bind fun xs => (u.as (p ++ [1]) y).bind fun ys => .ok (xs ++ ys))
    | _ => (vs, .throw .json)
  | .map t, p, v =>
    v.onObject fun ms =>
    (ms, (eachAt (fun i (e : Bytes × Value) => (t.as (p ++ [i]) e.2).bind fun x => .ok (e.1, x)) 0 ms).bind fun es =>
      .ok (mapTexts (es.foldl (fun m e => (RawObject.emplace e.1 e.2 m).1) [])))
  | .nullable .pointer t, p, v => if v.type = .null then (v, .ok []) else t.take p v
  | .nullable .optional t, p, v => t.take p v
  | t, p, v => (v, t.as p v)

/-- `static_cast<T>(std::move(v))` compiles: it does not reach the deleted operator. -/
def VTy.movable : VTy → Bool
  | .view => false
  | .nullable _ t => t.movable
  | _ => true

/-- How the conversion is written: `v.as<T>()`, `std::move(v).as<T>()` or `static_cast<T>(v)` with a variable `v`; `f().as<T>()` with a function that returns a `json::value`;
`static_cast<T>(std::move(v))`; `static_cast<T>(f())`. -/
inductive Written where
  | onVariable
  | onResult
  | castMoved
  | castResult

/-- The texts, and the source at the end of the full expression: a temporary is gone. -/
def VTy.convert (t : VTy) (e : Written) (v : Value) : Option Value × Out (List Text) :=
  match e with
  | .onVariable => (some v, t.as [] v)
  | .onResult => (none, t.as [] v)
  | .castMoved => let r := t.take [] v; (some r.1, r.2)
  | .castResult => (none, (t.take [] v).2)

/-- Part number `i`. -/
def Value.part (v : Value) (i : Nat) : Option Value :=
  match v with
  | .arr _ vs => vs[i]?
  | .obj _ ms => ms[i]?.map (·.2)
  | _ => none

/-- The string that the path leads to. -/
def Value.textAt : List Nat → Value → Option Bytes
  | [], .str _ s => some s
  | [], _ => none
  | i :: p, v => (v.part i).bind (textAt p)

/-- Reads a text of the result after the full expression. -/
def Text.read (source : Option Value) (x : Text) : Out Bytes :=
  match x.ref with
  | .own => .ok x.bytes
  | .gone => .ub
  | .at p =>
    match source.bind (textAt p) with
    | some s => .ok s
    | none => .ub

end Meojson
