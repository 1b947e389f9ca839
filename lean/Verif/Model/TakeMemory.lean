import Verif.Model.Take

/-!
# Conversions from an rvalue when memory runs out

`static_cast<T>(std::move(v))` of Model/Take.lean once more, with a request for memory wherever one is made and may be refused:

* `as_array()` and `as_object()` of an empty value (value_impl.hpp:640-666) set the tag and then ask for the container.
* `result.reserve` for the sequences that have it (array_impl.hpp:493-495): `std::vector` has, `std::list`, `std::deque` and `json::array` have not. After it `emplace_back` asks for nothing.
* `result.emplace_back(…)` and `result.emplace(…)` (array_impl.hpp:498, 501, object_impl.hpp:361). The argument is a temporary that has been made from the element before: if the request is refused it is
  destroyed, with what was moved into it. How many requests one insertion makes is a parameter.
* `std::make_shared` and `std::make_unique` (value.hpp:570, 588), likewise after their argument has been made.
* The text of an exception: if its memory is refused, `std::bad_alloc` is thrown in its place. It counts as one request.
* Conversions with `const&` inside: their requests are a parameter, and they give what they give with enough memory, or throw `std::bad_alloc` because a request was refused. (Model/AsMemory.lean
  models them, and C103_fair shows that they do.)

Constructing an empty container asks for nothing (as with libstdc++ and libc++), and neither does `is` (it is `noexcept`; what happens when it runs out of memory is in Model/Noexcept.lean).
-/

set_option autoImplicit false

namespace Meojson
open Value

/-- The memory and the library. Requests are numbered. -/
structure Memory where
  /-- Whether a request is granted. -/
  gives : Nat → Bool
  /-- Whether the container has `reserve`. -/
  reserves : Ty → Bool
  /-- How many requests the insertion of the element with this number makes. -/
  asks : Ty → Nat → Nat
  /-- `as<T>() const&`, with the number of the first request, and of the first one after it. -/
  copy : Ty → Value → Nat → Out CVal × Nat

/-- What is left, how it ended, and the number of the next request. -/
abbrev Held (σ α : Type) := σ × Out α × Nat

/-- So many requests, one after the other. False if one is refused. -/
def Memory.grant (M : Memory) : Nat → Nat → Bool × Nat
  | 0, n => (true, n)
  | k + 1, n => if M.gives n then M.grant k (n + 1) else (false, n + 1)

/-- `throw exception(…)` -/
def Memory.complain {σ α : Type} (M : Memory) (w : σ) (n : Nat) : Held σ α := (w, .throw (if M.gives n then .json else .badAlloc), n + 1)

/-- The loops. `asks` tells the requests of an insertion, by the number of the element. -/
def takeEachM {α β : Type} (M : Memory) (asks : Nat → Nat) (f : α → Nat → Held α β) : Nat → List α → Nat → Held (List α) (List β)
  | _, [], n => ([], .ok [], n)
  | i, v :: vs, n =>
    match f v n with
    | (w, .ok x, n) =>
      match M.grant (asks i) n with
      | (true, n) => let r := takeEachM M asks f (i + 1) vs n; (w :: r.1, r.2.1.bind fun xs => .ok (x :: xs), r.2.2)
      | (false, n) => (w :: vs, .throw .badAlloc, n)
    | (w, .throw e, n) => (w :: vs, .throw e, n)
    | (w, .ub, n) => (w :: vs, .ub, n)

/-- `_array_data.clear()` before the return, array_impl.hpp:488, 504, 515. -/
def clearAfterM {α : Type} : Held (List Value) α → Held (List Value) α
  | (_, .ok x, n) => ([], .ok x, n)
  | r => r

/-- Wraps the result. -/
def wrapHeld {σ α β : Type} (f : α → β) (r : Held σ α) : Held σ β := (r.1, r.2.1.bind fun x => .ok (f x), r.2.2)

/-- `_type = …`, value_impl.hpp:643, 657. -/
def Value.retag (t : VType) : Value → Value
  | .str _ s => .str t s
  | .arr _ vs => .arr t vs
  | .obj _ ms => .obj t ms
  | .arrNull _ => .arrNull t
  | .objNull _ => .objNull t

/-- The conversion of the vector behind `as_array()`, value_impl.hpp:640-652. -/
def Value.onArrayHeld {α : Type} (M : Memory) (v : Value) (f : List Value → Nat → Held (List Value) α) (n : Nat) : Held Value α :=
  match v.empty with
  | .ok true => if M.gives n then let r := f [] (n + 1); (.arr .array r.1, r.2) else (v.retag .array, .throw .badAlloc, n + 1)
  | .ok false =>
    match v.asArray with
    | .ok vs => let r := f vs n; (.arr v.type r.1, r.2)
    | .throw .json => M.complain v n
    | .throw e => (v, .throw e, n)
    | .ub => (v, .ub, n)
  | .throw e => (v, .throw e, n)
  | .ub => (v, .ub, n)

/-- The conversion of the map behind `as_object()`, value_impl.hpp:654-666. -/
def Value.onObjectHeld {α : Type} (M : Memory) (v : Value) (f : List (Bytes × Value) → Nat → Held (List (Bytes × Value)) α) (n : Nat) : Held Value α :=
  match v.empty with
  | .ok true => if M.gives n then let r := f [] (n + 1); (.obj .object r.1, r.2) else (v.retag .object, .throw .badAlloc, n + 1)
  | .ok false =>
    match v.asObject with
    | .ok ms => let r := f ms n; (.obj v.type r.1, r.2)
    | .throw .json => M.complain v n
    | .throw e => (v, .throw e, n)
    | .ub => (v, .ub, n)
  | .throw e => (v, .throw e, n)
  | .ub => (v, .ub, n)

section
variable (F : Floats) (M : Memory)

/-- `value::as<T>() &&`, value_impl.hpp:705-729 -/
def Ty.asRvM : Ty → Value → Nat → Held Value CVal
  | .json, v, n => (v.emptied, .ok (.json v), n)
  | t, v, n => (v, M.copy t v n)

/-- `move_as_tuple_helper`, array_impl.hpp:544-549 -/
def Tys.takeAllM : Tys → List Value → Nat → Held (List Value) (List CVal)
  | .nil, vs, n => (vs, .ok [], n)
  | .cons _ _, [], n => ([], .ub, n)
  | .cons t ts, v :: vs, n =>
    match t.asRvM M v n with
    | (w, .ok x, n) => let r := ts.takeAllM vs n; (w :: r.1, r.2.1.bind fun xs => .ok (x :: xs), r.2.2)
    | (w, .throw e, n) => (w :: vs, .throw e, n)
    | (w, .ub, n) => (w :: vs, .ub, n)

/-- `move_to_variant_helper`, value_impl.hpp:1161-1169 -/
def Tys.takeAnyM : Tys → Nat → Value → Nat → Held Value CVal
  | .nil, _, v, n =>
    match (v.typeError : Out CVal) with
    | .throw .json => M.complain v n
    | r => (v, r, n)
  | .cons t ts, i, v, n =>
    match t.is F v with
    | .ok true => wrapHeld (.alt i) (t.asRvM M v n)
    | .ok false => ts.takeAnyM (i + 1) v n
    | .throw e => (v, .throw e, n)
    | .ub => (v, .ub, n)

/-- `array::as<T>() &&` for a sequence, array_impl.hpp:491-506 -/
def takeSeqM (t e : Ty) (vs : List Value) (n : Nat) : Held (List Value) (List CVal) :=
  if M.reserves t then
    match M.grant (if vs = [] then 0 else 1) n with
    | (true, n) => takeEachM M (fun _ => 0) (e.asRvM M) 0 vs n
    | (false, n) => (vs, .throw .badAlloc, n)
  else takeEachM M (M.asks t) (e.asRvM M) 0 vs n

mutual
/-- `static_cast<T>(std::move(v))` -/
def Ty.takeM : Ty → Value → Nat → Held Value CVal
  | .json, v, n => (v.emptied, .ok (.json v), n)
  | .nullable .pointer t, v, n =>
    if v.type = .null then (v, .ok .nothing, n)
    else
      match t.takeM v n with
      | (w, .ok x, n) => if M.gives n then (w, .ok (.just x), n + 1) else (w, .throw .badAlloc, n + 1)
      | (w, .throw e, n) => (w, .throw e, n)
      | (w, .ub, n) => (w, .ub, n)
  | .nullable .optional t, v, n => wrapHeld .just (t.takeM v n)
  | .jarray, v, n => v.onArrayHeld M (fun vs n => clearAfterM (wrapHeld .jarray (takeEachM M (M.asks .jarray) (fun v n => (v.emptied, .ok v, n)) 0 vs n))) n
  | .seq t, v, n => v.onArrayHeld M (fun vs n => clearAfterM (wrapHeld .list (takeSeqM M (.seq t) t vs n))) n
  | .set lt t, v, n =>
    v.onArrayHeld M (fun vs n => clearAfterM (wrapHeld (fun xs => .list (xs.foldl (fun l x => setInsert lt x l) [])) (takeEachM M (M.asks (.set lt t)) (t.asRvM M) 0 vs n))) n
  | .fixed k t, v, n =>
    v.onArrayHeld M (fun vs n => if vs.length = k then clearAfterM (wrapHeld .list (takeEachM M (fun _ => 0) (t.asRvM M) 0 vs n)) else M.complain vs n) n
  | .tuple ts, v, n =>
    if ts.size = 1 then wrapHeld (fun x => .list [x]) (ts.takeNthM 0 v n)
    else v.onArrayHeld M (fun vs n => if vs.length = ts.size then clearAfterM (wrapHeld .list (ts.takeAllM M vs n)) else M.complain vs n) n
  | .variant ts, v, n =>
    match ts.chosen with
    | some i => wrapHeld (.alt i) (ts.takeNthM i v n)
    | none => ts.takeAnyM F M 0 v n
  | .jobject, v, n =>
    v.onObjectHeld M (fun ms n => wrapHeld .jobject (takeEachM M (M.asks .jobject) (fun (e : Bytes × Value) n => ((e.1, e.2.emptied), .ok (e.1, e.2), n)) 0 ms n)) n
  | .map t, v, n =>
    v.onObjectHeld M (fun ms n =>
      wrapHeld (fun es => .map (es.foldl (fun m e => (RawObject.emplace e.1 e.2 m).1) []))
        (takeEachM M (M.asks (.map t)) (fun (e : Bytes × Value) n => let r := t.asRvM M e.2 n; ((e.1, r.1), r.2.1.bind fun x => .ok (e.1, x), r.2.2)) 0 ms n)) n
  | t, v, n => (v, M.copy t v n)
/-- Construction of an alternative or element from the rvalue. -/
def Tys.takeNthM : Tys → Nat → Value → Nat → Held Value CVal
  | .nil, _, v, n => (v, .ub, n)
  | .cons t _, 0, v, n => t.takeM v n
  | .cons _ ts, i + 1, v, n => ts.takeNthM i v n
end
end

end Meojson
