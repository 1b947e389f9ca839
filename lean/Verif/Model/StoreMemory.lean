import Verif.Model.TakeMemory

/-!
# Conversions to JSON that fail

`json::value(x)` of Model/Convert.lean once more, with what is left of `x` also when the constructor throws, and with a request for memory wherever one is made and may be refused:

* `std::make_unique<array>(std::move(x))` and `std::make_unique<object>(std::move(x))` (value.hpp:155-279) ask for the container before its constructor runs; `value(array&&)` and `value(object&&)` likewise
  (value_impl.hpp:176-198).
* `_array_data.reserve` (array_impl.hpp:50, 67, 82, 98, 116, 131) for arrays and tuples, and for collections that have `size()`. After it `emplace_back` asks for nothing. Without it, the buffer is asked
  for before the element is constructed in it. How often it is, is a parameter.
* `_object_data.emplace(key, val)` (object_impl.hpp:46, 60) asks for the node and for the copy of the key before the value is constructed in the node. (A library may look first whether the key is
  there, and then ask for nothing; this concerns multimaps only.) `result.emplace(key, var)` of a class
  (jsonization.hpp:64) is `insert_or_assign`: the key is made first, and there is a node to ask for if there is none with the key.
* Copies of texts and of values, the texts of numbers and enumerators, and functions of the user: how many requests they make is a parameter. A text that is moved asks for nothing.
* An array or object that is under construction is destroyed when an exception leaves its constructor, with what was moved into it.
-/

set_option autoImplicit false

namespace Meojson
open Value

/-- The memory and the library. Requests are numbered. -/
structure Maker where
  /-- Whether a request is granted. -/
  gives : Nat → Bool
  /-- Whether the collection has `size()`. -/
  sized : Ty → Bool
  /-- How many requests `emplace_back` makes for the element with this number, if nothing was reserved. -/
  grows : Nat → Nat
  /-- Requests of a copy of a text: none if it is short. -/
  texts : Bytes → Nat
  /-- Requests of a copy of a value. -/
  clones : Value → Nat
  /-- Requests of the constructor from a number, a truth value, null, an enumerator or an object of a class of the user's. -/
  made : Ty → CVal → Nat

/-- So many requests, one after the other. False if one is refused. -/
def Maker.grant (M : Maker) : Nat → Nat → Bool × Nat
  | 0, n => (true, n)
  | k + 1, n => if M.gives n then M.grant k (n + 1) else (false, n + 1)

/-- First the requests, then the rest. `x` is what there is if they are refused. -/
def Maker.first {σ α : Type} (M : Maker) (k : Nat) (x : σ) (f : Nat → Held σ α) (n : Nat) : Held σ α :=
  match M.grant k n with
  | (true, n) => f n
  | (false, n) => (x, .throw .badAlloc, n)

/-- One step after another, on parts of the source: the second does not begin if the first throws. -/
def Held.next {σ τ α β : Type} (r : Held σ α) (rest : τ) (f : Nat → Held τ β) : Held (σ × τ) (α × β) :=
  match r.2.1 with
  | .ok a => ((r.1, (f r.2.2).1), (f r.2.2).2.1.bind fun b => .ok (a, b), (f r.2.2).2.2)
  | .throw e => ((r.1, rest), .throw e, r.2.2)
  | .ub => ((r.1, rest), .ub, r.2.2)

/-- The result and the remainder, looked at otherwise. -/
def Held.as {σ τ α β : Type} (r : Held σ α) (f : σ → τ) (g : α → β) : Held τ β := (f r.1, r.2.1.bind fun x => .ok (g x), r.2.2)

/-- The loops over a collection and over a map. `ask` tells the requests before an element is converted. -/
def storeEachM {α β : Type} (M : Maker) (ask : Nat → α → Nat) (f : α → Nat → Held α β) : Nat → List α → Nat → Held (List α) (List β)
  | _, [], n => ([], .ok [], n)
  | i, x :: xs, n => M.first (ask i x) (x :: xs) (fun n => ((f x n).next xs (storeEachM M ask f (i + 1) xs)).as (fun p => p.1 :: p.2) fun p => p.1 :: p.2) n

/-- `throw exception(…)`, in place of which comes `std::bad_alloc` if there is no memory for the text. -/
def Maker.complain {σ α : Type} (M : Maker) (w : σ) (n : Nat) : Held σ α := (w, .throw (if M.gives n then .json else .badAlloc), n + 1)

/-- An outcome that takes nothing from its source, after so many requests. -/
def Maker.plain (M : Maker) (k : Nat) (x : CVal) (r : Out (Value × CVal)) (n : Nat) : Held CVal Value :=
  M.first k x (fun n => match r with | .ok r => (x, .ok r.1, n) | .throw .json => M.complain x n | .throw e => (x, .throw e, n) | .ub => (x, .ub, n)) n

/-- The same when the source is an rvalue: it is moved at last. -/
def Maker.moving (M : Maker) (k : Nat) (x : CVal) (r : Out (Value × CVal)) (n : Nat) : Held CVal Value :=
  M.first k x (fun n => match r with | .ok r => (r.2, .ok r.1, n) | .throw e => (x, .throw e, n) | .ub => (x, .ub, n)) n

section
variable (F : Floats) (M : Maker)

mutual
/-- `json::value(x)`, the constructors of value.hpp:48-320 -/
def Ty.storeM : Ty → Cat → CVal → Nat → Held CVal Value
  | .json, c, .json v, n => if c = .rv then M.moving 0 (.json v) (Ty.json.store F c (.json v)) n else M.plain (M.clones v) (.json v) (Ty.json.store F c (.json v)) n
  | .jarray, c, .jarray vs, n =>
    if c = .rv then M.moving 1 (.jarray vs) (Ty.jarray.store F c (.jarray vs)) n else M.plain (1 + M.clones (.arr .array vs)) (.jarray vs) (Ty.jarray.store F c (.jarray vs)) n
  | .jobject, c, .jobject ms, n =>
    if c = .rv then M.moving 1 (.jobject ms) (Ty.jobject.store F c (.jobject ms)) n else M.plain (1 + M.clones (.obj .object ms)) (.jobject ms) (Ty.jobject.store F c (.jobject ms)) n
  | .string, c, .str s, n => if c = .rv then M.moving 0 (.str s) (Ty.string.store F c (.str s)) n else M.plain (M.texts s) (.str s) (Ty.string.store F c (.str s)) n
  | .nullable _ _, _, .nothing, n => (.nothing, .ok .null, n)
  | .nullable w t, c, .just x, n => (t.storeM (c.content w) x n).as .just id
  | .seq t, c, .list xs, n =>
    if M.sized (.seq t) then M.first (1 + if xs = [] then 0 else 1) (.list xs) (fun n => (storeEachM M (fun _ _ => 0) (t.storeM c.element) 0 xs n).as .list .ofArray) n
    else M.first 1 (.list xs) (fun n => (storeEachM M (fun i _ => M.grows i) (t.storeM c.element) 0 xs n).as .list .ofArray) n
  | .set _ t, c, .list xs, n =>
    M.first (1 + if xs = [] then 0 else 1) (.list xs) (fun n => (storeEachM M (fun _ _ => 0) (t.storeM c.setElement) 0 xs n).as .list .ofArray) n
  | .fixed _ t, c, .list xs, n =>
    M.first (1 + if xs = [] then 0 else 1) (.list xs) (fun n => (storeEachM M (fun _ _ => 0) (t.storeM c.part) 0 xs n).as .list .ofArray) n
  | .tuple ts, c, .list xs, n => M.first (1 + if xs = [] then 0 else 1) (.list xs) (fun n => (ts.storeAllM c.part xs n).as .list .ofArray) n
  | .variant ts, c, .alt i x, n => (ts.storeAltM c.part i x n).as (.alt i) id
  | .map t, c, .map ms, n =>
    M.first 1 (.map ms) (fun n =>
      (storeEachM M (fun _ e => 1 + M.texts e.1) (fun (e : Bytes × CVal) n => (t.storeM c.element e.2 n).as (fun y => (e.1, y)) fun v => (e.1, v)) 0 ms n).as .map
        fun r => .ofObject (r.foldl (fun m e => (RawObject.emplace e.1 e.2 m).1) [])) n
  | .struct fs, _, .list xs, n =>
    match fs.dumpM {} xs [] n with
    | (ys, .ok m, n) => M.first 1 (.list ys) (fun n => (.list ys, .ok (.ofObject m), n)) n
    | (ys, .throw e, n) => (.list ys, .throw e, n)
    | (ys, .ub, n) => (.list ys, .ub, n)
  | t, c, x, n => M.plain (M.made t x) x (t.store F c x) n
/-- `construct_from_tuple_helper` and its move variant, array_impl.hpp:523-535 -/
def Tys.storeAllM : Tys → Cat → List CVal → Nat → Held (List CVal) (List Value)
  | .nil, _, [], n => ([], .ok [], n)
  | .cons t ts, c, x :: xs, n => ((t.storeM c x n).next xs (ts.storeAllM c xs)).as (fun p => p.1 :: p.2) fun p => p.1 :: p.2
  | _, _, xs, n => (xs, .ub, n)
/-- `std::visit` in the variant constructors, value_impl.hpp:1128-1149 -/
def Tys.storeAltM : Tys → Cat → Nat → CVal → Nat → Held CVal Value
  | .nil, _, _, x, n => (x, .ub, n)
  | .cons t _, c, 0, x, n => t.storeM c x n
  | .cons _ ts, c, i + 1, x, n => ts.storeAltM c i x n
/-- `dumper::_to_json`, jsonization.hpp:47-82 -/
def Fields.dumpM : Fields → NextState → List CVal → List (Bytes × Value) → Nat → Held (List CVal) (List (Bytes × Value))
  | .done, _, [], m, n => ([], .ok m, n)
  | .opt rest, st, xs, m, n => rest.dumpM { st with isOptional := true } xs m n
  | .key k rest, st, xs, m, n => rest.dumpM { st with overrideKey := some k } xs m n
  | .var name _ t rest, st, x :: xs, m, n =>
    M.first (M.texts (st.keyFor name) + if (RawObject.find (st.keyFor name) m).isSome then 0 else 1) (x :: xs) (fun n =>
      match t.storeM .constLv x n with
      | (y, .ok v, n) => (rest.dumpM {} xs (RawObject.insertOrAssign (st.keyFor name) v m) n).as (y :: ·) id
      | (y, .throw e, n) => (y :: xs, .throw e, n)
      | (y, .ub, n) => (y :: xs, .ub, n)) n
  | _, _, xs, _, n => (xs, .ub, n)
end
end

end Meojson
