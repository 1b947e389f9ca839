import Verif.Model.TakeMemory

/-!
# Conversions from a const value when memory runs out

`as<T>() const&` and `static_cast<T>(v)` of Model/Convert.lean once more, with a request for memory wherever one is made and may be refused. They are also the parameter `copy` of Model/TakeMemory.lean.

* `result.reserve` for the sequences that have it (array_impl.hpp:447-449). After it `emplace_back` asks for nothing.
* `result.emplace_back(…)` and `result.emplace(…)` (array_impl.hpp:451-456, object_impl.hpp:346), after the argument has been made. How many requests one insertion makes is a parameter.
* `std::make_shared` and `std::make_unique` (value.hpp:561, 579), likewise.
* `in.find_value(key)` of a class (jsonization.hpp:156) makes a `std::string` of the key, and `error_key = key` (162, 170) another one.
* The text of an exception: if its memory is refused, `std::bad_alloc` is thrown in its place. It counts as one request.
* Copies of texts and of values, conversions to numbers and enumerators, functions of the user, and `T {}` of a class: how many requests they make is a parameter.

As in Model/TakeMemory.lean constructing an empty container asks for nothing, and neither does `is` (for that see Model/Noexcept.lean). The result is assigned to a member or moved, which asks for nothing.
-/

set_option autoImplicit false

namespace Meojson
open Value

/-- The memory and the library. Requests are numbered. -/
structure Copier where
  /-- Whether a request is granted. -/
  gives : Nat → Bool
  /-- Whether the container has `reserve`. -/
  reserves : Ty → Bool
  /-- How many requests the insertion of the element with this number makes. -/
  asks : Ty → Nat → Nat
  /-- Requests for a text: none if it is short. -/
  texts : Bytes → Nat
  /-- Requests of the conversions that are made in one call, and of `T {}` of a class. -/
  others : Ty → Value → Nat

/-- So many requests, one after the other. False if one is refused. -/
def Copier.grant (C : Copier) : Nat → Nat → Bool × Nat
  | 0, n => (true, n)
  | k + 1, n => if C.gives n then C.grant k (n + 1) else (false, n + 1)

/-- First the requests, then the rest. -/
def Copier.ask {α : Type} (C : Copier) (k : Nat) (f : Nat → Out α × Nat) (n : Nat) : Out α × Nat :=
  match C.grant k n with
  | (true, n) => f n
  | (false, n) => (.throw .badAlloc, n)

/-- `throw exception(…)` -/
def Copier.complain {α : Type} (C : Copier) (n : Nat) : Out α × Nat := (.throw (if C.gives n then .json else .badAlloc), n + 1)

/-- An outcome, after so many requests; if it is an exception of the library its text is to be made. -/
def Copier.plain {α : Type} (C : Copier) (k : Nat) (r : Out α) (n : Nat) : Out α × Nat :=
  C.ask k (fun n => match r with | .ok x => (.ok x, n) | .throw .json => C.complain n | .throw e => (.throw e, n) | .ub => (.ub, n)) n

/-- One step after another. -/
def andThen {α β : Type} (r : Out α × Nat) (f : α → Nat → Out β × Nat) : Out β × Nat :=
  match r with
  | (.ok x, n) => f x n
  | (.throw e, n) => (.throw e, n)
  | (.ub, n) => (.ub, n)

/-- The loops. `asks` tells the requests of an insertion, by the number of the element. -/
def asEachM {α β : Type} (C : Copier) (asks : Nat → Nat) (f : α → Nat → Out β × Nat) : Nat → List α → Nat → Out (List β) × Nat
  | _, [], n => (.ok [], n)
  | i, v :: vs, n => andThen (f v n) fun x n => C.ask (asks i) (fun n => andThen (asEachM C asks f (i + 1) vs n) fun xs n => (.ok (x :: xs), n)) n

section
variable (F : Floats) (C : Copier)

mutual
/-- `value::as<T>() const&`, value_impl.hpp:681-703, with the conversion operators of value.hpp:536-655, array_impl.hpp:430-472 and object_impl.hpp:340-353 -/
def Ty.asM : Ty → Value → Nat → Out CVal × Nat
  | .struct fs, v, n =>
    C.ask (C.others (.struct fs) v) (fun n =>
      let r := fs.loadM {} v fs.defaults n
      andThen r.1 fun e n =>
        match e with
        | none => (.ok (.list r.2), n)
        | some _ => C.plain 0 v.typeError n) n
  | .nullable .pointer t, v, n => if v.type = .null then (.ok .nothing, n) else andThen (t.asM v n) fun x n => C.ask 1 (fun n => (.ok (.just x), n)) n
  | .nullable .optional t, v, n => andThen (t.asM v n) fun x n => (.ok (.just x), n)
  | .seq t, v, n =>
    andThen (C.plain 0 v.asArray n) fun vs n =>
      if C.reserves (.seq t) then
        C.ask (if vs = [] then 0 else 1) (fun n => andThen (asEachM C (fun _ => 0) t.asM 0 vs n) fun xs n => (.ok (.list xs), n)) n
      else andThen (asEachM C (C.asks (.seq t)) t.asM 0 vs n) fun xs n => (.ok (.list xs), n)
  | .set lt t, v, n =>
    andThen (C.plain 0 v.asArray n) fun vs n => andThen (asEachM C (C.asks (.set lt t)) t.asM 0 vs n) fun xs n => (.ok (.list (xs.foldl (fun l x => setInsert lt x l) [])), n)
  | .fixed k t, v, n =>
    andThen (C.plain 0 v.asArray n) fun vs n => if vs.length = k then andThen (asEachM C (fun _ => 0) t.asM 0 vs n) fun xs n => (.ok (.list xs), n) else C.complain n
  | .tuple ts, v, n =>
    if ts.size = 1 then andThen (ts.asNthM 0 v n) fun x n => (.ok (.list [x]), n)
    else andThen (C.plain 0 v.asArray n) fun vs n => if vs.length = ts.size then andThen (ts.asAllM vs n) fun xs n => (.ok (.list xs), n) else C.complain n
  | .variant ts, v, n =>
    match ts.chosen with
    | some i => andThen (ts.asNthM i v n) fun x n => (.ok (.alt i x), n)
    | none => ts.asAnyM 0 v n
  | .map t, v, n =>
    andThen (C.plain 0 v.asObject n) fun ms n =>
    andThen (asEachM C (C.asks (.map t)) (fun e n => andThen (t.asM e.2 n) fun x n => (.ok (e.1, x), n)) 0 ms n) fun es n =>
    (.ok (.map (es.foldl (fun m e => (RawObject.emplace e.1 e.2 m).1) [])), n)
  | t, v, n => C.plain (C.others t v) (t.as F v) n
/-- `as_tuple_helper`, array_impl.hpp:537-542 -/
def Tys.asAllM : Tys → List Value → Nat → Out (List CVal) × Nat
  | .nil, _, n => (.ok [], n)
  | .cons _ _, [], n => (.ub, n)
  | .cons t ts, v :: vs, n => andThen (t.asM v n) fun x n => andThen (ts.asAllM vs n) fun xs n => (.ok (x :: xs), n)
/-- Construction of an alternative or element -/
def Tys.asNthM : Tys → Nat → Value → Nat → Out CVal × Nat
  | .nil, _, _, n => (.ub, n)
  | .cons t _, 0, v, n => t.asM v n
  | .cons _ ts, i + 1, v, n => ts.asNthM i v n
/-- `to_variant_helper`, value_impl.hpp:1151-1159 -/
def Tys.asAnyM : Tys → Nat → Value → Nat → Out CVal × Nat
  | .nil, _, v, n => C.plain 0 v.typeError n
  | .cons t ts, i, v, n =>
    andThen (t.is F v, n) fun b n => if b then andThen (t.asM v n) fun x n => (.ok (.alt i x), n) else ts.asAnyM (i + 1) v n
/-- `loader::_from_json`, jsonization.hpp:140-196, with the members as they are when it ends. -/
def Fields.loadM : Fields → NextState → Value → List CVal → Nat → (Out (Option Bytes) × Nat) × List CVal
  | .done, _, _, dst, n => ((.ok none, n), dst)
  | .opt rest, st, v, dst, n => rest.loadM { st with isOptional := true } v dst n
  | .key k rest, st, v, dst, n => rest.loadM { st with overrideKey := some k } v dst n
  | .var _ _ _ _, _, _, [], n => ((.ub, n), [])
  | .var name _ t rest, st, v, d :: dst, n =>
    let miss := fun n => (C.ask (C.texts (st.keyFor name)) (fun n => (.ok (some (st.keyFor name)), n)) n, d :: dst)
    match C.ask (C.texts (st.keyFor name)) (fun n => (v.findKey (st.keyFor name), n)) n with
    | (.ok (some w), n) =>
      match t.is F w with
      | .ok true =>
        match t.asM w n with
        | (.ok x, n) => let r := rest.loadM {} v dst n; (r.1, x :: r.2)
        | (.throw e, n) => ((.throw e, n), d :: dst)
        | (.ub, n) => ((.ub, n), d :: dst)
      | .ok false => miss n
      | .throw e => ((.throw e, n), d :: dst)
      | .ub => ((.ub, n), d :: dst)
    | (.ok none, n) => if st.isOptional then let r := rest.loadM {} v dst n; (r.1, d :: r.2) else miss n
    | (.throw e, n) => ((.throw e, n), d :: dst)
    | (.ub, n) => ((.ub, n), d :: dst)
end

/-- This library, for conversions from rvalues: the conversions with `const&` inside are those above. -/
def Copier.memory : Memory where
  gives := C.gives
  reserves := C.reserves
  asks := C.asks
  copy t v n := t.asM F C v n
end

end Meojson
