import Verif.Model.Serialize
import Verif.Model.Compare

/-!
# Serialisation and comparison, counting the work

The functions of Model/Serialize.lean and Model/Compare.lean again with a count. `ticks` grows by one for each call of a function of the library, for each pass through a loop and
each call that appends, and by one for each byte that is appended, looked at or compared. `depth` is the greatest number of activations of `dump_to`, `format_to` or `operator==` of
`array` and `object` that are on the stack at once. The work of `std::string` when it has to move to a larger buffer is not counted here but in
Model/Pour.lean. Proofs/Work.lean shows that the results are those of Model/Serialize.lean and Model/Compare.lean.
-/

set_option autoImplicit false

namespace Meojson

/-- An outcome with the work done to reach it. -/
structure Work (α : Type) where
  res : Out α
  ticks : Nat
  depth : Nat

namespace Work
variable {α β : Type}
def bind (r : Work α) (f : α → Work β) : Work β :=
  match r.res with
  | .ok a => ⟨(f a).res, r.ticks + (f a).ticks, max r.depth (f a).depth⟩
  | .throw e => ⟨.throw e, r.ticks, r.depth⟩
  | .ub => ⟨.ub, r.ticks, r.depth⟩
def ret (r : Out α) : Work α := ⟨r, 0, 0⟩
/-- A call or a pass through a loop -/
def tick (r : Work α) : Work α := ⟨r.res, r.ticks + 1, r.depth⟩
/-- One more activation on the stack while `r` runs -/
def nest (r : Work α) : Work α := ⟨r.res, r.ticks, r.depth + 1⟩
/-- `out.push_back`, `out += t`, `out.append`: one call, and each byte -/
def put (t : Bytes) : Work Bytes := ⟨.ok t, t.length + 1, 0⟩
/-- One text after the other -/
def andThen (r s : Work Bytes) : Work Bytes := r.bind fun a => s.bind fun b => .ret (.ok (a ++ b))
/-- `append_escaped_string`, utils.hpp:394-443: one pass for each byte of the text, and each byte that is appended, whichever of the calls appends it -/
def escaped (s : Bytes) : Work Bytes := ⟨.ok (escapeString s), s.length + (escapeString s).length + 1, 0⟩
end Work

open Work

namespace Value

/-- A value that is not written as an array or object, value_impl.hpp:769-793: one call, and for a text the quotes and the escaped text. -/
def dumpLeafW (v : Value) : Work Bytes :=
  match v with
  | .str .string s => ((put [0x22]).andThen ((escaped s).andThen (put [0x22]))).tick
  | v =>
    match v.dumpTo with
    | .ok t => (put t).tick
    | r => (ret r).tick

mutual
/-- `value::dump_to`, value_impl.hpp:769-793, with the frames of array_impl.hpp:202-212 and object_impl.hpp:128-142 -/
def dumpW : Value → Work Bytes
  | .arr .array vs => ((put [0x5b]).andThen ((dumpElemsW vs).andThen (put [0x5d]))).nest.tick.tick
  | .obj .object ms => ((put [0x7b]).andThen ((dumpMembersW ms).andThen (put [0x7d]))).nest.tick.tick
  | v => v.dumpLeafW
/-- array_impl.hpp:205-210 -/
def dumpElemsW : List Value → Work Bytes
  | [] => (ret (.ok [])).tick
  | v :: vs => ((dumpW v).andThen ((if vs.isEmpty then ret (.ok []) else put [0x2c]).andThen (dumpElemsW vs))).tick
/-- object_impl.hpp:131-141 -/
def dumpMembersW : List (Bytes × Value) → Work Bytes
  | [] => (ret (.ok [])).tick
  | (k, v) :: ms =>
    ((put [0x22]).andThen ((escaped k).andThen ((put [0x22]).andThen ((put [0x3a]).andThen
      ((dumpW v).andThen ((if ms.isEmpty then ret (.ok []) else put [0x2c]).andThen (dumpMembersW ms))))))).tick
end

mutual
/-- `value::format_to`, value_impl.hpp:802-820, with the frames of array_impl.hpp:221-235 and object_impl.hpp:151-171. A leaf calls `dump_to`, 809. -/
def formatW (indent : Nat) : Nat → Value → Work Bytes
  | times, .arr .array vs =>
    ((put [0x5b]).andThen ((put [0x0a]).andThen ((formatElemsW indent times vs).andThen ((put (spaces indent times)).andThen (put [0x5d]))))).nest.tick.tick
  | times, .obj .object ms =>
    ((put [0x7b]).andThen ((put [0x0a]).andThen ((formatMembersW indent times ms).andThen ((put (spaces indent times)).andThen (put [0x7d]))))).nest.tick.tick
  | _, v => v.dumpLeafW.tick
/-- array_impl.hpp:225-232 -/
def formatElemsW (indent : Nat) : Nat → List Value → Work Bytes
  | _, [] => (ret (.ok [])).tick
  | times, v :: vs =>
    ((put (spaces indent (times + 1))).andThen ((formatW indent (times + 1) v).andThen
      ((if vs.isEmpty then ret (.ok []) else put [0x2c]).andThen ((put [0x0a]).andThen (formatElemsW indent times vs))))).tick
/-- object_impl.hpp:156-169 -/
def formatMembersW (indent : Nat) : Nat → List (Bytes × Value) → Work Bytes
  | _, [] => (ret (.ok [])).tick
  | times, (k, v) :: ms =>
    ((put (spaces indent (times + 1))).andThen ((put [0x22]).andThen ((escaped k).andThen ((put [0x22]).andThen ((put [0x3a]).andThen ((put [0x20]).andThen
      ((formatW indent (times + 1) v).andThen
        ((if ms.isEmpty then ret (.ok []) else put [0x2c]).andThen ((put [0x0a]).andThen (formatMembersW indent times ms)))))))))).tick
end

/-- `dumps(indent)`, value_impl.hpp:822-825, `to_string`, 762-767, `format`, 795-800 and 827-830 -/
def dumpsW (v : Value) (indent : Option Nat := none) : Work Bytes :=
  match indent with
  | some n => (formatW n 0 v).tick.tick
  | none => (dumpW v).tick.tick

/-- Comparing two texts: the lengths first, then the bytes. -/
def textEqW (s t : Bytes) : Nat := if s.length = t.length then s.length + 1 else 1

/-- What `operator==` does for two values that are not both arrays or both objects, value_impl.hpp:856-871. -/
def eqLeafW (v w : Value) : Work Bool :=
  match v, w with
  | .str t s, .str u s' => ⟨v.eq w, (if t = u ∧ (t = .boolean ∨ t = .number ∨ t = .string) then textEqW s s' else 0) + 1, 0⟩
  | _, _ => ⟨v.eq w, 1, 0⟩

mutual
/-- `value::operator==`, value_impl.hpp:856-876, with the frames of array_impl.hpp:414-417 and object_impl.hpp:324-327 -/
def eqW : Value → Value → Work Bool
  | .arr .array vs, w =>
    match w with
    | .arr .array ws => (if vs.length ≠ ws.length then ret (.ok false) else eqElemsW vs ws).nest.tick.tick
    | w => eqLeafW (.arr .array vs) w
  | .obj .object ms, w =>
    match w with
    | .obj .object ns => (if ms.length ≠ ns.length then ret (.ok false) else eqMembersW ms ns).nest.tick.tick
    | w => eqLeafW (.obj .object ms) w
  | v, w => eqLeafW v w
/-- `std::equal` over the elements of two arrays of the same size -/
def eqElemsW : List Value → List Value → Work Bool
  | [], _ => (ret (.ok true)).tick
  | _ :: _, [] => (ret (.ok true)).tick
  | v :: vs, w :: ws => ((eqW v w).bind fun b => if b then eqElemsW vs ws else ret (.ok false)).tick
/-- `std::equal` over the nodes of two maps of the same size: the key, then the value -/
def eqMembersW : List (Bytes × Value) → List (Bytes × Value) → Work Bool
  | [], _ => (ret (.ok true)).tick
  | _ :: _, [] => (ret (.ok true)).tick
  | (k, v) :: ms, (k', w) :: ns =>
    (Work.bind ⟨.ok (decide (k = k')), textEqW k k', 0⟩ fun same =>
      if same then (eqW v w).bind fun b => if b then eqMembersW ms ns else ret (.ok false) else ret (.ok false)).tick
end

end Value
end Meojson
