import Verif.Model.Reference

/-!
# `std::swap` of two values

The library has no `swap` of its own; `std::swap(a, b)` of the standard library, which algorithms such as `std::reverse` use on the iterators of a `json::array`
(include/common/array_impl.hpp:306-365), consists of a move construction and two move assignments (value.hpp:51, 416, value_impl.hpp:86, 854) through references that were
bound before.
-/

set_option autoImplicit false

namespace Meojson.Mem

/-- `std::swap(r, s)`: `value t = std::move(r); r = std::move(s); s = std::move(t);`, then the end of the lifetime of `t`. The texts are what is left of strings that were
moved from. No statement asks for memory. -/
def swapRefs (j₁ j₂ j₃ : Bytes) (t : Nat) (st : State) (r s : Ref) : Fin :=
  match st.var t, st.slot r with
  | none, some l =>
    takeFrom j₁ st l fun st v =>
    let st := st.write (.var t) v
    match st.slot r, st.slot s with
    | some l, some m =>
      (moveAssign j₂ st l m).bind fun st =>
      match st.slot s with
      | some m =>
        (moveAssign j₃ st m (.var t)).bind fun st =>
        match st.var t with
        | some v => dispose ⟨st.heap, fun y => if y = t then none else st.var y⟩ v
        | none => .ub
      | none => .ub
    | _, _ => .ub
  | _, _ => .ub

/-- A call of `std::swap` on the values that two expressions name. -/
def swapPlaces (j₁ j₂ j₃ : Bytes) (t : Nat) (st : State) (p q : Place) : Fin :=
  match st.refer p, st.refer q with
  | some r, some s => swapRefs j₁ j₂ j₃ t st r s
  | _, _ => .ub

/-- `for (; first < last; ++first, --last) std::iter_swap(first, last);` on the array at `a`, with `k` rounds to go. -/
def reverseLoop (junk : Nat → Bytes × Bytes × Bytes) (t : Nat) (a : Addr) : Nat → State → Nat → Nat → Fin
  | 0, st, _, _ => .done st
  | k + 1, st, first, last =>
    (swapRefs (junk first).1 (junk first).2.1 (junk first).2.2 t st (.elem a first) (.elem a last)).bind fun st => reverseLoop junk t a k st (first + 1) (last - 1)

/-- `auto& arr = p.as_array(); std::reverse(arr.begin(), arr.end());`: the iterators are pointers into the buffer of the vector (array_impl.hpp:306-314). -/
def reverseArray (junk : Nat → Bytes × Bytes × Bytes) (t : Nat) (st : State) (p : Place) : Fin :=
  match (st.refer p).bind st.deref with
  | some ⟨.array, .arr (some a)⟩ =>
    match st.heap.cell a with
    | some (.arr xs) => reverseLoop junk t a (xs.length / 2) st 0 (xs.length - 1)
    | _ => .ub
  | _ => .ub

end Meojson.Mem
