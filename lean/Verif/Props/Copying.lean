import Verif.Props.Heap
import Verif.Props.Safety
import Verif.Proofs.Copying

/-!
# C75: what copying and destroying a value cost

`copyVal n` and `destroyVal n` (Model/Heap.lean) are the copy constructor and the destructor of a value with at most `n` calls inside each other.
`parts`, `containers` and `levels` (Spec/Work.lean) say how large and how deep a value is.
-/

set_option autoImplicit false

namespace Meojson
open Mem Stores

/-- After any history the destructor of a variable frees exactly one block for each array and object in the value, all of which were live, and nothing else,
and needs exactly as many calls inside each other as the value has levels. -/
theorem C75_destroy {ops : List Op} {σ : Store} {x : Nat} {v : Value} (h : Steps Store.empty ops σ) (hx : σ x = some v) :
    ∃ st y g, ∃ A : List Nat, run ample State.init ops = .done st ∧ st.var x = some y ∧
      A.Nodup ∧ A.length = v.containers ∧ (∀ a ∈ A, st.heap.cell a ≠ none) ∧
      (∀ a, g.cell a = if a ∈ A then none else st.heap.cell a) ∧ ∀ n, destroyVal n st.heap y = if v.levels ≤ n then some g else none := by
  obtain ⟨st, F, h1, H, _⟩ := histories h
  obtain ⟨y, hy, hr⟩ := H.rep _ _ hx
  refine ⟨st, y, ⟨fun a => if a ∈ F x then none else st.heap.cell a, st.heap.next⟩, F x, h1, hy, H.nodup x, hr.cells, hr.live, fun _ => rfl, fun n => ?_⟩
  obtain ⟨d1, d2⟩ := hr.destroys (H.nodup x) (n := n)
  split
  · next hn =>
    obtain ⟨⟨c, m⟩, e, f1, f2⟩ := d1 hn
    rw [e]
    simp only at f1 f2
    rw [f1, funext f2]
  · next hn => exact d2 (by omega)

/-- After any history a value, which may be part of another one, is copied with one allocation for each value in it.
One new block for each array and object stays, the rest of the memory is as before, and the copy represents the same value.
It takes exactly as many calls inside each other as the value has levels. -/
theorem C75_copy {ops : List Op} {σ : Store} {s : Place} {v : Value} (h : Steps Store.empty ops σ) (hs : σ.get s = some v) (hw : Whole v) :
    ∃ st l y, run ample State.init ops = .done st ∧ st.resolve s = some l ∧ st.read l = some y ∧
      (∀ n, n < v.levels → copyVal ample n st.heap y = .ub) ∧
      ∀ n, v.levels ≤ n → ∃ g z, ∃ B : List Nat, copyVal ample n st.heap y = .ok g z ∧ g.next = st.heap.next + v.parts ∧ reify g g.fuel z = some v ∧
        B.Nodup ∧ B.length = v.containers ∧ (∀ a ∈ B, st.heap.next ≤ a ∧ a < g.next ∧ st.heap.cell a = none ∧ g.cell a ≠ none) ∧
        ∀ a, a ∉ B → g.cell a = st.heap.cell a := by
  obtain ⟨st, F, h1, H, T, _⟩ := histories h
  obtain ⟨l, y, A, p1, p2, p3, p4, _⟩ := H.place (keyedStore_of_tagged T) hs
  have key := fun n => p3.copies (oom := ample) (fun _ => rfl) (n := n) hw H.clean fun a ha => H.lt _ _ (p4 a ha)
  refine ⟨st, l, y, h1, p1, p2, fun n hn => (key n).2 hn, fun n hn => ?_⟩
  obtain ⟨g, z, B, e1, e2, e3, e4⟩ := (key n).1 hn
  refine ⟨g, z, B, e1, e4, e2.reify ?_, e3.nodup, e2.cells, fun a ha => ⟨(e3.fresh a ha).1, (e3.fresh a ha).2, H.clean a (e3.fresh a ha).1, e2.live a ha⟩, e3.old⟩
  exact Nat.lt_succ_of_le (nodup_length_le e3.nodup fun a ha => (e3.fresh a ha).2)

-- Not vacuous: the array `["s", ["t"]]`; destroying it, and copying the array inside it.
section
private def nest : Value := .ofArray [.str .string (ascii "s"), .ofArray [.str .string (ascii "t")]]
private theorem nest_steps : Steps Store.empty [.init 0 nest] (Store.empty.put 0 (some nest)) :=
  .cons (.init rfl ⟨rfl, ⟨by decide, by decide⟩, ⟨rfl, ⟨by decide, by decide⟩, trivial⟩, trivial⟩) .nil

private theorem nest_size : nest.levels = 3 ∧ nest.parts = 4 ∧ nest.containers = 2 := by decide +kernel
example : ∃ st y, run ample State.init [.init 0 nest] = .done st ∧ st.var 0 = some y ∧ destroyVal 2 st.heap y = none ∧ (destroyVal 3 st.heap y).isSome := by
  obtain ⟨st, y, g, A, h1, h2, _, _, _, _, h3⟩ := C75_destroy nest_steps (x := 0) (v := nest) rfl
  exact ⟨st, y, h1, h2, by rw [h3, nest_size.1]; rfl, by rw [h3, nest_size.1]; rfl⟩
example : ∃ st l y, run ample State.init [.init 0 nest] = .done st ∧ st.resolve ⟨0, [.pos 1]⟩ = some l ∧ st.read l = some y ∧ copyVal ample 1 st.heap y = .ub ∧
    ∃ g z, copyVal ample 2 st.heap y = .ok g z ∧ g.next = st.heap.next + 2 := by
  obtain ⟨st, l, y, h1, h2, h3, h4, h5⟩ := C75_copy nest_steps (s := ⟨0, [.pos 1]⟩) (v := .ofArray [.str .string (ascii "t")]) rfl ⟨trivial, trivial⟩
  obtain ⟨g, z, _, e1, e2, _⟩ := h5 2 (by decide +kernel)
  exact ⟨st, l, y, h1, h2, h3, h4 1 (by decide +kernel), g, z, e1, e2⟩
end

mutual
theorem levels_bounds : ∀ v : Value, v.levels ≤ v.parts ∧ v.levels ≤ v.containers + 1 ∧ v.containers ≤ v.parts
  | .str .. | .arrNull _ | .objNull _ => by simp [Value.levels, Value.parts, Value.containers]
  | .arr _ vs => by have := levelsAll_bounds vs; simp only [Value.levels, Value.parts, Value.containers]; omega
  | .obj _ ms => by have := levelsMembers_bounds ms; simp only [Value.levels, Value.parts, Value.containers]; omega
theorem levelsAll_bounds : ∀ vs : List Value, Value.levelsAll vs ≤ Value.partsAll vs ∧ Value.levelsAll vs ≤ Value.containersAll vs + 1 ∧ Value.containersAll vs ≤ Value.partsAll vs
  | [] => by simp [Value.levelsAll, Value.partsAll, Value.containersAll]
  | v :: vs => by have := levels_bounds v; have := levelsAll_bounds vs; simp only [Value.levelsAll, Value.partsAll, Value.containersAll]; omega
theorem levelsMembers_bounds : ∀ ms : List (Bytes × Value), Value.levelsMembers ms ≤ Value.partsMembers ms ∧ Value.levelsMembers ms ≤ Value.containersMembers ms + 1 ∧
    Value.containersMembers ms ≤ Value.partsMembers ms
  | [] => by simp [Value.levelsMembers, Value.partsMembers, Value.containersMembers]
  | (_, v) :: ms => by have := levels_bounds v; have := levelsMembers_bounds ms; simp only [Value.levelsMembers, Value.partsMembers, Value.containersMembers]; omega
end

/-- So the calls of neither nest deeper than there are values, and than there are arrays and objects and one more. -/
theorem C75_bounded (v : Value) : v.levels ≤ v.parts ∧ v.levels ≤ v.containers + 1 ∧ v.containers ≤ v.parts := levels_bounds v

theorem deepArray_levels (d : Nat) : (deepArray d).levels = d + 1 := by
  induction d with
  | zero => rfl
  | succ d ih => simp [deepArray, Value.ofArray, Value.levels, Value.levelsAll, ih]

/-- There is no limit: `d` opening and `d` closing brackets are accepted, and the destructor of the result nests `d` deep. -/
theorem C75_unbounded (a : Accel) (jsonc : Bool) (d : Nat) :
    ∃ v, parser ⟨jsonc, a.traits⟩ (List.replicate (d + 1) 0x5b ++ List.replicate (d + 1) 0x5d) = some v ∧ v.levels = d + 1 ∧
      ∃ st y, run ample State.init [.init 0 v] = .done st ∧ st.var 0 = some y ∧ destroyVal d st.heap y = none ∧ (destroyVal (d + 1) st.heap y).isSome := by
  have tagged : ∀ d, Tagged (deepArray d) := fun d => by
    induction d with
    | zero => exact ⟨rfl, trivial⟩
    | succ d ih => exact ⟨rfl, ih, trivial⟩
  refine ⟨deepArray d, ?_, deepArray_levels d, ?_⟩
  · obtain ⟨t, ht⟩ := parseArrayT_deep ⟨jsonc, a.traits⟩ d (parseFuel (List.replicate (d + 1) 0x5b ++ List.replicate (d + 1) 0x5d)) [] (by
      simp only [parseFuel, List.length_append, List.length_replicate]; omega)
    rw [List.append_nil] at ht
    have : ∃ t, parseRunT ⟨jsonc, a.traits⟩ (parseFuel (List.replicate (d + 1) 0x5b ++ List.replicate (d + 1) 0x5d))
        (List.replicate (d + 1) 0x5b ++ List.replicate (d + 1) 0x5d) = ⟨.ok (deepArray d) [], t, d + 1⟩ := by
      generalize parseFuel (List.replicate (d + 1) 0x5b ++ List.replicate (d + 1) 0x5d) = n at ht ⊢
      rw [List.replicate_succ (n := d) (a := (0x5b : UInt8)), List.cons_append] at ht ⊢
      refine ⟨2 + (t + (2 + 0)) + 1, ?_⟩
      simp only [parseRunT, skipWhitespaceT_open, Run.bind, Bool.true_eq_false, if_false, if_true, ht]
      simp only [skipWhitespaceT, skipWhitespaceFT, Run.ret, Run.tick, Bool.false_eq_true, if_false, Nat.max_zero, Nat.zero_max]
    obtain ⟨t, ht⟩ := this
    simp only [parser, ← parseRunT_res, ht]
  · obtain ⟨st, y, g, A, h1, h2, _, _, _, _, h3⟩ := C75_destroy (σ := Store.empty.put 0 (some (deepArray d))) (x := 0) (v := deepArray d)
      (.cons (.init rfl (tagged d)) .nil) rfl
    exact ⟨st, y, h1, h2, by rw [h3, deepArray_levels, if_neg (by omega)], by rw [h3, deepArray_levels, if_pos (Nat.le_refl _)]; rfl⟩

end Meojson
