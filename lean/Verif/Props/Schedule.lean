import Verif.Proofs.Schedule
import Verif.Props.Heap

/-!
# C64: threads

Several threads run statements on values. Each statement is one step of the schedule; `C64_private` says which memory such a step reads and writes, so that steps
that do not conflict may also overlap. Allocation is atomic.
-/

set_option autoImplicit false

namespace Meojson
open Mem Stores

/-- Whatever a statement does (it may throw, run out of memory, or be undefined), it depends only on the memory that belongs to the variables it uses: in another
memory that differs elsewhere it ends in the same way, with the same result. And it changes only variables it writes, memory that belonged to these, and memory
that was free. -/
theorem C64_private {st st' : State} (hf : Fresh st) (hf' : Fresh st') (oom : Nat → Bool) (op : Op) (h : Alike (uses op) st st') :
    SameEnd (fun s s' => Alike (uses op) s s' ∧ Kept (writes op) st s ∧ Kept (writes op) st' s') (step oom st op) (step oom st' op) :=
  step_private hf hf' oom op h

/-- What belongs to different variables is different memory, after any history of the specification. So two statements, neither of which writes a variable that the other
uses, do not race: what the one may write (by `C64_private`) the other neither reads nor writes. -/
theorem C64_no_race {ops : List Op} {σ : Store} (h : Steps Store.empty ops σ) :
    ∃ st, run ample State.init ops = .done st ∧ Fresh st ∧
      ∀ o1 o2, NoConflict o1 o2 → ∀ x ∈ writes o1, ∀ y ∈ uses o2, x ≠ y ∧ ∀ a, Owns st x a → ¬ Owns st y a := by
  obtain ⟨st, F, h1, H, _, _⟩ := histories h
  refine ⟨st, h1, H.clean, fun o1 o2 hn x hx y hy => ?_⟩
  have hne : x ≠ y := fun e => hn.1 x hx (e ▸ hy)
  exact ⟨hne, fun a ha hb => H.disj x y hne a (H.owns ha) (H.owns hb)⟩

/-- Every schedule of threads whose statements do not conflict: if each thread alone follows the specification, then so does the schedule, it ends without undefined
behaviour, and every variable that no other thread writes has the value that the thread alone gives it. -/
theorem C64_schedule {setup : List Op} {σ : Store} (h : Steps Store.empty setup σ) {sched : List (Nat × Op)}
    (hn : ∀ i o1 j o2, (i, o1) ∈ sched → (j, o2) ∈ sched → i ≠ j → NoConflict o1 o2) (ht : ∀ i, ∃ τ, Steps σ (thread i sched) τ) :
    ∃ st, run ample State.init (setup ++ sched.map (·.2)) = .done st ∧
      ∀ i, ∃ sti, run ample State.init (setup ++ thread i sched) = .done sti ∧
        ∀ x, (∀ j o, (j, o) ∈ sched → j ≠ i → x ∉ writes o) → st.value x = sti.value x := by
  obtain ⟨σ', h1, h2⟩ := schedules sched σ (fun i => Classical.choose (ht i)) hn fun i => Classical.choose_spec (ht i)
  obtain ⟨st, _, h3, _, _, h4⟩ := histories (steps_append h h1)
  refine ⟨st, h3, fun i => ?_⟩
  obtain ⟨sti, _, h5, _, _, h6⟩ := histories (steps_append h (Classical.choose_spec (ht i)))
  refine ⟨sti, h5, fun x hx => ?_⟩
  rw [h4, h6, h2 i x hx]

/-- Looking at a value by the non-const `as_array()` is a write: it may change the value (null becomes an array), so it counts among the statements that must not meet a
reader. -/
theorem C64_as_array_writes : ∃ st, run ample State.init [.init 0 .null, .asArray ⟨0, []⟩] = .done st ∧ st.value 0 = some (.arr .array []) ∧
    writes (.asArray ⟨0, []⟩) = [0] := ⟨_, rfl, by decide +kernel, rfl⟩

/-- And threads that do conflict: the order of the statements shows in the result. -/
theorem C64_conflict_shows : ∃ s1 s2, run ample State.init ([.init 0 (.arr .array []), .init 1 .null] ++ [.copyAssign ⟨1, []⟩ ⟨0, []⟩, .emplaceBack ⟨0, []⟩ ⟨0, []⟩]) = .done s1 ∧
    run ample State.init ([.init 0 (.arr .array []), .init 1 .null] ++ [.emplaceBack ⟨0, []⟩ ⟨0, []⟩, .copyAssign ⟨1, []⟩ ⟨0, []⟩]) = .done s2 ∧
    s1.value 1 = some (.arr .array []) ∧ s2.value 1 = some (.arr .array [.arr .array []]) := ⟨_, _, rfl, rfl, by decide +kernel, by decide +kernel⟩

-- Not vacuous: two threads that copy the same value 0 into their own values 1 and 2 and work on these.
example : ∃ st, run ample State.init ([.init 0 (.arr .array [.ofInt 1]), .init 1 (.arr .array []), .init 2 (.obj .object [])] ++
    [(1, Op.emplaceBack ⟨1, []⟩ ⟨0, []⟩), (2, .emplaceKey ⟨2, []⟩ [0x6b] ⟨0, []⟩), (1, .erasePos ⟨1, []⟩ 0), (2, .copyInit 3 ⟨0, [.pos 0]⟩)].map (·.2)) = .done st ∧
    st.value 1 = some (.arr .array []) ∧ st.value 2 = some (.obj .object [([0x6b], .arr .array [.ofInt 1])]) ∧ st.value 3 = some (.ofInt 1) ∧
    st.value 0 = some (.arr .array [.ofInt 1]) :=
  ⟨_, rfl, by decide +kernel, by decide +kernel, by decide +kernel, by decide +kernel⟩

example : ∀ i o1 j o2, (i, o1) ∈ [(1, Op.emplaceBack ⟨1, []⟩ ⟨0, []⟩), (2, .emplaceKey ⟨2, []⟩ [0x6b] ⟨0, []⟩), (1, .erasePos ⟨1, []⟩ 0), (2, .copyInit 3 ⟨0, [.pos 0]⟩)] →
    (j, o2) ∈ [(1, Op.emplaceBack ⟨1, []⟩ ⟨0, []⟩), (2, .emplaceKey ⟨2, []⟩ [0x6b] ⟨0, []⟩), (1, .erasePos ⟨1, []⟩ 0), (2, .copyInit 3 ⟨0, [.pos 0]⟩)] →
    i ≠ j → NoConflict o1 o2 := by
  intro i o1 j o2 h1 h2 hne
  simp only [List.mem_cons, Prod.mk.injEq, List.not_mem_nil, or_false] at h1 h2
  rcases h1 with ⟨rfl, rfl⟩ | ⟨rfl, rfl⟩ | ⟨rfl, rfl⟩ | ⟨rfl, rfl⟩ <;> rcases h2 with ⟨rfl, rfl⟩ | ⟨rfl, rfl⟩ | ⟨rfl, rfl⟩ | ⟨rfl, rfl⟩ <;>
    first | exact absurd rfl hne | simp [NoConflict, writes, uses, touches, places]

-- Nor is the thread's own claim: each thread follows the specification.
example : ∃ τ, Steps (((Store.empty.put 0 (some (.arr .array [.ofInt 1]))).put 1 (some (.arr .array []))))
    (thread 1 [(1, Op.emplaceBack ⟨1, []⟩ ⟨0, []⟩), (2, .emplaceKey ⟨2, []⟩ [0x6b] ⟨0, []⟩), (1, .erasePos ⟨1, []⟩ 0)]) τ :=
  ⟨_, .cons (.emplaceBack rfl (Or.inr rfl) rfl rfl (by simp [Whole, WholeAll, Value.ofInt])) (.cons (.erasePos rfl (Or.inr rfl)) .nil)⟩

end Meojson
