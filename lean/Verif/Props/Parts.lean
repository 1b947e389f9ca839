import Verif.Proofs.Parts
import Verif.Props.Heap

/-!
# C88: threads that work on different parts of one value

Two threads that share a document, each with its own member or element of it. Places are expressions like `v["a"][0]`; each statement is one step of the schedule.
`C88_private` says which slots and which memory a step reads and writes, `C88_unseen` that a step which does not clash sees none of that, so that steps that do not clash
may also overlap. Allocation is atomic.
-/

set_option autoImplicit false

namespace Meojson
open Mem Stores

/-- However a statement ends, it depends only on the slots that its places denote and on what is below them: in another memory, in which the places denote the same slots
and which differs anywhere else (also in the other elements of the containers on the way), it ends in the same way, with the same result. And it changes only the slots it
writes, what was below these, and memory that was free: no other element of a container on the way, nor its size or keys. -/
theorem C88_private {st st' : State} (hf : Fresh st) (hf' : Fresh st') (oom : Nat → Bool) (op : Op)
    (hp : ∀ p ∈ places op, (st.resolve p).isSome ∧ st'.resolve p = st.resolve p) (h : Agrees (Used st op) st st') :
    SameEnd (fun s s' => Agrees (Used st op) s s' ∧ KeptBut (Written st op) st s ∧ KeptBut (Written st op) st' s') (step oom st op) (step oom st' op) :=
  step_private_at hf hf' oom op hp h

/-- After any history: what the first of two statements that do not clash writes is neither on the way to a place of the second, nor below it, nor above it. -/
theorem C88_no_race {ops : List Op} {σ : Store} (h : Steps Store.empty ops σ) :
    ∃ st, run ample State.init ops = .done st ∧ Fresh st ∧ ∀ o1 o2, NoClash o1 o2 → ∀ l, Written st o1 l →
      (∀ q ∈ touches o2 ++ places o2, ∀ r m, Within q r → Names st r m → m ≠ l ∧ ∀ a i, m = .child a i → ¬ Below st l a) ∧
      (∀ m, Used st o2 m → ∀ a, Below st m a → ¬ Below st l a ∧ ∀ i, l ≠ .child a i) := by
  obtain ⟨st, F, h1, H, ht, _⟩ := histories h
  have T : KeyedStore σ := keyedStore_of_tagged ht
  refine ⟨st, h1, H.clean, fun o1 o2 hn l ⟨p, hp, hl⟩ => ⟨fun q hq r m hr hm => ?_, fun m ⟨q, hq, hm⟩ => ?_⟩⟩
  · have := H.away_names T hl hm (fun h => (hn.1 p hp q hq).2 ⟨(hr.1.trans h.1).symm, h.2.trans hr.2⟩)
    exact ⟨this.1, this.2.1⟩
  · have h := hn.1 p hp q hq
    exact (H.away_names T hl hm fun h' => h.2 ⟨h'.1.symm, h'.2⟩).2.2 fun h' => h.1 h'

/-- So whatever the first statement has done, the places of the second denote the same slots as before, with the same values and the same memory below. -/
theorem C88_unseen {ops : List Op} {σ : Store} (h : Steps Store.empty ops σ) :
    ∃ st, run ample State.init ops = .done st ∧ ∀ o1 o2, NoClash o1 o2 → ∀ st', KeptBut (Written st o1) st st' →
      (∀ p l, p ∈ places o2 → st.resolve p = some l → st'.resolve p = some l) ∧
      (∀ l, Used st o2 l → st'.read l = st.read l ∧ ∀ a, Below st l a → st'.heap.cell a = st.heap.cell a) := by
  obtain ⟨st, F, h1, H, ht, _⟩ := histories h
  exact ⟨st, h1, fun o1 o2 hn st' K => H.unseen (keyedStore_of_tagged ht) hn K⟩

/-- Every schedule of threads whose statements do not clash: if each thread alone follows the specification, then so does the schedule, it ends without undefined behaviour,
and what no other thread changes has the value that the thread alone gives it. -/
theorem C88_schedule {setup : List Op} {σ : Store} (h : Steps Store.empty setup σ) {sched : List (Nat × Op)}
    (hn : ∀ i o1 j o2, (i, o1) ∈ sched → (j, o2) ∈ sched → i ≠ j → NoClash o1 o2) (ht : ∀ i, ∃ τ, Steps σ (thread i sched) τ) :
    ∃ st, run ample State.init (setup ++ sched.map (·.2)) = .done st ∧
      ∀ i, ∃ sti, run ample State.init (setup ++ thread i sched) = .done sti ∧
        ∀ p : Place, (∀ j o, (j, o) ∈ sched → j ≠ i → ∀ q ∈ touches o, Apart q p) → (st.value p.x).bind (getAt · p.path) = (sti.value p.x).bind (getAt · p.path) := by
  obtain ⟨σ', h1, h2⟩ := schedules_at sched σ (fun i => Classical.choose (ht i)) hn fun i => Classical.choose_spec (ht i)
  obtain ⟨st, _, h3, _, _, h4⟩ := histories (steps_append h h1)
  refine ⟨st, h3, fun i => ?_⟩
  obtain ⟨sti, _, h5, _, _, h6⟩ := histories (steps_append h (Classical.choose_spec (ht i)))
  refine ⟨sti, h5, fun p hp => ?_⟩
  rw [h4, h6]
  exact h2 i p hp

/-- Statements on different variables that do not conflict do not clash: `C88` contains `C64`. -/
theorem C88_variables {o1 o2 : Op} (h : NoConflict o1 o2) : NoClash o1 o2 := by
  have key : ∀ {a b : Op}, (∀ x ∈ writes a, x ∉ uses b) → ∀ p ∈ touches a, ∀ q ∈ touches b ++ places b, Apart p q := by
    intro a b h p hp q hq
    have hne : p.x ≠ q.x := fun e => h p.x (List.mem_map.2 ⟨p, hp, rfl⟩) (by
      rw [e]
      rcases List.mem_append.1 hq with hq | hq
      · simp only [uses, writes, List.mem_append]; exact .inl (List.mem_map.2 ⟨q, hq, rfl⟩)
      · simp only [uses, List.mem_append]; exact .inr (List.mem_map.2 ⟨q, hq, rfl⟩))
    exact ⟨fun h => hne h.1, fun h => hne h.1⟩
  exact ⟨key h.1, key h.2⟩

/-- But `v["a"] = x` and `v["b"] = y` for keys that may be missing do clash, since `operator[]` then adds to the one object: the statement that adds a key changes the
object, and so anything inside. -/
theorem C88_adding_clashes (p : Place) (k k' : Bytes) (path : List Sel) (v : Value) :
    ¬ NoClash (.index p k) (.index p k') ∧ ¬ NoClash (.index p k) (.assign ⟨p.x, p.path ++ .key k' :: path⟩ v) := by
  refine ⟨fun h => (h.1 p (by simp [touches]) p (by simp [touches])).1 ⟨rfl, List.prefix_refl _⟩, fun h => ?_⟩
  exact (h.1 p (by simp [touches]) ⟨p.x, p.path ++ .key k' :: path⟩ (by simp [touches])).2 ⟨rfl, List.prefix_append _ _⟩

/-- And where statements do clash the order shows: erasing the first element lets `v[0]` name another one. -/
theorem C88_erasing_shows : ∃ s1 s2,
    run ample State.init ([.init 0 (.arr .array [.ofInt 1, .ofInt 2])] ++ [.assign ⟨0, [.pos 0]⟩ .null, .erasePos ⟨0, []⟩ 0]) = .done s1 ∧
    run ample State.init ([.init 0 (.arr .array [.ofInt 1, .ofInt 2])] ++ [.erasePos ⟨0, []⟩ 0, .assign ⟨0, [.pos 0]⟩ .null]) = .done s2 ∧
    s1.value 0 = some (.arr .array [.ofInt 2]) ∧ s2.value 0 = some (.arr .array [.null]) := ⟨_, _, rfl, rfl, by decide +kernel, by decide +kernel⟩

-- Not vacuous: two threads on the members "a" and "b" of one object, a third that reads "c".
private def doc : Value := .obj .object [([0x61], .arr .array [.ofInt 1]), ([0x62], .obj .object []), ([0x63], .ofInt 3)]
private def work : List (Nat × Op) :=
  [(1, .emplaceBack ⟨0, [.key [0x61]]⟩ ⟨0, [.key [0x61], .pos 0]⟩), (2, .index ⟨0, [.key [0x62]]⟩ [0x78]), (3, .copyInit 1 ⟨0, [.key [0x63]]⟩),
   (1, .erasePos ⟨0, [.key [0x61]]⟩ 0), (2, .copyAssign ⟨0, [.key [0x62], .key [0x78]]⟩ ⟨0, [.key [0x63]]⟩), (1, .assign ⟨0, [.key [0x61], .pos 0]⟩ .null)]

example : ∃ st, run ample State.init ([.init 0 doc] ++ work.map (·.2)) = .done st ∧
    st.value 0 = some (.obj .object [([0x61], .arr .array [.null]), ([0x62], .obj .object [([0x78], .ofInt 3)]), ([0x63], .ofInt 3)]) ∧ st.value 1 = some (.ofInt 3) :=
  ⟨_, rfl, by decide +kernel, by decide +kernel⟩

example : ∀ i o1 j o2, (i, o1) ∈ work → (j, o2) ∈ work → i ≠ j → NoClash o1 o2 := by
  intro i o1 j o2 h1 h2 hne
  simp only [work, List.mem_cons, Prod.mk.injEq, List.not_mem_nil, or_false] at h1 h2
  rcases h1 with ⟨rfl, rfl⟩ | ⟨rfl, rfl⟩ | ⟨rfl, rfl⟩ | ⟨rfl, rfl⟩ | ⟨rfl, rfl⟩ | ⟨rfl, rfl⟩ <;>
    rcases h2 with ⟨rfl, rfl⟩ | ⟨rfl, rfl⟩ | ⟨rfl, rfl⟩ | ⟨rfl, rfl⟩ | ⟨rfl, rfl⟩ | ⟨rfl, rfl⟩ <;>
    first | exact absurd rfl hne | simp [NoClash, Apart, touches, places]

-- Each thread alone follows the specification.
example : ∃ τ, Steps (Store.empty.put 0 (some doc)) (thread 1 work) τ :=
  ⟨_, .cons (.emplaceBack rfl (Or.inr rfl) rfl rfl (by simp [Whole, Value.ofInt])) (.cons (.erasePos rfl (Or.inr rfl)) (.cons (.assign rfl (by simp [Tagged, Value.null])) .nil))⟩
example : ∃ τ, Steps (Store.empty.put 0 (some doc)) (thread 2 work) τ :=
  ⟨_, .cons (.index rfl (Or.inr rfl)) (.cons (.copyAssign rfl rfl (by simp [Whole, Value.ofInt]) (by simp [Inside])) .nil)⟩

-- And a memory that differs in a sibling: the statement on element 0 does not see element 1.
example : ∃ st st', run ample State.init [.init 0 (.arr .array [.ofInt 1, .ofInt 2])] = .done st ∧ run ample State.init [.init 0 (.arr .array [.ofInt 1, .null])] = .done st' ∧
    st.resolve ⟨0, [.pos 0]⟩ = some (.child 0 0) ∧ st'.resolve ⟨0, [.pos 0]⟩ = st.resolve ⟨0, [.pos 0]⟩ ∧ st'.read (.child 0 0) = st.read (.child 0 0) ∧
    st'.heap.next = st.heap.next ∧ st'.heap.cell 0 ≠ st.heap.cell 0 :=
  ⟨_, _, rfl, rfl, by decide +kernel, by decide +kernel, by decide +kernel, by decide +kernel, by decide +kernel⟩

end Meojson
