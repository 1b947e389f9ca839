import Verif.Proofs.Retry
import Verif.Props.Heap

/-!
# C104: a statement that has run out of memory can be executed again
-/

set_option autoImplicit false

namespace Meojson
open Mem Stores

/-- The claim: if a statement throws because memory is refused, then the same statement, with enough memory, does afterwards what it should have done at first. -/
def C104Claim : Prop := ∀ (ops : List Op) (σ σ' : Store) (op : Op) (oom : Nat → Bool) (st st' : State), Steps Store.empty ops σ → Step σ op σ' → run ample State.init ops = .done st →
  step oom st op = .thrown st' → ∃ st'', step ample st' op = .done st'' ∧ ∀ x, st''.value x = σ' x

/-- `json::value v; v["k"];` with no memory for the object: the tag is that of an object already and the payload still a text. Executed again, `v["k"]`
ends the program: `empty()`, which is `noexcept`, throws `std::bad_variant_access`. -/
theorem C104_refuted : ¬ C104Claim := by
  intro h
  have hs : ∃ st st', run ample State.init [.init 0 .null] = .done st ∧ step (fun _ => true) st (.index ⟨0, []⟩ [0x6b]) = .thrown st' ∧
      step ample st' (.index ⟨0, []⟩ [0x6b]) = .ub := ⟨_, _, rfl, rfl, rfl⟩
  obtain ⟨st, st', h1, h2, h3⟩ := hs
  obtain ⟨st'', h4, _⟩ := h _ _ _ _ _ _ _ (.cons (.init rfl (by simp [Tagged, Value.null])) .nil) (.index (ms := []) rfl (.inl ⟨.null, rfl⟩)) h1 h2
  rw [h3] at h4; cases h4

/-- So for each of the statements that make a container of a value that is none yet, `erase` among them. -/
theorem C104_refuted_blank : ∃ st, run ample State.init [.init 0 .null, .init 1 (.arr .array []), .init 2 (.obj .object [])] = .done st ∧
    ∀ op ∈ ([.index ⟨0, []⟩ [0x6b], .emplaceBack ⟨0, []⟩ ⟨1, []⟩, .emplaceKey ⟨0, []⟩ [0x6b] ⟨1, []⟩, .erasePos ⟨0, []⟩ 0, .eraseKey ⟨0, []⟩ [0x6b], .append ⟨0, []⟩ ⟨1, []⟩,
      .merge ⟨0, []⟩ ⟨2, []⟩, .asArray ⟨0, []⟩, .asObject ⟨0, []⟩, .emplaceBackMove ⟨0, []⟩ ⟨1, []⟩ [], .emplaceKeyMove ⟨0, []⟩ [0x6b] ⟨1, []⟩ [],
      .appendMove ⟨0, []⟩ ⟨1, []⟩ fun _ => [], .mergeMove ⟨0, []⟩ ⟨2, []⟩ fun _ => []] : List Op),
      ∃ st', step (fun _ => true) st op = .thrown st' ∧ step ample st' op = .ub := by
  refine ⟨_, rfl, ?_⟩
  simp only [List.forall_mem_cons]
  refine ⟨⟨_, rfl, rfl⟩, ⟨_, rfl, rfl⟩, ⟨_, rfl, rfl⟩, ⟨_, rfl, rfl⟩, ⟨_, rfl, rfl⟩, ⟨_, rfl, rfl⟩, ⟨_, rfl, rfl⟩, ⟨_, rfl, rfl⟩, ⟨_, rfl, rfl⟩, ⟨_, rfl, rfl⟩, ⟨_, rfl, rfl⟩,
    ⟨_, rfl, rfl⟩, ⟨_, rfl, rfl⟩, ?_⟩
  intro _ h; cases h

/-- And whatever the history: if the value is to become a container and is none of this kind, and there is no memory for the container, the statement throws, and executed again
it ends the program, with any memory. -/
theorem C104_blank {ops : List Op} {σ σ' : Store} {op : Op} {p : Place} {t : VType} {v : Value} (h : Steps Store.empty ops σ) (hop : Step σ op σ')
    (hc : container op = some (p, t)) (hp : σ.get p = some v) (hv : Hollowable v) (hne : v.type ≠ t) :
    ∃ st st', run ample State.init ops = .done st ∧ step (fun _ => true) st op = .thrown st' ∧ ∀ oom, step oom st' op = .ub := by
  obtain ⟨st, F, h1, H, T, _⟩ := histories h
  obtain ⟨st', h2, h3⟩ := blank_fatal H (keyedStore_of_tagged T) hop hc hp hv hne
  exact ⟨st, st', h1, h2, h3⟩

/-- `json::value v = {{"a", 1}}; v = v["a"];` with no memory for the text: `v` has the tag of a number, and `v["a"]` is not there any more. -/
theorem C104_refuted_part : ∃ st st', run ample State.init [.init 0 (.obj .object [([0x61], .ofInt 1)])] = .done st ∧
    step (fun _ => true) st (.copyAssign ⟨0, []⟩ ⟨0, [.key [0x61]]⟩) = .thrown st' ∧ step ample st' (.copyAssign ⟨0, []⟩ ⟨0, [.key [0x61]]⟩) = .thrown st' :=
  ⟨_, _, rfl, rfl, rfl⟩

/-- `json::value v = {{"x", 1}}, w = {{"a", "s"}, {"b", "t"}}; v |= std::move(w.as_object());` with no memory for the second member: the first one has been moved. Done again it is moved
once more, and what is left of a text that was moved from takes the place of the text. -/
theorem C104_refuted_move : ∃ st st' st'', run ample State.init [.init 0 (.obj .object [([0x78], .ofInt 1)]),
      .init 1 (.obj .object [([0x61], .str .string [0x73]), ([0x62], .str .string [0x74])])] = .done st ∧
    step (fun a => a = 3) st (.mergeMove ⟨0, []⟩ ⟨1, []⟩ fun _ => []) = .thrown st' ∧ step ample st' (.mergeMove ⟨0, []⟩ ⟨1, []⟩ fun _ => []) = .done st'' ∧
    st''.value 0 = some (.obj .object [([0x61], .str .string []), ([0x62], .str .string [0x74]), ([0x78], .ofInt 1)]) :=
  ⟨_, _, _, rfl, rfl, rfl, by decide +kernel⟩

/-- Otherwise the statement can be executed again, however often it fails and wherever: in the end every variable has the value that it should have had at once. -/
theorem C104_partial {ops : List Op} {σ σ' : Store} {op : Op} (h : Steps Store.empty ops σ) (hop : Step σ op σ') (hr : Repeatable σ op) (ooms : List (Nat → Bool)) :
    ∃ st st', run ample State.init ops = .done st ∧ retry ooms st op = .done st' ∧ ∀ x, st'.value x = σ' x := by
  obtain ⟨st, F, h1, H, T, _⟩ := histories h
  obtain ⟨st', F', h2, H'⟩ := retry_done ooms H (keyedStore_of_tagged T) hr hop
  exact ⟨st, st', h1, h2, H'.value⟩

/-- Most statements have done nothing when they throw: every variable has the value it had. -/
theorem C104_nothing {ops : List Op} {σ σ' : Store} {op : Op} {oom : Nat → Bool} {st st' : State} (h : Steps Store.empty ops σ) (hop : Step σ op σ') (hr : AllOrNothing σ op)
    (h1 : run ample State.init ops = .done st) (h2 : step oom st op = .thrown st') : ∀ x, st'.value x = σ x := by
  obtain ⟨st0, F, h3, H, T, _⟩ := histories h
  rw [h1] at h3; cases h3
  have := step_ends H (keyedStore_of_tagged T) oom hop
  rw [h2] at this
  obtain ⟨_, σ'', ha, F', H'⟩ := this
  rw [aborted_nothing (keyedStore_of_tagged T) hr hop ha] at H'
  exact H'.value

/-- In particular `p.emplace(s)`, `p += s` and `p[k]` for a container `p` of the right kind, and `p.emplace(k, s)` for a key that is not there. -/
theorem C104_nothing_cases {σ : Store} {p s : Place} {k : Bytes} {vs : List Value} {ms : List (Bytes × Value)} :
    (σ.get p = some (.arr .array vs) → AllOrNothing σ (.emplaceBack p s) ∧ AllOrNothing σ (.append p s)) ∧
    (σ.get p = some (.obj .object ms) → AllOrNothing σ (.index p k) ∧ (ms.lookup k = none → AllOrNothing σ (.emplaceKey p k s))) := by
  refine ⟨fun h => ⟨⟨fun q t v hc hg _ => ?_, trivial⟩, ⟨fun q t v hc hg _ => ?_, trivial⟩⟩,
    fun h => ⟨⟨fun q t v hc hg _ => ?_, trivial⟩, fun hk => ⟨fun q t v hc hg _ => ?_, fun w v hg => ?_⟩⟩⟩
  all_goals first | (cases hc; rw [h] at hg; cases hg; rfl) | (rw [get_key h, hk] at hg; cases hg)

-- Not vacuous: `json::value v = {{"x", 1}}, w = {{"a", "s"}, {"x", json::array()}}; v |= w.as_object();`, of which the first two attempts fail, the second one after a member was merged.
example : ∃ st st1 st2 st3, run ample State.init [.init 0 (.obj .object [([0x78], .ofInt 1)]), .init 1 (.obj .object [([0x61], .str .string [0x73]), ([0x78], .arr .array [])])] = .done st ∧
    step (fun a => a = 3) st (.merge ⟨0, []⟩ ⟨1, []⟩) = .thrown st1 ∧ step (fun a => a = 5) st1 (.merge ⟨0, []⟩ ⟨1, []⟩) = .thrown st2 ∧
    st2.value 0 = some (.obj .object [([0x61], .str .string [0x73]), ([0x78], .str .array [0x31])]) ∧
    retry [fun a => a = 3, fun a => a = 5] st (.merge ⟨0, []⟩ ⟨1, []⟩) = .done st3 ∧
    st3.value 0 = some (.obj .object [([0x61], .str .string [0x73]), ([0x78], .arr .array [])]) :=
  ⟨_, _, _, _, rfl, rfl, rfl, by decide +kernel, rfl, by decide +kernel⟩

example : Repeatable (Store.empty.put 0 (some (.obj .object []))) (.merge ⟨0, []⟩ ⟨1, []⟩) :=
  ⟨fun p t v hc hg _ => by cases hc; cases hg; rfl, trivial⟩

end Meojson
