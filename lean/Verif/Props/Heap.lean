import Verif.Proofs.HeapHollow
import Verif.Proofs.HeapProgram

/-!
# C33–C37, C52: values in memory

Histories of statements on variables, run on the memory model of `Verif.Model.Heap`.
-/

set_option autoImplicit false

namespace Meojson
open Mem Stores

/-- Memory never runs out. -/
def ample : Nat → Bool := fun _ => false

theorem histories {ops : List Op} {σ : Store} (h : Steps Store.empty ops σ) :
    ∃ st F, run ample State.init ops = .done st ∧ SRep st σ [] F ∧ TaggedStore σ ∧ ∀ x, st.value x = σ x := by
  obtain ⟨st, F, h1, h2, _⟩ := steps_run srep_init keyed_empty h
  exact ⟨st, F, h1, h2, steps_tagged tagged_empty h, h2.value⟩

/-! ### C33 -/

/-- The claim, for copies only and without allocation failures: after any history the tags fit the payloads. -/
def C33Claim : Prop := ∀ ops st, (∀ op ∈ ops, Copying op) → (∀ x v, .init x v ∈ ops → Tagged v) → (∀ d v, .assign d v ∈ ops → Tagged v) → run ample State.init ops = .done st →
  ∀ x v, st.value x = some v → Tagged v

/-- `json::value a = {{"k", nullptr}}; a["k"] = a;`: `operator=` writes the tag of the target before it copies the source, and the target is part of the source.
The copy then contains a value with the tag of an object and the payload of a string. -/
theorem C33_refuted : ¬ C33Claim := by
  intro h
  have hr : ∃ st, run ample State.init [.init 0 (.obj .object [([0x6b], .null)]), .copyAssign ⟨0, [.key [0x6b]]⟩ ⟨0, []⟩] = .done st ∧
      st.value 0 = some (.obj .object [([0x6b], .obj .object [([0x6b], .str .object [])])]) := by
    refine ⟨_, rfl, ?_⟩
    decide +kernel
  obtain ⟨st, h1, h2⟩ := hr
  have := h _ st (by simp [Copying, Whole, WholeMembers, Value.null]) (by
    simp [Tagged, TaggedMembers, Value.null]) (by simp) h1 0 _ h2
  simp [Tagged, TaggedMembers] at this

/-- A history that follows the specification: it ends without undefined behaviour, every variable shows the value that the store semantics gives it, tags fit
payloads at every depth and keys ascend strictly. If nothing is moved, no value has a null pointer inside. -/
theorem C33_partial {ops : List Op} {σ : Store} (h : Steps Store.empty ops σ) :
    ∃ st, run ample State.init ops = .done st ∧ (∀ x, st.value x = σ x) ∧ (∀ x v, st.value x = some v → Tagged v) ∧
      ((∀ op ∈ ops, Copying op) → ∀ x v, st.value x = some v → Whole v) := by
  obtain ⟨st, F, h1, h2, h3, h4⟩ := histories h
  refine ⟨st, h1, h4, fun x v hv => h3 x v (h4 x ▸ hv), fun hc x v hv => ?_⟩
  exact steps_whole (fun _ _ h => by cases h) hc h x v (h4 x ▸ hv)

/-- The specification covers every statement on values out of which nothing was moved, except those whose source and target overlap in one of twelve ways. -/
theorem C33_covered {σ : Store} (T : TaggedStore σ) (W : WholeStore σ) {op : Op} (hs : Scoped σ op) (ho : ¬ Overlap σ op) :
    (∃ σ', Step σ op σ') ∨ Refused σ op := covered T W hs ho

/-- `json::value a = {1}; a += a.as_array();`: `std::vector::insert` is given iterators into the vector itself. -/
theorem C33_append_self : run ample State.init [.init 0 (.arr .array [.ofInt 1]), .append ⟨0, []⟩ ⟨0, []⟩] = .ub := rfl

/-- `json::value a = json::array(); a += std::as_const(a).as_array();`: `operator+=` replaces an empty array by a new one, and the operand is the old one. -/
theorem C33_append_empty : run ample State.init [.init 0 (.arr .array []), .append ⟨0, []⟩ ⟨0, []⟩] = .ub := rfl

/-- `json::value o = json::object(); o |= std::as_const(o).as_object();`: the same. -/
theorem C33_merge_empty : run ample State.init [.init 0 (.obj .object []), .merge ⟨0, []⟩ ⟨0, []⟩] = .ub := rfl

/-- `o = {"k": {"k": 1}}; o |= std::as_const(o)["k"].as_object();`: assigning to `o["k"]` destroys the object that is being read. -/
theorem C33_merge_part : run ample State.init
    [.init 0 (.obj .object [([0x6b], .obj .object [([0x6b], .ofInt 1)])]), .merge ⟨0, []⟩ ⟨0, [.key [0x6b]]⟩] = .ub := rfl

/-- `o = {"a": 1, "k": {}}; o["k"] |= o.as_object();`: the members that were already merged are copied again, so the result is not `{"a": 1, "k": {"a": 1, "k": {}}}`. -/
theorem C33_merge_into_part : ∃ st, run ample State.init
    [.init 0 (.obj .object [([0x61], .ofInt 1), ([0x6b], .obj .object [])]), .merge ⟨0, [.key [0x6b]]⟩ ⟨0, []⟩] = .done st ∧
    st.value 0 = some (.obj .object [([0x61], .ofInt 1), ([0x6b], .obj .object [([0x61], .ofInt 1), ([0x6b], .obj .object [([0x61], .ofInt 1)])])]) :=
  ⟨_, rfl, by decide +kernel⟩

/-- `json::array& a = v.as_array(); v += std::move(a);`: the same with `insert` and move iterators. -/
theorem C33_append_move_self : run ample State.init [.init 0 (.arr .array [.ofInt 1]), .appendMove ⟨0, []⟩ ⟨0, []⟩ fun _ => []] = .ub := rfl

/-- `json::object& o = v.as_object(); v |= std::move(o);`: every member is assigned to itself by a move, which need not preserve a string. -/
theorem C33_merge_move_self : ∃ st, run ample State.init
    [.init 0 (.obj .object [([0x61], .str .string [0x78])]), .mergeMove ⟨0, []⟩ ⟨0, []⟩ fun _ => []] = .done st ∧
    st.value 0 = some (.obj .object [([0x61], .str .string [])]) := ⟨_, rfl, by decide +kernel⟩

/-- `o = {"k": {"k": {}}}; json::object& x = o["k"].as_object(); o |= std::move(x);`: assigning to `o["k"]` destroys the object that is being moved from. -/
theorem C33_merge_move_part : run ample State.init
    [.init 0 (.obj .object [([0x6b], .obj .object [([0x6b], .obj .object [])])]), .mergeMove ⟨0, []⟩ ⟨0, [.key [0x6b]]⟩ fun _ => []] = .ub := rfl

-- Not vacuous: an array is appended to a part of it and a part of it to the array; an object is merged with itself and with another.
example : ∃ st, run ample State.init [.init 0 (.arr .array [.ofInt 1, .arr .array [.ofInt 2]]), .append ⟨0, [.pos 1]⟩ ⟨0, []⟩, .append ⟨0, []⟩ ⟨0, [.pos 1]⟩] = .done st ∧
    st.value 0 = some (.arr .array [.ofInt 1, .arr .array [.ofInt 2, .ofInt 1, .arr .array [.ofInt 2]], .ofInt 2, .ofInt 1, .arr .array [.ofInt 2]]) :=
  ⟨_, rfl, by decide +kernel⟩
example : ∃ st, run ample State.init [.init 0 (.obj .object [([0x61], .ofInt 1), ([0x62], .ofInt 2)]), .init 1 (.obj .object [([0x62], .null), ([0x63], .null)]),
    .merge ⟨0, []⟩ ⟨0, []⟩, .merge ⟨0, []⟩ ⟨1, []⟩] = .done st ∧ st.value 0 = some (.obj .object [([0x61], .ofInt 1), ([0x62], .null), ([0x63], .null)]) :=
  ⟨_, rfl, by decide +kernel⟩
example : Step (Store.empty.put 0 (some (.arr .array [.ofInt 1, .arr .array [.ofInt 2]]))) (.append ⟨0, [.pos 1]⟩ ⟨0, []⟩)
    ((Store.empty.put 0 (some (.arr .array [.ofInt 1, .arr .array [.ofInt 2]]))).set ⟨0, [.pos 1]⟩ (.arr .array [.ofInt 2, .ofInt 1, .arr .array [.ofInt 2]])) :=
  .append (v := .arr .array [.ofInt 2]) (vs := [.ofInt 2]) (ws := [.ofInt 1, .arr .array [.ofInt 2]]) rfl (.inr rfl) rfl (by simp) rfl
    (by simp [WholeAll, Whole, Value.ofInt])
example : Step (Store.empty.put 0 (some (.arr .array [.null, .obj .object [([0x61], .ofInt 1)]]))) (.merge ⟨0, [.pos 0]⟩ ⟨0, [.pos 1]⟩)
    ((Store.empty.put 0 (some (.arr .array [.null, .obj .object [([0x61], .ofInt 1)]]))).set ⟨0, [.pos 0]⟩ (.obj .object [([0x61], .ofInt 1)])) :=
  .merge (v := .null) (ms := []) (ws := [([0x61], .ofInt 1)]) rfl (.inl ⟨.null, rfl⟩) rfl (by simp [Apart]) (by simp [WholeMembers, Whole, Value.ofInt])

-- Not vacuous: values are moved into an array and into an object, an array is moved to the end of another, and an object is moved into another.
example : ∃ st, run ample State.init [.init 0 .null, .init 1 (.arr .array [.ofInt 1]), .emplaceBackMove ⟨0, []⟩ ⟨1, []⟩ [], .asArray ⟨0, []⟩,
    .appendMove ⟨0, []⟩ ⟨0, [.pos 0]⟩ (fun _ => [])] = .done st ∧
    st.value 0 = some (.arr .array [.arr .array [.str .number []], .ofInt 1]) ∧ st.value 1 = some (.arrNull .array) := ⟨_, rfl, by decide +kernel, by decide +kernel⟩
example : ∃ st, run ample State.init [.init 0 .null, .init 1 (.arr .array []), .emplaceKeyMove ⟨0, []⟩ [0x6b] ⟨1, []⟩ [], .init 2 (.obj .object [([0x6b], .ofInt 2)]),
    .mergeMove ⟨0, []⟩ ⟨2, []⟩ (fun _ => [0x3f])] = .done st ∧
    st.value 0 = some (.obj .object [([0x6b], .ofInt 2)]) ∧ st.value 2 = some (.obj .object [([0x6b], .str .number [0x3f])]) := ⟨_, rfl, by decide +kernel, by decide +kernel⟩
example : Step (Store.empty.put 0 (some (.arr .array [.arr .array [.ofInt 1]]))) (.appendMove ⟨0, []⟩ ⟨0, [.pos 0]⟩ fun _ => [])
    (((Store.empty.put 0 (some (.arr .array [.arr .array [.ofInt 1]]))).set ⟨0, [.pos 0]⟩ (.arr .array [.str .number []])).set ⟨0, []⟩
      (.arr .array [.arr .array [.str .number []], .ofInt 1])) :=
  .appendMove (ws := [.ofInt 1]) (vs := [.arr .array [.str .number []]]) (u := .arr .array [.arr .array [.ofInt 1]])
    (v := .arr .array [.arr .array [.str .number []]]) rfl rfl (by simp [Within]) rfl (.inr rfl)

-- Not vacuous: build, append, nest, overwrite, erase.
example : Steps Store.empty
    [.init 0 .null, .init 1 (.ofInt 5), .emplaceBack ⟨0, []⟩ ⟨1, []⟩, .emplaceBack ⟨0, []⟩ ⟨0, []⟩, .copyAssign ⟨0, []⟩ ⟨0, [.pos 1]⟩, .erasePos ⟨1, []⟩ 0]
    ((Store.empty.put 1 (some (.ofInt 5))).put 0 (some (.arr .array [.ofInt 5]))) := by
  have e1 : Store.empty.put 0 (some .null) = fun x => if x = 0 then some Value.null else none := rfl
  refine .cons (.init rfl (by simp [Tagged, Value.null])) (.cons (.init (v := .ofInt 5) rfl (by simp [Tagged, Value.ofInt])) ?_)
  refine .cons (.emplaceBack (v := .null) (vs := []) (w := .ofInt 5) rfl (.inl ⟨.null, rfl⟩) rfl rfl trivial) ?_
  refine .cons (.emplaceBack (v := .arr .array [.ofInt 5]) (vs := [.ofInt 5]) (w := .arr .array [.ofInt 5]) rfl (.inr rfl) rfl rfl ⟨trivial, trivial⟩) ?_
  refine .cons (.copyAssign (w := .arr .array [.ofInt 5, .arr .array [.ofInt 5]]) (v := .arr .array [.ofInt 5]) rfl rfl ⟨trivial, trivial⟩
    fun h => absurd h (by simp [Inside])) ?_
  refine .refused (.erasePos (v := .ofInt 5) rfl ⟨nofun, .inl ⟨_, _, rfl, by decide, by decide⟩⟩) ?_
  have : ∀ σ σ' : Store, σ = σ' → Steps σ [] σ' := fun _ _ e => e ▸ .nil
  refine this _ _ (funext fun x => ?_)
  by_cases h0 : x = 0
  · subst h0; rfl
  · by_cases h1 : x = 1
    · subst h1; rfl
    · simp [Store.set, Store.put, Store.empty, h0, h1]

/-! ### C34 -/

/-- Moving out of a place and then assigning a literal to it (`clear()` is `*this = value()`): the new variable holds what the place held, the place holds the
literal, nothing else changed, and every further history goes on from there. -/
theorem C34_clear {ops rest : List Op} {σ σ' : Store} {x : Nat} {s : Place} {v w : Value} {junk : Bytes} (h : Steps Store.empty ops σ) (hx : σ x = none)
    (hs : σ.get s = some v) (hw : Tagged w) (hrest : Steps ((σ.set s w).put x (some v)) rest σ') :
    ∃ st, run ample State.init (ops ++ .moveInit x s junk :: .assign s w :: rest) = .done st ∧ ∀ y, st.value y = σ' y := by
  obtain ⟨u, hu, hg⟩ := get_some hs
  have hne : s.x ≠ x := fun e => by rw [e, hx] at hu; cases hu
  have e : ((σ.set s (hollow junk v)).put x (some v)).set s w = (σ.set s w).put x (some v) := by
    rw [← set_set σ s (hollow junk v) w]
    funext z
    by_cases h1 : z = s.x <;> by_cases h2 : z = x <;> simp [Store.set, Store.put, h1, h2, hne, Ne.symm hne]
  have hs' : ((σ.set s (hollow junk v)).put x (some v)).get s = some (hollow junk v) := by
    have := get_set (w' := hollow junk v) hs
    simpa [Store.get, Store.put, hne] using this
  obtain ⟨st, F, h1, _, _, h4⟩ := histories (steps_append h (.cons (.moveInit (junk := junk) hx hs) (.cons (.assign hs' hw) (e ▸ hrest))))
  exact ⟨st, h1, h4⟩

/-- The same with move assignment, and with a copy as what is assigned. -/
theorem C34_assign {ops rest : List Op} {σ σ' : Store} {d s t : Place} {u v w : Value} {junk : Bytes} (h : Steps Store.empty ops σ) (hd : σ.get d = some u)
    (hs : σ.get s = some v) (ht : σ.get t = some w) (hw : Whole w) (hds : Apart d s) (hdt : Apart d t) (hst : Apart s t)
    (hrest : Steps ((σ.set s w).set d v) rest σ') :
    ∃ st, run ample State.init (ops ++ .moveAssign d s junk :: .copyAssign s t :: rest) = .done st ∧ ∀ y, st.value y = σ' y := by
  have hsd : Apart s d := ⟨fun ⟨e, h⟩ => hds.2 ⟨e.symm, h⟩, fun ⟨e, h⟩ => hds.1 ⟨e.symm, h⟩⟩
  have hm : Step σ (.moveAssign d s junk) ((σ.set s (hollow junk v)).set d v) :=
    .moveAssign hd hs (fun e => hds.1 ⟨by rw [e], by rw [e]; exact List.prefix_refl _⟩) (fun h => hds.1 ⟨h.1, h.2.1⟩) fun h => hsd.1 ⟨h.1, h.2.1⟩
  have hd1 : (σ.set s (hollow junk v)).get d = some u := (get_set_other hs hsd).trans hd
  have hs1 : ((σ.set s (hollow junk v)).set d v).get s = some (hollow junk v) := (get_set_other hd1 hds).trans (get_set hs)
  have ht1 : ((σ.set s (hollow junk v)).set d v).get t = some w := (get_set_other hd1 hdt).trans ((get_set_other hs hst).trans ht)
  have e : ((σ.set s (hollow junk v)).set d v).set s w = (σ.set s w).set d v := by
    obtain ⟨_, _, _, _, T, _⟩ := histories h
    rw [set_comm hds, set_set]
  obtain ⟨st, F, h1, _, _, h4⟩ := histories (steps_append h (.cons hm (.cons (.copyAssign hs1 ht1 hw fun hi => absurd ⟨hi.1, hi.2.1⟩ hst.1) (e ▸ hrest))))
  exact ⟨st, h1, h4⟩

/-- What a moved-from array is good for: reading it is undefined. `json::value a = {1}; json::value b = std::move(a); a.emplace(b);` -/
theorem C34_moved_from_read :
    run ample State.init [.init 0 (.arr .array [.ofInt 1]), .moveInit 1 ⟨0, []⟩ [], .emplaceBack ⟨0, []⟩ ⟨1, []⟩] = .ub := rfl

/-- So is copying a value that was moved from or has a part that was: the copy constructor follows every pointer (value_impl.hpp:1103-1120). -/
theorem C34_copy_undefined {ops : List Op} {σ : Store} {x : Nat} {s : Place} {v : Value} (h : Steps Store.empty ops σ) (hx : σ x = none) (hs : σ.get s = some v)
    (hv : ¬ Whole v) : run ample State.init (ops ++ [.copyInit x s]) = .ub := by
  obtain ⟨st, F, h1, H, T, _⟩ := histories h
  rw [run_append _ h1, run, H.copyInit_hollow (oom := ample) (fun _ => rfl) (keyedStore_of_tagged T) hx hs hv]

-- Not vacuous: after a move from an array, from an object, and from an element of an array.
example : run ample State.init [.init 0 (.arr .array []), .moveInit 1 ⟨0, []⟩ [], .copyInit 2 ⟨0, []⟩] = .ub := rfl
example : run ample State.init [.init 0 (.obj .object []), .moveInit 1 ⟨0, []⟩ [], .copyAssign ⟨1, []⟩ ⟨0, []⟩] = .ub := rfl
example : run ample State.init [.init 0 (.arr .array [.arr .array []]), .moveInit 1 ⟨0, [.pos 0]⟩ [], .copyInit 2 ⟨0, []⟩] = .ub := rfl

/-- So is every other use of what it held: naming a part of it, adding to it, erasing from it, appending it or merging it, or asking for it as an array or as an object,
also where it is of the other kind: the message of the exception would be built from what the pointer points to (value_info, value_impl.hpp:373-405). -/
theorem C34_use_undefined {ops : List Op} {σ : Store} {op : Op} {s : Place} {v : Value} (h : Steps Store.empty ops σ) (hs : σ.get s = some v)
    (hv : v = .arrNull .array ∨ v = .objNull .object) (ho : Into σ s op) : run ample State.init (ops ++ [op]) = .ub := by
  obtain ⟨st, F, h1, H, T, _⟩ := histories h
  rw [run_append _ h1, run, H.into_hollow (keyedStore_of_tagged T) hs hv ho]

-- Not vacuous: an object that was moved from, where an array is wanted; and a part of an array that was moved from.
example : run ample State.init [.init 0 (.obj .object []), .moveInit 1 ⟨0, []⟩ [], .init 2 (.arr .array []), .append ⟨2, []⟩ ⟨0, []⟩] = .ub := rfl
example : run ample State.init [.init 0 (.arr .array []), .moveInit 1 ⟨0, []⟩ [], .copyInit 2 ⟨0, [.key [0x6b]]⟩] = .ub := rfl
example : ∃ σ, Steps Store.empty [.init 0 (.obj .object []), .moveInit 1 ⟨0, []⟩ []] σ ∧ σ.get ⟨0, []⟩ = some (.objNull .object) :=
  ⟨_, .cons (.init (v := .obj .object []) rfl ⟨rfl, .nil, trivial⟩) (.cons (.moveInit (x := 1) (v := .obj .object []) rfl rfl) .nil), rfl⟩

-- Not vacuous: after `clear()` the same statement is fine.
example : ∃ st, run ample State.init
    [.init 0 (.arr .array [.ofInt 1]), .moveInit 1 ⟨0, []⟩ [], .assign ⟨0, []⟩ .null, .emplaceBack ⟨0, []⟩ ⟨1, []⟩] = .done st ∧
    st.value 0 = some (.arr .array [.arr .array [.ofInt 1]]) ∧ st.value 1 = some (.arr .array [.ofInt 1]) :=
  ⟨_, rfl, by decide +kernel, by decide +kernel⟩

/-! ### C35 -/

/-- After a copy both are equal. Statements that only touch places apart from a place do not change what it shows: in particular statements on the copy do not
show in the original, and the other way round. -/
theorem C35_independent {ops rest : List Op} {σ σ' : Store} {x : Nat} {s : Place} {v : Value} (h : Steps Store.empty ops σ) (hx : σ x = none) (hs : σ.get s = some v)
    (hw : Whole v) (hrest : Steps (σ.put x (some v)) rest σ') :
    ∃ st, run ample State.init (ops ++ .copyInit x s :: rest) = .done st ∧ (∀ y, st.value y = σ' y) ∧
      ((∀ op ∈ rest, ∀ q ∈ touches op, q.x ≠ x) → st.value x = some v) ∧
      ∀ p, p.x ≠ x → (∀ op ∈ rest, ∀ q ∈ touches op, Apart q p) → (st.value p.x).bind (getAt · p.path) = σ.get p := by
  obtain ⟨st, F, h1, _, _, h4⟩ := histories (steps_append h (.cons (.copyInit hx hs hw) hrest))
  refine ⟨st, h1, h4, fun ha => ?_, fun p hp ha => ?_⟩
  · have := steps_apart hrest (p := ⟨x, []⟩) fun op hop q hq => ⟨fun ⟨e, _⟩ => ha op hop q hq e, fun ⟨e, _⟩ => ha op hop q hq e⟩
    have e := h4 x
    simp only [Store.get, getAt, Store.put, if_true] at this
    rw [e]
    cases hσ : σ' x <;> simp [hσ] at this ⊢
    exact this
  · have := steps_apart hrest ha
    rw [h4]
    show σ'.get p = _
    rw [this]
    simp [Store.get, Store.put, hp]

-- Not vacuous: a copy of an array is extended, the original stays.
example : ∃ st, run ample State.init [.init 0 (.arr .array [.arr .array []]), .copyInit 1 ⟨0, []⟩, .emplaceBack ⟨1, [.pos 0]⟩ ⟨0, []⟩] = .done st ∧
    st.value 0 = some (.arr .array [.arr .array []]) ∧ st.value 1 = some (.arr .array [.arr .array [.arr .array [.arr .array []]]]) :=
  ⟨_, rfl, by decide +kernel, by decide +kernel⟩

/-! ### C36 -/

/-- The claim for both forms of assignment. -/
def C36Claim : Prop := ∀ (ops : List Op) (σ : Store) (d s : Place) (w v : Value) (junk : Bytes), Steps Store.empty ops σ → σ.get d = some w → σ.get s = some v →
  Inside s d → Whole v → ∀ op, op = .copyAssign d s ∨ op = .moveAssign d s junk →
  ∃ st, run ample State.init (ops ++ [op]) = .done st ∧ ∀ x, st.value x = (σ.set d v) x

/-- `json::value v = {{"k", "s"}}; v = std::move(v["k"]);`: the object is destroyed before the string is moved out of it. -/
theorem C36_refuted : ¬ C36Claim := by
  intro h
  obtain ⟨st, h1, _⟩ := h [.init 0 (.obj .object [([0x6b], .str .string [0x73])])] _ ⟨0, []⟩ ⟨0, [.key [0x6b]]⟩ (.obj .object [([0x6b], .str .string [0x73])])
    (.str .string [0x73]) [] (.cons (.init rfl (by simp [Tagged, TaggedMembers])) .nil) rfl rfl ⟨rfl, List.nil_prefix, by simp⟩ trivial _ (.inr rfl)
  have : run ample State.init [.init 0 (.obj .object [([0x6b], .str .string [0x73])]), .moveAssign ⟨0, []⟩ ⟨0, [.key [0x6b]]⟩ []] = .ub := rfl
  exact absurd (h1.symm.trans this) (by simp)

/-- Copy assignment of a part works at every depth, and so does move assignment if whole and part have the same kind of payload (text, array or object). -/
theorem C36_partial {ops : List Op} {σ : Store} {d s : Place} {w v : Value} {junk : Bytes} (h : Steps Store.empty ops σ) (hd : σ.get d = some w)
    (hs : σ.get s = some v) (hin : Inside s d) :
    (Whole v → ∃ st, run ample State.init (ops ++ [.copyAssign d s]) = .done st ∧ ∀ x, st.value x = (σ.set d v) x) ∧
    (payloadKind w = payloadKind v → ∃ st, run ample State.init (ops ++ [.moveAssign d s junk]) = .done st ∧ ∀ x, st.value x = (σ.set d v) x) := by
  refine ⟨fun hw => ?_, fun hk => ?_⟩
  · obtain ⟨st, F, h1, _, _, h4⟩ := histories (steps_append h (.cons (.copyAssign hd hs hw fun hi =>
      absurd (hi.2.1.eq_of_length (Nat.le_antisymm hi.2.1.length_le hin.2.1.length_le)) hin.2.2) .nil))
    exact ⟨st, h1, h4⟩
  · obtain ⟨st, F, h1, _, _, h4⟩ := histories (steps_append h (.cons (.moveAssignPart hd hs hin hk) .nil))
    exact ⟨st, h1, h4⟩

-- Not vacuous.
example : ∃ st, run ample State.init [.init 0 (.obj .object [([0x6b], .str .string [0x73])]), .copyAssign ⟨0, []⟩ ⟨0, [.key [0x6b]]⟩] = .done st ∧
    st.value 0 = some (.str .string [0x73]) := ⟨_, rfl, by decide +kernel⟩
example : ∃ st, run ample State.init [.init 0 (.arr .array [.arr .array [.ofInt 1]]), .moveAssign ⟨0, []⟩ ⟨0, [.pos 0]⟩ []] = .done st ∧
    st.value 0 = some (.arr .array [.ofInt 1]) := ⟨_, rfl, by decide +kernel⟩

/-! ### C37 -/

/-- The claim: whatever allocation fails, the tags fit the payloads afterwards. -/
def C37Claim : Prop := ∀ (ops : List Op) (σ : Store) (d s : Place) (w v : Value) (oom : Nat → Bool) (st st' : State), Steps Store.empty ops σ →
  σ.get d = some w → σ.get s = some v → Apart d s → Whole v → run ample State.init ops = .done st → step oom st (.copyAssign d s) = .thrown st' →
  ∀ x u, st'.value x = some u → Tagged u

/-- `json::value a = 1; json::value b = {}; a = b;` with no memory for the array: `a` is left with the tag of an array and the payload of a number. -/
theorem C37_refuted : ¬ C37Claim := by
  intro h
  have hs : ∃ st st', run ample State.init [.init 0 (.ofInt 1), .init 1 (.arr .array [])] = .done st ∧
      step (fun _ => true) st (.copyAssign ⟨0, []⟩ ⟨1, []⟩) = .thrown st' ∧ st'.value 0 = some (.str .array [0x31]) :=
    ⟨_, _, rfl, rfl, by decide +kernel⟩
  obtain ⟨st, st', h1, h2, h3⟩ := hs
  have := h _ _ ⟨0, []⟩ ⟨1, []⟩ (.ofInt 1) (.arr .array []) (fun _ => true) st st'
    (.cons (.init rfl (by simp [Tagged, Value.ofInt])) (.cons (.init rfl (by simp [Tagged, TaggedAll])) .nil)) rfl rfl ⟨by simp, by simp⟩ trivial h1 h2 0 _ h3
  simp [Tagged] at this

/-- If `d = s` runs out of memory, nothing is undefined, and nothing but the tag at `d` has changed: it is now that of the source. If both tags were equal, the old
value is intact. Ending all variables still frees everything. -/
theorem C37_partial {ops : List Op} {σ : Store} {d s : Place} {w v : Value} {oom : Nat → Bool} (h : Steps Store.empty ops σ) (hd : σ.get d = some w)
    (hs : σ.get s = some v) (hw : Whole v) (hin : Inside d s → w.type = v.type) :
    ∃ st, run ample State.init ops = .done st ∧
      ((∃ st', step oom st (.copyAssign d s) = .done st' ∧ ∀ x, st'.value x = (σ.set d v) x) ∨
       (∃ st', step oom st (.copyAssign d s) = .thrown st' ∧ (∀ x, st'.value x = (σ.set d (w.setType v.type)) x) ∧
         (w.type = v.type → ∀ x, st'.value x = σ x) ∧
         ∀ xs : List Nat, xs.Nodup → (∀ x, x ∈ xs ↔ (σ x).isSome) → ∃ st'', run oom st' (xs.map .drop) = .done st'' ∧ ∀ a, st''.heap.cell a = none)) := by
  obtain ⟨st, F, h1, H, T, h4⟩ := histories h
  refine ⟨st, h1, ?_⟩
  obtain ⟨ld, _, _, d1, _⟩ := H.place (keyedStore_of_tagged T) hd
  obtain ⟨ls, _, _, s1, _⟩ := H.place (keyedStore_of_tagged T) hs
  simp only [step, d1, s1]
  rcases copyAssign_exact H (keyedStore_of_tagged T) oom hd hs hw hin d1 s1 with ⟨st', e1, ⟨F', e2⟩, _⟩ | ⟨st', e1, _, F', e2⟩
  · exact .inl ⟨st', e1, e2.value⟩
  · refine .inr ⟨st', e1, e2.value, fun e x => ?_, fun xs nd hx => ?_⟩
    · rw [e2.value, ← e, show w.setType w.type = w by cases w <;> rfl, set_get (keyedStore_of_tagged T) hd]
    · refine drops_clean oom e2 nd fun x => ?_
      rw [hx]
      obtain ⟨u, hu, _⟩ := get_some hd
      by_cases e : x = d.x
      · subst e; simp [Store.set, Store.put, hu]
      · simp [Store.set, Store.put, e]

/-! ### C52 -/

/-- Whatever statement runs out of memory wherever, the result is not undefined and no memory leaks. The target may have become an empty container or have a new tag already;
in a merge, some of the members may have been merged; nothing else has changed (`Aborted`). -/
theorem C52_out_of_memory {ops : List Op} {σ σ' : Store} {op : Op} {oom : Nat → Bool} (h : Steps Store.empty ops σ) (hop : Step σ op σ') :
    ∃ st, run ample State.init ops = .done st ∧
      ((∃ st', step oom st op = .done st' ∧ ∀ x, st'.value x = σ' x) ∨
       (∃ st' σ'', step oom st op = .thrown st' ∧ Aborted σ op σ'' ∧ (∀ x, st'.value x = σ'' x) ∧
         ∀ xs : List Nat, xs.Nodup → (∀ x, x ∈ xs ↔ (σ'' x).isSome) → ∃ st'', run oom st' (xs.map .drop) = .done st'' ∧ ∀ a, st''.heap.cell a = none)) := by
  obtain ⟨st, F, h1, H, T, h4⟩ := histories h
  refine ⟨st, h1, ?_⟩
  have := step_ends H (keyedStore_of_tagged T) oom hop
  cases hs : step oom st op with
  | done st' => rw [hs] at this; obtain ⟨F', h'⟩ := this; exact .inl ⟨st', rfl, h'.value⟩
  | thrown st' =>
    rw [hs] at this
    obtain ⟨_, σ'', ha, F', h'⟩ := this
    exact .inr ⟨st', σ'', rfl, ha, h'.value, fun xs nd hx => drops_clean oom h' nd hx⟩
  | ub => rw [hs] at this; exact this.elim

/-- Programs that catch exceptions and go on, however many of their statements run out of memory, and whichever allocations fail: as long as every statement is one
that the specification covers in each store that may be there at this point, the result is not undefined, the variables have the values that the specification gives
them, and ending them frees everything. (A value that a failed statement has left with a wrong tag may be overwritten, moved, copied and ended; the specification
does not cover its use as a container.) -/
theorem C52_programs {p : Prog} (oom : Nat → Bool) (h : Handled Store.empty p) :
    ∃ st σ, exec oom State.init p = .done st ∧ Ending Store.empty p σ ∧ (∀ x, st.value x = σ x) ∧
      ∀ xs : List Nat, xs.Nodup → (∀ x, x ∈ xs ↔ (σ x).isSome) → ∃ st', run oom st (xs.map .drop) = .done st' ∧ ∀ a, st'.heap.cell a = none := by
  obtain ⟨st, σ, F, h1, h2, h3⟩ := handled_exec oom h srep_init keyed_empty
  exact ⟨st, σ, h1, h2, h3.value, fun xs nd hx => drops_clean oom h3 nd hx⟩

/-- A function body without handlers: whichever allocation fails, the exception ends the lifetimes of all variables that are alive, and that frees everything. -/
theorem C52_unwinding {ops : List Op} {σ : Store} (oom : Nat → Bool) (h : Steps Store.empty ops σ) :
    ∃ st, exec oom State.init (body [] ops) = .done st ∧ ∀ a, st.heap.cell a = none := by
  have hx : ∀ x, x ∈ ([] : List Nat) ↔ (Store.empty x).isSome := fun x => by simp [Store.empty]
  obtain ⟨st, τ, F, h1, h2, h3⟩ := handled_exec oom (handled_body List.nodup_nil hx h) srep_init keyed_empty
  rw [ending_body List.nodup_nil hx h2] at h3
  exact ⟨st, h1, h3.empty⟩

-- Not vacuous: `json::value a = 1, b = json::array(); try { a = b; } catch (...) { a = nullptr; } json::value c = a;`. If the copy fails, `a` has a wrong tag until it
-- is overwritten.
example : Handled Store.empty (.stmt (.init 0 (.ofInt 1)) (.stmt (.init 1 (.arr .array [])) (.stmt (.copyAssign ⟨0, []⟩ ⟨1, []⟩)
    (.stmt (.copyInit 2 ⟨0, []⟩) .stop .stop)
    (.stmt (.assign ⟨0, []⟩ .null) (.stmt (.copyInit 2 ⟨0, []⟩) .stop .stop) .stop)) .stop) .stop) := by
  refine .step (.init rfl ⟨by decide, by decide⟩) ?_ fun _ _ => .stop
  refine .step (.init rfl ⟨rfl, trivial⟩) ?_ fun _ _ => .stop
  refine .step (.copyAssign (w := .ofInt 1) (v := .arr .array []) rfl rfl trivial fun h => by cases h.1) ?_ fun σ'' ha => ?_
  · exact .step (.copyInit (v := .arr .array []) rfl rfl trivial) .stop fun _ _ => .stop
  · cases ha with
    | same h | tag h | array h | object h => cases h
    | copyAssign h1 h2 =>
      cases h1; cases h2
      refine .step (.assign (w := .str .array [0x31]) rfl ⟨by decide, by decide⟩) ?_ fun _ _ => .stop
      exact .step (.copyInit (v := .null) rfl rfl trivial) .stop fun _ _ => .stop
example : ∃ st, exec (fun a => a == 1) State.init (.stmt (.init 0 (.ofInt 1)) (.stmt (.init 1 (.arr .array [])) (.stmt (.copyAssign ⟨0, []⟩ ⟨1, []⟩) .stop
    (.stmt (.assign ⟨0, []⟩ .null) (.stmt (.copyInit 2 ⟨0, []⟩) .stop .stop) .stop)) .stop) .stop) = .done st ∧ st.value 0 = some .null ∧ st.value 2 = some .null :=
  ⟨_, rfl, by decide +kernel, by decide +kernel⟩
-- In a body, the second of three copies fails.
example : ∃ st, exec (fun a => a == 2) State.init (body [] [.init 0 (.arr .array []), .copyInit 1 ⟨0, []⟩, .copyInit 2 ⟨0, []⟩, .copyInit 3 ⟨0, []⟩]) = .done st ∧
    st.heap.next = 3 ∧ ∀ a, a < 3 → st.heap.cell a = none :=
  ⟨_, rfl, by decide +kernel, by decide +kernel⟩

/-- No leak and no double free: after any history that follows the specification, ending all variables frees every cell exactly once (freeing a cell twice is
undefined in the model). -/
theorem C52_no_leak {ops : List Op} {σ : Store} (h : Steps Store.empty ops σ) (xs : List Nat) (nd : xs.Nodup) (hx : ∀ x, x ∈ xs ↔ (σ x).isSome) :
    ∃ st, run ample State.init (ops ++ xs.map .drop) = .done st ∧ ∀ a, st.heap.cell a = none := by
  obtain ⟨st, F, h1, H, T, h4⟩ := histories h
  obtain ⟨st', h5, h6⟩ := drops_clean ample H nd hx
  exact ⟨st', by rw [run_append _ h1, h5], h6⟩

/-- Moving a value into a part of itself leaks: `json::value v = {{"k", nullptr}}; v["k"] = std::move(v);` -/
theorem C52_cycle_leaks : ∃ st, run ample State.init
    [.init 0 (.obj .object [([0x6b], .null)]), .moveAssign ⟨0, [.key [0x6b]]⟩ ⟨0, []⟩ [], .drop 0] = .done st ∧ ∃ a, st.heap.cell a ≠ none :=
  ⟨_, rfl, 0, by decide +kernel⟩

/-- So does moving a value to its own end (`json::value v = {1}; v.emplace(std::move(v));`), appending an array to an element of it
(`v = {{}}; json::array& a = v.as_array(); v[0] += std::move(a);`) and merging an object into a member of it
(`v = {{"k", {}}}; json::object& o = v.as_object(); v["k"] |= std::move(o);`). -/
theorem C52_move_into_itself_leaks : ∀ ops ∈ [[Op.init 0 (.arr .array [.ofInt 1]), .emplaceBackMove ⟨0, []⟩ ⟨0, []⟩ []],
    [.init 0 (.obj .object []), .emplaceKeyMove ⟨0, []⟩ [0x6b] ⟨0, []⟩ []],
    [.init 0 (.arr .array [.arr .array []]), .appendMove ⟨0, [.pos 0]⟩ ⟨0, []⟩ fun _ => []],
    [.init 0 (.obj .object [([0x6b], .obj .object [])]), .mergeMove ⟨0, [.key [0x6b]]⟩ ⟨0, []⟩ fun _ => []]],
    ∃ st, run ample State.init (ops ++ [.drop 0]) = .done st ∧ ∃ a, st.heap.cell a ≠ none := by
  intro ops h
  simp only [List.mem_cons, List.not_mem_nil, or_false] at h
  rcases h with rfl | rfl | rfl | rfl
  · exact ⟨_, rfl, 0, by decide +kernel⟩
  · exact ⟨_, rfl, 1, by decide +kernel⟩
  · exact ⟨_, rfl, 2, by decide +kernel⟩
  · exact ⟨_, rfl, 2, by decide +kernel⟩

-- Not vacuous: a nested value is built, moved from and dropped; without the drop, a cell is live.
example : ∃ st, run ample State.init [.init 0 (.arr .array [.obj .object []]), .moveInit 1 ⟨0, [.pos 0]⟩ []] = .done st ∧ st.heap.cell 0 ≠ none ∧ st.heap.cell 1 ≠ none :=
  ⟨_, rfl, by decide +kernel, by decide +kernel⟩
example : ∃ st, run ample State.init [.init 0 (.arr .array [.obj .object []]), .moveInit 1 ⟨0, [.pos 0]⟩ [], .drop 0, .drop 1] = .done st ∧
    st.heap.cell 0 = none ∧ st.heap.cell 1 = none :=
  ⟨_, rfl, by decide +kernel, by decide +kernel⟩

end Meojson
