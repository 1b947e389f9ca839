import Verif.Proofs.Join
import Verif.Props.Mutate

/-!
# C105: `+` and `|` with lvalues and rvalues, when memory may be refused
-/

set_option autoImplicit false

namespace Meojson
open Spec RawObject

/-- The property as one would put it: an operation that throws leaves both operands as they were. -/
def C105Claim : Prop :=
  (∀ (J : Joiner) (l m : Bool) (v : Value) (xs : List Value) (n : Nat) (e : Exn), v.Sound → (∀ x ∈ xs, x.Sound) →
    (J.plus l m v xs n).2.1 = .throw e → (J.plus l m v xs n).1 = (v, xs)) ∧
  (∀ (J : Joiner) (l m : Bool) (v : Value) (ns : List (Bytes × Value)) (n : Nat) (e : Exn), v.Sound → ns.Pairwise (fun a b => a.1 < b.1) → (∀ x ∈ ns, x.2.Sound) →
    (J.or l m v ns n).2.1 = .throw e → (J.or l m v ns n).1 = (v, ns))

/-- For the examples: one request for each array or object that is copied, for `reserve`, and for each node. The request with number `k` is refused. -/
def oneRefused (k : Nat) : Joiner where
  gives i := i != k
  copies v := match v with | .arr .. | .obj .. => 1 | _ => 0
  room _ _ := 1
  nodes _ := 1

/-- And one with enough memory. -/
def allGranted : Joiner := { oneRefused 0 with gives := fun _ => true }

local macro "literal_sound" : tactic => `(tactic| (simp [Value.Sound, Value.Wf, Value.WfAll, Value.WfMembers, Value.ofInt, Value.null]))

theorem null_sound : Value.null.Sound := by literal_sound
theorem one_sound : (Value.arr .array [.ofInt 1]).Sound := by literal_sound

/-- It is false. `std::move(v) + xs` with `v` = `[1]`, when the last request is refused: the elements of `v` are lost, though no result was made of them. -/
theorem C105_refuted : ¬ C105Claim := by
  intro h
  have := h.1 (oneRefused 1) true false (.arr .array [.ofInt 1]) [.null] 0 .badAlloc one_sound (by simpa using null_sound) (by decide +kernel)
  exact absurd this (by decide +kernel)

example : (oneRefused 1).plus true false (.arr .array [.ofInt 1]) [.null] 0 = ((.arr .array [], [.null]), .throw .badAlloc, 2) := by decide +kernel

/-- `v + std::move(xs)`: `v` stays, and all elements of `xs` are lost. They are null pointers now if they were arrays or objects. -/
theorem C105_refuted_right : ∃ (J : Joiner) (v x : Value), v.Sound ∧ x.Sound ∧ J.plus false true v [x] 0 = ((v, [.arrNull .array]), .throw .badAlloc, 3) :=
  ⟨oneRefused 2, .arr .array [.ofInt 1], .arr .array [.null], one_sound, by literal_sound, by decide +kernel⟩

/-- `std::move(v) | ns` with `v` = `{"a":1}` and `ns` = `{"a":[]}`: the member is left with the tag of an array, and a text in it. -/
theorem C105_refuted_tag : ∃ (J : Joiner) (v : Value) (ns : List (Bytes × Value)), v.Sound ∧ (∀ e ∈ ns, e.2.Sound) ∧
    J.or true false v ns 0 = ((.obj .object [([0x61], .str .array [0x31])], ns), .throw .badAlloc, 1) ∧ ¬ (Value.obj .object [([0x61], .str .array [0x31])]).Sound :=
  ⟨oneRefused 0, .obj .object [([0x61], .ofInt 1)], [([0x61], .arr .array [])], by literal_sound, by simp; literal_sound, by decide +kernel, fun h => by have := sound_shape h; cases this with | object _ _ h => have := h _ List.mem_cons_self; cases sound_shape this⟩

/-- `v | std::move(ns)` that fails at the second member: the first one of `ns` is lost, and `v` has not got it. -/
theorem C105_refuted_part : ∃ (J : Joiner) (v : Value) (ns : List (Bytes × Value)), v.Sound ∧ (∀ e ∈ ns, e.2.Sound) ∧
    J.or false true v ns 0 = ((v, [([0x61], .objNull .object), ([0x62], .ofInt 2)]), .throw .badAlloc, 2) :=
  ⟨oneRefused 1, .obj .object [], [([0x61], .obj .object [([0x63], .null)]), ([0x62], .ofInt 2)], by literal_sound, by simp; constructor <;> literal_sound, by decide +kernel⟩

/-- What holds: an operand that is an lvalue is what it was, however the operation ends. -/
theorem C105_partial (J : Joiner) (l m : Bool) (v : Value) (hv : v.Sound) (n : Nat) :
    (∀ xs : List Value, (∀ x ∈ xs, x.Sound) → (l = false → (J.plus l m v xs n).1.1 = v) ∧ (m = false → (J.plus l m v xs n).1.2 = xs)) ∧
    (∀ ns : List (Bytes × Value), ns.Pairwise (fun a b => a.1 < b.1) → (∀ x ∈ ns, x.2.Sound) →
      (l = false → (J.or l m v ns n).1.1 = v) ∧ (m = false → (J.or l m v ns n).1.2 = ns)) := by
  constructor
  · intro xs hx
    constructor
    · rintro rfl
      rcases Joiner.plus_goes (J := J) false m hv hx n rfl with ⟨h, _⟩ | ⟨_, _, h⟩
      · generalize (J.plus false m v xs n).1.1 = w at h ⊢
        generalize (J.plus false m v xs n).2.1 = o at h
        cases h <;> rfl
      · generalize (J.plus false m v xs n).1.1 = w at h ⊢
        generalize (J.plus false m v xs n).1.2 = w' at h
        cases h with
        | kept => rfl
        | lost _ => rfl
        | mislabelled a => cases a
        | made a => cases a
    · rintro rfl
      rcases Joiner.plus_goes (J := J) l false hv hx n rfl with ⟨h, h1, h2⟩ | ⟨_, _, h⟩
      · cases h0 : (J.plus l false v xs n).2.1 with
        | ok y => exact h1 ⟨y, h0⟩
        | throw e =>
          refine h2 ?_
          rw [h0] at h ⊢
          generalize (J.plus l false v xs n).1.1 = w at h
          cases h <;> rfl
        | ub =>
          rw [h0] at h
          generalize (J.plus l false v xs n).1.1 = w at h
          cases h
      · generalize (J.plus l false v xs n).1.2 = w at h ⊢
        generalize (J.plus l false v xs n).1.1 = w' at h
        cases h with
        | lost h => exact h
        | _ => rfl
  · intro ns hn hx
    constructor
    · rintro rfl
      rcases Joiner.or_goes (J := J) false m hv hn hx n rfl with ⟨h, _⟩ | ⟨_, _, h⟩
      · generalize (J.or false m v ns n).1.1 = w at h ⊢
        generalize (J.or false m v ns n).2.1 = o at h
        cases h <;> rfl
      · generalize (J.or false m v ns n).1.1 = w at h ⊢
        generalize (J.or false m v ns n).1.2 = w' at h
        cases h with
        | mislabelled a => cases a
        | midwayMade a => cases a
        | _ => rfl
    · rintro rfl
      have mid : ∀ ms r os, Midway false ms ns r os → os = ns := by
        intro ms r os h
        cases h with
        | between _ h => rw [show _ = _ from h]
        | assigning _ h => rw [show _ = _ from h]
      rcases Joiner.or_goes (J := J) l false hv hn hx n rfl with ⟨h, h1, h2⟩ | ⟨_, _, h⟩
      · cases h0 : (J.or l false v ns n).2.1 with
        | ok y => exact h1 ⟨y, h0⟩
        | throw e =>
          refine h2 ?_
          rw [h0] at h ⊢
          generalize (J.or l false v ns n).1.1 = w at h
          cases h <;> rfl
        | ub =>
          rw [h0] at h
          generalize (J.or l false v ns n).1.1 = w at h
          cases h
      · generalize (J.or l false v ns n).1.2 = w at h ⊢
        generalize (J.or l false v ns n).1.1 = w' at h
        cases h with
        | lost h => exact h
        | midway _ h => exact mid _ _ _ h
        | midwayMade _ _ h => exact mid _ _ _ h
        | _ => rfl

/-- `+`: it ends as `Concat` says, or throws `std::bad_alloc` because a request of its own was refused, and then leaves what `ConcatFailed` says. -/
theorem C105_plus (J : Joiner) (l m : Bool) (v : Value) (hv : v.Sound) (xs : List Value) (hx : ∀ x ∈ xs, x.Sound) (n : Nat) :
    (Concat l v xs (J.plus l m v xs n).1.1 (J.plus l m v xs n).2.1 ∧ ((∃ y, (J.plus l m v xs n).2.1 = .ok y) → UsedUp m xs (J.plus l m v xs n).1.2) ∧
      ((J.plus l m v xs n).2.1 = .throw .json → (J.plus l m v xs n).1.2 = xs)) ∨
    ((J.plus l m v xs n).2.1 = .throw .badAlloc ∧ (∃ i, n ≤ i ∧ i < (J.plus l m v xs n).2.2 ∧ J.gives i = false) ∧
      ConcatFailed l m v xs (J.plus l m v xs n).1.1 (J.plus l m v xs n).1.2) :=
  Joiner.plus_goes l m hv hx n rfl

example : (oneRefused 0).plus true true .null [.ofInt 1] 0 = ((.str .array [], [.ofInt 1]), .throw .badAlloc, 1) := by decide +kernel
example : (oneRefused 1).plus true true .null [.ofInt 1] 0 = ((.arr .array [], [.ofInt 1]), .throw .badAlloc, 2) := by decide +kernel
example : (oneRefused 0).plus false true (.arr .array [.null]) [.ofInt 1] 0 = ((.arr .array [.null], [.ofInt 1]), .throw .badAlloc, 1) := by decide +kernel
example : (oneRefused 9).plus false true (.arr .array [.null]) [.ofInt 1] 0 = ((.arr .array [.null], [.str .number []]), .ok (.arr .array [.null, .ofInt 1]), 3) := by decide +kernel

/-- `|`: likewise. -/
theorem C105_or (J : Joiner) (l m : Bool) (v : Value) (hv : v.Sound) (ns : List (Bytes × Value)) (hn : ns.Pairwise fun a b => a.1 < b.1) (hx : ∀ x ∈ ns, x.2.Sound) (n : Nat) :
    (United l v ns (J.or l m v ns n).1.1 (J.or l m v ns n).2.1 ∧ ((∃ y, (J.or l m v ns n).2.1 = .ok y) → UsedUpMembers m ns (J.or l m v ns n).1.2) ∧
      ((J.or l m v ns n).2.1 = .throw .json → (J.or l m v ns n).1.2 = ns)) ∨
    ((J.or l m v ns n).2.1 = .throw .badAlloc ∧ (∃ i, n ≤ i ∧ i < (J.or l m v ns n).2.2 ∧ J.gives i = false) ∧
      UnionFailed l m v ns (J.or l m v ns n).1.1 (J.or l m v ns n).1.2) :=
  Joiner.or_goes l m hv hn hx n rfl

example : (oneRefused 1).or true true .null [([0x61], .null)] 0 = ((.obj .object [], [([0x61], .null)]), .throw .badAlloc, 2) := by decide +kernel
example : (oneRefused 9).or true true (.obj .object [([0x61], .null)]) [([0x61], .ofInt 1)] 0 =
    ((.obj .object [], [([0x61], .str .number [])]), .ok (.obj .object [([0x61], .ofInt 1)]), 1) := by decide +kernel

/-- With enough memory: as `Concat` and `United` say, which name no memory. -/
theorem C105_enough (J : Joiner) (hJ : ∀ i, J.gives i = true) (l m : Bool) (v : Value) (hv : v.Sound) (n : Nat) :
    (∀ xs : List Value, (∀ x ∈ xs, x.Sound) → Concat l v xs (J.plus l m v xs n).1.1 (J.plus l m v xs n).2.1) ∧
    (∀ ns : List (Bytes × Value), ns.Pairwise (fun a b => a.1 < b.1) → (∀ x ∈ ns, x.2.Sound) → United l v ns (J.or l m v ns n).1.1 (J.or l m v ns n).2.1) := by
  constructor
  · intro xs hx
    rcases C105_plus J l m v hv xs hx n with h | ⟨_, ⟨i, _, _, h⟩, _⟩
    · exact h.1
    · rw [hJ i] at h; cases h
  · intro ns hn hx
    rcases C105_or J l m v hv ns hn hx n with h | ⟨_, ⟨i, _, _, h⟩, _⟩
    · exact h.1
    · rw [hJ i] at h; cases h

example : ∀ i, allGranted.gives i = true := fun _ => rfl

/-- All four forms of `+` give the same array, and all four of `|` the same object. -/
theorem C105_forms (J : Joiner) (hJ : ∀ i, J.gives i = true) (l m l' m' : Bool) (n n' : Nat) :
    (∀ vs xs : List Value, (Value.arr .array vs).Sound → (∀ x ∈ xs, x.Sound) →
      (J.plus l m (.arr .array vs) xs n).2.1 = .ok (.arr .array (vs ++ xs)) ∧ (J.plus l m (.arr .array vs) xs n).2.1 = (J.plus l' m' (.arr .array vs) xs n').2.1) ∧
    (∀ ms ns : List (Bytes × Value), (Value.obj .object ms).Sound → ns.Pairwise (fun a b => a.1 < b.1) → (∀ x ∈ ns, x.2.Sound) →
      ∃ r, Union ms ns r ∧ (J.or l m (.obj .object ms) ns n).2.1 = .ok (.obj .object r) ∧ (J.or l' m' (.obj .object ms) ns n').2.1 = .ok (.obj .object r)) := by
  have plus : ∀ l m n (vs xs : List Value), (Value.arr .array vs).Sound → (∀ x ∈ xs, x.Sound) → (J.plus l m (.arr .array vs) xs n).2.1 = .ok (.arr .array (vs ++ xs)) := by
    intro l m n vs xs hv hx
    have h := (C105_enough J hJ l m _ hv n).1 xs hx
    generalize (J.plus l m (.arr .array vs) xs n).1.1 = w at h
    generalize (J.plus l m (.arr .array vs) xs n).2.1 = o at h ⊢
    cases h with
    | kept => rfl
    | taken => rfl
    | made _ h => exact absurd rfl h
    | noArray h => exact absurd rfl h
    | other h => exact absurd rfl h
  have or : ∀ l m n (ms ns : List (Bytes × Value)), (Value.obj .object ms).Sound → ns.Pairwise (fun a b => a.1 < b.1) → (∀ x ∈ ns, x.2.Sound) →
      ∃ r, Union ms ns r ∧ (J.or l m (.obj .object ms) ns n).2.1 = .ok (.obj .object r) := by
    intro l m n ms ns hv hn hx
    have h := (C105_enough J hJ l m _ hv n).2 ns hn hx
    generalize (J.or l m (.obj .object ms) ns n).1.1 = w at h
    generalize (J.or l m (.obj .object ms) ns n).2.1 = o at h ⊢
    cases h with
    | kept h => exact ⟨_, h, rfl⟩
    | taken h => exact ⟨_, h, rfl⟩
    | made _ h => exact absurd rfl h
    | noObject h => exact absurd rfl h
    | other h => exact absurd rfl h
  refine ⟨fun vs xs hv hx => ⟨plus l m n vs xs hv hx, (plus l m n vs xs hv hx).trans (plus l' m' n' vs xs hv hx).symm⟩, fun ms ns hv hn hx => ?_⟩
  obtain ⟨r, h1, h2⟩ := or l m n ms ns hv hn hx
  obtain ⟨r', h1', h2'⟩ := or l' m' n' ms ns hv hn hx
  have : r' = r := by
    apply sorted_ext h1'.1 h1.1
    intro k
    have key : ∀ x, find k r' = some x ↔ find k r = some x := fun x => by rw [find_eq_some h1'.1, find_eq_some h1.1, h1'.2, h1.2]
    cases h : find k r with
    | some x => exact (key x).2 h
    | none =>
      cases h' : find k r' with
      | none => rfl
      | some y => rw [(key y).1 h'] at h; cases h
  exact ⟨r, h1, h2, this ▸ h2'⟩

example : (allGranted.or false true (.obj .object [([0x61], .null), ([0x62], .null)]) [([0x61], .ofInt 1), ([0x63], .null)] 0).2.1 =
    .ok (.obj .object [([0x61], .ofInt 1), ([0x62], .null), ([0x63], .null)]) := by decide +kernel

/-- The model with requests for memory and the one without, of C47, are the same when all are granted. -/
theorem C105_agrees (J : Joiner) (hJ : ∀ i, J.gives i = true) (m : Bool) (v : Value) (hv : v.Sound) (n : Nat) :
    (∀ xs : List Value, (∀ x ∈ xs, x.Sound) → (J.plus false m v xs n).2.1 = v.plus xs ∧
      ((J.plus true m v xs n).1.1, (J.plus true m v xs n).2.1) = v.plusMove xs) ∧
    (∀ ns : List (Bytes × Value), ns.Pairwise (fun a b => a.1 < b.1) → (∀ x ∈ ns, x.2.Sound) → (J.or false m v ns n).2.1 = v.or ns ∧
      ((J.or true m v ns n).1.1, (J.or true m v ns n).2.1) = v.orMove ns) := by
  have blank : Spec.Blank v ↔ Meojson.Blank v := by
    refine or_congr_left ?_
    cases sound_shape hv <;> simp [Value.type, Value.null, Value.ofBool]
  have same : ∀ ms ns r r' : List (Bytes × Value), Union ms ns r → IsUnion ms ns r' → r = r' := by
    intro ms ns r r' h h'
    apply sorted_ext h.1 h'.1
    intro k
    have key : ∀ x, find k r = some x ↔ find k r' = some x := fun x => by rw [find_eq_some h.1, find_eq_some h'.1, h.2, h'.2]
    cases e : find k r' with
    | some x => exact (key x).2 e
    | none =>
      cases e' : find k r with
      | none => rfl
      | some y => rw [(key y).1 e'] at e; cases e
  constructor
  · intro xs hx
    obtain ⟨h1, h2, h3, h4⟩ := C47_concat v hv xs
    have hl := (C105_enough J hJ false m v hv n).1 xs hx
    have hr := (C105_enough J hJ true m v hv n).1 xs hx
    constructor
    · generalize (J.plus false m v xs n).1.1 = w at hl
      generalize (J.plus false m v xs n).2.1 = o at hl ⊢
      cases hl with
      | kept => exact ((h1 _ rfl).1).symm
      | noArray h => exact (h2 h).symm
    · generalize (J.plus true m v xs n).1.1 = w at hr ⊢
      generalize (J.plus true m v xs n).2.1 = o at hr ⊢
      cases hr with
      | taken => exact ((h1 _ rfl).2.2).symm
      | made hb h => exact ((h3 (blank.1 hb)).2).symm
      | other h hb => exact ((h4 h fun k => hb (blank.2 k)).2).symm
  · intro ns hn hx
    obtain ⟨h1, h2, h3, h4⟩ := C47_merge v hv ns hn
    have hl := (C105_enough J hJ false m v hv n).2 ns hn hx
    have hr := (C105_enough J hJ true m v hv n).2 ns hn hx
    constructor
    · generalize (J.or false m v ns n).1.1 = w at hl
      generalize (J.or false m v ns n).2.1 = o at hl ⊢
      cases hl with
      | kept h =>
        obtain ⟨r', k1, k2, _⟩ := h1 _ rfl
        rw [k2, same _ _ _ _ h k1]
      | noObject h => exact (h2 h).symm
    · generalize (J.or true m v ns n).1.1 = w at hr ⊢
      generalize (J.or true m v ns n).2.1 = o at hr ⊢
      cases hr with
      | taken h =>
        obtain ⟨r', k1, _, _, k2⟩ := h1 _ rfl
        rw [k2, same _ _ _ _ h k1]
      | made hb h => exact ((h3 (blank.1 hb)).2).symm
      | other h hb => exact ((h4 h fun k => hb (blank.2 k)).2).symm

example : (Value.arr .array [.ofInt 1]).plusMove [.null] = (.arr .array [], .ok (.arr .array [.ofInt 1, .null])) := by decide +kernel

/-- How many requests `+` makes when all are granted. From an lvalue on the left: a buffer if it is not empty and a copy of each element; on the right, a copy of each element. From rvalues neither. -/
theorem C105_requests (J : Joiner) (hJ : ∀ i, J.gives i = true) (m : Bool) (vs xs : List Value) (n : Nat) :
    (J.plus false m (.arr .array vs) xs n).2.2 =
      n + (if vs = [] then 0 else 1) + (vs.map J.copies).sum + J.room vs.length xs.length + (if m then 0 else (xs.map J.copies).sum) + 1 ∧
    (vs ≠ [] → (J.plus true m (.arr .array vs) xs n).2.2 = n + J.room vs.length xs.length + (if m then 0 else (xs.map J.copies).sum) + 1) ∧
    (∀ v : Value, v.Sound → Spec.Blank v → (J.plus true m v xs n).2.2 = n + 1 + J.room 0 xs.length + (if m then 0 else (xs.map J.copies).sum) + 1) := by
  refine ⟨?_, ?_, ?_⟩
  · simp only [Joiner.plus, Joiner.fromCopy, Value.asArray, Value.type, if_true, Joiner.first_ample hJ, Joiner.append, Joiner.box, Joiner.arrayCost, Bool.false_eq_true, if_false]
    omega
  · intro hne
    cases vs with
    | nil => exact absurd rfl hne
    | cons v vs =>
      simp only [Joiner.plus, Joiner.inPlace, Value.empty, Value.asArray, Value.type, if_true, Joiner.first_ample hJ, Joiner.append, Joiner.box, List.isEmpty_cons]
      omega
  · intro v hv hb
    rcases Joiner.empty_is hv with ⟨he, _⟩ | ⟨_, h⟩
    · simp only [Joiner.plus, Joiner.inPlace, he, if_true, Joiner.first_ample hJ, Joiner.append, Joiner.box, List.length_nil]
      omega
    · exact absurd hb h

example : (allGranted.plus false false (.arr .array [.arr .array [], .null]) [.obj .object []] 0).2.2 = 5 := by decide +kernel
example : (allGranted.plus true true (.arr .array [.arr .array [], .null]) [.obj .object []] 0).2.2 = 2 := by decide +kernel

/-- And `|`: from an lvalue on the left, the nodes and copies of all its members; on the right, a node for each key that is new and, from an lvalue, a copy of each member. -/
theorem C105_requests_or (J : Joiner) (hJ : ∀ i, J.gives i = true) (m : Bool) (ms ns : List (Bytes × Value)) (hm : ms.Pairwise fun a b => a.1 < b.1) (hn : ns.Pairwise fun a b => a.1 < b.1) (n : Nat) :
    (J.or false m (.obj .object ms) ns n).2.2 = n + (ms.map fun e => J.nodes e.1 + J.copies e.2).sum +
      (ns.map fun e => (if e.1 ∈ ms.map Prod.fst then 0 else J.nodes e.1) + if m then 0 else J.copies e.2).sum + 1 ∧
    (ms ≠ [] → (J.or true m (.obj .object ms) ns n).2.2 =
      n + (ns.map fun e => (if e.1 ∈ ms.map Prod.fst then 0 else J.nodes e.1) + if m then 0 else J.copies e.2).sum + 1) ∧
    (∀ v : Value, v.Sound → Spec.Blank v → (J.or true m v ns n).2.2 = n + 1 + (ns.map fun e => J.nodes e.1 + if m then 0 else J.copies e.2).sum + 1) := by
  refine ⟨?_, ?_, ?_⟩
  · obtain ⟨h1, h2⟩ := Joiner.merge_requests hJ m hn hm (n + J.objectCost ms)
    simp only [Joiner.or, Joiner.fromCopy, Value.asObject, Value.type, if_true, Joiner.first_ample hJ, Joiner.box, Bool.false_eq_true, if_false, h1, h2]
    rfl
  · intro hne
    obtain ⟨h1, h2⟩ := Joiner.merge_requests hJ m hn hm n
    cases ms with
    | nil => exact absurd rfl hne
    | cons e ms =>
      simp only [Joiner.or, Joiner.inPlace, Value.empty, Value.asObject, Value.type, if_true, Joiner.first_ample hJ, Joiner.box, List.isEmpty_cons, h1, h2]
      rfl
  · intro v hv hb
    rcases Joiner.empty_is hv with ⟨he, _⟩ | ⟨_, h⟩
    · obtain ⟨h1, h2⟩ := Joiner.merge_requests hJ m hn Sorted.nil (n + 1)
      simp only [Joiner.or, Joiner.inPlace, he, if_true, Joiner.first_ample hJ, Joiner.box, h1, h2]
      simp [Joiner.mergeCost]
    · exact absurd hb h

example : (allGranted.or false false (.obj .object [([0x61], .arr .array [])]) [([0x61], .null), ([0x62], .arr .array [])] 0).2.2 = 5 := by decide +kernel

/-- A left operand that has been moved from is no operand: every form dereferences its null pointer. -/
theorem C105_moved_from (J : Joiner) (l m : Bool) (n : Nat) :
    (∀ xs, (J.plus l m (.arrNull .array) xs n).2.1 = .ub) ∧ (∀ ns, (J.or l m (.objNull .object) ns n).2.1 = .ub) := by
  cases l <;> exact ⟨fun _ => rfl, fun _ => rfl⟩

example : (Value.arr .array [.ofInt 1]).emptied = .arrNull .array ∧ (Value.obj .object []).emptied = .objNull .object := ⟨rfl, rfl⟩

end Meojson
