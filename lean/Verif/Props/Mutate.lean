import Verif.Proofs.Access

/-!
# C39, C46, C47: mutation of one value
-/

set_option autoImplicit false

namespace Meojson
open Spec RawObject

/-- The values `empty()` holds for: null, `""`, `[]` and `{}`. -/
def Blank (v : Value) : Prop := v = .null ∨ v = .str .string [] ∨ v = .arr .array [] ∨ v = .obj .object []

instance (v : Value) : Decidable (Blank v) := by unfold Blank; infer_instance

theorem empty_sound {v : Value} (hv : v.Sound) : v.empty = .ok (decide (Blank v)) := by
  cases sound_shape hv with
  | string s => cases s <;> simp [Value.empty, Value.type, Blank, Value.null]
  | array vs => cases vs <;> simp [Value.empty, Value.type, Blank, Value.null]
  | object ms => cases ms <;> simp [Value.empty, Value.type, Blank, Value.null]
  | _ => simp [Value.empty, Value.type, Blank, Value.null, Value.ofBool]

theorem type_null_arr {v : Value} (hv : v.Sound) (h : v.type = .array) : ∃ vs, v = .arr .array vs := by
  cases sound_shape hv with
  | array vs => exact ⟨vs, rfl⟩
  | _ => simp [Value.type, Value.ofBool] at h

theorem type_null_obj {v : Value} (hv : v.Sound) (h : v.type = .object) : ∃ ms, v = .obj .object ms ∧ Sorted ms := by
  cases sound_shape hv with
  | object ms hs => exact ⟨ms, rfl, hs⟩
  | _ => simp [Value.type, Value.ofBool] at h

theorem typeError_sound {α : Type} {v : Value} (hv : v.Sound) : (v.typeError : Out α) = .throw .json := by
  cases sound_shape hv <;> simp [Value.typeError, Value.valueInfo, Value.ofBool]

/-- A change through the non-const `as_array()`. -/
theorem onArray_sound {α : Type} {v : Value} (hv : v.Sound) (f : List Value → List Value × Out α) :
    (Blank v → v.onArray f = (.arr .array (f []).1, (f []).2)) ∧
    (∀ vs, v = .arr .array vs → v.onArray f = (.arr .array (f vs).1, (f vs).2)) ∧
    (¬ Blank v → v.type ≠ .array → v.onArray f = (v, .throw .json)) := by
  refine ⟨?_, ?_, ?_⟩
  · intro hb
    simp [Value.onArray, Value.asArrayM, empty_sound hv, hb, Value.type]
  · rintro vs rfl
    by_cases hb : Blank (.arr .array vs)
    · have : vs = [] := by simpa [Blank, Value.null] using hb
      subst this
      simp [Value.onArray, Value.asArrayM, empty_sound hv, hb, Value.type]
    · simp [Value.onArray, Value.asArrayM, empty_sound hv, hb, Value.type, Value.asArray]
  · intro hb ht
    simp [Value.onArray, Value.asArrayM, empty_sound hv, hb, Value.asArray, ht, typeError_sound hv]

/-- A change through the non-const `as_object()`. -/
theorem onObject_sound {α : Type} {v : Value} (hv : v.Sound) (f : List (Bytes × Value) → List (Bytes × Value) × Out α) :
    (Blank v → v.onObject f = (.obj .object (f []).1, (f []).2)) ∧
    (∀ ms, v = .obj .object ms → v.onObject f = (.obj .object (f ms).1, (f ms).2)) ∧
    (¬ Blank v → v.type ≠ .object → v.onObject f = (v, .throw .json)) := by
  refine ⟨?_, ?_, ?_⟩
  · intro hb
    simp [Value.onObject, Value.asObjectM, empty_sound hv, hb, Value.type]
  · rintro ms rfl
    by_cases hb : Blank (.obj .object ms)
    · have : ms = [] := by simpa [Blank, Value.null] using hb
      subst this
      simp [Value.onObject, Value.asObjectM, empty_sound hv, hb, Value.type]
    · simp [Value.onObject, Value.asObjectM, empty_sound hv, hb, Value.type, Value.asObject]
  · intro hb ht
    simp [Value.onObject, Value.asObjectM, empty_sound hv, hb, Value.asObject, ht, typeError_sound hv]

/-! ### C39 -/

/-- C39 as stated, for `erase`. -/
def C39Claim : Prop := ∀ (v : Value), v.Sound →
  (∀ k, (v.eraseKey k).2 ≠ .ok true → (v.eraseKey k).1 = v) ∧ (∀ i, (v.erasePos i).2 ≠ .ok true → (v.erasePos i).1 = v)

/-- `value v; v.erase("k")` returns false, and `v` is `{}` afterwards instead of null. -/
theorem C39_refuted : ¬ C39Claim := by
  intro h
  have := (h .null (by simp [Value.Sound, Value.null, Value.Wf])).1 [0x6b]
  revert this
  decide

/-- Every mutator that throws leaves the value as it was, and `erase` that returns false does so unless the value was null, `""`, `[]` or `{}`; in that case it is `{}`
(`erase(key)`) or `[]` (`erase(pos)`) afterwards. -/
theorem C39_partial (v : Value) (hv : v.Sound) :
    (∀ k, ((v.eraseKey k).2 = .ok false ∧ ¬ Blank v → (v.eraseKey k).1 = v) ∧
      (Blank v → v.eraseKey k = (.obj .object [], .ok false))) ∧
    (∀ i, ((v.erasePos i).2 = .ok false ∧ ¬ Blank v → (v.erasePos i).1 = v) ∧
      (Blank v → v.erasePos i = (.arr .array [], .ok false))) ∧
    (∀ k e, (v.eraseKey k).2 = .throw e → v.eraseKey k = (v, .throw .json)) ∧
    (∀ i e, (v.erasePos i).2 = .throw e → v.erasePos i = (v, .throw .json)) ∧
    (∀ x e, (v.emplaceBack x).2 = .throw e → v.emplaceBack x = (v, .throw .json)) ∧
    (∀ k x e, (v.emplaceKey k x).2 = .throw e → v.emplaceKey k x = (v, .throw .json)) ∧
    (∀ k e, (v.indexKey k).2 = .throw e → v.indexKey k = (v, .throw .json)) ∧
    (∀ i e, (v.indexPos i).2 = .throw e → v.indexPos i = (v, .throw .json)) ∧
    (∀ xs e, (v.plusAssign xs).2 = .throw e → v.plusAssign xs = (v, .throw .json)) ∧
    (∀ ms e, (v.orAssign ms).2 = .throw e → v.orAssign ms = (v, .throw .json)) := by
  have arr : ∀ {α : Type} (f : List Value → List Value × Out α) (e : Exn), (∀ vs e, (f vs).2 ≠ .throw e) → (v.onArray f).2 = .throw e →
      v.onArray f = (v, .throw .json) := by
    intro α f e hf he
    obtain ⟨h1, h2, h3⟩ := onArray_sound hv f
    by_cases hb : Blank v
    · rw [h1 hb] at he; exact absurd he (hf _ _)
    · by_cases ht : v.type = .array
      · obtain ⟨vs, rfl⟩ := type_null_arr hv ht
        rw [h2 vs rfl] at he; exact absurd he (hf _ _)
      · exact h3 hb ht
  have obj : ∀ {α : Type} (f : List (Bytes × Value) → List (Bytes × Value) × Out α) (e : Exn), (∀ vs e, (f vs).2 ≠ .throw e) → (v.onObject f).2 = .throw e →
      v.onObject f = (v, .throw .json) := by
    intro α f e hf he
    obtain ⟨h1, h2, h3⟩ := onObject_sound hv f
    by_cases hb : Blank v
    · rw [h1 hb] at he; exact absurd he (hf _ _)
    · by_cases ht : v.type = .object
      · obtain ⟨vs, rfl, _⟩ := type_null_obj hv ht
        rw [h2 vs rfl] at he; exact absurd he (hf _ _)
      · exact h3 hb ht
  refine ⟨fun k => ⟨?_, ?_⟩, fun i => ⟨?_, ?_⟩, fun k e => obj _ e (by simp), fun i e => arr _ e (by simp), fun x e => arr _ e (by simp), fun k x e => obj _ e (by simp), ?_,
    fun i e => arr _ e (by intro vs e; simp only; split <;> simp), fun xs e => arr _ e (by simp), fun ms e => obj _ e (by simp)⟩
  · rintro ⟨h, hb⟩
    obtain ⟨h1, h2, h3⟩ := onObject_sound hv (fun ms => ((erase k ms).1, Out.ok (erase k ms).2))
    by_cases ht : v.type = .object
    · obtain ⟨ms, rfl, _⟩ := type_null_obj hv ht
      unfold Value.eraseKey at *
      simp only [h2 ms rfl] at h ⊢
      simp only [Out.ok.injEq, erase_snd] at h
      rw [erase_absent (by simpa using h)]
    · unfold Value.eraseKey at *; simp only [h3 hb ht]
  · intro hb; unfold Value.eraseKey; rw [(onObject_sound hv _).1 hb]; simp [erase]
  · rintro ⟨h, hb⟩
    obtain ⟨h1, h2, h3⟩ := onArray_sound hv (fun vs => ((Value.eraseElem i vs).1, Out.ok (Value.eraseElem i vs).2))
    by_cases ht : v.type = .array
    · obtain ⟨vs, rfl⟩ := type_null_arr hv ht
      unfold Value.erasePos at *
      simp only [h2 vs rfl] at h ⊢
      unfold Value.eraseElem at *
      split at h
      · next hi => simp [hi]
      · simp at h
    · unfold Value.erasePos at *; simp only [h3 hb ht]
  · intro hb; unfold Value.erasePos; rw [(onArray_sound hv _).1 hb]; simp [Value.eraseElem]
  · intro k e he
    unfold Value.indexKey at *
    rw [empty_sound hv] at *
    by_cases hb : Blank v
    · simp only [hb, decide_true] at he
      rw [(onObject_sound (v := .obj .object []) (by simp [Value.Sound, Value.Wf, Value.WfMembers]) _).2.1 [] rfl] at he
      simp at he
    · simp only [hb, decide_false] at he ⊢
      exact obj _ e (by simp) he

example : Value.erasePos 2 (.arr .array [.null, .ofInt 1]) = (.arr .array [.null, .ofInt 1], .ok false) := by decide +kernel
example : Value.eraseKey [0x6b] (.ofInt 3) = (.ofInt 3, .throw .json) := by decide +kernel

/-! ### C46 -/

/-- `v[key]`. On null, `""`, `[]` and `{}` the value becomes `{key: null}`. On an object the result is the member, null if it was absent, and exactly the members of the object,
with that one added if absent, remain. On anything else `json::exception` is thrown and the value is as it was. -/
theorem C46_index_key (v : Value) (hv : v.Sound) (k : Bytes) :
    (Blank v → v.indexKey k = (.obj .object [(k, .null)], .ok .null)) ∧
    (∀ ms, v = .obj .object ms → ∃ ms' x, v.indexKey k = (.obj .object ms', .ok x) ∧ ms'.Pairwise (fun a b => a.1 < b.1) ∧ (k, x) ∈ ms' ∧
      (∀ y, (k, y) ∈ ms → x = y) ∧ ((∀ y, (k, y) ∉ ms) → x = .null) ∧ ∀ e, e.1 ≠ k → (e ∈ ms' ↔ e ∈ ms)) ∧
    (¬ Blank v → v.type ≠ .object → v.indexKey k = (v, .throw .json)) := by
  have nilSound : (Value.obj .object []).Sound := by simp [Value.Sound, Value.Wf, Value.WfMembers]
  refine ⟨?_, ?_, ?_⟩
  · intro hb
    unfold Value.indexKey
    simp only [empty_sound hv, hb, decide_true]
    rw [(onObject_sound nilSound _).2.1 [] rfl]
    simp [Value.mapIndex, emplace, find, bytesLt_irrefl]
  · rintro ms rfl
    obtain ⟨hs⟩ : Nonempty (Sorted ms) := by
      cases sound_shape hv with
      | object _ hs => exact ⟨hs⟩
    have e : (Value.obj .object ms).indexKey k = (.obj .object (emplace k .null ms).1, .ok ((find k ms).getD .null)) := by
      unfold Value.indexKey
      rw [empty_sound hv]
      by_cases hb : Blank (.obj .object ms)
      · simp only [hb, decide_true]
        rw [(onObject_sound nilSound _).2.1 [] rfl]
        have : ms = [] := by simpa [Blank, Value.null] using hb
        subst this
        simp [Value.mapIndex, find_emplace]
      · simp only [hb, decide_false]
        rw [(onObject_sound hv _).2.1 ms rfl]
        simp [Value.mapIndex, find_emplace]
    refine ⟨_, _, e, emplace_sorted hs _ _, ?_, ?_, ?_, ?_⟩
    · rw [← find_eq_some (emplace_sorted hs _ _), find_emplace, if_pos rfl]
    · intro y hy; rw [(find_eq_some hs k y).2 hy]; rfl
    · intro hy; rw [(find_eq_none hs k).2 hy]; rfl
    · rintro ⟨k', y⟩ hne
      rw [← find_eq_some (emplace_sorted hs _ _), ← find_eq_some hs, find_emplace, if_neg hne]
  · intro hb ht
    unfold Value.indexKey
    rw [empty_sound hv]
    simp only [hb, decide_false]
    exact (onObject_sound hv _).2.2 hb ht

example : Value.indexKey [0x62] (.obj .object [([0x61], .ofInt 1), ([0x63], .ofInt 3)]) =
    (.obj .object [([0x61], .ofInt 1), ([0x62], .null), ([0x63], .ofInt 3)], .ok .null) := by decide +kernel

/-! ### C47 -/

/-- Concatenation. `v + xs` on a const or lvalue operand needs an array; `v += xs` and `std::move(v) + xs` first turn null, `""`, `[]` and `{}` into `[]`. The rvalue form leaves
`v` an empty array. -/
theorem C47_concat (v : Value) (hv : v.Sound) (xs : List Value) :
    (∀ vs, v = .arr .array vs →
      v.plus xs = .ok (.arr .array (vs ++ xs)) ∧ v.plusAssign xs = (.arr .array (vs ++ xs), .ok ()) ∧ v.plusMove xs = (.arr .array [], .ok (.arr .array (vs ++ xs)))) ∧
    (v.type ≠ .array → v.plus xs = .throw .json) ∧
    (Blank v → v.plusAssign xs = (.arr .array xs, .ok ()) ∧ v.plusMove xs = (.arr .array [], .ok (.arr .array xs))) ∧
    (v.type ≠ .array → ¬ Blank v → v.plusAssign xs = (v, .throw .json) ∧ v.plusMove xs = (v, .throw .json)) := by
  refine ⟨?_, ?_, ?_, ?_⟩
  · rintro vs rfl
    refine ⟨rfl, (onArray_sound hv _).2.1 vs rfl, (onArray_sound hv _).2.1 vs rfl⟩
  · intro ht; simp [Value.plus, Value.asArray, ht, typeError_sound hv]
  · intro hb; exact ⟨(onArray_sound hv _).1 hb, (onArray_sound hv _).1 hb⟩
  · intro ht hb; exact ⟨(onArray_sound hv _).2.2 hb ht, (onArray_sound hv _).2.2 hb ht⟩

/-- Merging. `IsUnion ms ns r`: `r` is the object with the members of `ns` and those of `ms` whose key `ns` lacks (C24). -/
def IsUnion (ms ns r : List (Bytes × Value)) : Prop :=
  r.Pairwise (fun a b => a.1 < b.1) ∧ ∀ k x, (k, x) ∈ r ↔ (k, x) ∈ ns ∨ ((k, x) ∈ ms ∧ ∀ y, (k, y) ∉ ns)

theorem isUnion_merge {ms ns : List (Bytes × Value)} (hm : Sorted ms) (hn : Sorted ns) : IsUnion ms ns (Value.mergeObject ms ns) := by
  refine ⟨mergeObject_sorted hm, fun k x => ?_⟩
  rw [← find_eq_some (mergeObject_sorted hm), ← find_eq_some hn, ← find_eq_some hm, ← find_eq_none hn, find_mergeObject hn]
  cases find k ns <;> simp

/-- Merging: as for concatenation, with objects and their union. -/
theorem C47_merge (v : Value) (hv : v.Sound) (ns : List (Bytes × Value)) (hn : ns.Pairwise fun a b => a.1 < b.1) :
    (∀ ms, v = .obj .object ms → ∃ r, IsUnion ms ns r ∧
      v.or ns = .ok (.obj .object r) ∧ v.orAssign ns = (.obj .object r, .ok ()) ∧ v.orMove ns = (.obj .object [], .ok (.obj .object r))) ∧
    (v.type ≠ .object → v.or ns = .throw .json) ∧
    (Blank v → v.orAssign ns = (.obj .object ns, .ok ()) ∧ v.orMove ns = (.obj .object [], .ok (.obj .object ns))) ∧
    (v.type ≠ .object → ¬ Blank v → v.orAssign ns = (v, .throw .json) ∧ v.orMove ns = (v, .throw .json)) := by
  have hnil : Value.mergeObject [] ns = ns := by
    apply sorted_ext (mergeObject_sorted Sorted.nil) hn
    intro k
    rw [find_mergeObject hn]
    cases find k ns <;> simp [find]
  refine ⟨?_, ?_, ?_, ?_⟩
  · rintro ms rfl
    have hs : Sorted ms := by
      cases sound_shape hv with
      | object _ hs => exact hs
    exact ⟨_, isUnion_merge hs hn, rfl, (onObject_sound hv _).2.1 ms rfl, (onObject_sound hv _).2.1 ms rfl⟩
  · intro ht; simp [Value.or, Value.asObject, ht, typeError_sound hv]
  · intro hb
    constructor
    · unfold Value.orAssign; rw [(onObject_sound hv _).1 hb]; simp [hnil]
    · unfold Value.orMove; rw [(onObject_sound hv _).1 hb]; simp [hnil]
  · intro ht hb; exact ⟨(onObject_sound hv _).2.2 hb ht, (onObject_sound hv _).2.2 hb ht⟩

example : (Value.arr .array [.ofInt 1]).plus [.null] = .ok (.arr .array [.ofInt 1, .null]) := by decide +kernel
example : IsUnion [([0x61], .ofInt 1)] [([0x61], .ofInt 2)] [([0x61], .ofInt 2)] := isUnion_merge (by simp [Sorted]) (by simp [Sorted])

/-! ### C53 -/

/-- `emplace(val)`, `erase(pos)` and `operator[](pos)`. On null, `""`, `[]` and `{}` the value is made an empty array first. On an array: `emplace` appends; `erase` of a valid position
removes that element and no other and returns true; `[]` of a valid position returns that element and changes nothing, of an invalid one it is undefined. On anything else they throw
`json::exception` and change nothing. -/
theorem C53_array (v : Value) (hv : v.Sound) :
    (∀ vs, (v = .arr .array vs ∨ (Blank v ∧ vs = [])) →
      (∀ x, v.emplaceBack x = (.arr .array (vs ++ [x]), .ok ())) ∧
      (∀ a x b, vs = a ++ x :: b → v.erasePos a.length = (.arr .array (a ++ b), .ok true) ∧ v.indexPos a.length = (v, .ok x)) ∧
      (∀ i, vs.length ≤ i → v.erasePos i = (.arr .array vs, .ok false) ∧ v.indexPos i = (.arr .array vs, .ub))) ∧
    (¬ Blank v → v.type ≠ .array →
      (∀ x, v.emplaceBack x = (v, .throw .json)) ∧ ∀ i, v.erasePos i = (v, .throw .json) ∧ v.indexPos i = (v, .throw .json)) := by
  have on : ∀ {α : Type} (f : List Value → List Value × Out α) (vs : List Value), (v = .arr .array vs ∨ (Blank v ∧ vs = [])) →
      v.onArray f = (.arr .array (f vs).1, (f vs).2) := by
    rintro α f vs (h | ⟨h, rfl⟩)
    · exact (onArray_sound hv f).2.1 vs h
    · exact (onArray_sound hv f).1 h
  refine ⟨fun vs h => ⟨fun x => on _ vs h, ?_, ?_⟩, fun hb ht => ⟨fun x => (onArray_sound hv _).2.2 hb ht, fun i => ⟨(onArray_sound hv _).2.2 hb ht, (onArray_sound hv _).2.2 hb ht⟩⟩⟩
  · rintro a x b rfl
    have hv' : v = .arr .array (a ++ x :: b) := by
      rcases h with h | ⟨_, h⟩
      · exact h
      · simp at h
    constructor
    · unfold Value.erasePos
      rw [on _ _ h]
      have : ¬ a.length ≥ (a ++ x :: b).length := by simp
      simp only [Value.eraseElem, if_neg this, List.eraseIdx_append_of_length_le (Nat.le_refl _), Nat.sub_self, List.eraseIdx_cons_zero]
    · unfold Value.indexPos
      rw [on _ _ h]
      simp [hv']
  · intro i hi
    constructor
    · unfold Value.erasePos
      rw [on _ _ h]
      simp [Value.eraseElem, hi]
    · unfold Value.indexPos
      rw [on _ _ h]
      simp [hi]

/-- `emplace(key, val)` and `erase(key)`. On null, `""`, `[]` and `{}` the value is made an empty object first. On an object: after `emplace` the key has the given value, whatever it had
before; after `erase` it is absent, and the answer is whether it was there; the other members stay as they were. On anything else they throw `json::exception` and change nothing. -/
theorem C53_object (v : Value) (hv : v.Sound) (k : Bytes) :
    (∀ ms, (v = .obj .object ms ∨ (Blank v ∧ ms = [])) →
      (∀ x, ∃ ms', v.emplaceKey k x = (.obj .object ms', .ok ()) ∧ ms'.Pairwise (fun a b => a.1 < b.1) ∧ ∀ e, e ∈ ms' ↔ e = (k, x) ∨ (e.1 ≠ k ∧ e ∈ ms)) ∧
      (∃ ms' b, v.eraseKey k = (.obj .object ms', .ok b) ∧ (b = true ↔ ∃ y, (k, y) ∈ ms) ∧ ms'.Pairwise (fun a b => a.1 < b.1) ∧ ∀ e, e ∈ ms' ↔ e.1 ≠ k ∧ e ∈ ms)) ∧
    (¬ Blank v → v.type ≠ .object → (∀ x, v.emplaceKey k x = (v, .throw .json)) ∧ v.eraseKey k = (v, .throw .json)) := by
  have on : ∀ {α : Type} (f : List (Bytes × Value) → List (Bytes × Value) × Out α) (ms : List (Bytes × Value)), (v = .obj .object ms ∨ (Blank v ∧ ms = [])) →
      v.onObject f = (.obj .object (f ms).1, (f ms).2) := by
    rintro α f ms (h | ⟨h, rfl⟩)
    · exact (onObject_sound hv f).2.1 ms h
    · exact (onObject_sound hv f).1 h
  refine ⟨fun ms h => ?_, fun hb ht => ⟨fun x => (onObject_sound hv _).2.2 hb ht, (onObject_sound hv _).2.2 hb ht⟩⟩
  have hs : Sorted ms := by
    rcases h with rfl | ⟨_, rfl⟩
    · cases sound_shape hv with
      | object _ hs => exact hs
    · exact Sorted.nil
  refine ⟨fun x => ⟨_, on _ ms h, insertOrAssign_sorted hs k x, ?_⟩, ?_⟩
  · rintro ⟨k', y⟩
    rw [← find_eq_some (insertOrAssign_sorted hs k x), find_insertOrAssign]
    split
    · rename_i h; subst h; simp; exact eq_comm
    · rename_i h; rw [find_eq_some hs]; simp [h]
  · refine ⟨_, _, on _ ms h, ?_, erase_sorted hs k, ?_⟩
    · simp only [erase_snd, Option.isSome_iff_exists, find_eq_some hs]
    · rintro ⟨k', y⟩
      rw [← find_eq_some (erase_sorted hs k), find_erase hs]
      split
      · rename_i h; subst h; simp
      · rename_i h; rw [find_eq_some hs]; simp [h]

/-- `clear()` makes any value null. -/
theorem C53_clear (v : Value) : v.clear = .null := rfl

example : Value.emplaceBack .null (.ofInt 1) = (.arr .array [.ofInt 1], .ok ()) := by decide +kernel
example : Value.emplaceKey (.obj .object [([0x61], .ofInt 1)]) [0x61] (.ofInt 2) = (.obj .object [([0x61], .ofInt 2)], .ok ()) := by decide +kernel

end Meojson
