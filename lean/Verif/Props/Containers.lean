import Verif.Proofs.MapOps
import Verif.Spec.Containers

/-!
# C22, C23, C24: objects are finite maps, arrays are sequences, union is right-biased
-/

set_option autoImplicit false

namespace Meojson
open Spec RawObject

/-- The object answers every lookup as the finite map does. -/
def ObjRep (m : ObjectData) (f : FMap) : Prop := Sorted m ∧ ∀ k, find k m = f k

theorem ofInit_rep (l : List (Bytes × Value)) : ObjRep (ObjectData.ofInit l []) (FMap.ofList l) := by
  have key : ∀ (l : List (Bytes × Value)) (m : ObjectData), Sorted m →
      Sorted (ObjectData.ofInit l m) ∧ ∀ k, find k (ObjectData.ofInit l m) = (find k m).or (FMap.ofList l k) := by
    intro l
    induction l with
    | nil => intro m hm; exact ⟨hm, fun k => by simp [ObjectData.ofInit, FMap.ofList]⟩
    | cons e l ih =>
      intro m hm
      obtain ⟨k', v'⟩ := e
      obtain ⟨h1, h2⟩ := ih _ (emplace_sorted hm k' v')
      refine ⟨h1, fun k => ?_⟩
      show find k (ObjectData.ofInit l _) = _
      rw [h2, find_emplace]
      by_cases h : k = k'
      · subst h; cases hk : find k m <;> simp [FMap.ofList]
      · simp [h, FMap.ofList, Ne.symm h]
  obtain ⟨h1, h2⟩ := key l [] Sorted.nil
  exact ⟨h1, fun k => by simpa [find] using h2 k⟩

theorem objCall_rep {m : ObjectData} {f : FMap} (h : ObjRep m f) (c : ObjCall) :
    ObjRep (c.run m).1 (objSpec f c).1 ∧ (c.run m).2 = (objSpec f c).2 := by
  obtain ⟨hs, hf⟩ := h
  cases c with
  | emplace k v =>
    refine ⟨⟨insertOrAssign_sorted hs _ _, fun x => ?_⟩, ?_⟩
    · simp only [ObjCall.run, ObjectData.emplace, find_insertOrAssign, objSpec, FMap.put, hf]
    · simp only [ObjCall.run, ObjectData.emplace, objSpec, hf]
  | index k =>
    have e : (ObjCall.run m (.index k)) = ((emplace k .null m).1, .ref ((find k (emplace k .null m).1).getD .null)) := rfl
    rw [e]
    simp only [find_emplace, if_true, objSpec, hf]
    cases hk : f k with
    | none =>
      refine ⟨⟨emplace_sorted hs _ _, fun x => ?_⟩, by simp⟩
      simp only [find_emplace, hf, hk, FMap.put]; simp
    | some w =>
      refine ⟨⟨emplace_sorted hs _ _, fun x => ?_⟩, by simp⟩
      simp only [find_emplace, hf, hk]
      split
      · next h => subst h; simp [hk]
      · rfl
  | indexAssign k v =>
    refine ⟨⟨insertOrAssign_sorted (emplace_sorted hs _ _) _ _, fun x => ?_⟩, rfl⟩
    show find x (insertOrAssign k v (emplace k .null m).1) = _
    rw [find_insertOrAssign, find_emplace, hf]
    simp only [objSpec, FMap.put]
    split <;> simp [hf]
  | erase k =>
    refine ⟨⟨erase_sorted hs _, fun x => ?_⟩, ?_⟩
    · simp only [ObjCall.run, ObjectData.erase, find_erase hs, objSpec, FMap.remove, hf]
    · simp only [ObjCall.run, ObjectData.erase, erase_snd, objSpec, hf]
  | clear => exact ⟨⟨Sorted.nil, fun x => rfl⟩, rfl⟩
  | orAssign o =>
    obtain ⟨h1, h2⟩ := ofInit_rep o
    refine ⟨⟨mergeObject_sorted hs, fun x => ?_⟩, rfl⟩
    simp only [ObjCall.run, find_mergeObject h1, h2, hf, objSpec, FMap.union]
    cases FMap.ofList o x <;> simp

theorem objCalls_rep {m : ObjectData} {f : FMap} (h : ObjRep m f) (cs : List ObjCall) :
    ObjRep (ObjCall.runAll m cs).1 (objSpecAll f cs).1 ∧ (ObjCall.runAll m cs).2 = (objSpecAll f cs).2 := by
  induction cs generalizing m f with
  | nil => exact ⟨h, rfl⟩
  | cons c cs ih =>
    obtain ⟨h1, h2⟩ := objCall_rep h c
    obtain ⟨h3, h4⟩ := ih h1
    exact ⟨h3, by simp only [ObjCall.runAll, objSpecAll, h2, h4]⟩

/-- Start from any initialiser list and make any calls. The answers are those of a finite map; so are `contains`, `find_value` and `at` afterwards;
iteration yields the entries of that map, each once, in strictly ascending byte order; `size` is the number of keys. -/
theorem C22_object_is_finite_map (init : List (Bytes × Value)) (calls : List ObjCall) (m : ObjectData) (answers : List Answer)
    (hrun : ObjCall.runAll (ObjectData.ofInit init []) calls = (m, answers)) :
    ∃ f : FMap, objSpecAll (FMap.ofList init) calls = (f, answers) ∧
      (∀ k, m.contains k = (f k).isSome ∧ m.findValue k = f k ∧ m.getAt k = match f k with | some v => .ok v | none => .throw .outOfRange) ∧
      m.Pairwise (fun a b => a.1 < b.1) ∧ (∀ k v, (k, v) ∈ m ↔ f k = some v) ∧ (∀ keys : List Bytes, keys.Nodup → (∀ k, k ∈ keys ↔ (f k).isSome) → m.size = keys.length) ∧
      (m.empty = true ↔ ∀ k, f k = none) := by
  obtain ⟨⟨h1, h2⟩, h3⟩ := objCalls_rep (ofInit_rep init) calls
  rw [hrun] at h1 h2 h3
  refine ⟨(objSpecAll (FMap.ofList init) calls).1, Prod.ext rfl h3.symm, ?_, h1, ?_, ?_, ?_⟩
  · intro k
    have := h2 k
    simp only at this
    refine ⟨by simp only [ObjectData.contains, this], this, by simp only [ObjectData.getAt, this]; rfl⟩
  · intro k v; rw [← h2 k]; exact (find_eq_some h1 k v).symm
  · intro keys hn hk
    have : (m.map Prod.fst).Perm keys := by
      rw [List.perm_ext_iff_of_nodup h1.nodup hn]
      intro k
      rw [hk, ← h2 k]
      simp only [List.mem_map, Option.isSome_iff_exists, find_eq_some h1]
      constructor
      · rintro ⟨⟨k', v⟩, hm, rfl⟩; exact ⟨v, hm⟩
      · rintro ⟨v, hm⟩; exact ⟨(k, v), hm, rfl⟩
    rw [← this.length_eq, List.length_map]; rfl
  · constructor
    · intro h k; rw [← h2 k]; simp [ObjectData.empty] at h; simp [h, find]
    · intro h
      cases m with
      | nil => rfl
      | cons e m =>
        have := h2 e.1
        rw [h e.1] at this
        rw [(find_eq_some h1 e.1 e.2).2 (by simp)] at this
        simp at this

example : ObjCall.runAll (ObjectData.ofInit [([0x62], .ofInt 1), ([0x62], .ofInt 2)] [])
    [.index [0x61], .emplace [0x62] (.ofInt 3), .erase [0x63], .erase [0x61], .indexAssign [0x41] .null] =
    ([([0x41], .null), ([0x62], .ofInt 3)], [.ref .null, .flag false, .flag false, .flag true, .unit]) := by decide +kernel

/-- The array has the length and the elements of the sequence. -/
def ArrRep (a : ArrayData) (q : FSeq) : Prop := a.length = q.len ∧ ∀ i, a[i]? = q.get i

theorem arrCall_rep {a : ArrayData} {q : FSeq} (h : ArrRep a q) (c : ArrCall) :
    ArrRep (c.run a).1 (arrSpec q c).1 ∧ (c.run a).2 = (arrSpec q c).2 := by
  obtain ⟨hl, hg⟩ := h
  cases c with
  | emplaceBack v =>
    refine ⟨⟨by simp [ArrCall.run, ArrayData.emplaceBack, arrSpec, hl], fun i => ?_⟩, rfl⟩
    simp only [ArrCall.run, ArrayData.emplaceBack, arrSpec, ← hg, ← hl]
    split
    · next h => subst h; simp
    · rw [List.getElem?_append]
      split
      · rfl
      · rw [List.getElem?_eq_none (by simp; omega), List.getElem?_eq_none (by omega)]
  | indexAssign i v =>
    refine ⟨⟨by simp [ArrCall.run, ArrayData.indexAssign, arrSpec, hl], fun j => ?_⟩, rfl⟩
    simp only [ArrCall.run, ArrayData.indexAssign, arrSpec, ← hg, ← hl, List.getElem?_set]
    by_cases h : j = i
    · subst h
      by_cases h' : j < a.length
      · simp [h']
      · simp [h']
    · simp [h, Ne.symm h]
  | erase i =>
    simp only [ArrCall.run, ArrayData.erase, Value.eraseElem, arrSpec, ← hl]
    by_cases h : i < a.length
    · simp only [if_neg (Nat.not_le.2 h), if_pos h]
      refine ⟨⟨by simp [List.length_eraseIdx, h], fun j => ?_⟩, trivial⟩
      simp only [List.getElem?_eraseIdx, hg]
    · simp only [if_pos (Nat.not_lt.1 h), if_neg h]
      exact ⟨⟨hl, hg⟩, trivial⟩
  | clear => exact ⟨⟨rfl, fun i => rfl⟩, rfl⟩
  | plusAssign o =>
    refine ⟨⟨by simp [ArrCall.run, Value.appendArray, arrSpec, hl], fun i => ?_⟩, rfl⟩
    simp only [ArrCall.run, Value.appendArray, arrSpec, ← hg, ← hl, List.getElem?_append]

theorem arrCalls_rep {a : ArrayData} {q : FSeq} (h : ArrRep a q) (cs : List ArrCall) :
    ArrRep (ArrCall.runAll a cs).1 (arrSpecAll q cs).1 ∧ (ArrCall.runAll a cs).2 = (arrSpecAll q cs).2 := by
  induction cs generalizing a q with
  | nil => exact ⟨h, rfl⟩
  | cons c cs ih =>
    obtain ⟨h1, h2⟩ := arrCall_rep h c
    obtain ⟨h3, h4⟩ := ih h1
    exact ⟨h3, by simp only [ArrCall.runAll, arrSpecAll, h2, h4]⟩

/-- Start from any list of elements and make any calls. The answers, `size`, `contains`, `find_value`, `at` and `operator[]` (which is undefined beyond the end) are those of a sequence. -/
theorem C23_array_is_sequence (init : List Value) (calls : List ArrCall) (a : ArrayData) (answers : List Answer)
    (hrun : ArrCall.runAll init calls = (a, answers)) :
    ∃ q : FSeq, arrSpecAll ⟨init.length, fun i => init[i]?⟩ calls = (q, answers) ∧ a.size = q.len ∧
      ∀ i, a.contains i = decide (i < q.len) ∧ a.findValue i = q.get i ∧ (i < q.len ↔ ∃ v, q.get i = some v) ∧
        a.getAt i = (match q.get i with | some v => .ok v | none => .throw .outOfRange) ∧
        a.index i = (match q.get i with | some v => .ok v | none => .ub) := by
  obtain ⟨⟨h1, h2⟩, h3⟩ := arrCalls_rep (a := init) (q := ⟨init.length, fun i => init[i]?⟩) ⟨rfl, fun _ => rfl⟩ calls
  rw [hrun] at h1 h2 h3
  refine ⟨_, Prod.ext rfl h3.symm, h1, fun i => ?_⟩
  have hi := h2 i
  have hc : i < (arrSpecAll ⟨init.length, fun i => init[i]?⟩ calls).1.len ↔ ∃ v, (arrSpecAll ⟨init.length, fun i => init[i]?⟩ calls).1.get i = some v := by
    rw [← h1, ← hi]
    simp only
    constructor
    · intro h; exact ⟨_, List.getElem?_eq_getElem h⟩
    · rintro ⟨v, h⟩; exact (List.getElem?_eq_some_iff.1 h).1
  simp only at hi h1
  refine ⟨by simp only [ArrayData.contains, h1], ?_, hc, by simp only [ArrayData.getAt, hi]; rfl, ?_⟩
  · unfold ArrayData.findValue ArrayData.contains
    rw [h1, hi]
    split
    · rfl
    · next h =>
      cases hg : (arrSpecAll ⟨init.length, fun i => init[i]?⟩ calls).1.get i with
      | none => rfl
      | some v => exact absurd (hc.2 ⟨v, hg⟩) (by simpa using h)
  · simp only [ArrayData.index, hi]; rfl

example : ArrCall.runAll [.ofInt 1] [.emplaceBack .null, .plusAssign [.ofInt 2, .ofInt 3], .erase 1, .erase 3, .indexAssign 0 (.ofInt 4)] =
    ([.ofInt 4, .ofInt 2, .ofInt 3], [.ref .null, .unit, .flag true, .flag false, .unit]) := by decide +kernel

/-- `array(n)` holds `n` null values. -/
theorem C23_sized (n : Nat) : (ArrayData.ofSize n).size = n ∧ ∀ i, (ArrayData.ofSize n).findValue i = if i < n then some .null else none := by
  unfold ArrayData.ofSize ArrayData.size ArrayData.findValue ArrayData.contains
  refine ⟨List.length_replicate, fun i => ?_⟩
  by_cases h : i < n <;> simp [h]

example : (ArrayData.ofSize 2).findValue 1 = some .null ∧ (ArrayData.ofSize 2).findValue 2 = none := by decide +kernel

/-- `a | b`, for objects (`operator|`, `operator|=`: object_impl.hpp:286-322), merges `b` over `a`; the operands are not among what is written. Objects
are the lists in strictly ascending key order (C22). -/
theorem C24_union {a b c : ObjectData} (ha : a.Pairwise fun x y => x.1 < y.1) (hb : b.Pairwise fun x y => x.1 < y.1)
    (hc : c.Pairwise fun x y => x.1 < y.1) :
    let or := Value.mergeObject
    (or a b).Pairwise (fun x y => x.1 < y.1) ∧
    (∀ k v, (k, v) ∈ or a b ↔ (k, v) ∈ b ∨ ((k, v) ∈ a ∧ ∀ w, (k, w) ∉ b)) ∧
    or (or a b) c = or a (or b c) ∧ or a a = a ∧ or a [] = a ∧ or [] a = a := by
  intro or
  have hab : Sorted (or a b) := mergeObject_sorted ha
  have hbc : Sorted (or b c) := mergeObject_sorted hb
  refine ⟨hab, ?_, ?_, ?_, rfl, ?_⟩
  · intro k v
    rw [← find_eq_some hab, ← find_eq_some hb, ← find_eq_some ha, ← find_eq_none hb, find_mergeObject hb]
    cases find k b <;> simp
  · apply sorted_ext (mergeObject_sorted hab) (mergeObject_sorted ha)
    intro k
    rw [find_mergeObject hc, find_mergeObject hbc, find_mergeObject hb, find_mergeObject hc]
    cases find k c <;> simp
  · apply sorted_ext (mergeObject_sorted ha) ha
    intro k
    rw [find_mergeObject ha]
    cases find k a <;> simp
  · apply sorted_ext (mergeObject_sorted Sorted.nil) ha
    intro k
    rw [find_mergeObject ha]
    cases find k a <;> simp [find]

example : Value.mergeObject [([0x61], .ofInt 1), ([0x63], .ofInt 3)] [([0x61], .ofInt 5), ([0x62], .ofInt 2)] =
    [([0x61], .ofInt 5), ([0x62], .ofInt 2), ([0x63], .ofInt 3)] := by decide +kernel

end Meojson
