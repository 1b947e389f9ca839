import Verif.Model.Edit
import Verif.Props.Mutate
import Verif.Props.Serialize
import Verif.Proofs.Values
import Verif.Proofs.Equal
import Verif.Props.Heap

/-!
# C92: editing a document
-/

set_option autoImplicit false

namespace Meojson
open Spec RawObject Mem Stores

/-- `Leads v p w`: the subscripts `p` lead from `v` to `w`, which is there already or, after a key that is not there or into a blank value, is made (null). -/
inductive Leads : Value → List Sel → Value → Prop
  | here {v} : Leads v [] v
  | old {ms k x p w} : (k, x) ∈ ms → Leads x p w → Leads (.obj .object ms) (.key k :: p) w
  | new {ms k p w} : (∀ x, (k, x) ∉ ms) → Leads .null p w → Leads (.obj .object ms) (.key k :: p) w
  | made {v k p w} : Blank v → Leads .null p w → Leads v (.key k :: p) w
  | pos {vs i x p w} : vs[i]? = some x → Leads x p w → Leads (.arr .array vs) (.pos i :: p) w

/-- The type of value that a subscript is for. -/
def wantedBy : Sel → VType
  | .key _ => .object
  | .pos _ => .array

/-- A subscript meets a value that is not blank and of another type. -/
def Blocked (v : Value) (p : List Sel) : Prop := ∃ q s r w, p = q ++ s :: r ∧ getAt v q = some w ∧ ¬ Blank w ∧ w.type ≠ wantedBy s

/-- A position is beyond the end of the array that it meets. -/
def Beyond (v : Value) (p : List Sel) : Prop := ∃ q i r w, p = q ++ .pos i :: r ∧ Leads v q w ∧ (Blank w ∨ ∃ vs, w = .arr .array vs ∧ vs.length ≤ i)

private theorem lookup_find {ms : List (Bytes × Value)} (h : Sorted ms) (k : Bytes) : ms.lookup k = find k ms := by
  induction ms with
  | nil => rfl
  | cons e ms ih =>
    obtain ⟨k', v⟩ := e
    have hs : Sorted ms := (List.pairwise_cons.1 h).2
    rcases bytesLt_cases k k' with ⟨a, b, c⟩ | ⟨a, b, c⟩ | ⟨a, b, c⟩
    · rw [show find k ((k', v) :: ms) = none by simp [find, a], List.lookup_cons, show (k == k') = false by simpa using c]
      rw [ih hs, find_lt_head h a]
    · subst a; simp [find, b, List.lookup]
    · rw [show find k ((k', v) :: ms) = find k ms by simp [find, a, b], ← ih hs]
      rw [List.lookup_cons, show (k == k') = false by simpa using c]

private theorem put_emplace {ms : List (Bytes × Value)} (h : Sorted ms) (k : Bytes) (x y : Value) : insertOrAssign k y (emplace k x ms).1 = insertOrAssign k y ms := by
  refine sorted_ext (insertOrAssign_sorted (emplace_sorted h k x) k y) (insertOrAssign_sorted h k y) fun j => ?_
  rw [find_insertOrAssign, find_insertOrAssign, find_emplace]
  split <;> rfl

private theorem put_same {ms : List (Bytes × Value)} (h : Sorted ms) {k : Bytes} {x : Value} (hx : find k ms = some x) : insertOrAssign k x ms = ms := by
  refine sorted_ext (insertOrAssign_sorted h k x) h fun j => ?_
  rw [find_insertOrAssign]
  split
  · next e => rw [e, hx]
  · rfl

private theorem follow_object {α : Type} {ms : List (Bytes × Value)} (h : Sorted ms) (k : Bytes) (p : List Sel) (f : Value → Value.Mut α) :
    (Value.obj .object ms).follow (.key k :: p) f = (.obj .object (insertOrAssign k ((((find k ms).getD .null).follow p f).1) ms), (((find k ms).getD .null).follow p f).2) := by
  have e : (Value.obj .object ms).indexKey k = (.obj .object (emplace k .null ms).1, .ok ((find k ms).getD .null)) := by
    have : (Value.obj .object ms).indexKey k = (.obj .object (emplace k .null ms).1, .ok ((find k (emplace k .null ms).1).getD .null)) := by cases ms <;> rfl
    rw [this, find_emplace]; simp
  simp only [Value.follow, e, put_emplace h]

private theorem follow_blank {α : Type} {v : Value} (h : Blank v) (k : Bytes) (p : List Sel) (f : Value → Value.Mut α) :
    v.follow (.key k :: p) f = (Value.obj .object []).follow (.key k :: p) f := by
  rcases h with rfl | rfl | rfl | rfl <;> rfl

private theorem follow_array {α : Type} (vs : List Value) (i : Nat) (p : List Sel) (f : Value → Value.Mut α) {x : Value} (h : vs[i]? = some x) :
    (Value.arr .array vs).follow (.pos i :: p) f = (.arr .array (vs.set i (x.follow p f).1), (x.follow p f).2) := by
  have e : (Value.arr .array vs).indexPos i = (.arr .array vs, .ok x) := by
    have : (Value.arr .array vs).indexPos i = (.arr .array vs, match vs[i]? with | some x => .ok x | none => .ub) := by cases vs <;> rfl
    rw [this, h]
  simp only [Value.follow, e]

private theorem members_sound {ms : List (Bytes × Value)} (h : (Value.obj .object ms).Sound) : Sorted ms ∧ ∀ e ∈ ms, e.2.Sound := by
  cases sound_shape h with
  | object _ h1 h2 => exact ⟨h1, h2⟩

private theorem elems_sound {vs : List Value} (h : (Value.arr .array vs).Sound) : ∀ v ∈ vs, v.Sound := by
  cases sound_shape h with
  | array _ h => exact h

private theorem null_sound : Value.null.Sound := rfl

/-- The outcome of a step into an object. -/
private theorem object_step {α : Type} {f : Value → Value.Mut α} {ms : List (Bytes × Value)} (h : Sorted ms) {k : Bytes} {p : List Sel} {x w : Value} (hx : (find k ms).getD .null = x)
    (h2 : (x.follow p f).2 = (f w).2) (h3 : getAt (x.follow p f).1 p = some (f w).1) (h4 : ∀ q, ¬ p <+: q → ¬ q <+: p → getAt (x.follow p f).1 q = getAt x q) :
    ((Value.obj .object ms).follow (.key k :: p) f).2 = (f w).2 ∧ getAt ((Value.obj .object ms).follow (.key k :: p) f).1 (.key k :: p) = some (f w).1 ∧
    ∀ q, ¬ (.key k :: p) <+: q → ¬ q <+: (.key k :: p) → getAt ((Value.obj .object ms).follow (.key k :: p) f).1 q = getAt (.obj .object ms) q := by
  rw [follow_object h, hx]
  refine ⟨h2, ?_, fun q h5 h6 => ?_⟩
  · simp only [getAt, lookup_find (insertOrAssign_sorted h _ _), find_insertOrAssign, if_true, Option.bind_some, h3]
  · cases q with
    | nil => exact absurd (List.nil_prefix) h6
    | cons s q =>
      cases s with
      | pos i => rfl
      | key j =>
        simp only [getAt, lookup_find (insertOrAssign_sorted h _ _), lookup_find h, find_insertOrAssign]
        by_cases e : j = k
        · subst e
          have h5' : ¬ p <+: q := fun h => h5 (by simpa using h)
          have h6' : ¬ q <+: p := fun h => h6 (by simpa using h)
          rw [if_pos rfl, Option.bind_some, h4 q h5' h6', ← hx]
          cases find j ms with
          | some y => rfl
          | none =>
            cases q with
            | nil => exact absurd (List.nil_prefix) h6'
            | cons s q => cases s <;> rfl
        · rw [if_neg e]

/-- `doc[s1][s2]... ` followed by a statement `f`: the statement gets the part that the subscripts lead to, what it leaves behind is then that part, and its outcome is the outcome. Every part of
the document that neither contains this one nor is contained in it is as before, whether it was there or not. -/
theorem C92_edit {α : Type} (f : Value → Value.Mut α) {v w : Value} {p : List Sel} (hv : v.Sound) (h : Leads v p w) :
    (v.follow p f).2 = (f w).2 ∧ getAt (v.follow p f).1 p = some (f w).1 ∧
    ∀ q, ¬ p <+: q → ¬ q <+: p → getAt (v.follow p f).1 q = getAt v q := by
  induction h with
  | here => exact ⟨rfl, rfl, fun q h => absurd List.nil_prefix h⟩
  | @old ms k x p w hm _ ih =>
    obtain ⟨hs, hx⟩ := members_sound hv
    obtain ⟨h2, h3, h4⟩ := ih (hx _ hm)
    exact object_step hs (by rw [(find_eq_some hs k x).2 hm]; rfl) h2 h3 h4
  | @new ms k p w hm _ ih =>
    obtain ⟨hs, hx⟩ := members_sound hv
    obtain ⟨h2, h3, h4⟩ := ih null_sound
    exact object_step hs (by rw [(find_eq_none hs k).2 hm]; rfl) h2 h3 h4
  | @made v k p w hb _ ih =>
    obtain ⟨h2, h3, h4⟩ := ih null_sound
    rw [follow_blank hb]
    obtain ⟨a, b, c⟩ := object_step (f := f) (ms := []) (k := k) List.Pairwise.nil rfl h2 h3 h4
    refine ⟨a, b, fun q h5 h6 => ?_⟩
    rw [c q h5 h6]
    cases q with
    | nil => exact absurd (List.nil_prefix) h6
    | cons s q => rcases hb with rfl | rfl | rfl | rfl <;> cases s <;> rfl
  | @pos vs i x p w hi _ ih =>
    obtain ⟨h2, h3, h4⟩ := ih (elems_sound hv x (List.mem_of_getElem? hi))
    rw [follow_array vs i p f hi]
    have hl : i < vs.length := (List.getElem?_eq_some_iff.1 hi).1
    refine ⟨h2, ?_, fun q h5 h6 => ?_⟩
    · simp only [getAt, List.getElem?_set, hl, if_true, Option.bind_some, h3]
    · cases q with
      | nil => exact absurd (List.nil_prefix) h6
      | cons s q =>
        cases s with
        | key j => rfl
        | pos j =>
          simp only [getAt, List.getElem?_set]
          by_cases e : i = j
          · subst e
            have h5' : ¬ p <+: q := fun h => h5 (by simpa using h)
            have h6' : ¬ q <+: p := fun h => h6 (by simpa using h)
            simp only [hl, if_true, Option.bind_some, h4 q h5' h6', hi]
          · rw [if_neg e]

/-- A subscript that meets a value of another type that is not blank: `json::exception`, and the document is as it was. -/
theorem C92_blocked {α : Type} (f : Value → Value.Mut α) {v : Value} {p : List Sel} (hv : v.Sound) (h : Blocked v p) : v.follow p f = (v, .throw .json) := by
  obtain ⟨q, s, r, w, rfl, hw, hb, ht⟩ := h
  induction q generalizing v with
  | nil =>
    cases hw
    cases s with
    | key k => rw [List.nil_append, Value.follow, (C46_index_key w hv k).2.2 hb ht]; cases w <;> rfl
    | pos i => rw [List.nil_append, Value.follow, (((C53_array w hv).2 hb ht).2 i).2]; cases w <;> rfl
  | cons s' q ih =>
    cases s' with
    | key k =>
      cases sound_shape hv <;> simp only [getAt, Value.ofBool, reduceCtorEq] at hw
      next ms hs hm =>
      rw [lookup_find hs] at hw
      cases hx : find k ms with
      | none => rw [hx] at hw; cases hw
      | some x =>
        rw [hx] at hw
        rw [List.cons_append, follow_object hs, hx, Option.getD_some, ih (hm _ ((find_eq_some hs k x).1 hx)) hw, put_same hs hx]
    | pos i =>
      cases sound_shape hv <;> simp only [getAt, Value.ofBool, reduceCtorEq] at hw
      next vs hm =>
      cases hx : vs[i]? with
      | none => rw [hx] at hw; cases hw
      | some x =>
        rw [hx] at hw
        rw [List.cons_append, follow_array vs i _ f hx, ih (hm _ (List.mem_of_getElem? hx)) hw]
        simp only [Prod.mk.injEq, Value.arr.injEq, true_and, and_true]
        exact List.ext_getElem? fun j => by
          rw [List.getElem?_set]
          split
          · next e => subst e; rw [hx, if_pos (List.getElem?_eq_some_iff.1 hx).1]
          · rfl

/-- A position beyond the end of the array that it meets is undefined. -/
theorem C92_beyond {α : Type} (f : Value → Value.Mut α) {v : Value} {p : List Sel} (hv : v.Sound) (h : Beyond v p) : (v.follow p f).2 = .ub := by
  obtain ⟨q, i, r, w, rfl, hl, hw⟩ := h
  induction hl with
  | @here v =>
    have key : ∃ u, v.indexPos i = (u, .ub) := by
      rcases hw with hb | ⟨vs, rfl, hi⟩
      · exact ⟨_, (((C53_array v hv).1 [] (.inr ⟨hb, rfl⟩)).2.2 i (Nat.zero_le _)).2⟩
      · exact ⟨_, (((C53_array _ hv).1 vs (.inl rfl)).2.2 i hi).2⟩
    obtain ⟨u, e⟩ := key
    rw [List.nil_append, Value.follow, e]
    cases u <;> rfl
  | old hm _ ih =>
    obtain ⟨hs, hx⟩ := members_sound hv
    rw [List.cons_append, follow_object hs, (find_eq_some hs _ _).2 hm]
    exact ih (hx _ hm) hw
  | new hm _ ih =>
    obtain ⟨hs, hx⟩ := members_sound hv
    rw [List.cons_append, follow_object hs, (find_eq_none hs _).2 hm]
    exact ih null_sound hw
  | made hb _ ih =>
    rw [List.cons_append, follow_blank hb, follow_object List.Pairwise.nil]
    exact ih null_sound hw
  | pos hi _ ih =>
    rw [List.cons_append, follow_array _ _ _ f hi]
    exact ih (elems_sound hv _ (List.mem_of_getElem? hi)) hw

/-- Any subscript on an array or object that was moved from (C34) is undefined: each asks first whether the value is empty. -/
theorem C92_moved {α : Type} (f : Value → Value.Mut α) (s : Sel) (p : List Sel) (v : Value) (hv : v = .arrNull .array ∨ v = .objNull .object) : v.follow (s :: p) f = (v, .ub) := by
  rcases hv with rfl | rfl <;> cases s <;> rfl

/-- There is no fourth case. -/
theorem C92_cases (v : Value) (hv : v.Sound) (p : List Sel) : (∃ w, Leads v p w) ∨ Blocked v p ∨ Beyond v p := by
  induction p generalizing v with
  | nil => exact .inl ⟨v, .here⟩
  | cons s p ih =>
    have onNull : (∃ w, Leads .null p w) ∨ Beyond .null p := by
      rcases ih .null null_sound with h | ⟨q, s, r, w, rfl, hw, hb, _⟩ | h
      · exact .inl h
      · cases q with
        | nil => cases hw; exact absurd (.inl rfl) hb
        | cons s' q => cases s' <;> cases hw
      · exact .inr h
    by_cases hb : Blank v
    · cases s with
      | key k =>
        rcases onNull with ⟨w, h⟩ | ⟨q, i, r, w, rfl, h, hw⟩
        · exact .inl ⟨w, .made hb h⟩
        · exact .inr (.inr ⟨.key k :: q, i, r, w, rfl, .made hb h, hw⟩)
      | pos i => exact .inr (.inr ⟨[], i, p, v, rfl, .here, .inl hb⟩)
    · by_cases ht : v.type = wantedBy s
      · cases s with
        | key k =>
          obtain ⟨ms, rfl, hs⟩ := type_null_obj hv ht
          obtain ⟨_, hm⟩ := members_sound hv
          cases hx : find k ms with
          | none =>
            have hn := (find_eq_none hs k).1 hx
            rcases onNull with ⟨w, h⟩ | ⟨q, i, r, w, rfl, h, hw⟩
            · exact .inl ⟨w, .new hn h⟩
            · exact .inr (.inr ⟨.key k :: q, i, r, w, rfl, .new hn h, hw⟩)
          | some x =>
            have hk := (find_eq_some hs k x).1 hx
            rcases ih x (hm _ hk) with ⟨w, h⟩ | ⟨q, s, r, w, rfl, h, hw⟩ | ⟨q, i, r, w, rfl, h, hw⟩
            · exact .inl ⟨w, .old hk h⟩
            · exact .inr (.inl ⟨.key k :: q, s, r, w, rfl, by simp only [getAt, lookup_find hs, hx, Option.bind_some, h], hw⟩)
            · exact .inr (.inr ⟨.key k :: q, i, r, w, rfl, .old hk h, hw⟩)
        | pos i =>
          obtain ⟨vs, rfl⟩ := type_null_arr hv ht
          cases hx : vs[i]? with
          | none => exact .inr (.inr ⟨[], i, p, _, rfl, .here, .inr ⟨vs, rfl, by simpa using hx⟩⟩)
          | some x =>
            rcases ih x (elems_sound hv _ (List.mem_of_getElem? hx)) with ⟨w, h⟩ | ⟨q, s, r, w, rfl, h, hw⟩ | ⟨q, j, r, w, rfl, h, hw⟩
            · exact .inl ⟨w, .pos hx h⟩
            · exact .inr (.inl ⟨.pos i :: q, s, r, w, rfl, by simp only [getAt, hx, Option.bind_some, h], hw⟩)
            · exact .inr (.inr ⟨.pos i :: q, j, r, w, rfl, .pos hx h, hw⟩)
      · exact .inr (.inl ⟨[], s, p, v, rfl, rfl, hb, ht⟩)

/-- What a statement puts into the document. -/
def Edit.Puts : Edit → Value → Prop
  | .assign x, y | .emplaceBack x, y | .emplaceKey _ x, y => y = x
  | _, _ => False

private theorem set_mem {vs : List Value} {i : Nat} {x y : Value} (h : y ∈ vs.set i x) : y = x ∨ y ∈ vs := (List.mem_or_eq_of_mem_set h).symm

private theorem follow_wf {num : Bytes → Prop} {inv : Prop} {α : Type} (f : Value → Value.Mut α) (hf : ∀ w, w.Wf num inv → (f w).1.Wf num inv) {v w : Value} {p : List Sel} (hv : v.Wf num inv)
    (h : Leads v p w) : (v.follow p f).1.Wf num inv := by
  have step : ∀ {ms : List (Bytes × Value)} {k : Bytes} {p : List Sel} {x : Value}, (Value.obj .object ms).Wf num inv → (find k ms).getD .null = x → (x.follow p f).1.Wf num inv →
      ((Value.obj .object ms).follow (.key k :: p) f).1.Wf num inv := by
    intro ms k p x hm hx h
    have hs : Sorted ms := hm.1
    rw [follow_object hs, hx]
    refine ⟨insertOrAssign_sorted hs _ _, wfMembers_iff.2 fun e he => ?_⟩
    rcases mem_insertOrAssign _ _ _ e he with rfl | he
    · exact h
    · exact wfMembers_iff.1 hm.2 e he
  induction h with
  | here => exact hf _ hv
  | old hm _ ih => exact step hv (by rw [(find_eq_some hv.1 _ _).2 hm]; rfl) (ih (wfMembers_iff.1 hv.2 _ hm))
  | new hm _ ih => exact step hv (by rw [(find_eq_none hv.1 _).2 hm]; rfl) (ih rfl)
  | made hb _ ih => rw [follow_blank hb]; exact step ⟨.nil, trivial⟩ rfl (ih rfl)
  | pos hi _ ih =>
    rw [follow_array _ _ _ f hi]
    refine wfAll_iff.2 fun y hy => ?_
    rcases set_mem hy with rfl | hy
    · exact ih (wfAll_iff.1 hv _ (List.mem_of_getElem? hi))
    · exact wfAll_iff.1 hv _ hy

private theorem onArray_wf {num : Bytes → Prop} {inv : Prop} {α : Type} {v : Value} (hv : v.Wf num inv) (g : List Value → List Value × Out α)
    (hg : ∀ vs, (∀ x ∈ vs, x.Wf num inv) → ∀ x ∈ (g vs).1, x.Wf num inv) : (v.onArray g).1.Wf num inv := by
  obtain ⟨h1, h2, h3⟩ := onArray_sound (wf_sound hv) g
  by_cases hb : Blank v
  · rw [h1 hb]; exact wfAll_iff.2 (hg [] (by simp))
  · by_cases ht : v.type = .array
    · obtain ⟨vs, rfl⟩ := type_null_arr (wf_sound hv) ht
      rw [h2 vs rfl]; exact wfAll_iff.2 (hg vs (wfAll_iff.1 hv))
    · rw [h3 hb ht]; exact hv

private theorem onObject_wf {num : Bytes → Prop} {inv : Prop} {α : Type} {v : Value} (hv : v.Wf num inv) (g : List (Bytes × Value) → List (Bytes × Value) × Out α)
    (hg : ∀ ms, Sorted ms → (∀ e ∈ ms, e.2.Wf num inv) → Sorted (g ms).1 ∧ ∀ e ∈ (g ms).1, e.2.Wf num inv) : (v.onObject g).1.Wf num inv := by
  obtain ⟨h1, h2, h3⟩ := onObject_sound (wf_sound hv) g
  by_cases hb : Blank v
  · rw [h1 hb]
    obtain ⟨a, b⟩ := hg [] .nil (by simp)
    exact ⟨a, wfMembers_iff.2 b⟩
  · by_cases ht : v.type = .object
    · obtain ⟨ms, rfl, hs⟩ := type_null_obj (wf_sound hv) ht
      rw [h2 ms rfl]
      obtain ⟨a, b⟩ := hg ms hs (wfMembers_iff.1 hv.2)
      exact ⟨a, wfMembers_iff.2 b⟩
    · rw [h3 hb ht]; exact hv

private theorem mem_of_erase {k : Bytes} {y : Bytes × Value} : ∀ {ms : List (Bytes × Value)}, y ∈ (RawObject.erase k ms).1 → y ∈ ms
  | [], h => h
  | (k', v) :: ms, h => by
    simp only [RawObject.erase] at h
    split at h
    · exact h
    · split at h
      · rcases List.mem_cons.1 h with rfl | h
        · simp
        · exact List.mem_cons_of_mem _ (mem_of_erase h)
      · exact List.mem_cons_of_mem _ h

private theorem edit_wf {num : Bytes → Prop} {inv : Prop} {e : Edit} (he : ∀ y, e.Puts y → y.Wf num inv) {v : Value} (hv : v.Wf num inv) : (e.on v).1.Wf num inv := by
  cases e with
  | assign x => exact he x rfl
  | clear => exact rfl
  | emplaceBack x =>
    refine onArray_wf hv _ fun vs h y hy => ?_
    rcases List.mem_append.1 hy with hy | hy
    · exact h y hy
    · rw [List.mem_singleton.1 hy]; exact he x rfl
  | emplaceKey k x =>
    refine onObject_wf hv _ fun ms hs h => ⟨insertOrAssign_sorted hs k x, fun y hy => ?_⟩
    rcases mem_insertOrAssign k x ms y hy with rfl | hy
    · exact he x rfl
    · exact h y hy
  | erasePos i =>
    refine onArray_wf hv (fun vs => let r := Value.eraseElem i vs; (r.1, .ok r.2)) fun vs h y hy => ?_
    simp only [Value.eraseElem] at hy
    split at hy
    · exact h y hy
    · exact h y (List.mem_of_mem_eraseIdx hy)
  | eraseKey k =>
    refine onObject_wf hv (fun ms => let r := RawObject.erase k ms; (r.1, .ok r.2)) fun ms hs h => ⟨erase_sorted hs k, fun y hy => h y ?_⟩
    exact mem_of_erase hy

/-- Statements whose subscripts lead somewhere keep a document a document, if what they put in are JSON values. -/
theorem C92_json (es : List (List Sel × Edit)) (he : ∀ e ∈ es, ∀ y, e.2.Puts y → y.Json) {v w : Value} (hv : v.Json) (h : v.edits es = (w, .ok ())) : w.Json := by
  induction es generalizing v with
  | nil => cases h; exact hv
  | cons e es ih =>
    obtain ⟨p, e⟩ := e
    simp only [Value.edits] at h
    rcases C92_cases v (wf_sound hv) p with ⟨x, hl⟩ | hb | hb
    · have hw := follow_wf e.on (fun _ => edit_wf (he (p, e) (by simp))) hv hl
      cases hr : v.follow p e.on with
      | mk u o =>
        rw [hr] at h hw
        cases o with
        | ok a => exact ih (fun d hd => he d (by simp [hd])) hw h
        | _ => cases h
    · rw [C92_blocked e.on (wf_sound hv) hb] at h; cases h
    · have := C92_beyond e.on (wf_sound hv) hb
      cases hr : v.follow p e.on with
      | mk u o => rw [hr] at h this; simp only at this; subst this; cases h

/-- Parts that no statement is about are as before. -/
theorem C92_elsewhere (es : List (List Sel × Edit)) (he : ∀ e ∈ es, ∀ y, e.2.Puts y → y.Sound) {v w : Value} (hv : v.Sound) (h : v.edits es = (w, .ok ())) (q : List Sel)
    (hq : ∀ e ∈ es, ¬ e.1 <+: q ∧ ¬ q <+: e.1) : getAt w q = getAt v q := by
  induction es generalizing v with
  | nil => cases h; rfl
  | cons e es ih =>
    obtain ⟨p, e⟩ := e
    simp only [Value.edits] at h
    rcases C92_cases v hv p with ⟨x, hl⟩ | hb | hb
    · have hw := follow_wf e.on (fun _ => edit_wf (he (p, e) (by simp))) hv hl
      have hp := (C92_edit e.on hv hl).2.2 q (hq (p, e) (by simp)).1 (hq (p, e) (by simp)).2
      cases hr : v.follow p e.on with
      | mk u o =>
        rw [hr] at h hw hp
        cases o with
        | ok a => rw [ih (fun d hd => he d (by simp [hd])) hw h fun d hd => hq d (by simp [hd])]; exact hp
        | _ => cases h
    · rw [C92_blocked e.on hv hb] at h; cases h
    · have := C92_beyond e.on hv hb
      cases hr : v.follow p e.on with
      | mk u o => rw [hr] at h this; simp only at this; subst this; cases h

/-- Read a document, change it, write it: whoever reads what was written, in any build, gets the changed document; whatever part no statement was about is as it was in the text that was read. -/
theorem C92_saved (a b : Accel) (k : Bool) (s : Text) (v w : Value) (hs : parser ⟨k, a.traits⟩ s = some v) (es : List (List Sel × Edit)) (he : ∀ e ∈ es, ∀ y, e.2.Puts y → y.Json)
    (h : v.edits es = (w, .ok ())) (hw : w.IsContainer) (indent : Option Nat) :
    ∃ t, w.dumps indent = .ok t ∧ parse b.traits t = some w ∧ parsec b.traits t = some w ∧ ∀ q, (∀ e ∈ es, ¬ e.1 <+: q ∧ ¬ q <+: e.1) → getAt w q = getAt v q := by
  have hv : v.Json := by
    obtain ⟨j, ⟨t, r, ⟨hj, w₁, x, w₂, -, hx, -, -⟩, -⟩, rfl⟩ := parser_sound (cfg := ⟨k, a.traits⟩) (accelOk a) hs
    exact val_json rfl hx
  obtain ⟨t, h1, h2, h3⟩ : ∃ t, w.dumps indent = .ok t ∧ parse b.traits t = some w ∧ parsec b.traits t = some w := by
    cases indent with
    | none => exact C08_roundtrip b w (C92_json es he hv h) hw
    | some n => exact C09_roundtrip_indented b w (C92_json es he hv h) hw n
  exact ⟨t, h1, h2, h3, C92_elsewhere es (fun e hm y hy => wf_sound (he e hm y hy)) (wf_sound hv) h⟩

/-! ## In memory -/

/-- `x[q][s1][s2]...` as statements of the heap model: a key may have to be made, a position only asks for the array. -/
def subscripts (x : Nat) : List Sel → List Sel → List Op
  | _, [] => []
  | q, .key k :: p => .index ⟨x, q⟩ k :: subscripts x (q ++ [.key k]) p
  | q, .pos i :: p => .asArray ⟨x, q⟩ :: subscripts x (q ++ [.pos i]) p

private theorem put_eq {ms : List (Bytes × Value)} (h : Sorted ms) (k : Bytes) (y : Value) : putMember k y ms = insertOrAssign k y ms := by
  refine sorted_ext (putMember_sorted h k y) (insertOrAssign_sorted h k y) fun j => ?_
  rw [find_insertOrAssign]
  by_cases e : j = k
  · subst e
    rw [if_pos rfl, find_eq_some (putMember_sorted h j y)]
    simp [putMember]
  · rw [if_neg e]
    apply Option.ext
    intro z
    rw [find_eq_some (putMember_sorted h k y), find_eq_some h]
    constructor
    · intro hm
      rcases mem_putMember hm with h1 | h1
      · exact absurd (Prod.mk.inj h1).1 e
      · exact h1
    · intro hm
      simp only [putMember, List.mem_append, List.mem_cons, List.mem_filter, decide_eq_true_eq]
      rcases bytesLt_cases j k with ⟨a, _, _⟩ | ⟨a, _, _⟩ | ⟨_, a, _⟩
      · exact .inl ⟨hm, (bytesLt_iff _ _).1 a⟩
      · exact absurd a e
      · exact .inr (.inr ⟨hm, (bytesLt_iff _ _).1 a⟩)

private theorem set_of {σ : Store} {x : Nat} {u : Value} (h : σ x = some u) (q : List Sel) (a : Value) : σ.set ⟨x, q⟩ a = σ.put x (some (setAt u q a)) := by
  simp only [Store.set, h, Option.map_some]

private theorem put_put (σ : Store) (x : Nat) (a b : Option Value) : (σ.put x a).put x b = σ.put x b := by
  funext y; simp only [Store.put]; split <;> rfl

private theorem put_at (σ : Store) (x : Nat) (a : Option Value) : (σ.put x a) x = a := by simp [Store.put]

private theorem null_keyed : Keyed .null := trivial

/-- One subscript that is a key. -/
private theorem key_steps {σ : Store} {x : Nat} {q p : List Sel} {u v x0 y y' : Value} {k : Bytes} {ms : List (Bytes × Value)} (hx : σ x = some u) (hu : Keyed u) (hq : getAt u q = some v)
    (hm : Members v ms) (hs : Sorted ms) (h0 : (find k ms).getD .null = x0)
    (ih : ∀ {σ : Store} {u : Value} {q : List Sel}, σ x = some u → Keyed u → getAt u q = some x0 →
      Steps σ (subscripts x q p ++ [.assign ⟨x, q ++ p⟩ y]) (σ.put x (some (setAt u q y')))) :
    Steps σ (subscripts x q (.key k :: p) ++ [.assign ⟨x, q ++ .key k :: p⟩ y]) (σ.put x (some (setAt u q (.obj .object (insertOrAssign k y' ms))))) := by
  have hg : σ.get ⟨x, q⟩ = some v := by simp only [Store.get, hx, Option.bind_some, hq]
  have st := Step.index (k := k) hg hm
  have e1 : (if (ms.lookup k).isSome then ms else putMember k .null ms) = (emplace k .null ms).1 := by
    rw [lookup_find hs]
    refine sorted_ext (by split; exact hs; exact putMember_sorted hs k .null) (emplace_sorted hs k .null) fun j => ?_
    rw [find_emplace]
    cases hf : find k ms with
    | none =>
      simp only [Option.isSome_none, Bool.false_eq_true, if_false, put_eq hs, find_insertOrAssign, Option.getD_none]
    | some z =>
      simp only [Option.isSome_some, if_true, Option.getD_some]
      split
      · next e => rw [e, hf]
      · rfl
  rw [e1, set_of hx] at st
  have hs1 : Sorted (emplace k .null ms).1 := emplace_sorted hs k .null
  have hk1 : Keyed (.obj .object (emplace k .null ms).1) := by
    have hk := keyed_members hm (keyed_getAt hu hq)
    rw [← e1]
    split
    · exact hk
    · exact keyed_putMember hk k null_keyed
  have hf : (emplace k .null ms).1.lookup k = some x0 := by rw [lookup_find hs1, find_emplace, if_pos rfl, h0]
  have hg1 : getAt (setAt u q (.obj .object (emplace k .null ms).1)) q = some (.obj .object (emplace k .null ms).1) := getAt_setAt hq
  have hu1 : Keyed (setAt u q (.obj .object (emplace k .null ms).1)) := keyed_setAt hk1 hu hq
  have h2 := ih (σ := σ.put x (some (setAt u q (.obj .object (emplace k .null ms).1)))) (q := q ++ [.key k]) (put_at ..) hu1
    (by rw [getAt_append, hg1, Option.bind_some]; simp only [getAt, hf, Option.bind_some])
  rw [put_put, setAt_append hu1 hg1, setAt_setAt] at h2
  have e2 : setAt (.obj .object (emplace k .null ms).1) [.key k] y' = .obj .object (insertOrAssign k y' ms) := by
    simp only [setAt]
    rw [← putMember_existing hs1 hf, put_eq hs1, put_emplace hs]
  rw [e2, List.append_assoc] at h2
  exact .cons st h2

private theorem hollowable_of {v : Value} (h : Blank v) : Hollowable v := by
  rcases h with rfl | rfl | rfl | rfl
  · exact .null
  · exact .string
  · exact .array
  · exact .object

private theorem chain {x : Nat} {v w y : Value} {p : List Sel} (hy : Tagged y) (hv : v.Sound) (h : Leads v p w) : ∀ {σ : Store} {u : Value} {q : List Sel}, σ x = some u → Keyed u → getAt u q = some v →
    Steps σ (subscripts x q p ++ [.assign ⟨x, q ++ p⟩ y]) (σ.put x (some (setAt u q (v.follow p (Edit.assign y).on).1))) := by
  induction h with
  | @here v =>
    intro σ u q hx hu hq
    have hg : σ.get ⟨x, q⟩ = some v := by simp only [Store.get, hx, Option.bind_some, hq]
    rw [← set_of hx, List.append_nil]
    exact .cons (.assign hg hy) .nil
  | old hm _ ih =>
    intro σ u q hx hu hq
    obtain ⟨hs, hn⟩ := members_sound hv
    have hf := (find_eq_some hs _ _).2 hm
    rw [follow_object hs, hf]
    exact key_steps hx hu hq (.inr rfl) hs (by rw [hf]; rfl) (ih (hn _ hm))
  | new hm _ ih =>
    intro σ u q hx hu hq
    obtain ⟨hs, hn⟩ := members_sound hv
    have hf := (find_eq_none hs _).2 hm
    rw [follow_object hs, hf]
    exact key_steps hx hu hq (.inr rfl) hs (by rw [hf]; rfl) (ih null_sound)
  | made hb _ ih =>
    intro σ u q hx hu hq
    rw [follow_blank hb, follow_object List.Pairwise.nil]
    exact key_steps hx hu hq (.inl ⟨hollowable_of hb, rfl⟩) List.Pairwise.nil rfl (ih null_sound)
  | @pos vs i z p w hi _ ih =>
    intro σ u q hx hu hq
    have hg : σ.get ⟨x, q⟩ = some (.arr .array vs) := by simp only [Store.get, hx, Option.bind_some, hq]
    have st := Step.asArray (vs := vs) hg (.inr rfl)
    rw [set_of hx, setAt_getAt hu hq] at st
    have same : σ.put x (some u) = σ := by funext j; simp only [Store.put]; split <;> simp_all
    rw [same] at st
    have h2 := ih (elems_sound hv _ (List.mem_of_getElem? hi)) (σ := σ) (q := q ++ [.pos i]) hx hu (by rw [getAt_append, hq, Option.bind_some]; simp only [getAt, hi, Option.bind_some])
    rw [setAt_append hu hq, List.append_assoc] at h2
    have e2 : ∀ y', setAt (.arr .array vs) [.pos i] y' = .arr .array (vs.set i y') := by
      intro y'
      simp only [setAt, Value.arr.injEq, true_and]
      exact List.ext_getElem? fun j => by
        rw [List.getElem?_modify, List.getElem?_set]
        by_cases e : i = j
        · subst e; simp [hi, (List.getElem?_eq_some_iff.1 hi).1]
        · simp [e]
    rw [e2] at h2
    rw [follow_array vs i p _ hi]
    exact .cons st h2

/-- The same with references: after any history that leaves the document `v` in a variable `x`, the statement `x[s1][s2]... = y;` does to the memory what is said above, and to no other variable
anything. -/
theorem C92_heap {ops : List Op} {σ : Store} (h : Steps Store.empty ops σ) {x : Nat} {v w y : Value} {p : List Sel} (hx : σ x = some v) (hv : v.Sound) (hy : Tagged y) (hp : Leads v p w) :
    ∃ st, run ample State.init (ops ++ (subscripts x [] p ++ [.assign ⟨x, p⟩ y])) = .done st ∧ st.value x = some (v.follow p (Edit.assign y).on).1 ∧ ∀ z, z ≠ x → st.value z = σ z := by
  obtain ⟨_, _, _, _, T, _⟩ := histories h
  have hk : Keyed v := keyed_of_tagged (T x v hx)
  obtain ⟨st, h1, h2, _⟩ := C33_partial (steps_append h (chain hy hv hp (q := []) hx hk rfl))
  refine ⟨st, h1, ?_, fun z hz => ?_⟩
  · rw [h2]; simp [Store.put, setAt]
  · rw [h2]; simp [Store.put, hz]

/-- `{"a": [1, {"b": 2}], "c": ""}` -/
private def sample : Value := .obj .object [([0x61], .arr .array [.ofInt 1, .obj .object [([0x62], .ofInt 2)]]), ([0x63], .str .string [])]

/-- `v["a"][1]["b"] = 3; v["c"]["d"]["e"].emplace(4);` -/
example : sample.edits [([.key [0x61], .pos 1, .key [0x62]], .assign (.ofInt 3)), ([.key [0x63], .key [0x64], .key [0x65]], .emplaceBack (.ofInt 4))] =
    (.obj .object [([0x61], .arr .array [.ofInt 1, .obj .object [([0x62], .ofInt 3)]]), ([0x63], .obj .object [([0x64], .obj .object [([0x65], .arr .array [.ofInt 4])])])], .ok ()) := by
  decide +kernel
/-- `v["a"]["b"]` -/
example : Blocked sample [.key [0x61], .key [0x62]] := ⟨[.key [0x61]], .key [0x62], [], _, rfl, rfl, by simp [Blank, Value.null], by decide⟩
/-- `v["a"][2]`, `v["new"][0]` -/
example : Beyond sample [.key [0x61], .pos 2] := ⟨[.key [0x61]], 2, [], _, rfl, .old (x := .arr .array [.ofInt 1, .obj .object [([0x62], .ofInt 2)]]) (by simp) .here, .inr ⟨_, rfl, by decide⟩⟩
example : Beyond sample [.key [0x7a], .pos 0] := ⟨[.key [0x7a]], 0, [], _, rfl, .new (by simp) .here, .inl (.inl rfl)⟩
example : parse Accel.none.traits (ascii "{\"a\":[1,{\"b\":2}],\"c\":\"\"}") = some sample := by decide +kernel
example : Leads sample [.key [0x63], .key [0x64]] .null := .old (x := .str .string []) (by simp) (.made (.inr (.inl rfl)) .here)
example : ∃ st, run ample State.init ([.init 0 sample] ++ (subscripts 0 [] [.key [0x61], .pos 1] ++ [.assign ⟨0, [.key [0x61], .pos 1]⟩ .null])) = .done st ∧
    st.value 0 = some (.obj .object [([0x61], .arr .array [.ofInt 1, .null]), ([0x63], .str .string [])]) := ⟨_, rfl, by decide +kernel⟩

end Meojson
