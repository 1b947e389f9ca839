import Verif.Proofs.HeapProgram
import Verif.Spec.Retry

/-! Statements that are executed again. -/

set_option autoImplicit false

namespace Meojson.Stores
open Mem

theorem lt_of_ne_not {a b : Bytes} (h : a ≠ b) (h' : ¬ a < b) : b < a := by
  rcases Std.lt_trichotomy a b with h1 | h1 | h1
  · exact absurd h1 h'
  · exact absurd h1 h
  · exact h1

theorem bytes_trans {a b c : Bytes} (h : a < b) (h' : b < c) : a < c := (bytesLt_iff _ _).1 (bytesLt_trans ((bytesLt_iff _ _).2 h) ((bytesLt_iff _ _).2 h'))

/-- The later one counts. -/
theorem putMember_again (k : Bytes) (v w : Value) (ms : List (Bytes × Value)) : putMember k v (putMember k w ms) = putMember k v ms := by
  have h1 : (putMember k w ms).filter (fun m => decide (m.1 < k)) = ms.filter (fun m => decide (m.1 < k)) := by
    simp only [putMember, List.filter_append, List.filter_cons, List.filter_filter, bytes_irrefl, decide_false, Bool.false_eq_true, if_false, Bool.and_self]
    refine (congrArg _ ?_).trans (List.append_nil _)
    rw [List.filter_eq_nil_iff]
    intro m _ h
    simp only [Bool.and_eq_true, decide_eq_true_eq] at h
    exact bytes_asymm h.1 h.2
  have h2 : (putMember k w ms).filter (fun m => decide (k < m.1)) = ms.filter (fun m => decide (k < m.1)) := by
    simp only [putMember, List.filter_append, List.filter_cons, List.filter_filter, bytes_irrefl, decide_false, Bool.false_eq_true, if_false, Bool.and_self]
    refine (congrArg (· ++ _) ?_).trans (List.nil_append _)
    rw [List.filter_eq_nil_iff]
    intro m _ h
    simp only [Bool.and_eq_true, decide_eq_true_eq] at h
    exact bytes_asymm h.1 h.2
  rw [putMember, h1, h2]; rfl

theorem putMember_comm_lt {j k : Bytes} (h : j < k) (u v : Value) (ms : List (Bytes × Value)) :
    putMember j u (putMember k v ms) = putMember k v (putMember j u ms) := by
  have e1 : ∀ m : Bytes × Value, (decide (m.1 < j) && decide (m.1 < k)) = decide (m.1 < j) := fun m => by
    by_cases h1 : m.1 < j <;> simp [h1, bytes_trans _ h]
  have e2 : ∀ m : Bytes × Value, (decide (k < m.1) && decide (j < m.1)) = decide (k < m.1) := fun m => by
    by_cases h1 : k < m.1 <;> simp [h1, bytes_trans h _]
  have e3 : ∀ m : Bytes × Value, (decide (m.1 < j) && decide (k < m.1)) = false := fun m => by
    by_cases h1 : m.1 < j <;> by_cases h2 : k < m.1 <;> simp [h1, h2]
    exact bytes_asymm h (bytes_trans h2 h1)
  simp only [putMember, List.filter_append, List.filter_cons, List.filter_filter, h, bytes_asymm h, decide_true, decide_false, Bool.false_eq_true, if_true, if_false, e1, e2, e3,
    List.append_assoc, List.cons_append]
  have e1' : ∀ m : Bytes × Value, (decide (m.1 < k) && decide (m.1 < j)) = decide (m.1 < j) := fun m => by rw [Bool.and_comm, e1]
  have e2' : ∀ m : Bytes × Value, (decide (j < m.1) && decide (k < m.1)) = decide (k < m.1) := fun m => by rw [Bool.and_comm, e2]
  have e3' : ∀ m : Bytes × Value, (decide (k < m.1) && decide (m.1 < j)) = false := fun m => by rw [Bool.and_comm, e3]
  have e4 : ∀ m : Bytes × Value, (decide (j < m.1) && decide (m.1 < k)) = (decide (m.1 < k) && decide (j < m.1)) := fun m => Bool.and_comm _ _
  have n : ∀ l : List (Bytes × Value), l.filter (fun _ => false) = [] := fun l => by simp
  simp [e1', e2', e3', e4, n]

theorem putMember_comm {j k : Bytes} (h : j ≠ k) (u v : Value) (ms : List (Bytes × Value)) :
    putMember j u (putMember k v ms) = putMember k v (putMember j u ms) := by
  by_cases h' : j < k
  · exact putMember_comm_lt h' u v ms
  · exact (putMember_comm_lt (lt_of_ne_not h h') v u ms).symm

/-- What will be overwritten does not matter. -/
theorem putMembers_absorb {k : Bytes} : ∀ {xs : List (Bytes × Value)}, k ∈ xs.map Prod.fst → ∀ (w : Value) (ms : List (Bytes × Value)),
    putMembers xs (putMember k w ms) = putMembers xs ms
  | [], h, _, _ => by simp at h
  | (j, u) :: xs, h, w, ms => by
    show putMembers xs (putMember j u (putMember k w ms)) = putMembers xs (putMember j u ms)
    by_cases e : j = k
    · subst e; rw [putMember_again]
    · rw [putMember_comm e]
      exact putMembers_absorb (by simpa [Ne.symm e] using h) w _

theorem putMembers_absorbAll {xs : List (Bytes × Value)} : ∀ {ws : List (Bytes × Value)}, (∀ w ∈ ws, w.1 ∈ xs.map Prod.fst) → ∀ (ms : List (Bytes × Value)),
    putMembers xs (putMembers ws ms) = putMembers xs ms
  | [], _, _ => rfl
  | (k, w) :: ws, h, ms => by
    show putMembers xs (putMembers ws (putMember k w ms)) = putMembers xs ms
    rw [putMembers_absorbAll (fun u hu => h u (by simp [hu])), putMembers_absorb (h (k, w) (by simp))]

theorem members_unique {v : Value} {ms ns : List (Bytes × Value)} (h : Members v ms) (h' : Members v ns) : ms = ns := by
  rcases h with ⟨h1, rfl⟩ | rfl <;> rcases h' with ⟨h2, rfl⟩ | h2
  · rfl
  · subst h2; cases h1; rfl
  · cases h2; rfl
  · cases h2; rfl

theorem setType_self (v : Value) : v.setType v.type = v := by cases v <;> rfl

theorem setType_type (v : Value) (t : VType) : (v.setType t).type = t := by cases v <;> rfl

/-- An empty container of the right kind. -/
theorem hollowable_array {v : Value} (h : Hollowable v) (e : v.type = .array) : v = .arr .array [] := by cases h <;> first | rfl | cases e
theorem hollowable_object {v : Value} (h : Hollowable v) (e : v.type = .object) : v = .obj .object [] := by cases h <;> first | rfl | cases e

section
variable {σ σ' σ'' : Store} {op : Op}

theorem set_again {p : Place} {v : Value} (T : KeyedStore σ) (h : σ.get p = some v) {w : Value} (e : w = v) : σ.set p w = σ := by rw [e]; exact set_get T h

/-- An assignment to a place that has the tag of the source already. -/
theorem copyAssign_again {d s : Place} {w v : Value} (T : KeyedStore σ) (hk : SameKind σ d s) (hin : Inside d s → w.type = v.type) (hd : σ.get d = some w)
    (hs : σ.get s = some v) : σ.set d (w.setType v.type) = σ ∨ Apart d s := by
  by_cases e : w.type = v.type
  · left; rw [← e, setType_self]; exact set_get T hd
  · right
    refine apart_of ?_ (fun h => e (hin h)) fun h => e (hk h _ _ hd hs)
    rintro rfl
    rw [hd] at hs; cases hs; exact e rfl

theorem aborted_again (T : KeyedStore σ) (hr : Repeatable σ op) (h : Step σ op σ') (ha : Aborted σ op σ'') : Step σ'' op σ' ∧ Repeatable σ'' op := by
  cases ha with
  | same => exact ⟨h, hr⟩
  | copyInit => exact ⟨h, hr⟩
  | @tag op p t v hc hp hv =>
    have e := hr.1 _ _ _ hc hp hv
    rw [set_again T hp (by rw [← e]; exact setType_self v)]; exact ⟨h, hr⟩
  | @array op p v hc hp hv =>
    rw [set_again T hp (hollowable_array hv (hr.1 _ _ _ hc hp hv)).symm]; exact ⟨h, hr⟩
  | @object op p v hc hp hv =>
    rw [set_again T hp (hollowable_object hv (hr.1 _ _ _ hc hp hv)).symm]; exact ⟨h, hr⟩
  | @copyAssign d s w v hd hs =>
    cases h with
    | copyAssign hd' hs' hw hin =>
      rw [hd] at hd'; cases hd'; rw [hs] at hs'; cases hs'
      rcases copyAssign_again T hr.2 hin hd hs with e | e
      · rw [e]; exact ⟨.copyAssign hd hs hw hin, hr⟩
      · have hs2 : (σ.set d (w.setType v.type)).get s = some v := by rw [get_set_other hd e]; exact hs
        refine ⟨?_, ⟨fun _ _ _ hc => (by cases hc), fun hi => (e.2 ⟨hi.1.symm, hi.2.1⟩).elim⟩⟩
        rw [← set_set σ d (w.setType v.type) v]
        exact .copyAssign (get_set hd) hs2 hw fun hi => absurd ⟨hi.1, hi.2.1⟩ e.1
  | @emplaceKey p k s ms w v hp hk hs =>
    cases h with
    | @emplaceKey _ _ _ v0 ms0 w0 hp' hv hs' hw hwh hin =>
      rw [hp] at hp'; cases hp'
      have e0 := members_unique hv (.inr rfl); subst e0
      rw [set_get T hp, hs] at hw; cases hw
      have hgk : σ.get ⟨p.x, p.path ++ [.key k]⟩ = some w := by rw [get_key hp, hk]
      have hset : ∀ u, σ.set p (.obj .object (putMember k u ms0)) = σ.set ⟨p.x, p.path ++ [.key k]⟩ u := fun u => by
        rw [set_key T hp, ← putMember_existing (keyed_get T hp).1 hk]
      rcases copyAssign_again T hr.2 (hin w hk) hgk hs with e | e
      · rw [hset, e]; exact ⟨.emplaceKey hp hv hs' (by rw [set_get T hp]; exact hs) hwh hin, hr⟩
      · have hs2 : (σ.set p (.obj .object (putMember k (w.setType v.type) ms0))).get s = some v := by rw [hset, get_set_other hgk e]; exact hs
        have hp2 := get_set (w' := .obj .object (putMember k (w.setType v.type) ms0)) hp
        refine ⟨?_, ⟨fun p' t v' hc hg _ => ?_, fun hi => (e.2 ⟨hi.1.symm, hi.2.1⟩).elim⟩⟩
        · have := Step.emplaceKey (k := k) (w := v) hp2 (.inr rfl) (by rw [hs2]; rfl) (by rw [set_set]; exact hs2) hwh
            (fun _ _ hi => absurd ⟨hi.1, hi.2.1⟩ e.1)
          rwa [set_set, putMember_again] at this
        · cases hc; rw [hp2] at hg; cases hg; rfl
  | @merge p s v ms ws ws' hp hv hs =>
    cases h with
    | @merge _ _ v0 ms0 ws0 hp' hv' hs' hap hwh =>
      rw [hp] at hp'; cases hp'; rw [hs] at hs'; cases hs'
      have e0 := members_unique hv hv'; subst e0
      have hp2 := get_set (w' := .obj .object (putMembers ws ms)) hp
      have hs2 := (get_set_other (w' := .obj .object (putMembers ws ms)) hp hap).trans hs
      refine ⟨?_, ⟨fun p' t v' hc hg _ => ?_, trivial⟩⟩
      · have := Step.merge hp2 (.inr rfl) hs2 hap hwh
        rwa [set_set, putMembers_absorbAll fun u hu => List.mem_map_of_mem (List.mem_append_left _ hu)] at this
      · cases hc; rw [hp2] at hg; cases hg; rfl
    | mergeSelf hp' hne hwh =>
      rw [hs] at hp'; cases hp'
      rw [hs] at hp; cases hp
      have e0 := members_unique hv (.inr rfl); subst e0
      rw [set_again T hs (by rw [putMembers_same (keyed_get T hs).1 fun u hu => List.mem_append_left _ hu])]
      exact ⟨.mergeSelf hs hne hwh, hr⟩
  | @mergeTag p s v ms ws ws' k w u hp hv hs hk =>
    cases h with
    | @merge _ _ v0 ms0 ws0 hp' hv' hs' hap hwh =>
      rw [hp] at hp'; cases hp'; rw [hs] at hs'; cases hs'
      have e0 := members_unique hv hv'; subst e0
      have hp2 := get_set (w' := .obj .object (putMember k (w.setType u.type) (putMembers ws ms))) hp
      have hs2 := (get_set_other (w' := .obj .object (putMember k (w.setType u.type) (putMembers ws ms))) hp hap).trans hs
      refine ⟨?_, ⟨fun p' t v' hc hg _ => ?_, trivial⟩⟩
      · have := Step.merge hp2 (.inr rfl) hs2 hap hwh
        rwa [set_set, putMembers_absorb (by simp), putMembers_absorbAll fun u hu => List.mem_map_of_mem (List.mem_append_left _ hu)] at this
      · cases hc; rw [hp2] at hg; cases hg; rfl
    | mergeSelf hp' hne hwh =>
      rw [hs] at hp'; cases hp'
      rw [hs] at hp; cases hp
      have e0 := members_unique hv (.inr rfl); subst e0
      have hsort := (keyed_get T hs).1
      have e1 := putMembers_same (ws := ws) hsort fun u hu => List.mem_append_left _ hu
      rw [e1] at hk
      have hm : (k, u) ∈ ws ++ (k, u) :: ws' := by simp
      rw [lookup_of_mem hsort hm] at hk; cases hk
      rw [set_again T hs (by rw [e1, setType_self, putMember_same hsort hm])]
      exact ⟨.mergeSelf hs hne hwh, hr⟩
  | mergeMove => exact hr.2.elim

theorem aborted_nothing (T : KeyedStore σ) (hr : AllOrNothing σ op) (h : Step σ op σ') (ha : Aborted σ op σ'') : σ'' = σ := by
  cases ha with
  | same => rfl
  | copyInit => rfl
  | @tag op p t v hc hp hv => exact set_again T hp (by rw [← hr.1 _ _ _ hc hp hv]; exact setType_self v)
  | @array op p v hc hp hv => exact set_again T hp (hollowable_array hv (hr.1 _ _ _ hc hp hv)).symm
  | @object op p v hc hp hv => exact set_again T hp (hollowable_object hv (hr.1 _ _ _ hc hp hv)).symm
  | @copyAssign d s w v hd hs => exact set_again T hd (by rw [← hr.2 _ _ hd hs, setType_self])
  | @emplaceKey p k s ms w v hp hk hs =>
    have hgk : σ.get ⟨p.x, p.path ++ [.key k]⟩ = some w := by rw [get_key hp, hk]
    have := hr.2 _ _ hgk hs
    exact set_again T hp (by rw [← this, setType_self, putMember_same (keyed_get T hp).1 (mem_of_lookup hk)])
  | @merge p s v ms ws ws' hp hv hs =>
    have e : p = s := hr.2; subst e
    rw [hp] at hs; cases hs
    have e0 := members_unique hv (.inr rfl); subst e0
    exact set_again T hp (by rw [putMembers_same (keyed_get T hp).1 fun u hu => List.mem_append_left _ hu])
  | @mergeTag p s v ms ws ws' k w u hp hv hs hk =>
    have e : p = s := hr.2; subst e
    rw [hp] at hs; cases hs
    have e0 := members_unique hv (.inr rfl); subst e0
    have hsort := (keyed_get T hp).1
    have e1 := putMembers_same (ws := ws) hsort fun u hu => List.mem_append_left _ hu
    rw [e1] at hk
    have hm : (k, u) ∈ ws ++ (k, u) :: ws' := by simp
    rw [lookup_of_mem hsort hm] at hk; cases hk
    exact set_again T hp (by rw [e1, setType_self, putMember_same hsort hm])
  | mergeMove => exact hr.2.elim

theorem retry_done : ∀ (ooms : List (Addr → Bool)) {st : State} {σ : Store} {F : Nat → List Addr}, SRep st σ [] F → KeyedStore σ → Repeatable σ op → Step σ op σ' →
    ∃ st' F', retry ooms st op = .done st' ∧ SRep st' σ' [] F'
  | [], st, σ, F, H, T, hr, h => by
    have := step_ends H T (fun _ => false) h
    simp only [retry]
    cases e : step (fun _ => false) st op with
    | done st1 => rw [e] at this; obtain ⟨F', H'⟩ := this; exact ⟨st1, F', rfl, H'⟩
    | thrown st1 => rw [e] at this; obtain ⟨⟨a, ha⟩, _⟩ := this; cases ha
    | ub => rw [e] at this; exact this.elim
  | oom :: rest, st, σ, F, H, T, hr, h => by
    have := step_ends H T oom h
    simp only [retry]
    cases e : step oom st op with
    | done st1 => rw [e] at this; obtain ⟨F', H'⟩ := this; exact ⟨st1, F', rfl, H'⟩
    | thrown st1 =>
      rw [e] at this
      obtain ⟨_, σ2, ha, F2, H2⟩ := this
      obtain ⟨h2, hr2⟩ := aborted_again T hr h ha
      exact retry_done rest H2 (aborted_keyed T ha) hr2 h2
    | ub => rw [e] at this; exact this.elim
end

/-! ### A tag without its container -/

section
variable {st : State} {σ : Store} {F : Nat → List Addr}

/-- The tag of a null or empty value has been changed, and a request refused: every place is where it was, and other values are what they were. -/
theorem mislabelled (H : SRep st σ [] F) (T : KeyedStore σ) {p : Place} {v : Value} {l : Loc} {y : HVal} {B : List Addr} (hg : σ.get p = some v) (hv : Hollowable v)
    (hl : st.resolve p = some l) (hy : st.read l = some y) (hB : Rep st.heap.cell v y B) (t : VType) {st' : State}
    (hst : st' = (st.write l ⟨t, y.raw⟩).withHeap (st.write l ⟨t, y.raw⟩).heap.bump) :
    st'.read l = some ⟨t, y.raw⟩ ∧ ∀ q u lq, σ.get q = some u → st.resolve q = some lq → st'.resolve q = some lq ∧ (q ≠ p → st'.read lq = st.read lq) := by
  subst hst
  refine ⟨read_write_same hy, fun q u lq hq hlq => ⟨?_, fun hne => ?_⟩⟩
  · exact (H.stable T (y' := ⟨t, y.raw⟩) (st' := (st.write l ⟨t, y.raw⟩).withHeap (st.write l ⟨t, y.raw⟩).heap.bump) hg hl hy hB rfl (fun _ _ _ _ => rfl) hq (not_inside_of_hollowable hg hv hq)).trans hlq
  · obtain ⟨h1, h2⟩ := H.elsewhere T hg hl hy hB hq hlq (not_inside_of_hollowable hg hv hq) hne
    exact read_write_other (Ne.symm h1)

theorem blank_mislabelled {v : Value} {y : HVal} {B : List Addr} (hB : Rep st.heap.cell v y B) (hv : Hollowable v) {t : VType} (ht : t = .array ∨ t = .object) (hne : v.type ≠ t)
    (st' : State) : st'.blank ⟨t, y.raw⟩ = none := by
  cases hv with
  | null => rw [hB.1]; rcases ht with rfl | rfl <;> rfl
  | string => rw [hB.1]; rcases ht with rfl | rfl <;> rfl
  | array =>
    obtain ⟨a, xs, C, e1, _⟩ := hB
    rw [e1]
    rcases ht with rfl | rfl
    · exact absurd rfl hne
    · rfl
  | object =>
    obtain ⟨a, xs, C, e1, _⟩ := hB
    rw [e1]
    rcases ht with rfl | rfl
    · rfl
    · exact absurd rfl hne

/-- `as_array()` with no memory for the array, and once more. -/
theorem asArray_refused (H : SRep st σ [] F) (T : KeyedStore σ) {p : Place} {v : Value} (hg : σ.get p = some v) (hv : Hollowable v) (hne : v.type ≠ .array) :
    ∃ l st', st.resolve p = some l ∧ st'.resolve p = some l ∧ (∀ k, asArray (fun _ => true) st l k = .thrown st') ∧ (∀ oom k, asArray oom st' l k = .ub) ∧
      ∀ q u lq, σ.get q = some u → st.resolve q = some lq → st'.resolve q = some lq ∧ (q ≠ p → st'.read lq = st.read lq) := by
  obtain ⟨l, y, B, p1, p2, p3, _⟩ := H.place T hg
  obtain ⟨m1, m2⟩ := mislabelled H T hg hv p1 p2 p3 .array rfl
  refine ⟨l, _, p1, (m2 _ _ _ hg p1).1, fun k => ?_, fun oom k => ?_, m2⟩
  · simp only [asArray, p2, blank_of_hollowable p3 hv, if_true]
  · simp only [asArray, m1, blank_mislabelled p3 hv (.inl rfl) hne]

theorem asObject_refused (H : SRep st σ [] F) (T : KeyedStore σ) {p : Place} {v : Value} (hg : σ.get p = some v) (hv : Hollowable v) (hne : v.type ≠ .object) :
    ∃ l st', st.resolve p = some l ∧ st'.resolve p = some l ∧ (∀ k, asObject (fun _ => true) st l k = .thrown st') ∧ (∀ oom k, asObject oom st' l k = .ub) ∧
      ∀ q u lq, σ.get q = some u → st.resolve q = some lq → st'.resolve q = some lq ∧ (q ≠ p → st'.read lq = st.read lq) := by
  obtain ⟨l, y, B, p1, p2, p3, _⟩ := H.place T hg
  obtain ⟨m1, m2⟩ := mislabelled H T hg hv p1 p2 p3 .object rfl
  refine ⟨l, _, p1, (m2 _ _ _ hg p1).1, fun k => ?_, fun oom k => ?_, m2⟩
  · simp only [asObject, p2, blank_of_hollowable p3 hv, if_true]
  · simp only [asObject, m1, blank_mislabelled p3 hv (.inr rfl) hne]

theorem constArray_reads {s : Place} (H : SRep st σ [] F) (T : KeyedStore σ) {ws : List Value} (hs : σ.get s = some (.arr .array ws)) :
    ∃ ls b, st.resolve s = some ls ∧ st.read ls = some ⟨.array, .arr (some b)⟩ := by
  obtain ⟨ls, y, B, s1, s2, ⟨b, xs, C, e1, _⟩, _⟩ := H.place T hs
  exact ⟨ls, b, s1, by rw [s2, e1]⟩

theorem constObject_reads {s : Place} (H : SRep st σ [] F) (T : KeyedStore σ) {ws : List (Bytes × Value)} (hs : σ.get s = some (.obj .object ws)) :
    ∃ ls b, st.resolve s = some ls ∧ st.read ls = some ⟨.object, .obj (some b)⟩ := by
  obtain ⟨ls, y, B, s1, s2, ⟨b, xs, C, e1, _⟩, _⟩ := H.place T hs
  exact ⟨ls, b, s1, by rw [s2, e1]⟩

theorem blank_fatal {op : Op} {σ' : Store} {p : Place} {t : VType} {v : Value} (H : SRep st σ [] F) (T : KeyedStore σ) (h : Step σ op σ') (hc : container op = some (p, t))
    (hp : σ.get p = some v) (hv : Hollowable v) (hne : v.type ≠ t) : ∃ st', step (fun _ => true) st op = .thrown st' ∧ ∀ oom, step oom st' op = .ub := by
  have one : ∀ s u, σ.get s = some u → ∃ ls, st.resolve s = some ls := fun s u hs => by
    obtain ⟨ls, _, _, s1, _⟩ := H.place T hs; exact ⟨ls, s1⟩
  cases h with
  | index _ _ =>
    cases hc
    obtain ⟨l, st', a1, a2, a3, a4, a5⟩ := asObject_refused H T hp hv hne
    exact ⟨st', by simp only [step, a1, a3], fun oom => by simp only [step, a2, a4]⟩
  | emplaceBack _ _ hs _ _ =>
    cases hc
    obtain ⟨l, st', a1, a2, a3, a4, a5⟩ := asArray_refused H T hp hv hne
    obtain ⟨u, hs⟩ := Option.isSome_iff_exists.1 hs
    obtain ⟨ls, s1⟩ := one _ _ hs
    exact ⟨st', by simp only [step, a1, s1, a3], fun oom => by simp only [step, a2, (a5 _ _ _ hs s1).1, a4]⟩
  | emplaceKey _ _ hs _ _ _ =>
    cases hc
    obtain ⟨l, st', a1, a2, a3, a4, a5⟩ := asObject_refused H T hp hv hne
    obtain ⟨u, hs⟩ := Option.isSome_iff_exists.1 hs
    obtain ⟨ls, s1⟩ := one _ _ hs
    exact ⟨st', by simp only [step, a1, s1, a3], fun oom => by simp only [step, a2, (a5 _ _ _ hs s1).1, a4]⟩
  | erasePos _ _ =>
    cases hc
    obtain ⟨l, st', a1, a2, a3, a4, a5⟩ := asArray_refused H T hp hv hne
    exact ⟨st', by simp only [step, a1, a3], fun oom => by simp only [step, a2, a4]⟩
  | eraseKey _ _ =>
    cases hc
    obtain ⟨l, st', a1, a2, a3, a4, a5⟩ := asObject_refused H T hp hv hne
    exact ⟨st', by simp only [step, a1, a3], fun oom => by simp only [step, a2, a4]⟩
  | append _ _ hs hps _ _ =>
    cases hc
    obtain ⟨l, st', a1, a2, a3, a4, a5⟩ := asArray_refused H T hp hv hne
    obtain ⟨ls, b, s1, s2⟩ := constArray_reads H T hs
    obtain ⟨b1, b2⟩ := a5 _ _ _ hs s1
    exact ⟨st', by simp only [step, a1, s1, constArray, s2, if_true, a3], fun oom => by simp only [step, a2, b1, constArray, b2 (Ne.symm hps), s2, if_true, a4]⟩
  | @merge _ s _ _ _ _ _ hs hap _ =>
    cases hc
    obtain ⟨l, st', a1, a2, a3, a4, a5⟩ := asObject_refused H T hp hv hne
    obtain ⟨ls, b, s1, s2⟩ := constObject_reads H T hs
    obtain ⟨b1, b2⟩ := a5 _ _ _ hs s1
    have hps : s ≠ p := fun e => hap.1 (by subst e; exact ⟨rfl, List.prefix_refl _⟩)
    exact ⟨st', by simp only [step, a1, s1, constObject, s2, if_true, a3], fun oom => by simp only [step, a2, b1, constObject, b2 hps, s2, if_true, a4]⟩
  | mergeSelf h1 h2 _ =>
    cases hc; rw [hp] at h1; cases h1; cases hv; exact absurd rfl h2
  | asArray _ _ =>
    cases hc
    obtain ⟨l, st', a1, a2, a3, a4, a5⟩ := asArray_refused H T hp hv hne
    exact ⟨st', by simp only [step, a1, a3], fun oom => by simp only [step, a2, a4]⟩
  | asObject _ _ =>
    cases hc
    obtain ⟨l, st', a1, a2, a3, a4, a5⟩ := asObject_refused H T hp hv hne
    exact ⟨st', by simp only [step, a1, a3], fun oom => by simp only [step, a2, a4]⟩
  | emplaceBackMove _ hs _ _ _ =>
    cases hc
    obtain ⟨l, st', a1, a2, a3, a4, a5⟩ := asArray_refused H T hp hv hne
    obtain ⟨ls, s1⟩ := one _ _ hs
    exact ⟨st', by simp only [step, a1, s1, a3], fun oom => by simp only [step, a2, (a5 _ _ _ hs s1).1, a4]⟩
  | emplaceKeyMove _ hs _ _ _ _ =>
    cases hc
    obtain ⟨l, st', a1, a2, a3, a4, a5⟩ := asObject_refused H T hp hv hne
    obtain ⟨ls, s1⟩ := one _ _ hs
    exact ⟨st', by simp only [step, a1, s1, a3], fun oom => by simp only [step, a2, (a5 _ _ _ hs s1).1, a4]⟩
  | emplaceKeyMoveOld h1 h2 _ =>
    cases hc; rw [hp] at h1; cases h1; cases hv; simp at h2
  | @appendMove _ s _ _ _ _ _ _ hs hps _ _ =>
    cases hc
    obtain ⟨l, st', a1, a2, a3, a4, a5⟩ := asArray_refused H T hp hv hne
    obtain ⟨ls, b, s1, s2⟩ := constArray_reads H T hs
    obtain ⟨b1, b2⟩ := a5 _ _ _ hs s1
    have hps' : s ≠ p := fun e => hps (by subst e; exact ⟨rfl, List.prefix_refl _⟩)
    exact ⟨st', by simp only [step, a1, s1, constArray, s2, if_true, a3], fun oom => by simp only [step, a2, b1, constArray, b2 hps', s2, if_true, a4]⟩
  | @mergeMove _ s _ _ _ _ _ _ hs hap =>
    cases hc
    obtain ⟨l, st', a1, a2, a3, a4, a5⟩ := asObject_refused H T hp hv hne
    obtain ⟨ls, b, s1, s2⟩ := constObject_reads H T hs
    obtain ⟨b1, b2⟩ := a5 _ _ _ hs s1
    have hps : s ≠ p := fun e => hap.1 (by subst e; exact ⟨rfl, List.prefix_refl _⟩)
    exact ⟨st', by simp only [step, a1, s1, constObject, s2, if_true, a3], fun oom => by simp only [step, a2, b1, constObject, b2 hps, s2, if_true, a4]⟩
  | init _ _ => cases hc
  | copyInit _ _ _ => cases hc
  | moveInit _ _ => cases hc
  | copyAssign _ _ _ _ => cases hc
  | assign _ _ => cases hc
  | moveAssign _ _ _ _ _ => cases hc
  | moveAssignPart _ _ _ _ => cases hc
  | moveAssignSelf _ => cases hc
  | drop _ => cases hc
end

end Meojson.Stores
