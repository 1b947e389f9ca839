import Verif.Spec.TakeMemory
import Verif.Proofs.Take

/-! Conversions from an rvalue when memory runs out. -/

set_option autoImplicit false

namespace Meojson
open Spec Value

/-- `r`, which begins with request `n`, ends as `s` does, or because a request was refused and with `P` of what is left. -/
structure Agrees {σ α : Type} (M : Memory) (P : σ → Prop) (n : Nat) (r : Held σ α) (s : σ × Out α) : Prop where
  mono : n ≤ r.2.2
  cases : (r.1 = s.1 ∧ r.2.1 = s.2) ∨ (r.2.1 = .throw .badAlloc ∧ P r.1 ∧ ∃ i, n ≤ i ∧ i < r.2.2 ∧ M.gives i = false)

namespace Agrees
variable {σ α β : Type} {M : Memory} {P Q : σ → Prop} {n : Nat} {r : Held σ α} {s : σ × Out α}

theorem imp (h : Agrees M P n r s) (k : ∀ w, P w → Q w) : Agrees M Q n r s :=
  ⟨h.mono, h.cases.imp_right fun ⟨a, b, c⟩ => ⟨a, k _ b, c⟩⟩

theorem and (h : Agrees M P n r s) (k : Agrees M Q n r s) : Agrees M (fun w => P w ∧ Q w) n r s := by
  refine ⟨h.mono, ?_⟩
  rcases h.cases with e | ⟨a, b, c⟩
  · exact .inl e
  · rcases k.cases with e | ⟨_, b', _⟩
    · exact .inl e
    · exact .inr ⟨a, ⟨b, b'⟩, c⟩

theorem wrap (h : Agrees M P n r s) (f : α → β) : Agrees M P n (wrapHeld f r) (wrapTaken f s) := by
  refine ⟨h.mono, ?_⟩
  rcases h.cases with ⟨e1, e2⟩ | ⟨a, b, c⟩
  · exact .inl ⟨e1, by simp only [wrapHeld, wrapTaken, e2]⟩
  · exact .inr ⟨by simp only [wrapHeld, a, Out.bind], b, c⟩

theorem refl (h : s.2 = s.2) : Agrees M P n (s.1, s.2, n) s := ⟨Nat.le_refl _, .inl ⟨rfl, h⟩⟩

theorem clear {P : List Value → Prop} {r : Held (List Value) α} {s : List Value × Out α} (h : Agrees M P n r s) : Agrees M P n (clearAfterM r) (clearAfter s) := by
  obtain ⟨w, o, m⟩ := r
  obtain ⟨w', o'⟩ := s
  refine ⟨?_, ?_⟩
  · cases o <;> exact h.mono
  · rcases h.cases with ⟨e1, e2⟩ | ⟨a, b, c⟩
    · left
      simp only at e1 e2
      subst e1 e2
      cases o <;> exact ⟨rfl, rfl⟩
    · right
      simp only at a
      subst a
      exact ⟨rfl, b, c⟩

end Agrees

theorem complain_agrees {σ α : Type} (M : Memory) {P : σ → Prop} (w : σ) (h : P w) (n : Nat) : Agrees M P n (M.complain (α := α) w n) (w, .throw .json) := by
  refine ⟨Nat.le_succ n, ?_⟩
  unfold Memory.complain
  cases hg : M.gives n
  · exact .inr ⟨rfl, h, n, Nat.le_refl n, Nat.lt_succ_self n, hg⟩
  · exact .inl ⟨rfl, rfl⟩

theorem grant_true {M : Memory} : ∀ {k n m : Nat}, M.grant k n = (true, m) → n ≤ m
  | 0, n, m, h => by cases h; exact Nat.le_refl _
  | k + 1, n, m, h => by
    rw [Memory.grant] at h
    split at h
    · have := grant_true h; omega
    · cases h

theorem grant_false {M : Memory} : ∀ {k n m : Nat}, M.grant k n = (false, m) → ∃ i, n ≤ i ∧ i < m ∧ M.gives i = false
  | 0, n, m, h => by cases h
  | k + 1, n, m, h => by
    rw [Memory.grant] at h
    split at h
    · obtain ⟨i, a, b, c⟩ := grant_false h
      exact ⟨i, by omega, b, c⟩
    · rename_i hg
      cases h
      exact ⟨n, Nat.le_refl _, by omega, by simpa using hg⟩

/-- The loops. -/
theorem takeEachM_agrees {α β : Type} {M : Memory} {asks : Nat → Nat} {f : α → Nat → Held α β} {g : α → α × Out β} {R : α → α → Prop} (hr : ∀ v, R v v) :
    ∀ {vs : List α} {i n : Nat}, (∀ v ∈ vs, ∀ n, Agrees M (fun w => w = v) n (f v n) (g v)) → (∀ v ∈ vs, R v (g v).1) →
      Agrees M (fun ws => List.Forall₂ R vs ws) n (takeEachM M asks f i vs n) (takeEach g vs)
  | [], i, n, _, _ => ⟨Nat.le_refl _, .inl ⟨rfl, rfl⟩⟩
  | v :: vs, i, n, h, hR => by
    have hsame : ∀ ws : List α, List.Forall₂ R ws ws := fun ws => by induction ws <;> simp_all
    have h0 := h v (by simp) n
    have hv := hR v (by simp)
    simp only [takeEachM, takeEach]
    rcases hf : f v n with ⟨w, o, m⟩
    rcases hg : g v with ⟨w', o'⟩
    rw [hf, hg] at h0
    rw [hg] at hv
    have hm : n ≤ m := h0.mono
    rcases h0.cases with ⟨e1, e2⟩ | ⟨a, b, c⟩
    · simp only at e1 e2
      subst e1 e2
      cases o with
      | throw e => exact ⟨hm, .inl ⟨rfl, rfl⟩⟩
      | ub => exact ⟨hm, .inl ⟨rfl, rfl⟩⟩
      | ok x =>
        simp only
        rcases hgr : M.grant (asks i) m with ⟨_ | _, m'⟩
        · obtain ⟨j, a, b, c⟩ := grant_false hgr
          exact ⟨by simp only; omega, .inr ⟨rfl, .cons hv (hsame vs), j, by omega, b, c⟩⟩
        · have hm' := grant_true hgr
          have ih := takeEachM_agrees hr (asks := asks) (vs := vs) (i := i + 1) (n := m') (fun w hw => h w (List.mem_cons_of_mem _ hw)) (fun w hw => hR w (List.mem_cons_of_mem _ hw))
          refine ⟨by have := ih.mono; simp only; omega, ?_⟩
          rcases ih.cases with ⟨e1, e2⟩ | ⟨a, b, j, c, d, e⟩
          · exact .inl ⟨by simp only [e1], by simp only [e2]⟩
          · exact .inr ⟨by simp only [a, Out.bind], .cons hv b, j, by omega, d, e⟩
    · simp only at a b
      subst a b
      exact ⟨hm, .inr ⟨rfl, .cons (hr _) (hsame vs), c⟩⟩

/-- Nothing is asked for. -/
theorem takeEachM_free {α β : Type} {M : Memory} {f : α → Nat → Held α β} {g : α → α × Out β} (h : ∀ v n, f v n = ((g v).1, (g v).2, n)) :
    ∀ (vs : List α) (i n : Nat), takeEachM M (fun _ => 0) f i vs n = ((takeEach g vs).1, (takeEach g vs).2, n)
  | [], i, n => rfl
  | v :: vs, i, n => by
    have ih := takeEachM_free (M := M) h vs (i + 1)
    simp only [takeEachM, takeEach, h, Memory.grant]
    rcases g v with ⟨w, o⟩
    cases o <;> simp only [ih]

section
variable {F : Floats} {M : Memory}

theorem asRvM_agrees (hM : M.Fair F) (t : Ty) (v : Value) (n : Nat) : Agrees M (fun w => w = v) n (t.asRvM M v n) (t.asRv F v) := by
  by_cases ht : t = .json
  · subst ht
    exact ⟨Nat.le_refl _, .inl ⟨rfl, rfl⟩⟩
  · have e : t.asRvM M v n = (v, M.copy t v n) := by cases t <;> first | exact absurd rfl ht | rfl
    rw [e, asRv_as F ht]
    obtain ⟨h1, h2⟩ := hM t v n
    refine ⟨h1, ?_⟩
    rcases h2 with h | ⟨h, k⟩
    · exact .inl ⟨rfl, h⟩
    · exact .inr ⟨h, rfl, k⟩

theorem forall_eq {α : Type} {vs ws : List α} (h : List.Forall₂ (fun v w => w = v) vs ws) : ws = vs := by
  induction h with
  | nil => rfl
  | cons h _ ih => rw [h, ih]

theorem each_agrees (hM : M.Fair F) (t : Ty) (asks : Nat → Nat) {vs : List Value} (hv : ∀ v ∈ vs, v.Sound) (i n : Nat) :
    Agrees M (fun ws => List.Forall₂ Spent vs ws ∧ (t ≠ .json → ws = vs)) n (takeEachM M asks (t.asRvM M) i vs n) (takeEach (t.asRv F) vs) := by
  have h1 := takeEachM_agrees (M := M) (asks := asks) (f := t.asRvM M) (g := t.asRv F) (R := Spent) (fun _ => .inl rfl) (vs := vs) (i := i) (n := n) (fun v _ n => asRvM_agrees hM t v n)
    fun v h => asRv_spent F t (hv v h)
  by_cases ht : t = .json
  · exact h1.imp fun w h => ⟨h, fun k => absurd ht k⟩
  · have h2 := takeEachM_agrees (M := M) (asks := asks) (f := t.asRvM M) (g := t.asRv F) (R := fun v w => w = v) (fun _ => rfl) (vs := vs) (i := i) (n := n) (fun v _ n => asRvM_agrees hM t v n)
      fun v h => asRv_fst F ht v
    exact (h1.and h2).imp fun w h => ⟨h.1, fun _ => forall_eq h.2⟩

theorem json_free (vs : List Value) (i n : Nat) : takeEachM M (fun _ => 0) (Ty.json.asRvM M) i vs n = ((takeEach (Ty.json.asRv F) vs).1, (takeEach (Ty.json.asRv F) vs).2, n) :=
  takeEachM_free (M := M) (f := Ty.json.asRvM M) (g := Ty.json.asRv F) (fun _ _ => rfl) vs i n

/-- Without a request of the container's own. -/
theorem still_agrees (hM : M.Fair F) (t : Ty) {vs : List Value} (hv : ∀ v ∈ vs, v.Sound) (n : Nat) :
    Agrees M (fun ws => List.Forall₂ Spent vs ws ∧ ws = vs) n (takeEachM M (fun _ => 0) (t.asRvM M) 0 vs n) (takeEach (t.asRv F) vs) := by
  by_cases ht : t = .json
  · subst ht
    rw [json_free (F := F)]
    exact ⟨Nat.le_refl _, .inl ⟨rfl, rfl⟩⟩
  · exact (each_agrees hM t _ hv 0 n).imp fun w h => ⟨h.1, h.2 ht⟩

theorem seq_agrees (hM : M.Fair F) (t : Ty) {vs : List Value} (hv : ∀ v ∈ vs, v.Sound) (n : Nat) :
    Agrees M (fun ws => List.Forall₂ Spent vs ws ∧ (t ≠ .json ∨ M.reserves (.seq t) = true → ws = vs)) n (takeSeqM M (.seq t) t vs n) (takeEach (t.asRv F) vs) := by
  unfold takeSeqM
  split
  · rcases hg : M.grant (if vs = [] then 0 else 1) n with ⟨_ | _, m⟩
    · obtain ⟨i, a, b, c⟩ := grant_false hg
      exact ⟨by simp only; omega, .inr ⟨rfl, ⟨spent_refl vs, fun _ => rfl⟩, i, a, b, c⟩⟩
    · have hm := grant_true hg
      have := (still_agrees hM t hv m)
      refine ⟨Nat.le_trans hm this.mono, ?_⟩
      rcases this.cases with e | ⟨a, b, i, c, d, e⟩
      · exact .inl e
      · exact .inr ⟨a, ⟨b.1, fun _ => b.2⟩, i, by omega, d, e⟩
  · rename_i hr
    exact (each_agrees hM t _ hv 0 n).imp fun w h => ⟨h.1, fun k => h.2 (k.resolve_right hr)⟩

theorem all_agrees (hM : M.Fair F) : ∀ (ts : Tys) {vs : List Value} (_ : ∀ v ∈ vs, v.Sound) (n : Nat),
    Agrees M (fun ws => List.Forall₂ Spent vs ws ∧ ((∀ i, ts.get? i ≠ some .json) → ws = vs)) n (ts.takeAllM M vs n) (ts.takeAll F vs)
  | .nil, vs, _, n => ⟨Nat.le_refl _, .inl ⟨rfl, rfl⟩⟩
  | .cons _ _, [], _, n => ⟨Nat.le_refl _, .inl ⟨rfl, rfl⟩⟩
  | .cons t ts, v :: vs, h, n => by
    have h0 := asRvM_agrees hM t v n
    have hs := asRv_spent F t (h v (by simp))
    have hf1 : t ≠ .json → (t.asRv F v).1 = v := fun ht => asRv_fst F ht v
    simp only [Tys.takeAllM, Tys.takeAll]
    rcases hf : t.asRvM M v n with ⟨w, o, m⟩
    rcases hg : t.asRv F v with ⟨w', o'⟩
    rw [hf, hg] at h0
    rw [hg] at hs hf1
    have hm : n ≤ m := h0.mono
    rcases h0.cases with ⟨e1, e2⟩ | ⟨a, b, c⟩
    · simp only at e1 e2
      subst e1 e2
      cases o with
      | throw e => exact ⟨hm, .inl ⟨rfl, rfl⟩⟩
      | ub => exact ⟨hm, .inl ⟨rfl, rfl⟩⟩
      | ok x =>
        have ih := all_agrees hM ts (vs := vs) (fun w hw => h w (List.mem_cons_of_mem _ hw)) m
        refine ⟨by have := ih.mono; simp only; omega, ?_⟩
        rcases ih.cases with ⟨e1, e2⟩ | ⟨a, b, j, c, d, e⟩
        · exact .inl ⟨by simp only [e1], by simp only [e2]⟩
        · refine .inr ⟨by simp only [a, Out.bind], ⟨.cons hs b.1, fun hj => ?_⟩, j, by omega, d, e⟩
          have ht : t ≠ .json := fun e => hj 0 (by simp [Tys.get?, e])
          simp only
          rw [b.2 fun i => by simpa [Tys.get?] using hj (i + 1)]
          rw [show w = v from hf1 ht]
    · simp only at a b
      subst a b
      exact ⟨hm, .inr ⟨rfl, ⟨.cons (.inl rfl) (spent_refl vs), fun _ => rfl⟩, c⟩⟩

theorem any_agrees (hM : M.Fair F) : ∀ (ts : Tys) (i : Nat) {v : Value} (_ : v.Sound) (n : Nat), Agrees M (fun w => w = v) n (ts.takeAnyM F M i v n) (ts.takeAny F i v)
  | .nil, i, v, hv, n => by
    simp only [Tys.takeAnyM, Tys.takeAny, typeError_sound hv]
    exact complain_agrees M (P := fun w => w = v) v rfl n
  | .cons t ts, i, v, hv, n => by
    obtain ⟨b, hb⟩ := is_total F t v hv
    simp only [Tys.takeAnyM, Tys.takeAny, hb]
    cases b
    · exact any_agrees hM ts (i + 1) hv n
    · exact (asRvM_agrees hM t v n).wrap _

/-- `as_array()` and what comes after it. -/
theorem onArray_agrees {α : Type} {v : Value} (hv : v.Sound) {P : List Value → List Value → Prop} {f : List Value → Nat → Held (List Value) α} {g : List Value → List Value × Out α}
    (h : ∀ vs, (∀ w ∈ vs, w.Sound) → ∀ n, Agrees M (P vs) n (f vs n) (g vs)) (n : Nat) :
    Agrees M (fun w => w = v ∨ (Blank v ∧ (w = v.retag .array ∨ ∃ ws, P [] ws ∧ w = .arr .array ws)) ∨ (∃ vs ws, v = .arr .array vs ∧ P vs ws ∧ w = .arr .array ws)) n
      (v.onArrayHeld M f n) (v.onArray g) := by
  have blank : Blank v → v.empty = .ok true → v.asArrayM = (.arr .array [], .ok []) → Agrees M (fun w => w = v ∨ (Blank v ∧ (w = v.retag .array ∨ ∃ ws, P [] ws ∧ w = .arr .array ws)) ∨
      (∃ vs ws, v = .arr .array vs ∧ P vs ws ∧ w = .arr .array ws)) n (v.onArrayHeld M f n) (v.onArray g) := fun hb he ha => by
    simp only [Value.onArrayHeld, Value.onArray, he, ha]
    split
    · have := h [] (by simp) (n + 1)
      refine ⟨by have := this.mono; simp only; omega, ?_⟩
      rcases this.cases with ⟨e1, e2⟩ | ⟨a, b, i, c, d, e⟩
      · exact .inl ⟨by simp only [e1, Value.type], e2⟩
      · exact .inr ⟨a, .inr (.inl ⟨hb, .inr ⟨_, b, rfl⟩⟩), i, by omega, d, e⟩
    · rename_i hg
      exact ⟨by simp only; omega, .inr ⟨rfl, .inr (.inl ⟨hb, .inl rfl⟩), n, Nat.le_refl n, by simp only; omega, by simpa using hg⟩⟩
  have other : v.empty = .ok false → v.asArray = .throw .json → Agrees M (fun w => w = v ∨ (Blank v ∧ (w = v.retag .array ∨ ∃ ws, P [] ws ∧ w = .arr .array ws)) ∨
      (∃ vs ws, v = .arr .array vs ∧ P vs ws ∧ w = .arr .array ws)) n (v.onArrayHeld M f n) (v.onArray g) := fun he ha => by
    simp only [Value.onArrayHeld, Value.onArray, Value.asArrayM, he, ha]
    exact complain_agrees M v (.inl rfl) n
  cases sound_shape hv with
  | array vs hs =>
    cases vs with
    | nil => exact blank (.inr (.inr (.inl rfl))) rfl rfl
    | cons a vs =>
      have := h (a :: vs) hs n
      have e1 : (Value.arr .array (a :: vs)).onArrayHeld M f n = (.arr .array (f (a :: vs) n).1, (f (a :: vs) n).2) := rfl
      have e2 : (Value.arr .array (a :: vs)).onArray g = (.arr .array (g (a :: vs)).1, (g (a :: vs)).2) := rfl
      rw [e1, e2]
      refine ⟨this.mono, ?_⟩
      rcases this.cases with ⟨e1, e2⟩ | ⟨a, b, c⟩
      · exact .inl ⟨by simp only [e1], e2⟩
      · exact .inr ⟨a, .inr (.inr ⟨_, _, rfl, b, rfl⟩), c⟩
  | string s =>
    cases s with
    | nil => exact blank (.inr (.inl rfl)) rfl rfl
    | cons c s => exact other rfl rfl
  | object ms _ _ =>
    cases ms with
    | nil => exact blank (.inr (.inr (.inr rfl))) rfl rfl
    | cons c s => exact other rfl rfl
  | null => exact blank (.inl rfl) rfl rfl
  | _ => exact other rfl rfl

/-- `as_object()` and what comes after it. -/
theorem onObject_agrees {α : Type} {v : Value} (hv : v.Sound) {P : List (Bytes × Value) → List (Bytes × Value) → Prop} {f : List (Bytes × Value) → Nat → Held (List (Bytes × Value)) α}
    {g : List (Bytes × Value) → List (Bytes × Value) × Out α} (h : ∀ ms, (∀ e ∈ ms, e.2.Sound) → ∀ n, Agrees M (P ms) n (f ms n) (g ms)) (n : Nat) :
    Agrees M (fun w => w = v ∨ (Blank v ∧ (w = v.retag .object ∨ ∃ ws, P [] ws ∧ w = .obj .object ws)) ∨ (∃ vs ws, v = .obj .object vs ∧ P vs ws ∧ w = .obj .object ws)) n
      (v.onObjectHeld M f n) (v.onObject g) := by
  have blank : Blank v → v.empty = .ok true → v.asObjectM = (.obj .object [], .ok []) → Agrees M (fun w => w = v ∨ (Blank v ∧ (w = v.retag .object ∨ ∃ ws, P [] ws ∧ w = .obj .object ws)) ∨
      (∃ vs ws, v = .obj .object vs ∧ P vs ws ∧ w = .obj .object ws)) n (v.onObjectHeld M f n) (v.onObject g) := fun hb he ha => by
    simp only [Value.onObjectHeld, Value.onObject, he, ha]
    split
    · have := h [] (by simp) (n + 1)
      refine ⟨by have := this.mono; simp only; omega, ?_⟩
      rcases this.cases with ⟨e1, e2⟩ | ⟨a, b, i, c, d, e⟩
      · exact .inl ⟨by simp only [e1, Value.type], e2⟩
      · exact .inr ⟨a, .inr (.inl ⟨hb, .inr ⟨_, b, rfl⟩⟩), i, by omega, d, e⟩
    · rename_i hg
      exact ⟨by simp only; omega, .inr ⟨rfl, .inr (.inl ⟨hb, .inl rfl⟩), n, Nat.le_refl n, by simp only; omega, by simpa using hg⟩⟩
  have other : v.empty = .ok false → v.asObject = .throw .json → Agrees M (fun w => w = v ∨ (Blank v ∧ (w = v.retag .object ∨ ∃ ws, P [] ws ∧ w = .obj .object ws)) ∨
      (∃ vs ws, v = .obj .object vs ∧ P vs ws ∧ w = .obj .object ws)) n (v.onObjectHeld M f n) (v.onObject g) := fun he ha => by
    simp only [Value.onObjectHeld, Value.onObject, Value.asObjectM, he, ha]
    exact complain_agrees M v (.inl rfl) n
  cases sound_shape hv with
  | object ms _ hs =>
    cases ms with
    | nil => exact blank (.inr (.inr (.inr rfl))) rfl rfl
    | cons a vs =>
      have := h (a :: vs) hs n
      have e1 : (Value.obj .object (a :: vs)).onObjectHeld M f n = (.obj .object (f (a :: vs) n).1, (f (a :: vs) n).2) := rfl
      have e2 : (Value.obj .object (a :: vs)).onObject g = (.obj .object (g (a :: vs)).1, (g (a :: vs)).2) := rfl
      rw [e1, e2]
      refine ⟨this.mono, ?_⟩
      rcases this.cases with ⟨e1, e2⟩ | ⟨a, b, c⟩
      · exact .inl ⟨by simp only [e1], e2⟩
      · exact .inr ⟨a, .inr (.inr ⟨_, _, rfl, b, rfl⟩), c⟩
  | string s =>
    cases s with
    | nil => exact blank (.inr (.inl rfl)) rfl rfl
    | cons c s => exact other rfl rfl
  | array ms _ =>
    cases ms with
    | nil => exact blank (.inr (.inr (.inl rfl))) rfl rfl
    | cons c s => exact other rfl rfl
  | null => exact blank (.inl rfl) rfl rfl
  | _ => exact other rfl rfl

/-- What a failed request leaves. -/
def Keeps (t : Prop) (v w : Value) : Prop := Leaves v w ∧ (t → ¬ Blank v → w = v)

theorem keeps_same {t : Prop} {v w : Value} (h : w = v) : Keeps t v w := ⟨.inl (.whole (.inl h)), fun _ _ => h⟩

theorem array_keeps {t : Prop} {v w : Value} (h : w = v ∨ (Blank v ∧ (w = v.retag .array ∨ ∃ ws, (List.Forall₂ Spent [] ws ∧ (t → ws = [])) ∧ w = .arr .array ws)) ∨
    (∃ vs ws, v = .arr .array vs ∧ (List.Forall₂ Spent vs ws ∧ (t → ws = vs)) ∧ w = .arr .array ws)) : Keeps t v w := by
  rcases h with h | ⟨hb, h | ⟨ws, ⟨h, -⟩, rfl⟩⟩ | ⟨vs, ws, rfl, ⟨h, k⟩, rfl⟩
  · exact keeps_same h
  · exact ⟨.inr ⟨hb, .inl h⟩, fun _ h => absurd hb h⟩
  · cases h; exact ⟨.inl (.madeArray hb), fun _ h => absurd hb h⟩
  · exact ⟨.inl (.elements h), fun ht _ => by rw [k ht]⟩

theorem object_keeps {t : Prop} {v w : Value}
    (h : w = v ∨ (Blank v ∧ (w = v.retag .object ∨ ∃ ws, (List.Forall₂ (fun a b : Bytes × Value => b.1 = a.1 ∧ Spent a.2 b.2) [] ws ∧ (t → ws = [])) ∧ w = .obj .object ws)) ∨
    (∃ vs ws, v = .obj .object vs ∧ (List.Forall₂ (fun a b : Bytes × Value => b.1 = a.1 ∧ Spent a.2 b.2) vs ws ∧ (t → ws = vs)) ∧ w = .obj .object ws)) : Keeps t v w := by
  rcases h with h | ⟨hb, h | ⟨ws, ⟨h, -⟩, rfl⟩⟩ | ⟨vs, ws, rfl, ⟨h, k⟩, rfl⟩
  · exact keeps_same h
  · exact ⟨.inr ⟨hb, .inr h⟩, fun _ h => absurd hb h⟩
  · cases h; exact ⟨.inl (.madeObject hb), fun _ h => absurd hb h⟩
  · exact ⟨.inl (.members h), fun ht _ => by rw [k ht]⟩

theorem take_untouched (F : Floats) : ∀ (t : Ty) (v : Value) (_ : v.Sound) (_ : ¬ Blank v) (_ : t.Untouched), (t.take F v).1 = v
  | .map t, v, hv, hb, ht => by
    simp only [Ty.take]
    have hm : ∀ ms : List (Bytes × Value), (takeEach (fun e : Bytes × Value => let r := t.asRv F e.2; ((e.1, r.1), r.2.bind fun x => Out.ok (e.1, x))) ms).1 = ms := fun ms =>
      takeEach_same fun e _ => by simp only [asRv_fst F ht]
    rcases onObject_cases hv (α := CVal) (fun ms => wrapTaken (fun es => .map (es.foldl (fun m e => (RawObject.emplace e.1 e.2 m).1) []))
      (takeEach (fun e : Bytes × Value => let r := t.asRv F e.2; ((e.1, r.1), r.2.bind fun x => .ok (e.1, x))) ms)) with ⟨ms, rfl, -, -, e⟩ | ⟨-, hb', -⟩ | ⟨-, -, e⟩
    · rw [e, wrapTaken_fst, hm]
    · exact absurd hb' hb
    · rw [e]
  | .nullable .pointer t, v, hv, hb, ht => by
    simp only [Ty.take]
    split
    · rfl
    · rw [wrapTaken_fst, take_untouched F t v hv hb ht]
  | .nullable .optional t, v, hv, hb, ht => by
    simp only [Ty.take]
    rw [wrapTaken_fst, take_untouched F t v hv hb ht]
  | .variant ts, v, hv, hb, ht => by
    have ht : ts.chosen = none := ht
    simp only [Ty.take, ht]
    rw [takeAny_fst F (chosen_none ht)]
  | .bool, v, _, _, _ | .int _, v, _, _, _ | .float _, v, _, _, _ | .string, v, _, _, _ | .null, v, _, _, _ | .enum _, v, _, _, _ | .struct _, v, _, _, _ | .user _, v, _, _, _ => by
    simp only [Ty.take]
  | .json, _, _, _, ht | .jarray, _, _, _, ht | .jobject, _, _, _, ht | .seq _, _, _, _, ht | .set _ _, _, _, _, ht | .fixed _ _, _, _, _, ht | .tuple _, _, _, _, ht => ht.elim

theorem copy_agrees (hM : M.Fair F) (t : Ty) (v : Value) (n : Nat) {P : Value → Prop} (hP : P v) : Agrees M P n (v, M.copy t v n) (v, t.as F v) := by
  obtain ⟨h1, h2⟩ := hM t v n
  refine ⟨h1, ?_⟩
  rcases h2 with h | ⟨h, k⟩
  · exact .inl ⟨rfl, h⟩
  · exact .inr ⟨h, hP, k⟩

theorem size_agrees {α : Type} {P : List Value → List Value → Prop} (hP : ∀ vs, P vs vs) {k : Nat} {vs : List Value} {n : Nat} {r : Held (List Value) α} {s : List Value × Out α}
    (h : vs.length = k → Agrees M (P vs) n r s) : Agrees M (P vs) n (if vs.length = k then r else M.complain vs n) (if vs.length = k then s else (vs, .throw .json)) := by
  by_cases hk : vs.length = k
  · rw [if_pos hk, if_pos hk]; exact h hk
  · rw [if_neg hk, if_neg hk]; exact complain_agrees M (P := P vs) vs (hP vs) n

theorem members_agree (hM : M.Fair F) (t : Ty) {ms : List (Bytes × Value)} (hs : ∀ e ∈ ms, e.2.Sound) (asks : Nat → Nat) (n : Nat) :
    Agrees M (fun ws => List.Forall₂ (fun a b : Bytes × Value => b.1 = a.1 ∧ Spent a.2 b.2) ms ws ∧ (t ≠ .json → ws = ms)) n
      (takeEachM M asks (fun (e : Bytes × Value) n => let r := t.asRvM M e.2 n; ((e.1, r.1), r.2.1.bind fun x => Out.ok (e.1, x), r.2.2)) 0 ms n)
      (takeEach (fun e : Bytes × Value => let r := t.asRv F e.2; ((e.1, r.1), r.2.bind fun x => Out.ok (e.1, x))) ms) := by
  have hf : ∀ (e : Bytes × Value) (n : Nat), Agrees M (fun w => w = e) n (let r := t.asRvM M e.2 n; ((e.1, r.1), r.2.1.bind fun x => Out.ok (e.1, x), r.2.2))
      (let r := t.asRv F e.2; ((e.1, r.1), r.2.bind fun x => Out.ok (e.1, x))) := fun e n => by
    have h := asRvM_agrees hM t e.2 n
    refine ⟨h.mono, ?_⟩
    rcases h.cases with ⟨e1, e2⟩ | ⟨a, b, c⟩
    · exact .inl ⟨by simp only [e1], by simp only [e2]⟩
    · exact .inr ⟨by simp only [a, Out.bind], by simp only [b], c⟩
  have h1 := takeEachM_agrees (M := M) (asks := asks) (R := fun a b : Bytes × Value => b.1 = a.1 ∧ Spent a.2 b.2) (fun _ => ⟨rfl, .inl rfl⟩) (vs := ms) (i := 0) (n := n) (fun e _ => hf e)
    fun e he => ⟨rfl, asRv_spent F t (hs e he)⟩
  by_cases ht : t = .json
  · exact h1.imp fun w h => ⟨h, fun k => absurd ht k⟩
  · have h2 := takeEachM_agrees (M := M) (asks := asks) (R := fun v w => w = v) (fun _ => rfl) (vs := ms) (i := 0) (n := n) (fun e _ => hf e) fun e _ => by simp only [asRv_fst F ht]
    exact (h1.and h2).imp fun w h => ⟨h.1, fun _ => forall_eq h.2⟩

mutual
theorem takeM_agrees (hM : M.Fair F) : ∀ (t : Ty) (v : Value) (_ : v.Sound) (n : Nat), Agrees M (Keeps (t.Careful M) v) n (t.takeM F M v n) (t.take F v)
  | .json, v, _, n => ⟨Nat.le_refl _, .inl ⟨rfl, rfl⟩⟩
  | .nullable .pointer t, v, hv, n => by
    have h := takeM_agrees hM t v hv n
    simp only [Ty.takeM, Ty.take]
    split
    · exact ⟨Nat.le_refl _, .inl ⟨rfl, rfl⟩⟩
    · rcases hr : t.takeM F M v n with ⟨w, o, m⟩
      rw [hr] at h
      have hm : n ≤ m := h.mono
      have hl := take_left F t v hv
      have hu := take_untouched F t v hv
      rcases h.cases with ⟨e1, e2⟩ | ⟨a, b, c⟩
      · simp only at e1 e2
        subst e1
        cases o with
        | ok x =>
          simp only
          cases hg : M.gives m
          · exact ⟨by simp; omega, .inr ⟨rfl, ⟨.inl hl, fun hs hb => hu hb hs.2⟩, m, hm, by simp, hg⟩⟩
          · exact ⟨by simp; omega, .inl ⟨rfl, by simp [wrapTaken, ← e2, Out.bind]⟩⟩
        | throw e => exact ⟨hm, .inl ⟨rfl, by simp [wrapTaken, ← e2, Out.bind]⟩⟩
        | ub => exact ⟨hm, .inl ⟨rfl, by simp [wrapTaken, ← e2, Out.bind]⟩⟩
      · simp only at a
        subst a
        exact ⟨hm, .inr ⟨rfl, ⟨b.1, fun hs hb => b.2 hs.1 hb⟩, c⟩⟩
  | .nullable .optional t, v, hv, n => by
    simp only [Ty.takeM, Ty.take]
    exact ((takeM_agrees hM t v hv n).imp fun w h => h).wrap _
  | .jarray, v, hv, n => by
    simp only [Ty.takeM, Ty.take]
    refine (onArray_agrees hv (P := fun vs ws => List.Forall₂ Spent vs ws ∧ (False → ws = vs)) (fun vs hs n => ?_) n).imp fun w h => array_keeps h
    refine ((Agrees.imp ?_ fun w h => ⟨h, False.elim⟩).wrap _).clear
    exact takeEachM_agrees (fun _ => .inl rfl) (fun v _ n => ⟨Nat.le_refl _, .inl ⟨rfl, rfl⟩⟩) fun v h => emptied_spent (hs v h)
  | .seq t, v, hv, n => by
    simp only [Ty.takeM, Ty.take]
    exact (onArray_agrees hv (fun vs hs n => ((seq_agrees hM t hs n).wrap _).clear) n).imp fun w h => array_keeps h
  | .set lt t, v, hv, n => by
    simp only [Ty.takeM, Ty.take]
    exact (onArray_agrees hv (fun vs hs n => ((each_agrees hM t _ hs 0 n).wrap _).clear) n).imp fun w h => array_keeps h
  | .fixed k t, v, hv, n => by
    simp only [Ty.takeM, Ty.take]
    refine (onArray_agrees hv (P := fun vs ws => List.Forall₂ Spent vs ws ∧ (True → ws = vs)) (fun vs hs n => ?_) n).imp fun w h => array_keeps h
    exact size_agrees (P := fun vs ws => List.Forall₂ Spent vs ws ∧ (True → ws = vs)) (fun vs => ⟨spent_refl vs, fun _ => rfl⟩) fun _ => (((still_agrees hM t hs n).imp fun w h => ⟨h.1, fun _ => h.2⟩).wrap _).clear
  | .tuple ts, v, hv, n => by
    simp only [Ty.takeM, Ty.take]
    by_cases h1 : ts.size = 1
    · rw [if_pos h1, if_pos h1]
      exact ((takeNthM_agrees hM ts 0 v hv n).imp fun w h => ⟨h.1, fun hs hb => h.2 (hs.1 h1) hb⟩).wrap _
    · rw [if_neg h1, if_neg h1]
      refine Agrees.imp (P := Keeps (∀ i, ts.get? i ≠ some .json) v) ?_ fun w h => ⟨h.1, fun hs hb => h.2 (hs.2 h1) hb⟩
      refine (onArray_agrees hv (P := fun vs ws => List.Forall₂ Spent vs ws ∧ ((∀ i, ts.get? i ≠ some .json) → ws = vs)) (fun vs hs n => ?_) n).imp fun w h => array_keeps h
      exact size_agrees (P := fun vs ws => List.Forall₂ Spent vs ws ∧ ((∀ i, ts.get? i ≠ some .json) → ws = vs)) (fun vs => ⟨spent_refl vs, fun _ => rfl⟩) fun _ => ((all_agrees hM ts hs n).wrap _).clear
  | .variant ts, v, hv, n => by
    simp only [Ty.takeM, Ty.take]
    cases hc : ts.chosen with
    | some i => exact ((takeNthM_agrees hM ts i v hv n).imp fun w h => ⟨h.1, fun hs hb => h.2 (hs.resolve_left (by rw [hc]; exact nofun)) hb⟩).wrap _
    | none => exact (any_agrees hM ts 0 hv n).imp fun w h => keeps_same h
  | .jobject, v, hv, n => by
    simp only [Ty.takeM, Ty.take]
    refine (onObject_agrees hv (P := fun vs ws => List.Forall₂ (fun a b : Bytes × Value => b.1 = a.1 ∧ Spent a.2 b.2) vs ws ∧ (False → ws = vs)) (fun ms hs n => ?_) n).imp fun w h => object_keeps h
    refine (Agrees.imp ?_ fun w h => ⟨h, False.elim⟩).wrap _
    exact takeEachM_agrees (fun _ => ⟨rfl, .inl rfl⟩) (fun _ _ _ => ⟨Nat.le_refl _, .inl ⟨rfl, rfl⟩⟩) fun e h => ⟨rfl, emptied_spent (hs e h)⟩
  | .map t, v, hv, n => by
    simp only [Ty.takeM, Ty.take]
    exact (onObject_agrees hv (fun ms hs n => (members_agree hM t hs _ n).wrap _) n).imp fun w h => object_keeps h
  | .bool, v, _, n | .int _, v, _, n | .float _, v, _, n | .string, v, _, n | .null, v, _, n | .enum _, v, _, n | .struct _, v, _, n | .user _, v, _, n => by
    simp only [Ty.takeM, Ty.take]
    exact copy_agrees hM _ v n (keeps_same rfl)
theorem takeNthM_agrees (hM : M.Fair F) : ∀ (ts : Tys) (i : Nat) (v : Value) (_ : v.Sound) (n : Nat), Agrees M (Keeps (ts.Careful M) v) n (ts.takeNthM F M i v n) (ts.takeNth F i v)
  | .nil, _, v, _, n => ⟨Nat.le_refl _, .inl ⟨rfl, rfl⟩⟩
  | .cons t ts, 0, v, hv, n => (takeM_agrees hM t v hv n).imp fun w h => ⟨h.1, fun hs hb => h.2 hs.1 hb⟩
  | .cons t ts, i + 1, v, hv, n => (takeNthM_agrees hM ts i v hv n).imp fun w h => ⟨h.1, fun hs hb => h.2 hs.2 hb⟩
end

end

end Meojson
