import Verif.Spec.StoreMemory
import Verif.Proofs.Take

/-! Conversions to JSON that fail. -/

set_option autoImplicit false

namespace Meojson
open Spec Value

theorem maker_grant (M : Maker) : ∀ (k n : Nat), (∃ m, n ≤ m ∧ (k = 0 → m = n) ∧ M.grant k n = (true, m)) ∨ (0 < k ∧ ∃ m i, n ≤ i ∧ i < m ∧ M.gives i = false ∧ M.grant k n = (false, m))
  | 0, n => .inl ⟨n, Nat.le_refl _, fun _ => rfl, rfl⟩
  | k + 1, n => by
    rw [Maker.grant]
    split
    · rcases maker_grant M k (n + 1) with ⟨m, a, _, b⟩ | ⟨_, m, i, a, b, c, d⟩
      · exact .inl ⟨m, by omega, fun h => by omega, b⟩
      · exact .inr ⟨by omega, m, i, by omega, b, c, d⟩
    · rename_i h
      exact .inr ⟨by omega, n + 1, n, Nat.le_refl _, by omega, by simpa using h, rfl⟩

theorem first_cases {σ α : Type} (M : Maker) (k : Nat) (x : σ) (f : Nat → Held σ α) (n : Nat) :
    (∃ m, n ≤ m ∧ (k = 0 → m = n) ∧ M.first k x f n = f m) ∨ (0 < k ∧ ∃ m i, n ≤ i ∧ i < m ∧ M.gives i = false ∧ M.first k x f n = (x, .throw .badAlloc, m)) := by
  rcases maker_grant M k n with ⟨m, a, b, c⟩ | ⟨h, m, i, a, b, c, d⟩
  · exact .inl ⟨m, a, b, by rw [Maker.first, c]⟩
  · exact .inr ⟨h, m, i, a, b, c, by rw [Maker.first, d]⟩

/-- `r`, which begins with request `n`, ends as `s` does, or because a request was refused. -/
structure Meets {σ α : Type} (M : Maker) (n : Nat) (r : Held σ α) (s : Out (α × σ)) : Prop where
  mono : n ≤ r.2.2
  cases : (r.2.1.bind fun v => .ok (v, r.1)) = s ∨ (r.2.1 = .throw .badAlloc ∧ ∃ i, n ≤ i ∧ i < r.2.2 ∧ M.gives i = false)

namespace Meets
variable {σ τ α β : Type} {M : Maker} {n : Nat}

theorem first {k : Nat} {x : σ} {f : Nat → Held σ α} {s : Out (α × σ)} (h : ∀ m, n ≤ m → Meets M m (f m) s) : Meets M n (M.first k x f n) s := by
  rcases first_cases M k x f n with ⟨m, a, _, e⟩ | ⟨_, m, i, a, b, c, e⟩ <;> rw [e]
  · obtain ⟨h1, h2⟩ := h m a
    refine ⟨by omega, h2.imp_right fun ⟨b, i, c⟩ => ⟨b, i, by omega, c.2⟩⟩
  · exact ⟨by simp only; omega, .inr ⟨rfl, i, a, b, c⟩⟩

theorem as {r : Held σ α} {s : Out (α × σ)} (h : Meets M n r s) (f : σ → τ) (g : α → β) : Meets M n (r.as f g) (s.bind fun p => .ok (g p.1, f p.2)) := by
  refine ⟨h.mono, ?_⟩
  rcases h.cases with e | ⟨e, k⟩
  · left
    rw [← e, Held.as]
    cases r.2.1 <;> rfl
  · exact .inr ⟨by simp only [Held.as, e, Out.bind], k⟩

theorem next {r : Held σ α} {s : Out (α × σ)} {rest : τ} {f : Nat → Held τ β} {s' : Out (β × τ)} (h : Meets M n r s) (h' : ∀ m, n ≤ m → Meets M m (f m) s') :
    Meets M n (r.next rest f) (s.bind fun p => s'.bind fun q => .ok ((p.1, q.1), (p.2, q.2))) := by
  obtain ⟨x, o, m⟩ := r
  have hm : n ≤ m := h.mono
  rcases h.cases with e | ⟨e, i, k⟩
  · simp only at e
    subst e
    cases o with
    | ok a =>
      obtain ⟨k1, k2⟩ := h' m hm
      refine ⟨Nat.le_trans hm k1, ?_⟩
      rcases k2 with e | ⟨e, i, k2⟩
      · left
        simp only [Held.next, ← e]
        cases (f m).2.1 <;> rfl
      · exact .inr ⟨by simp only [Held.next, e, Out.bind], i, by omega, k2.2⟩
    | throw e => exact ⟨hm, .inl rfl⟩
    | ub => exact ⟨hm, .inl rfl⟩
  · simp only at e
    subst e
    exact ⟨hm, .inr ⟨rfl, i, k⟩⟩

theorem plain {k : Nat} {x : CVal} {s : Out (Value × CVal)} (hs : ∀ v y, s = .ok (v, y) → y = x) : Meets M n (M.plain k x s n) s := by
  refine first fun m hm => ?_
  rcases s with ⟨v, y⟩ | e | _
  · cases hs v y rfl
    exact ⟨Nat.le_refl _, .inl rfl⟩
  · cases e
    case json =>
      refine ⟨Nat.le_succ m, ?_⟩
      show _ ∨ _
      unfold Maker.complain
      cases hg : M.gives m
      · exact .inr ⟨rfl, m, Nat.le_refl m, Nat.lt_succ_self m, hg⟩
      · exact .inl rfl
    all_goals exact ⟨Nat.le_refl _, .inl rfl⟩
  · exact ⟨Nat.le_refl _, .inl rfl⟩

theorem moving {k : Nat} {x : CVal} {s : Out (Value × CVal)} : Meets M n (M.moving k x s n) s := by
  refine first fun m hm => ?_
  rcases s with ⟨v, y⟩ | e | _ <;> exact ⟨Nat.le_refl _, .inl rfl⟩

theorem each {α β : Type} {ask : Nat → α → Nat} {f : α → Nat → Held α β} {g : α → Out (β × α)} (h : ∀ x n, Meets M n (f x n) (g x)) :
    ∀ (xs : List α) (i n : Nat), Meets M n (storeEachM M ask f i xs n) (eachBoth g xs)
  | [], i, n => ⟨Nat.le_refl _, .inl rfl⟩
  | x :: xs, i, n => by
    rw [storeEachM]
    refine first fun m hm => ?_
    have := (((h x m).next (rest := xs) fun m _ => each (ask := ask) h xs (i + 1) m).as (fun p => p.1 :: p.2) fun p => p.1 :: p.2)
    refine cast (congrArg _ ?_) this
    rw [eachBoth]
    cases g x with
    | ok p => simp only [Out.bind]; cases eachBoth g xs <;> rfl
    | throw e => rfl
    | ub => rfl

end Meets

section
variable (F : Floats) (M : Maker)

mutual
theorem storeM_meets : ∀ (t : Ty) (c : Cat) (x : CVal) (n : Nat), Meets M n (t.storeM F M c x n) (t.store F c x)
  | .json, c, x, n => by
    cases x <;> simp only [Ty.storeM]
    case json v =>
      split
      · exact .moving
      · rename_i h
        refine .plain fun w y e => ?_
        simp only [Ty.store, h, if_false] at e
        cases hv : v.copied <;> rw [hv] at e <;> cases e
        rfl
    all_goals exact .plain fun w y e => by simp [Ty.store] at e
  | .jarray, c, x, n => by
    cases x <;> simp only [Ty.storeM]
    case jarray v =>
      split
      · exact .moving
      · rename_i h
        refine .plain fun w y e => ?_
        simp only [Ty.store, h, if_false] at e
        cases hv : eachOf Value.copied v <;> rw [hv] at e <;> cases e
        rfl
    all_goals exact .plain fun w y e => by simp [Ty.store] at e
  | .jobject, c, x, n => by
    cases x <;> simp only [Ty.storeM]
    case jobject v =>
      split
      · exact .moving
      · rename_i h
        refine .plain fun w y e => ?_
        simp only [Ty.store, h, if_false] at e
        cases hv : eachOf (fun e : Bytes × Value => e.2.copied.bind fun w => .ok (e.1, w)) v <;> rw [hv] at e <;> cases e
        rfl
    all_goals exact .plain fun w y e => by simp [Ty.store] at e
  | .string, c, x, n => by
    cases x <;> simp only [Ty.storeM]
    case str s =>
      split
      · exact .moving
      · rename_i h
        refine .plain fun w y e => ?_
        simp only [Ty.store, h, if_false] at e
        cases e
        rfl
    all_goals exact .plain fun w y e => by simp [Ty.store] at e
  | .nullable w t, c, x, n => by
    cases x <;> simp only [Ty.storeM]
    case nothing => exact ⟨Nat.le_refl _, .inl (by simp only [Ty.store, Out.bind])⟩
    case just x => simp only [Ty.store]; exact (storeM_meets t (c.content w) x n).as CVal.just id
    all_goals exact .plain fun w y e => by simp [Ty.store] at e
  | .seq t, c, x, n => by
    cases x <;> simp only [Ty.storeM]
    case list xs =>
      simp only [Ty.store]
      split
      · exact .first fun m _ => (Meets.each (fun x n => storeM_meets t c.element x n) xs 0 m).as CVal.list Value.ofArray
      · exact .first fun m _ => (Meets.each (fun x n => storeM_meets t c.element x n) xs 0 m).as CVal.list Value.ofArray
    all_goals exact .plain fun w y e => by simp [Ty.store] at e
  | .set lt t, c, x, n => by
    cases x <;> simp only [Ty.storeM]
    case list xs =>
      simp only [Ty.store]
      exact .first fun m _ => (Meets.each (fun x n => storeM_meets t c.setElement x n) xs 0 m).as CVal.list Value.ofArray
    all_goals exact .plain fun w y e => by simp [Ty.store] at e
  | .fixed k t, c, x, n => by
    cases x <;> simp only [Ty.storeM]
    case list xs =>
      simp only [Ty.store]
      exact .first fun m _ => (Meets.each (fun x n => storeM_meets t c.part x n) xs 0 m).as CVal.list Value.ofArray
    all_goals exact .plain fun w y e => by simp [Ty.store] at e
  | .tuple ts, c, x, n => by
    cases x <;> simp only [Ty.storeM]
    case list xs =>
      simp only [Ty.store]
      exact .first fun m _ => (storeAllM_meets ts c.part xs m).as CVal.list Value.ofArray
    all_goals exact .plain fun w y e => by simp [Ty.store] at e
  | .variant ts, c, x, n => by
    cases x <;> simp only [Ty.storeM]
    case alt i x => simp only [Ty.store]; exact (storeAltM_meets ts c.part i x n).as (CVal.alt i) id
    all_goals exact .plain fun w y e => by simp [Ty.store] at e
  | .map t, c, x, n => by
    cases x <;> simp only [Ty.storeM]
    case map ms =>
      simp only [Ty.store]
      refine .first fun m _ => (Meets.each (g := fun e : Bytes × CVal => (t.store F c.element e.2).bind fun r => .ok ((e.1, r.1), (e.1, r.2))) (fun e n => ?_) ms 0 m).as CVal.map
        fun r => Value.ofObject (r.foldl (fun m e => (RawObject.emplace e.1 e.2 m).1) [])
      exact (storeM_meets t c.element e.2 n).as (fun y => (e.1, y)) fun v => (e.1, v)
    all_goals exact .plain fun w y e => by simp [Ty.store] at e
  | .struct fs, c, x, n => by
    cases x <;> simp only [Ty.storeM]
    case list xs =>
      simp only [Ty.store]
      have h := dumpM_meets fs {} xs [] n
      rcases hr : fs.dumpM F M {} xs [] n with ⟨ys, o, m⟩
      rw [hr] at h
      have hm : n ≤ m := h.mono
      rcases h.cases with e | ⟨e, i, k⟩
      · rw [← e]
        cases o with
        | ok a =>
          obtain ⟨h1, h2⟩ := Meets.first (M := M) (n := m) (k := 1) (x := CVal.list ys) (f := fun n => (CVal.list ys, .ok (Value.ofObject a), n)) (s := .ok (Value.ofObject a, CVal.list ys))
            fun m _ => ⟨Nat.le_refl _, .inl rfl⟩
          exact ⟨Nat.le_trans hm h1, h2.imp_right fun ⟨b, i, c⟩ => ⟨b, i, by omega, c.2⟩⟩
        | throw e => exact ⟨hm, .inl rfl⟩
        | ub => exact ⟨hm, .inl rfl⟩
      · simp only at e
        subst e
        exact ⟨hm, .inr ⟨rfl, i, k⟩⟩
    all_goals exact .plain fun w y e => by simp [Ty.store] at e
  | .bool, c, x, n => by
    cases x <;> simp only [Ty.storeM] <;> exact .plain fun w y e => by simp [Ty.store] at e <;> simp [e]
  | .int _, c, x, n => by
    cases x <;> simp only [Ty.storeM] <;> exact .plain fun w y e => by simp [Ty.store] at e <;> simp [e]
  | .float _, c, x, n => by
    cases x <;> simp only [Ty.storeM] <;> exact .plain fun w y e => by simp [Ty.store] at e <;> simp [e]
  | .null, c, x, n => by
    cases x <;> simp only [Ty.storeM] <;> exact .plain fun w y e => by simp [Ty.store] at e <;> simp [e]
  | .enum E, c, x, n => by
    cases x <;> simp only [Ty.storeM]
    case enum i =>
      refine .plain fun w y e => ?_
      simp only [Ty.store] at e
      cases hv : Value.ofEnum E i <;> rw [hv] at e <;> cases e
      rfl
    all_goals exact .plain fun w y e => by simp [Ty.store] at e
  | .user U, c, x, n => by
    have : (Ty.user U).storeM F M c x n = M.plain (M.made (.user U) x) x ((Ty.user U).store F c x) n := by cases x <;> simp only [Ty.storeM]
    rw [this]
    refine .plain fun w y e => ?_
    simp only [Ty.store] at e
    cases hv : U.dump x <;> rw [hv] at e <;> cases e
    rfl
theorem storeAllM_meets : ∀ (ts : Tys) (c : Cat) (xs : List CVal) (n : Nat), Meets M n (ts.storeAllM F M c xs n) (ts.storeAll F c xs)
  | .nil, c, [], n => by simp only [Tys.storeAllM, Tys.storeAll]; exact ⟨Nat.le_refl _, .inl rfl⟩
  | .nil, c, x :: xs, n => by simp only [Tys.storeAllM, Tys.storeAll]; exact ⟨Nat.le_refl _, .inl rfl⟩
  | .cons t ts, c, [], n => by simp only [Tys.storeAllM, Tys.storeAll]; exact ⟨Nat.le_refl _, .inl rfl⟩
  | .cons t ts, c, x :: xs, n => by
    have := (((storeM_meets t c x n).next (rest := xs) fun m _ => storeAllM_meets ts c xs m).as (fun p => p.1 :: p.2) fun p => p.1 :: p.2)
    simp only [Tys.storeAllM, Tys.storeAll]
    refine cast (congrArg _ ?_) this
    cases t.store F c x with
    | ok p => simp only [Out.bind]; cases ts.storeAll F c xs <;> rfl
    | throw e => rfl
    | ub => rfl
theorem storeAltM_meets : ∀ (ts : Tys) (c : Cat) (i : Nat) (x : CVal) (n : Nat), Meets M n (ts.storeAltM F M c i x n) (ts.storeAlt F c i x)
  | .nil, c, i, x, n => by simp only [Tys.storeAltM, Tys.storeAlt]; exact ⟨Nat.le_refl _, .inl rfl⟩
  | .cons t ts, c, 0, x, n => by simp only [Tys.storeAltM, Tys.storeAlt]; exact storeM_meets t c x n
  | .cons t ts, c, i + 1, x, n => by simp only [Tys.storeAltM, Tys.storeAlt]; exact storeAltM_meets ts c i x n
theorem dumpM_meets : ∀ (fs : Fields) (st : NextState) (xs : List CVal) (m : List (Bytes × Value)) (n : Nat), Meets M n (fs.dumpM F M st xs m n) (fs.dump F st xs m)
  | .done, st, [], m, n => by simp only [Fields.dumpM, Fields.dump]; exact ⟨Nat.le_refl _, .inl rfl⟩
  | .done, st, x :: xs, m, n => by simp only [Fields.dumpM, Fields.dump]; exact ⟨Nat.le_refl _, .inl rfl⟩
  | .opt rest, st, xs, m, n => by simp only [Fields.dumpM, Fields.dump]; exact dumpM_meets rest _ xs m n
  | .key k rest, st, xs, m, n => by simp only [Fields.dumpM, Fields.dump]; exact dumpM_meets rest _ xs m n
  | .var name d t rest, st, [], m, n => by simp only [Fields.dumpM, Fields.dump]; exact ⟨Nat.le_refl _, .inl rfl⟩
  | .var name d t rest, st, x :: xs, m, n => by
    simp only [Fields.dumpM, Fields.dump]
    refine .first fun n _ => ?_
    have h := storeM_meets t .constLv x n
    rcases hr : t.storeM F M .constLv x n with ⟨y, o, n'⟩
    rw [hr] at h
    have hm : n ≤ n' := h.mono
    rcases h.cases with e | ⟨e, i, k⟩
    · rw [← e]
      cases o with
      | ok a =>
        obtain ⟨h1, h2⟩ := (dumpM_meets rest {} xs (RawObject.insertOrAssign (st.keyFor name) a m) n').as (y :: ·) id
        exact ⟨Nat.le_trans hm h1, h2.imp_right fun ⟨b, i, c⟩ => ⟨b, i, by omega, c.2⟩⟩
      | throw e => exact ⟨hm, .inl rfl⟩
      | ub => exact ⟨hm, .inl rfl⟩
    · simp only at e
      subst e
      exact ⟨hm, .inr ⟨rfl, i, k⟩⟩
end
end

/-! ## What is left -/

section
variable {σ τ α β : Type} {M : Maker}

theorem first_left {P : σ → Prop} {k : Nat} {x : σ} {f : Nat → Held σ α} {n : Nat} (hx : P x) (hf : ∀ m, P (f m).1) : P (M.first k x f n).1 := by
  rcases first_cases M k x f n with ⟨m, _, _, e⟩ | ⟨_, m, _, _, _, _, e⟩ <;> rw [e]
  · exact hf m
  · exact hx

theorem next_left {P : σ → Prop} {Q : τ → Prop} {r : Held σ α} {rest : τ} {f : Nat → Held τ β} (hp : P r.1) (hr : Q rest) (hf : ∀ m, Q (f m).1) :
    P (r.next rest f).1.1 ∧ Q (r.next rest f).1.2 := by
  obtain ⟨x, o, m⟩ := r
  cases o
  · exact ⟨hp, hf m⟩
  · exact ⟨hp, hr⟩
  · exact ⟨hp, hr⟩

theorem each_left {R : α → α → Prop} (hr : ∀ x, R x x) {ask : Nat → α → Nat} {f : α → Nat → Held α β} (h : ∀ x n, R x (f x n).1) :
    ∀ (xs : List α) (i n : Nat), List.Forall₂ R xs (storeEachM M ask f i xs n).1
  | [], _, _ => .nil
  | x :: xs, i, n => by
    rw [storeEachM]
    have hsame : ∀ ws : List α, List.Forall₂ R ws ws := fun ws => by induction ws <;> simp_all
    refine first_left (P := fun ys => List.Forall₂ R (x :: xs) ys) (hsame _) fun m => ?_
    have := next_left (P := R x) (Q := List.Forall₂ R xs) (r := f x m) (rest := xs) (f := storeEachM M ask f (i + 1) xs) (h x m) (hsame xs) fun m => each_left hr h xs (i + 1) m
    exact .cons this.1 this.2

theorem plain_left {k : Nat} {x : CVal} {s : Out (Value × CVal)} {n : Nat} : (M.plain k x s n).1 = x := by
  refine first_left (P := fun y => y = x) rfl fun m => ?_
  rcases s with _ | e | _
  · rfl
  · cases e <;> rfl
  · rfl

theorem moving_left {P : CVal → Prop} {k : Nat} {x : CVal} {s : Out (Value × CVal)} {n : Nat} (hx : P x) (hs : ∀ v y, s = .ok (v, y) → P y) : P (M.moving k x s n).1 := by
  refine first_left hx fun m => ?_
  rcases s with ⟨v, y⟩ | _ | _
  · exact hs v y rfl
  · exact hx
  · exact hx

end

theorem forall_both {α : Type} {P : Prop} {R : α → α → Prop} {xs ys : List α} (h : List.Forall₂ (fun x y => R x y ∧ (P → y = x)) xs ys) : List.Forall₂ R xs ys ∧ (P → ys = xs) := by
  induction h with
  | nil => exact ⟨.nil, fun _ => rfl⟩
  | cons h _ ih => exact ⟨.cons h.1 ih.1, fun p => by rw [h.2 p, ih.2 p]⟩

section
variable (F : Floats) (M : Maker)

mutual
theorem storeM_left : ∀ (t : Ty) (c : Cat) (x : CVal) (n : Nat), Drained x (t.storeM F M c x n).1 ∧ (t.Inert c → (t.storeM F M c x n).1 = x)
  | .json, c, x, n => by
    cases x <;> simp only [Ty.storeM]
    case json v =>
      split
      · rename_i h
        subst h
        refine ⟨moving_left .same fun w y e => ?_, fun h => absurd rfl h⟩
        simp only [Ty.store, if_true] at e
        cases e
        exact .value
      · rw [plain_left]; exact ⟨.same, fun _ => rfl⟩
    all_goals rw [plain_left]; exact ⟨.same, fun _ => rfl⟩
  | .jarray, c, x, n => by
    cases x <;> simp only [Ty.storeM]
    case jarray v =>
      split
      · rename_i h
        subst h
        refine ⟨moving_left .same fun w y e => ?_, fun h => absurd rfl h⟩
        simp only [Ty.store, if_true] at e
        cases e
        exact .array
      · rw [plain_left]; exact ⟨.same, fun _ => rfl⟩
    all_goals rw [plain_left]; exact ⟨.same, fun _ => rfl⟩
  | .jobject, c, x, n => by
    cases x <;> simp only [Ty.storeM]
    case jobject v =>
      split
      · rename_i h
        subst h
        refine ⟨moving_left .same fun w y e => ?_, fun h => absurd rfl h⟩
        simp only [Ty.store, if_true] at e
        cases e
        exact .object
      · rw [plain_left]; exact ⟨.same, fun _ => rfl⟩
    all_goals rw [plain_left]; exact ⟨.same, fun _ => rfl⟩
  | .string, c, x, n => by
    cases x <;> simp only [Ty.storeM]
    case str s =>
      split
      · rename_i h
        subst h
        refine ⟨moving_left .same fun w y e => ?_, fun h => absurd rfl h⟩
        simp only [Ty.store, if_true] at e
        cases e
        exact .text
      · rw [plain_left]; exact ⟨.same, fun _ => rfl⟩
    all_goals rw [plain_left]; exact ⟨.same, fun _ => rfl⟩
  | .nullable w t, c, x, n => by
    cases x <;> simp only [Ty.storeM]
    case nothing => exact ⟨.same, fun _ => trivial⟩
    case just x =>
      have h := storeM_left t (c.content w) x n
      exact ⟨.content h.1, fun k => congrArg CVal.just (h.2 k)⟩
    all_goals rw [plain_left]; exact ⟨.same, fun _ => rfl⟩
  | .seq t, c, x, n => by
    have hr : ∀ x : CVal, Drained x x ∧ (t.Inert c.element → x = x) := fun _ => ⟨.same, fun _ => rfl⟩
    cases x <;> simp only [Ty.storeM]
    case list xs =>
      split
      · refine first_left (P := fun y => Drained (.list xs) y ∧ ((Ty.seq t).Inert c → y = .list xs)) ⟨.same, fun _ => rfl⟩ fun m => ?_
        have h := forall_both (each_left (M := M) (ask := fun _ _ => 0) hr (fun x n => storeM_left t c.element x n) xs 0 m)
        exact ⟨.elements h.1, fun k => congrArg CVal.list (h.2 k)⟩
      · refine first_left (P := fun y => Drained (.list xs) y ∧ ((Ty.seq t).Inert c → y = .list xs)) ⟨.same, fun _ => rfl⟩ fun m => ?_
        have h := forall_both (each_left (M := M) (ask := fun i _ => M.grows i) hr (fun x n => storeM_left t c.element x n) xs 0 m)
        exact ⟨.elements h.1, fun k => congrArg CVal.list (h.2 k)⟩
    all_goals rw [plain_left]; exact ⟨.same, fun _ => rfl⟩
  | .set lt t, c, x, n => by
    have hr : ∀ x : CVal, Drained x x ∧ (t.Inert c.setElement → x = x) := fun _ => ⟨.same, fun _ => rfl⟩
    cases x <;> simp only [Ty.storeM]
    case list xs =>
      refine first_left (P := fun y => Drained (.list xs) y ∧ ((Ty.set lt t).Inert c → y = .list xs)) ⟨.same, fun _ => rfl⟩ fun m => ?_
      have h := forall_both (each_left (M := M) (ask := fun _ _ => 0) hr (fun x n => storeM_left t c.setElement x n) xs 0 m)
      exact ⟨.elements h.1, fun k => congrArg CVal.list (h.2 k)⟩
    all_goals rw [plain_left]; exact ⟨.same, fun _ => rfl⟩
  | .fixed j t, c, x, n => by
    have hr : ∀ x : CVal, Drained x x ∧ (t.Inert c.part → x = x) := fun _ => ⟨.same, fun _ => rfl⟩
    cases x <;> simp only [Ty.storeM]
    case list xs =>
      refine first_left (P := fun y => Drained (.list xs) y ∧ ((Ty.fixed j t).Inert c → y = .list xs)) ⟨.same, fun _ => rfl⟩ fun m => ?_
      have h := forall_both (each_left (M := M) (ask := fun _ _ => 0) hr (fun x n => storeM_left t c.part x n) xs 0 m)
      exact ⟨.elements h.1, fun k => congrArg CVal.list (h.2 k)⟩
    all_goals rw [plain_left]; exact ⟨.same, fun _ => rfl⟩
  | .tuple ts, c, x, n => by
    cases x <;> simp only [Ty.storeM]
    case list xs =>
      refine first_left (P := fun y => Drained (.list xs) y ∧ ((Ty.tuple ts).Inert c → y = .list xs)) ⟨.same, fun _ => rfl⟩ fun m => ?_
      have h := storeAllM_left ts c.part xs m
      exact ⟨.elements h.1, fun k => congrArg CVal.list (h.2 k)⟩
    all_goals rw [plain_left]; exact ⟨.same, fun _ => rfl⟩
  | .variant ts, c, x, n => by
    cases x <;> simp only [Ty.storeM]
    case alt i x =>
      have h := storeAltM_left ts c.part i x n
      exact ⟨.alternative h.1, fun k => congrArg (CVal.alt i) (h.2 k)⟩
    all_goals rw [plain_left]; exact ⟨.same, fun _ => rfl⟩
  | .map t, c, x, n => by
    cases x <;> simp only [Ty.storeM]
    case map ms =>
      refine first_left (P := fun y => Drained (.map ms) y ∧ ((Ty.map t).Inert c → y = .map ms)) ⟨.same, fun _ => rfl⟩ fun m => ?_
      have h := forall_both (P := t.Inert c.element) (R := fun a b : Bytes × CVal => b.1 = a.1 ∧ Drained a.2 b.2)
        (each_left (M := M) (ask := fun _ e => 1 + M.texts e.1) (f := fun (e : Bytes × CVal) n => (t.storeM F M c.element e.2 n).as (fun y => (e.1, y)) fun v => (e.1, v))
          (fun _ => ⟨⟨rfl, .same⟩, fun _ => rfl⟩) (fun e n => ⟨⟨rfl, (storeM_left t c.element e.2 n).1⟩, fun k => by rw [Held.as, (storeM_left t c.element e.2 n).2 k]⟩) ms 0 m)
      have hk : ∀ {as bs : List (Bytes × CVal)}, List.Forall₂ (fun a b : Bytes × CVal => b.1 = a.1 ∧ Drained a.2 b.2) as bs →
          bs.map Prod.fst = as.map Prod.fst ∧ List.Forall₂ Drained (as.map Prod.snd) (bs.map Prod.snd) := by
        intro as bs h
        induction h with
        | nil => exact ⟨rfl, .nil⟩
        | cons h _ ih => exact ⟨by simp only [List.map_cons, h.1, ih.1], .cons h.2 ih.2⟩
      exact ⟨.members (hk h.1).1 (hk h.1).2, fun k => congrArg CVal.map (h.2 k)⟩
    all_goals rw [plain_left]; exact ⟨.same, fun _ => rfl⟩
  | .struct fs, c, x, n => by
    cases x <;> simp only [Ty.storeM]
    case list xs =>
      have h := dumpM_left fs {} xs [] n
      rcases hr : fs.dumpM F M {} xs [] n with ⟨ys, o, m⟩
      rw [hr] at h
      have h' : Drained (.list xs) (.list ys) ∧ ((Ty.struct fs).Inert c → CVal.list ys = .list xs) := ⟨.elements h.1, fun k => congrArg CVal.list (h.2 k)⟩
      cases o with
      | ok a => exact first_left (P := fun y => Drained (.list xs) y ∧ ((Ty.struct fs).Inert c → y = .list xs)) h' fun _ => h'
      | throw e => exact h'
      | ub => exact h'
    all_goals rw [plain_left]; exact ⟨.same, fun _ => rfl⟩
  | .bool, c, x, n | .int _, c, x, n | .float _, c, x, n | .null, c, x, n | .enum _, c, x, n | .user _, c, x, n => by
    cases x <;> simp only [Ty.storeM] <;> rw [plain_left] <;> exact ⟨.same, fun _ => rfl⟩
theorem storeAllM_left : ∀ (ts : Tys) (c : Cat) (xs : List CVal) (n : Nat), List.Forall₂ Drained xs (ts.storeAllM F M c xs n).1 ∧ (ts.Inert c → (ts.storeAllM F M c xs n).1 = xs)
  | .nil, c, xs, n => by cases xs <;> simp only [Tys.storeAllM] <;> exact ⟨List.forall₂_same.2 fun _ _ => .same, fun _ => trivial⟩
  | .cons t ts, c, [], n => by simp only [Tys.storeAllM]; exact ⟨.nil, fun _ => trivial⟩
  | .cons t ts, c, x :: xs, n => by
    simp only [Tys.storeAllM]
    have := next_left (P := fun y => Drained x y ∧ (t.Inert c → y = x)) (Q := fun ys => List.Forall₂ Drained xs ys ∧ (ts.Inert c → ys = xs)) (r := t.storeM F M c x n) (rest := xs)
      (f := ts.storeAllM F M c xs) (storeM_left t c x n) ⟨List.forall₂_same.2 fun _ _ => .same, fun _ => rfl⟩ fun m => storeAllM_left ts c xs m
    exact ⟨.cons this.1.1 this.2.1, fun k => by rw [Held.as, this.1.2 k.1, this.2.2 k.2]⟩
theorem storeAltM_left : ∀ (ts : Tys) (c : Cat) (i : Nat) (x : CVal) (n : Nat), Drained x (ts.storeAltM F M c i x n).1 ∧ (ts.Inert c → (ts.storeAltM F M c i x n).1 = x)
  | .nil, c, i, x, n => by simp only [Tys.storeAltM]; exact ⟨.same, fun _ => trivial⟩
  | .cons t ts, c, 0, x, n => by simp only [Tys.storeAltM]; exact ⟨(storeM_left t c x n).1, fun k => (storeM_left t c x n).2 k.1⟩
  | .cons t ts, c, i + 1, x, n => by simp only [Tys.storeAltM]; exact ⟨(storeAltM_left ts c i x n).1, fun k => (storeAltM_left ts c i x n).2 k.2⟩
theorem dumpM_left : ∀ (fs : Fields) (st : NextState) (xs : List CVal) (m : List (Bytes × Value)) (n : Nat),
    List.Forall₂ Drained xs (fs.dumpM F M st xs m n).1 ∧ (fs.Inert → (fs.dumpM F M st xs m n).1 = xs)
  | .done, st, xs, m, n => by cases xs <;> simp only [Fields.dumpM] <;> exact ⟨List.forall₂_same.2 fun _ _ => .same, fun _ => trivial⟩
  | .opt rest, st, xs, m, n => by simp only [Fields.dumpM]; exact dumpM_left rest _ xs m n
  | .key k rest, st, xs, m, n => by simp only [Fields.dumpM]; exact dumpM_left rest _ xs m n
  | .var name d t rest, st, [], m, n => by simp only [Fields.dumpM]; exact ⟨.nil, fun _ => trivial⟩
  | .var name d t rest, st, x :: xs, m, n => by
    simp only [Fields.dumpM]
    refine first_left (P := fun ys => List.Forall₂ Drained (x :: xs) ys ∧ ((Fields.var name d t rest).Inert → ys = x :: xs)) ⟨List.forall₂_same.2 fun _ _ => .same, fun _ => rfl⟩ fun n => ?_
    have h := storeM_left t .constLv x n
    rcases hr : t.storeM F M .constLv x n with ⟨y, o, n'⟩
    rw [hr] at h
    have h' : List.Forall₂ Drained (x :: xs) (y :: xs) ∧ ((Fields.var name d t rest).Inert → y :: xs = x :: xs) :=
      ⟨.cons h.1 (List.forall₂_same.2 fun _ _ => .same), fun k => congrArg (· :: xs) (h.2 k.1)⟩
    cases o with
    | ok a =>
      have g := dumpM_left rest {} xs (RawObject.insertOrAssign (st.keyFor name) a m) n'
      exact ⟨.cons h.1 g.1, fun k => by show y :: _ = _; rw [g.2 k.2]; exact congrArg (· :: xs) (h.2 k.1)⟩
    | throw e => exact h'
    | ub => exact h'
end

/-! ## What cannot fail -/

mutual
theorem storeM_quiet : ∀ (t : Ty) (c : Cat) (x : CVal) (_ : t.Has x) (_ : t.Quiet c) (n : Nat), ∃ y v, t.storeM F M c x n = (y, .ok v, n)
  | .json, c, x, hx, hq, n => by
    cases x <;> simp only [Ty.Has] at hx
    cases hq
    exact ⟨_, _, by simp only [Ty.storeM, if_true, Ty.store, Maker.moving, Maker.first, Maker.grant]; rfl⟩
  | .string, c, x, hx, hq, n => by
    cases x <;> simp only [Ty.Has] at hx
    cases hq
    exact ⟨_, _, by simp only [Ty.storeM, if_true, Ty.store, Maker.moving, Maker.first, Maker.grant]; rfl⟩
  | .nullable w t, c, x, hx, hq, n => by
    cases x <;> simp only [Ty.Has] at hx
    · exact ⟨_, _, by simp only [Ty.storeM]; rfl⟩
    · rename_i x
      obtain ⟨y, v, e⟩ := storeM_quiet t (c.content w) x hx hq n
      exact ⟨_, _, by simp only [Ty.storeM, e, Held.as, Out.bind]; rfl⟩
  | .variant ts, c, x, hx, hq, n => by
    cases x <;> simp only [Ty.Has] at hx
    rename_i i x
    obtain ⟨y, v, e⟩ := storeAltM_quiet ts c.part i x hx hq n
    exact ⟨_, _, by simp only [Ty.storeM, e, Held.as, Out.bind]; rfl⟩
theorem storeAltM_quiet : ∀ (ts : Tys) (c : Cat) (i : Nat) (x : CVal) (_ : ts.HasAlt i x) (_ : ts.Quiet c) (n : Nat), ∃ y v, ts.storeAltM F M c i x n = (y, .ok v, n)
  | .cons t ts, c, 0, x, hx, hq, n => by simp only [Tys.storeAltM]; exact storeM_quiet t c x hx hq.1 n
  | .cons t ts, c, i + 1, x, hx, hq, n => by simp only [Tys.storeAltM]; exact storeAltM_quiet ts c i x hx hq.2 n
end

theorem each_quiet {α β : Type} {f : α → Nat → Held α β} : ∀ {xs : List α} (_ : ∀ x ∈ xs, ∀ n, ∃ y v, f x n = (y, .ok v, n)) (i n : Nat),
    ∃ ys vs, storeEachM M (fun _ _ => 0) f i xs n = (ys, .ok vs, n)
  | [], _, i, n => ⟨_, _, rfl⟩
  | x :: xs, h, i, n => by
    obtain ⟨y, v, e⟩ := h x (by simp) n
    obtain ⟨ys, vs, e'⟩ := each_quiet (xs := xs) (fun x hx => h x (List.mem_cons_of_mem _ hx)) (i + 1) n
    exact ⟨y :: ys, v :: vs, by simp only [storeEachM, Maker.first, Maker.grant, e, Held.next, Held.as, e', Out.bind]⟩

theorem all_quiet : ∀ (ts : Tys) (c : Cat) (xs : List CVal) (_ : ts.HasAll xs) (_ : ts.Quiet c) (n : Nat), ∃ ys vs, ts.storeAllM F M c xs n = (ys, .ok vs, n)
  | .nil, c, [], _, _, n => ⟨[], [], by simp only [Tys.storeAllM]⟩
  | .cons t ts, c, x :: xs, hx, hq, n => by
    obtain ⟨y, v, e⟩ := storeM_quiet F M t c x hx.1 hq.1 n
    obtain ⟨ys, vs, e'⟩ := all_quiet ts c xs hx.2 hq.2 n
    exact ⟨y :: ys, v :: vs, by simp only [Tys.storeAllM, e, Held.next, Held.as, e', Out.bind]⟩

/-! ## What stays as it was -/

/-- The conversion succeeds, or its source is what it was. -/
def KeptOr {σ α : Type} (x : σ) (r : Held σ α) : Prop := (∃ a, r.2.1 = .ok a) ∨ r.1 = x

theorem kept_first {σ α : Type} {M : Maker} {k : Nat} {x : σ} {f : Nat → Held σ α} {n : Nat} (h : ∀ m, KeptOr x (f m)) : KeptOr x (M.first k x f n) := by
  rcases first_cases M k x f n with ⟨m, _, _, e⟩ | ⟨_, m, _, _, _, _, e⟩ <;> rw [e]
  · exact h m
  · exact .inr rfl

theorem kept_as {σ τ α β : Type} {x : σ} {r : Held σ α} (h : KeptOr x r) (f : σ → τ) (g : α → β) : KeptOr (f x) (r.as f g) := by
  rcases h with ⟨a, h⟩ | h
  · exact .inl ⟨g a, by rw [Held.as, h]; rfl⟩
  · exact .inr (congrArg f h)

theorem kept_moving {M : Maker} {k : Nat} {x : CVal} {s : Out (Value × CVal)} {n : Nat} : KeptOr x (M.moving k x s n) := by
  refine kept_first fun m => ?_
  rcases s with ⟨v, y⟩ | _ | _
  · exact .inl ⟨v, rfl⟩
  · exact .inr rfl
  · exact .inr rfl

theorem each_kept {t : Ty} {c : Cat} {xs : List CVal} (hx : ∀ x ∈ xs, t.Has x) {ask : Nat → CVal → Nat} (h : t.Inert c ∨ (∀ i x, ask i x = 0) ∧ t.Quiet c) (n : Nat) :
    KeptOr xs (storeEachM M ask (t.storeM F M c) 0 xs n) := by
  rcases h with h | ⟨h0, h⟩
  · exact .inr ((forall_both (each_left (M := M) (R := fun x y => True ∧ (t.Inert c → y = x)) (fun _ => ⟨trivial, fun _ => rfl⟩) (fun x n => ⟨trivial, (storeM_left F M t c x n).2⟩) xs 0 n)).2 h)
  · obtain rfl : ask = fun _ _ => 0 := funext fun i => funext fun x => h0 i x
    obtain ⟨ys, vs, e⟩ := each_quiet M (f := t.storeM F M c) (fun x h' n => storeM_quiet F M t c x (hx x h') h n) 0 n
    exact .inl ⟨vs, by rw [e]⟩

mutual
theorem storeM_kept : ∀ (t : Ty) (c : Cat) (x : CVal) (_ : t.Has x) (_ : t.Atomic M c) (n : Nat), KeptOr x (t.storeM F M c x n)
  | .json, c, x, hx, _, n | .jarray, c, x, hx, _, n | .jobject, c, x, hx, _, n | .string, c, x, hx, _, n => by
    cases x <;> simp only [Ty.Has] at hx
    simp only [Ty.storeM]
    split
    · exact kept_moving
    · exact .inr plain_left
  | .nullable w t, c, x, hx, ha, n => by
    cases x <;> simp only [Ty.Has] at hx
    · exact .inr (by simp only [Ty.storeM])
    · rename_i x
      simp only [Ty.storeM]
      exact kept_as (storeM_kept t (c.content w) x hx ha n) CVal.just id
  | .seq t, c, x, hx, ha, n => by
    cases x <;> simp only [Ty.Has] at hx
    rename_i xs
    simp only [Ty.storeM]
    split
    · exact kept_first fun m => kept_as (each_kept F M hx (ha.imp_right fun h => ⟨fun _ _ => rfl, h.2⟩) m) CVal.list Value.ofArray
    · rename_i hs
      exact kept_first fun m => kept_as (each_kept F M hx (ha.imp_right fun h => absurd h.1 hs) m) CVal.list Value.ofArray
  | .set lt t, c, x, hx, ha, n => by
    cases x <;> simp only [Ty.Has] at hx
    simp only [Ty.storeM]
    exact kept_first fun m => kept_as (each_kept F M hx.1 (ha.imp_right fun h => ⟨fun _ _ => rfl, h⟩) m) CVal.list Value.ofArray
  | .fixed k t, c, x, hx, ha, n => by
    cases x <;> simp only [Ty.Has] at hx
    simp only [Ty.storeM]
    exact kept_first fun m => kept_as (each_kept F M hx.2 (ha.imp_right fun h => ⟨fun _ _ => rfl, h⟩) m) CVal.list Value.ofArray
  | .tuple ts, c, x, hx, ha, n => by
    cases x <;> simp only [Ty.Has] at hx
    simp only [Ty.storeM]
    exact kept_first fun m => kept_as (storeAllM_kept ts c.part _ hx ha m) CVal.list Value.ofArray
  | .variant ts, c, x, hx, ha, n => by
    cases x <;> simp only [Ty.Has] at hx
    rename_i i x
    simp only [Ty.storeM]
    exact kept_as (storeAltM_kept ts c.part i x hx ha n) (CVal.alt i) id
  | .map t, c, x, hx, ha, n => .inr ((storeM_left F M (.map t) c x n).2 ha)
  | .struct fs, c, x, hx, ha, n => .inr ((storeM_left F M (.struct fs) c x n).2 ha)
  | .bool, c, x, _, _, n | .int _, c, x, _, _, n | .float _, c, x, _, _, n | .null, c, x, _, _, n | .enum _, c, x, _, _, n | .user _, c, x, _, _, n => .inr ((storeM_left F M _ c x n).2 trivial)
theorem storeAllM_kept : ∀ (ts : Tys) (c : Cat) (xs : List CVal) (_ : ts.HasAll xs) (_ : ts.InOrder M c) (n : Nat), KeptOr xs (ts.storeAllM F M c xs n)
  | .nil, c, [], _, _, n => .inr (by simp only [Tys.storeAllM])
  | .cons t ts, c, x :: xs, hx, ha, n => by
    simp only [Tys.storeAllM]
    refine kept_as (f := fun p : CVal × List CVal => p.1 :: p.2) (x := (x, xs)) ?_ _
    rcases ha with ⟨h1, h2⟩ | ⟨h1, h2⟩
    · have e := (storeM_left F M t c x n).2 h1
      rcases hr : t.storeM F M c x n with ⟨y, o, m⟩
      rw [hr] at e
      simp only at e
      subst e
      cases o with
      | ok a =>
        rcases storeAllM_kept ts c xs hx.2 h2 m with ⟨b, h⟩ | h
        · exact .inl ⟨(a, b), by simp only [Held.next, h, Out.bind]⟩
        · exact .inr (by simp only [Held.next, h])
      | throw e => exact .inr rfl
      | ub => exact .inr rfl
    · have k := storeM_kept t c x hx.1 h1 n
      rcases hr : t.storeM F M c x n with ⟨y, o, m⟩
      rw [hr] at k
      cases o with
      | ok a =>
        obtain ⟨ys, vs, e⟩ := all_quiet F M ts c xs hx.2 h2 m
        exact .inl ⟨(a, vs), by simp only [Held.next, e, Out.bind]⟩
      | throw e =>
        rcases k with ⟨_, k⟩ | k
        · cases k
        · simp only at k; subst k; exact .inr rfl
      | ub =>
        rcases k with ⟨_, k⟩ | k
        · cases k
        · simp only at k; subst k; exact .inr rfl
theorem storeAltM_kept : ∀ (ts : Tys) (c : Cat) (i : Nat) (x : CVal) (_ : ts.HasAlt i x) (_ : ts.Atomic M c) (n : Nat), KeptOr x (ts.storeAltM F M c i x n)
  | .cons t ts, c, 0, x, hx, ha, n => by simp only [Tys.storeAltM]; exact storeM_kept t c x hx ha.1 n
  | .cons t ts, c, i + 1, x, hx, ha, n => by simp only [Tys.storeAltM]; exact storeAltM_kept ts c i x hx ha.2 n
end
end

end Meojson
