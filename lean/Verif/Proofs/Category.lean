import Verif.Proofs.Convert

/-! # The value that a constructor makes does not depend on the value category of its argument; which alternative of a variant a `json::value` converts to -/

set_option autoImplicit false

namespace Meojson
open Spec

/-- The first of the results. -/
def made {α β : Type} (r : Out (α × β)) : Out α := r.bind fun p => .ok p.1

theorem made_bind {α β γ δ ε : Type} {r r' : Out (α × β)} (h : made r = made r') (f : α → γ) (g : α × β → δ) (g' : α × β → ε) :
    made (r.bind fun p => .ok (f p.1, g p)) = made (r'.bind fun p => .ok (f p.1, g' p)) := by
  cases r <;> cases r' <;> simp_all [made, Out.bind]

theorem made_each {α β : Type} {f g : α → Out (β × α)} : ∀ {xs : List α}, (∀ x ∈ xs, made (f x) = made (g x)) → made (eachBoth f xs) = made (eachBoth g xs)
  | [], _ => rfl
  | x :: xs, h => by
    have h1 := h x (by simp)
    have h2 := made_each (xs := xs) fun y hy => h y (by simp [hy])
    unfold eachBoth
    cases hf : f x <;> cases hg : g x <;> rw [hf, hg] at h1 <;> simp [made, Out.bind] at h1 ⊢
    · rw [h1]
      cases ha : eachBoth f xs <;> cases hb : eachBoth g xs <;> rw [ha, hb] at h2 <;> simp_all [made, Out.bind]
    · exact h1

mutual
theorem store_same (F : Floats) : ∀ (t : Ty) (x : CVal) (_ : t.Has x) (c c' : Cat), made (t.store F c x) = made (t.store F c' x)
  | .json, .json v, h, c, c' => by
    have h : v.Sound := h
    simp only [Ty.store, sound_copied h]
    split <;> split <;> rfl
  | .jarray, .jarray vs, h, c, c' => by
    have h : ∀ v ∈ vs, v.Sound := wfAll_iff.1 h
    simp only [Ty.store, each_copied h]
    split <;> split <;> rfl
  | .jobject, .jobject ms, h, c, c' => by
    have h : ∀ e ∈ ms, e.2.Sound := wfMembers_iff.1 h.2
    simp only [Ty.store, each_copied_members h]
    split <;> split <;> rfl
  | .bool, .bool _, _, _, _ => by simp only [Ty.store]
  | .int _, .int _, _, _, _ => by simp only [Ty.store]
  | .float _, .flt _, _, _, _ => by simp only [Ty.store]
  | .string, .str _, _, _, _ => by simp only [Ty.store]; rfl
  | .null, .null, _, _, _ => by simp only [Ty.store]
  | .enum _, .enum _, _, _, _ => by simp only [Ty.store]
  | .nullable _ _, .nothing, _, _, _ => by simp only [Ty.store]
  | .nullable w t, .just x, h, c, c' => by
    simp only [Ty.store]
    exact made_bind (store_same F t x h _ _) (fun v => v) (fun r => CVal.just r.2) (fun r => CVal.just r.2)
  | .seq t, .list xs, h, c, c' => by
    simp only [Ty.store]
    exact made_bind (made_each fun x hx => store_same F t x (h x hx) _ _) _ _ _
  | .set _ t, .list xs, h, c, c' => by
    simp only [Ty.store]
    exact made_bind (made_each fun x hx => store_same F t x (h.1 x hx) _ _) _ _ _
  | .fixed _ t, .list xs, h, c, c' => by
    simp only [Ty.store]
    exact made_bind (made_each fun x hx => store_same F t x (h.2 x hx) _ _) _ _ _
  | .tuple ts, .list xs, h, c, c' => by
    simp only [Ty.store]
    exact made_bind (storeAll_same F ts xs h _ _) _ _ _
  | .variant ts, .alt i x, h, c, c' => by
    simp only [Ty.store]
    exact made_bind (storeAlt_same F ts i x h _ _) (fun v => v) (fun r => CVal.alt i r.2) (fun r => CVal.alt i r.2)
  | .map t, .map ms, h, c, c' => by
    simp only [Ty.store]
    refine made_bind (made_each fun e he => ?_) (fun es : List (Bytes × Value) => Value.ofObject (es.foldl (fun m e => (RawObject.emplace e.1 e.2 m).1) []))
      (fun r => CVal.map r.2) (fun r => CVal.map r.2)
    exact made_bind (store_same F t e.2 (h.2 e he) _ _) (fun v => (e.1, v)) (fun r => (e.1, r.2)) (fun r => (e.1, r.2))
  | .struct _, .list _, _, _, _ => by simp only [Ty.store]
  | .user _, _, _, _, _ => by simp only [Ty.store]
theorem storeAll_same (F : Floats) : ∀ (ts : Tys) (xs : List CVal) (_ : ts.HasAll xs) (c c' : Cat), made (ts.storeAll F c xs) = made (ts.storeAll F c' xs)
  | .nil, [], _, _, _ => by simp only [Tys.storeAll]
  | .cons t ts, x :: xs, h, c, c' => by
    have h1 := store_same F t x h.1 c c'
    have h2 := storeAll_same F ts xs h.2 c c'
    simp only [Tys.storeAll]
    cases hf : t.store F c x <;> cases hg : t.store F c' x <;> rw [hf, hg] at h1 <;> simp [made, Out.bind] at h1 ⊢
    · rw [h1]
      cases ha : ts.storeAll F c xs <;> cases hb : ts.storeAll F c' xs <;> rw [ha, hb] at h2 <;> simp_all [made, Out.bind]
    · exact h1
theorem storeAlt_same (F : Floats) : ∀ (ts : Tys) (i : Nat) (x : CVal) (_ : ts.HasAlt i x) (c c' : Cat), made (ts.storeAlt F c i x) = made (ts.storeAlt F c' i x)
  | .cons t _, 0, x, h, c, c' => by simp only [Tys.storeAlt]; exact store_same F t x h c c'
  | .cons _ ts, i + 1, x, h, c, c' => by simp only [Tys.storeAlt]; exact storeAlt_same F ts i x h c c'
end

/-! ### The alternative that a `json::value` converts to -/

theorem jsonAt_some : ∀ {ts : Tys} {i : Nat}, ts.jsonAt = some i ↔ ts.get? i = some .json ∧ ∀ j < i, ts.get? j ≠ some .json
  | .nil, i => by simp [Tys.jsonAt, Tys.get?]
  | .cons t ts, i => by
    by_cases ht : t = .json
    · subst ht
      simp only [Tys.jsonAt, Option.some.injEq]
      constructor
      · rintro rfl; exact ⟨rfl, by simp⟩
      · rintro ⟨h1, h2⟩
        cases i with
        | zero => rfl
        | succ i => exact absurd rfl (h2 0 (by omega))
    · have e : (Tys.cons t ts).jsonAt = ts.jsonAt.map (· + 1) := by cases t <;> first | rfl | exact absurd rfl ht
      rw [e, Option.map_eq_some_iff]
      constructor
      · rintro ⟨k, h1, rfl⟩
        obtain ⟨h2, h3⟩ := jsonAt_some.1 h1
        refine ⟨h2, fun j hj => ?_⟩
        cases j with
        | zero => simpa [Tys.get?] using ht
        | succ j => exact h3 j (by omega)
      · rintro ⟨h1, h2⟩
        cases i with
        | zero => exact absurd (by simpa [Tys.get?] using h1) ht
        | succ i => exact ⟨i, jsonAt_some.2 ⟨h1, fun j hj => h2 (j + 1) (by omega)⟩, rfl⟩

theorem jsonAt_none {ts : Tys} : ts.jsonAt = none ↔ ∀ j, ts.get? j ≠ some .json := by
  constructor
  · intro h j hj
    have : ∀ n j, j < n → ts.get? j ≠ some .json := by
      intro n
      induction n with
      | zero => intro j hj; omega
      | succ n ih =>
        intro j hj hg
        have := jsonAt_some.2 ⟨hg, fun k hk => ih k (by omega)⟩
        rw [h] at this; cases this
    exact this (j + 1) j (by omega) hj
  · intro h
    cases hj : ts.jsonAt with
    | none => rfl
    | some i => exact absurd (jsonAt_some.1 hj).1 (h i)

theorem mem_implicits : ∀ {ts : Tys} {i j : Nat}, j ∈ ts.implicits i ↔ ∃ k t, j = i + k ∧ ts.get? k = some t ∧ t.implicit = true
  | .nil, i, j => by simp [Tys.implicits, Tys.get?]
  | .cons t ts, i, j => by
    have ih := mem_implicits (ts := ts) (i := i + 1) (j := j)
    have e : (Tys.cons t ts).implicits i = if t.implicit then i :: ts.implicits (i + 1) else ts.implicits (i + 1) := by rw [Tys.implicits]
    have shift : (∃ k u, j = i + 1 + k ∧ ts.get? k = some u ∧ u.implicit = true) → ∃ k u, j = i + k ∧ (Tys.cons t ts).get? k = some u ∧ u.implicit = true := by
      rintro ⟨k, u, rfl, h1, h2⟩; exact ⟨k + 1, u, by omega, h1, h2⟩
    rw [e]
    constructor
    · intro h
      split at h
      · rename_i ht
        rcases List.mem_cons.1 h with rfl | h
        · exact ⟨0, t, by omega, rfl, ht⟩
        · exact shift (ih.1 h)
      · exact shift (ih.1 h)
    · rintro ⟨k, u, rfl, h1, h2⟩
      cases k with
      | zero =>
        have : t = u := by simpa [Tys.get?] using h1
        subst this
        simp [h2]
      | succ k =>
        have := ih.2 ⟨k, u, by omega, h1, h2⟩
        split
        · exact List.mem_cons_of_mem _ this
        · exact this

theorem implicits_nodup : ∀ (ts : Tys) (i : Nat), (ts.implicits i).Nodup
  | .nil, _ => by simp [Tys.implicits]
  | .cons t ts, i => by
    rw [Tys.implicits]
    split
    · refine List.nodup_cons.2 ⟨fun h => ?_, implicits_nodup ts (i + 1)⟩
      obtain ⟨k, _, h1, _⟩ := mem_implicits.1 h
      omega
    · exact implicits_nodup ts (i + 1)

theorem nodup_single {l : List Nat} (h : l.Nodup) {i : Nat} (hi : i ∈ l) (h1 : ∀ j ∈ l, j = i) : l = [i] := by
  match l, h, hi, h1 with
  | [a], _, _, h1 => rw [h1 a (by simp)]
  | a :: b :: l, h, _, h1 =>
    have ha := h1 a (by simp)
    have hb := h1 b (by simp)
    subst ha; subst hb
    simp at h

theorem chosen_iff {ts : Tys} {i : Nat} : ts.chosen = some i ↔
    (ts.get? i = some .json ∧ ∀ j < i, ts.get? j ≠ some .json) ∨
    ((∀ j, ts.get? j ≠ some .json) ∧ (∃ t, ts.get? i = some t ∧ t.implicit = true) ∧ ∀ j t, ts.get? j = some t → t.implicit = true → j = i) := by
  unfold Tys.chosen
  cases hj : ts.jsonAt with
  | some k =>
    have hk := jsonAt_some.1 hj
    simp only [chosenOf, Option.some.injEq]
    constructor
    · rintro rfl; exact .inl hk
    · rintro (⟨h1, h2⟩ | ⟨h1, _⟩)
      · rcases Nat.lt_trichotomy k i with h | h | h
        · exact absurd hk.1 (h2 k h)
        · exact h
        · exact absurd h1 (hk.2 i h)
      · exact absurd hk.1 (h1 k)
  | none =>
    have hk := jsonAt_none.1 hj
    have hm := fun j => mem_implicits (ts := ts) (i := 0) (j := j)
    constructor
    · intro h
      refine .inr ⟨hk, ?_⟩
      have hl : ts.implicits 0 = [i] := by
        match hl : ts.implicits 0, h with
        | [a], h => simpa [chosenOf, hl] using h
        | [], h => simp [chosenOf] at h
        | _ :: _ :: _, h => simp [chosenOf] at h
      refine ⟨?_, fun j t h1 h2 => ?_⟩
      · obtain ⟨k, t, h1, h2, h3⟩ := (hm i).1 (by rw [hl]; simp)
        have : k = i := by omega
        subst this
        exact ⟨t, h2, h3⟩
      · have := (hm j).2 ⟨j, t, by omega, h1, h2⟩
        rw [hl] at this
        simpa using this
    · rintro (⟨h1, _⟩ | ⟨_, ⟨t, h1, h2⟩, h3⟩)
      · exact absurd h1 (hk i)
      · have hl : ts.implicits 0 = [i] := by
          refine nodup_single (implicits_nodup ts 0) ((hm i).2 ⟨i, t, by omega, h1, h2⟩) fun j hj => ?_
          obtain ⟨k, u, h4, h5, h6⟩ := (hm j).1 hj
          have := h3 k u h5 h6
          omega
        rw [hl]; rfl

end Meojson
