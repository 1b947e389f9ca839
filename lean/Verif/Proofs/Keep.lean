import Verif.Spec.Convert

/-! # Proofs: what a conversion leaves of its source -/

set_option autoImplicit false

namespace Meojson

theorem each_keep {α β : Type} {f : α → Out (β × α)} {xs ys : List α} {vs : List β} (hf : ∀ x ∈ xs, ∀ v y, f x = .ok (v, y) → y = x)
    (h : eachBoth f xs = .ok (vs, ys)) : ys = xs := by
  induction xs generalizing vs ys with
  | nil => simp [eachBoth] at h; exact h.2
  | cons x xs ih =>
    simp only [eachBoth, Out.bind_eq_ok] at h
    obtain ⟨⟨v, y⟩, h1, ⟨vs', ys'⟩, h2, h3⟩ := h
    simp only [Out.ok.injEq, Prod.mk.injEq] at h3
    obtain ⟨_, rfl⟩ := h3
    rw [hf x (by simp) v y h1, ih (fun z hz => hf z (by simp [hz])) h2]

/-- A move leaves plain values as they are. -/
theorem plain_keep (F : Floats) {t : Ty} (ht : t.Plain) {c : Cat} {x y : CVal} {v : Value} (h : t.store F c x = .ok (v, y)) : y = x := by
  cases t <;> simp only [Ty.Plain] at ht <;> cases x <;> simp only [Ty.store] at h <;> try cases h
  all_goals first
    | rfl
    | (simp only [Out.bind_eq_ok, Out.ok.injEq, Prod.mk.injEq] at h
       obtain ⟨_, _, _, rfl⟩ := h
       rfl)

/-- Only nullable wrappers tell a non-const lvalue from a const one. -/
theorem lv_const (F : Floats) {t : Ty} (ht : ¬ t.IsNullable) (x : CVal) : t.store F .lv x = t.store F .constLv x := by
  cases t <;> first | exact absurd trivial ht | (cases x <;> simp [Ty.store, Cat.element, Cat.setElement, Cat.part])

theorem bind_keep {α : Type} {r : Out α} {f : α → Value × CVal} {v : Value} {y : CVal} (h : (r.bind fun x => .ok (f x)) = .ok (v, y)) :
    ∃ a, r = .ok a ∧ f a = (v, y) := by
  obtain ⟨a, h1, h2⟩ := Out.bind_eq_ok.1 h
  exact ⟨a, h1, by simpa using h2⟩

mutual
theorem const_keep (F : Floats) : ∀ (t : Ty) (_ : t.NoNested) (x y : CVal) (v : Value), t.store F .constLv x = .ok (v, y) → y = x
  | .user U, _, x, y, v, h => by
    unfold Ty.store at h
    cases hd : U.dump x with
    | none => rw [hd] at h; cases h
    | some w => rw [hd] at h; cases h; rfl
  | .bool, _, _, _, _, h => plain_keep F (t := .bool) trivial h
  | .int T, _, _, _, _, h => plain_keep F (t := .int T) trivial h
  | .float f, _, _, _, _, h => plain_keep F (t := .float f) trivial h
  | .null, _, _, _, _, h => plain_keep F (t := .null) trivial h
  | .enum E, _, _, _, _, h => plain_keep F (t := .enum E) trivial h
  | .string, _, x, y, v, h => by cases x <;> simp [Ty.store] at h <;> exact h.2.symm
  | .json, _, x, y, v, h => by
    cases x <;> simp [Ty.store] at h
    obtain ⟨_, _, h⟩ := Out.bind_eq_ok.1 h
    simp at h; exact h.2.symm
  | .jarray, _, x, y, v, h => by
    cases x <;> simp [Ty.store] at h
    obtain ⟨_, _, h⟩ := Out.bind_eq_ok.1 h
    simp at h; exact h.2.symm
  | .jobject, _, x, y, v, h => by
    cases x <;> simp [Ty.store] at h
    obtain ⟨_, _, h⟩ := Out.bind_eq_ok.1 h
    simp at h; exact h.2.symm
  | .nullable .optional t, ht, x, y, v, h => by
    cases x <;> simp only [Ty.store, Cat.content] at h <;> try cases h
    · rfl
    · obtain ⟨a, h1, h2⟩ := bind_keep h
      simp only [Prod.mk.injEq] at h2
      rw [← h2.2, const_keep F t (by unfold Ty.NoNested at ht; exact ht) _ a.2 a.1 h1]
  | .nullable .pointer t, ht, x, y, v, h => by
    cases x <;> simp only [Ty.store, Cat.content] at h <;> try cases h
    · rfl
    · rename_i x
      obtain ⟨a, h1, h2⟩ := bind_keep h
      simp only [Prod.mk.injEq] at h2
      have : a.2 = x := by
        by_cases hn : t.IsNullable
        · cases t <;> simp only [Ty.IsNullable] at hn
          rename_i w u
          have hu : u.Plain := ht
          cases x <;> simp only [Ty.store] at h1 <;> try cases h1
          · rfl
          · obtain ⟨b, h3, h4⟩ := Out.bind_eq_ok.1 h1
            have := plain_keep F hu (v := b.1) (y := b.2) h3
            simp only [Out.ok.injEq] at h4
            rw [← h4, this]
        · rw [lv_const F hn] at h1
          refine const_keep F t ?_ _ a.2 a.1 h1
          cases t <;> first | exact absurd trivial hn | (simp only [Ty.NoNested] at ht ⊢) <;> try exact ht
      rw [← h2.2, this]
  | .seq t, ht, x, y, v, h => by
    cases x <;> simp only [Ty.store, Cat.element] at h <;> try cases h
    obtain ⟨a, h1, h2⟩ := bind_keep h
    simp only [Prod.mk.injEq] at h2
    rw [← h2.2, each_keep (vs := a.1) (ys := a.2) (fun z _ w y hz => const_keep F t ht z y w hz) h1]
  | .set _ t, ht, x, y, v, h => by
    cases x <;> simp only [Ty.store, Cat.setElement] at h <;> try cases h
    obtain ⟨a, h1, h2⟩ := bind_keep h
    simp only [Prod.mk.injEq] at h2
    rw [← h2.2, each_keep (vs := a.1) (ys := a.2) (fun z _ w y hz => const_keep F t ht z y w hz) h1]
  | .fixed _ t, ht, x, y, v, h => by
    cases x <;> simp only [Ty.store, Cat.part] at h <;> try cases h
    obtain ⟨a, h1, h2⟩ := bind_keep h
    simp only [Prod.mk.injEq] at h2
    rw [← h2.2, each_keep (vs := a.1) (ys := a.2) (fun z _ w y hz => const_keep F t ht z y w hz) h1]
  | .tuple ts, ht, x, y, v, h => by
    cases x <;> simp only [Ty.store, Cat.part] at h <;> try cases h
    obtain ⟨a, h1, h2⟩ := bind_keep h
    simp only [Prod.mk.injEq] at h2
    rw [← h2.2, tuple_keep F ts ht _ a.2 a.1 h1]
  | .variant ts, ht, x, y, v, h => by
    cases x <;> simp only [Ty.store, Cat.part] at h <;> try cases h
    obtain ⟨a, h1, h2⟩ := bind_keep h
    simp only [Prod.mk.injEq] at h2
    rw [← h2.2, alt_keep F ts ht _ _ a.2 a.1 h1]
  | .map t, ht, x, y, v, h => by
    cases x <;> simp only [Ty.store, Cat.element] at h <;> try cases h
    obtain ⟨a, h1, h2⟩ := bind_keep h
    simp only [Prod.mk.injEq] at h2
    rw [← h2.2, each_keep (vs := a.1) (ys := a.2) ?_ h1]
    intro e _ w y hz
    obtain ⟨b, h3, h4⟩ := Out.bind_eq_ok.1 hz
    simp only [Out.ok.injEq, Prod.mk.injEq] at h4
    rw [← h4.2, const_keep F t ht e.2 b.2 b.1 h3]
  | .struct fs, ht, x, y, v, h => by
    cases x <;> simp only [Ty.store] at h <;> try cases h
    obtain ⟨a, h1, h2⟩ := bind_keep h
    simp only [Prod.mk.injEq] at h2
    rw [← h2.2, fields_keep F fs ht _ _ _ a.2 a.1 h1]
theorem tuple_keep (F : Floats) : ∀ (ts : Tys) (_ : ts.NoNested) (xs ys : List CVal) (vs : List Value), ts.storeAll F .constLv xs = .ok (vs, ys) → ys = xs
  | .nil, _, [], _, _, h => by simp [Tys.storeAll] at h; exact h.2
  | .nil, _, _ :: _, _, _, h => by simp [Tys.storeAll] at h
  | .cons _ _, _, [], _, _, h => by simp [Tys.storeAll] at h
  | .cons t ts, ht, x :: xs, ys, vs, h => by
    simp only [Tys.storeAll, Out.bind_eq_ok] at h
    obtain ⟨a, h1, b, h2, h3⟩ := h
    simp only [Out.ok.injEq, Prod.mk.injEq] at h3
    rw [← h3.2, const_keep F t ht.1 x a.2 a.1 h1, tuple_keep F ts ht.2 xs b.2 b.1 h2]
theorem alt_keep (F : Floats) : ∀ (ts : Tys) (_ : ts.NoNested) (i : Nat) (x y : CVal) (v : Value), ts.storeAlt F .constLv i x = .ok (v, y) → y = x
  | .nil, _, _, _, _, _, h => by simp [Tys.storeAlt] at h
  | .cons t _, ht, 0, x, y, v, h => const_keep F t ht.1 x y v (by simpa [Tys.storeAlt] using h)
  | .cons _ ts, ht, i + 1, x, y, v, h => alt_keep F ts ht.2 i x y v (by simpa [Tys.storeAlt] using h)
theorem fields_keep (F : Floats) : ∀ (fs : Fields) (_ : fs.NoNested) (st : NextState) (xs : List CVal) (m : List (Bytes × Value)) (ys : List CVal)
    (r : List (Bytes × Value)), fs.dump F st xs m = .ok (r, ys) → ys = xs
  | .done, _, _, [], _, _, _, h => by simp [Fields.dump] at h; exact h.2
  | .done, _, _, _ :: _, _, _, _, h => by simp [Fields.dump] at h
  | .opt rest, ht, _, xs, m, ys, r, h => fields_keep F rest ht _ xs m ys r (by unfold Fields.dump at h; exact h)
  | .key _ rest, ht, _, xs, m, ys, r, h => fields_keep F rest ht _ xs m ys r (by unfold Fields.dump at h; exact h)
  | .var .., _, _, [], _, _, _, h => by simp [Fields.dump] at h
  | .var name _ t rest, ht, st, x :: xs, m, ys, r, h => by
    simp only [Fields.dump, Out.bind_eq_ok] at h
    obtain ⟨a, h1, b, h2, h3⟩ := h
    simp only [Out.ok.injEq, Prod.mk.injEq] at h3
    rw [← h3.2, const_keep F t ht.1 x a.2 a.1 h1, fields_keep F rest ht.2 _ xs _ b.2 b.1 h2]
end

end Meojson
