import Verif.Spec.Alike
import Verif.Spec.Denote
import Verif.Proofs.Map
import Verif.Proofs.Distinct

/-!
# Proofs about documents that differ only in the order of members
-/

set_option autoImplicit false

namespace Meojson
open Spec RawObject

theorem toMembers_eq_map (ms : List (Bytes × Doc)) : Doc.toMembers ms = ms.map fun e => (e.1, e.2.toValue) := by
  induction ms with
  | nil => rfl
  | cons e ms ih => obtain ⟨k, j⟩ := e; simp [Doc.toMembers, ih]

theorem distinctMembers_mem {ms : List (Text × Doc)} : Doc.DistinctMembers ms ↔ ∀ e ∈ ms, e.2.Distinct := by
  induction ms with
  | nil => simp [Doc.DistinctMembers]
  | cons e ms ih => obtain ⟨k, j⟩ := e; simp [Doc.DistinctMembers, ih]

/-- Sorting by distinct keys forgets the order. -/
theorem sortMembers_congr {β : Type} {ms ns : List (Bytes × β)} (hp : ms.Perm ns) (hd : (ms.map Prod.fst).Nodup) : sortMembers ms = sortMembers ns :=
  sorted_unique (sortMembers_sorted hd) (sortMembers_sorted ((hp.map Prod.fst).nodup_iff.1 hd)) (((sortMembers_perm ms).trans hp).trans (sortMembers_perm ns).symm)

mutual
theorem alike_toValue : ∀ {j k : Doc}, Doc.Alike j k → j.Distinct → j.toValue = k.toValue
  | _, _, .null, _ => rfl
  | _, _, .bool, _ => rfl
  | _, _, .num, _ => rfl
  | _, _, .str, _ => rfl
  | _, _, .arr h, hd => by
    simp only [Doc.Distinct] at hd
    simp only [Doc.toValue]
    rw [alikeAll_toValues h hd]
  | .obj ms, .obj ns, .obj (ms' := ms') hp h, hd => by
    simp only [Doc.Distinct] at hd
    simp only [Doc.toValue]
    have hd' : Doc.DistinctMembers ms' := distinctMembers_mem.2 fun e he => distinctMembers_mem.1 hd.2 e (hp.mem_iff.2 he)
    have hpm : (Doc.toMembers ms).Perm (Doc.toMembers ms') := by rw [toMembers_eq_map, toMembers_eq_map]; exact hp.map _
    have hk : ((Doc.toMembers ms).map Prod.fst).Nodup := by
      rw [toMembers_eq_map, List.map_map]
      exact hd.1
    rw [sortMembers_congr hpm hk, alikeMembers_toMembers h hd']
theorem alikeAll_toValues : ∀ {js ks : List Doc}, AlikeAll js ks → Doc.DistinctAll js → Doc.toValues js = Doc.toValues ks
  | _, _, .nil, _ => rfl
  | _, _, .cons h hs, hd => by
    simp only [Doc.DistinctAll] at hd
    simp only [Doc.toValues]
    rw [alike_toValue h hd.1, alikeAll_toValues hs hd.2]
theorem alikeMembers_toMembers : ∀ {ms ns : List (Text × Doc)}, AlikeMembers ms ns → Doc.DistinctMembers ms → Doc.toMembers ms = Doc.toMembers ns
  | _, _, .nil, _ => rfl
  | _, _, .cons h hs, hd => by
    simp only [Doc.DistinctMembers] at hd
    simp only [Doc.toMembers]
    rw [alike_toValue h hd.1, alikeMembers_toMembers hs hd.2]
end

/-- A permutation of images is the image of a permutation. -/
theorem perm_of_map {α β : Type} (f : α → β) {l₁ l₂ : List β} (hp : l₁.Perm l₂) : ∀ xs : List α, xs.map f = l₁ → ∃ ys, xs.Perm ys ∧ ys.map f = l₂ := by
  induction hp with
  | nil => intro xs h; exact ⟨xs, .refl _, h⟩
  | cons x _ ih =>
    intro xs h
    cases xs with
    | nil => cases h
    | cons a as =>
      simp only [List.map_cons, List.cons.injEq] at h
      obtain ⟨ys, h1, h2⟩ := ih as h.2
      exact ⟨a :: ys, h1.cons a, by simp [h.1, h2]⟩
  | swap x y l =>
    intro xs h
    match xs, h with
    | [], h => cases h
    | [_], h => simp at h
    | a :: b :: as, h =>
      simp only [List.map_cons, List.cons.injEq] at h
      exact ⟨b :: a :: as, .swap b a as, by simp [h.1, h.2.1, h.2.2]⟩
  | trans _ _ ih1 ih2 =>
    intro xs h
    obtain ⟨ys, h1, h2⟩ := ih1 xs h
    obtain ⟨zs, h3, h4⟩ := ih2 ys h2
    exact ⟨zs, h1.trans h3, h4⟩

theorem alikeMembers_of {ms ns : List (Text × Doc)} (h : ms.map (fun e => (e.1, e.2.toValue)) = ns.map fun e => (e.1, e.2.toValue))
    (ih : ∀ e ∈ ms, ∀ k : Doc, e.2.toValue = k.toValue → e.2.Alike k) : AlikeMembers ms ns := by
  induction ms generalizing ns with
  | nil => cases ns with
    | nil => exact .nil
    | cons _ _ => cases h
  | cons e ms jh => cases ns with
    | nil => cases h
    | cons e' ns =>
      obtain ⟨key, j⟩ := e
      obtain ⟨key', k⟩ := e'
      simp only [List.map_cons, List.cons.injEq, Prod.mk.injEq] at h
      obtain ⟨⟨rfl, h1⟩, h2⟩ := h
      exact .cons (ih _ List.mem_cons_self k h1) (jh h2 fun e he => ih e (List.mem_cons_of_mem _ he))

mutual
theorem toValue_alike : ∀ (j k : Doc), j.toValue = k.toValue → j.Alike k
  | .null, k, h => by cases k with | bool b => cases b <;> simp [Doc.toValue] at h | null => exact .null | _ => simp [Doc.toValue] at h
  | .bool b, k, h => by
    cases k with
    | bool c => cases b <;> cases c <;> first | exact .bool | simp [Doc.toValue] at h
    | _ => cases b <;> simp [Doc.toValue] at h
  | .num t, k, h => by
    cases k with
    | num s => simp only [Doc.toValue, Value.str.injEq, true_and] at h; subst h; exact .num
    | bool b => cases b <;> simp [Doc.toValue] at h
    | _ => simp [Doc.toValue] at h
  | .str t, k, h => by
    cases k with
    | str s => simp only [Doc.toValue, Value.str.injEq, true_and] at h; subst h; exact .str
    | bool b => cases b <;> simp [Doc.toValue] at h
    | _ => simp [Doc.toValue] at h
  | .arr js, k, h => by
    cases k with
    | arr ks => simp only [Doc.toValue, Value.arr.injEq, true_and] at h; exact .arr (toValues_alike js ks h)
    | bool b => cases b <;> simp [Doc.toValue] at h
    | _ => simp [Doc.toValue] at h
  | .obj ms, k, h => by
    cases k with
    | obj ns =>
      simp only [Doc.toValue, Value.obj.injEq, true_and] at h
      have hp : (Doc.toMembers ms).Perm (Doc.toMembers ns) := (sortMembers_perm _).symm.trans (h ▸ sortMembers_perm _)
      rw [toMembers_eq_map ns] at hp
      obtain ⟨ms', h1, h2⟩ := perm_of_map (fun e : Text × Doc => (e.1, e.2.toValue)) hp ms (toMembers_eq_map ms).symm
      exact .obj h1 (alikeMembers_of h2 fun e he => toMembers_alike ms e (h1.mem_iff.2 he))
    | bool b => cases b <;> simp [Doc.toValue] at h
    | _ => simp [Doc.toValue] at h
theorem toValues_alike : ∀ (js ks : List Doc), Doc.toValues js = Doc.toValues ks → AlikeAll js ks
  | [], [], _ => .nil
  | [], _ :: _, h => by simp [Doc.toValues] at h
  | _ :: _, [], h => by simp [Doc.toValues] at h
  | j :: js, k :: ks, h => by
    simp only [Doc.toValues, List.cons.injEq] at h
    exact .cons (toValue_alike j k h.1) (toValues_alike js ks h.2)
theorem toMembers_alike : ∀ (ms : List (Text × Doc)), ∀ e ∈ ms, ∀ k : Doc, e.2.toValue = k.toValue → e.2.Alike k
  | [], _, h => nomatch h
  | (_, j) :: ms, e, h => by
    intro k hk
    rcases List.mem_cons.1 h with rfl | h
    · exact toValue_alike j k hk
    · exact toMembers_alike ms e h k hk
end

/-- Members one after another. -/
theorem members_commas {D : Dialect} : ∀ (fs : List (Text × Text × Doc)), fs ≠ [] → (∀ f ∈ fs, ∃ w₁ kt w₂ w₃ t w₄, D.ws w₁ ∧ D.str kt f.2.1 ∧ D.ws w₂ ∧ D.ws w₃ ∧ Val D t f.2.2 ∧ D.ws w₄ ∧
    f.1 = w₁ ++ kt ++ w₂ ++ 0x3a :: (w₃ ++ t ++ w₄)) → Members D (commas (fs.map Prod.fst)) (fs.map Prod.snd)
  | [], h, _ => absurd rfl h
  | [f], _, h => by
    obtain ⟨w₁, kt, w₂, w₃, t, w₄, h1, h2, h3, h4, h5, h6, e⟩ := h f List.mem_cons_self
    obtain ⟨ft, k, j⟩ := f
    simp only at e
    subst e
    exact .last h1 h2 h3 h4 h5 h6
  | f :: g :: fs, _, h => by
    obtain ⟨w₁, kt, w₂, w₃, t, w₄, h1, h2, h3, h4, h5, h6, e⟩ := h f List.mem_cons_self
    have ih := members_commas (g :: fs) (by simp) fun x hx => h x (List.mem_cons_of_mem _ hx)
    obtain ⟨ft, k, j⟩ := f
    simp only at e
    subst e
    have := Members.cons h1 h2 h3 h4 h5 h6 ih
    simpa [commas] using this

end Meojson
