import Verif.Proofs.HeapStore

/-! Copying a value with a null pointer inside. -/

set_option autoImplicit false

namespace Meojson.Mem
open Stores

theorem copyList_ub {oom : Addr → Bool} {n : Nat} {h : Heap} {x : HVal} {xs : List HVal} (h1 : copyVal oom n h x = .ub) :
    copyList (copyVal oom n) h (x :: xs) = .ub := by simp [copyList, h1]

theorem copyList_step {oom : Addr → Bool} {n : Nat} {h g : Heap} {x y : HVal} {xs : List HVal} (h1 : copyVal oom n h x = .ok g y)
    (h2 : copyList (copyVal oom n) g xs = .ub) : copyList (copyVal oom n) h (x :: xs) = .ub := by simp [copyList, h1, h2]

mutual
theorem Rep.copy_hollow {oom : Addr → Bool} (ho : ∀ a, oom a = false) : ∀ {v : Value} {x : HVal} {A : List Addr} {h : Heap} {n : Nat}, Rep h.cell v x A → ¬ Whole v →
    h.Clean → (∀ a ∈ A, a < h.next) → A.length < n → copyVal oom n h x = .ub
  | .str _ _, _, _, _, _, _, hw, _, _, _ => absurd trivial hw
  | .arrNull _, _, _, _, n + 1, hr, _, _, _, _ => by rw [hr.1]; simp [copyVal]
  | .objNull _, _, _, _, n + 1, hr, _, _, _, _ => by rw [hr.1]; simp [copyVal]
  | .arr t vs, x, A, h, n + 1, hr, hw, cl, hlt, hn => by
    obtain ⟨a, xs, B, e1, e2, e3, e4⟩ := hr
    subst e1 e4
    have ih := RepL.copy_hollow ho (h := h.bump) (n := n) e3 hw ((Grown.bump h).clean cl)
      (fun b hb => Nat.lt_succ_of_lt (hlt b (by simp [hb]))) (by simp at hn; omega)
    simp [copyVal, e2, ho, ih]
  | .obj t ms, x, A, h, n + 1, hr, hw, cl, hlt, hn => by
    obtain ⟨a, xs, B, e1, e2, e3, e4⟩ := hr
    subst e1 e4
    have ih := RepM.copy_hollow ho (h := h.bump) (n := n) e3 hw ((Grown.bump h).clean cl)
      (fun b hb => Nat.lt_succ_of_lt (hlt b (by simp [hb]))) (by simp at hn; omega)
    simp [copyVal, e2, ho, ih]
  | _, _, _, _, 0, _, _, _, _, hn => absurd hn (Nat.not_lt_zero _)
theorem RepL.copy_hollow {oom : Addr → Bool} (ho : ∀ a, oom a = false) : ∀ {vs : List Value} {xs : List HVal} {A : List Addr} {h : Heap} {n : Nat}, RepL h.cell vs xs A →
    ¬ WholeAll vs → h.Clean → (∀ a ∈ A, a < h.next) → A.length < n → copyList (copyVal oom n) h xs = .ub
  | [], _, _, _, _, _, hw, _, _, _ => absurd trivial hw
  | v :: vs, xs, A, h, n, hr, hw, cl, hlt, hn => by
    obtain ⟨x, xs', B, C, e1, e2, e3, e4⟩ := hr
    subst e1 e4
    by_cases hv : Whole v
    · have hc := Rep.copy oom e2 hv cl (fun b hb => hlt b (by simp [hb])) (n := n) (by simp at hn; omega)
      cases hr : copyVal oom n h x with
      | ub => rw [hr] at hc; exact hc.elim
      | oom g => rw [hr] at hc; obtain ⟨_, a, ha⟩ := hc; rw [ho] at ha; cases ha
      | ok g y =>
        rw [hr] at hc
        obtain ⟨D, _, hD⟩ := hc
        refine copyList_step hr ?_
        exact RepL.copy_hollow ho (e3.frame fun c hc => hD.old c fun hd => by have := (hD.fresh c hd).1; have := hlt c (by simp [hc]); omega) (fun h => hw ⟨hv, h⟩)
          (hD.clean cl) (fun c hc => by have := hlt c (by simp [hc]); have := hD.next; omega) (by simp at hn; omega)
    · exact copyList_ub (Rep.copy_hollow ho e2 hv cl (fun b hb => hlt b (by simp [hb])) (by simp at hn; omega))
theorem RepM.copy_hollow {oom : Addr → Bool} (ho : ∀ a, oom a = false) : ∀ {vs : List (Bytes × Value)} {xs : List (Bytes × HVal)} {A : List Addr} {h : Heap} {n : Nat},
    RepM h.cell vs xs A → ¬ WholeMembers vs → h.Clean → (∀ a ∈ A, a < h.next) → A.length < n → copyList (copyVal oom n) h (xs.map (·.2)) = .ub
  | [], _, _, _, _, _, hw, _, _, _ => absurd trivial hw
  | (k, v) :: vs, xs, A, h, n, hr, hw, cl, hlt, hn => by
    obtain ⟨x, xs', B, C, e1, e2, e3, e4⟩ := hr
    subst e1 e4
    by_cases hv : Whole v
    · have hc := Rep.copy oom e2 hv cl (fun b hb => hlt b (by simp [hb])) (n := n) (by simp at hn; omega)
      cases hr : copyVal oom n h x with
      | ub => rw [hr] at hc; exact hc.elim
      | oom g => rw [hr] at hc; obtain ⟨_, a, ha⟩ := hc; rw [ho] at ha; cases ha
      | ok g y =>
        rw [hr] at hc
        obtain ⟨D, _, hD⟩ := hc
        refine copyList_step hr ?_
        exact RepM.copy_hollow ho (e3.frame fun c hc => hD.old c fun hd => by have := (hD.fresh c hd).1; have := hlt c (by simp [hc]); omega) (fun h => hw ⟨hv, h⟩)
          (hD.clean cl) (fun c hc => by have := hlt c (by simp [hc]); have := hD.next; omega) (by simp at hn; omega)
    · exact copyList_ub (Rep.copy_hollow ho e2 hv cl (fun b hb => hlt b (by simp [hb])) (by simp at hn; omega))
end

/-- Copying it from a place. -/
theorem SRep.copyInit_hollow {st : State} {σ : Store} {F : Nat → List Addr} {oom : Addr → Bool} (ho : ∀ a, oom a = false) (H : SRep st σ [] F) (T : KeyedStore σ)
    {x : Nat} {s : Place} {v : Value} (hx : σ x = none) (hs : σ.get s = some v) (hw : ¬ Whole v) : step oom st (.copyInit x s) = .ub := by
  obtain ⟨l, y, B, p1, p2, p3, p4, p5, p6, p7, p8⟩ := H.place T hs
  have hlt : ∀ b ∈ B, b < st.heap.next := fun b hb => H.lt _ _ (p4 b hb)
  have := Rep.copy_hollow ho p3 hw H.clean hlt (n := st.heap.fuel) (Nat.lt_succ_of_le (nodup_length_le p5 hlt))
  simp [step, (H.absent x hx).1, p1, copyFrom, p2, this]

theorem locate_past {st : State} {y : HVal} {sel : Sel} {path : List Sel} (hp : st.part y sel = none) (hs : st.sees y = false) : ∀ {pre : List Sel} {l l' : Loc},
    st.locate l pre = some l' → st.read l' = some y → st.locate l (pre ++ sel :: path) = none ∧ st.lost l (pre ++ sel :: path) = true
  | [], l, l', hl, hy => by
    simp only [State.locate, Option.some.injEq] at hl
    subst hl
    simp [State.locate, State.lost, hy, hp, hs]
  | s :: pre, l, l', hl, hy => by
    simp only [State.locate] at hl
    cases h1 : st.read l with
    | none => rw [h1] at hl; cases hl
    | some u =>
      rw [h1] at hl
      cases h2 : st.part u s with
      | none => simp [h2] at hl
      | some l1 =>
        simp [h2] at hl
        have := locate_past hp hs hl hy (path := path)
        simp [State.locate, State.lost, h1, h2, this.1, this.2]

/-- Looking into a null pointer is undefined. -/
theorem SRep.into_hollow {st : State} {σ : Store} {F : Nat → List Addr} {oom : Addr → Bool} (H : SRep st σ [] F) (T : KeyedStore σ) {s : Place} {v : Value} {op : Op}
    (hs : σ.get s = some v) (hv : v = .arrNull .array ∨ v = .objNull .object) (ho : Into σ s op) : step oom st op = .ub := by
  obtain ⟨l, y, B, p1, p2, p3, _⟩ := H.place T hs
  have hy : y = ⟨.array, .arr none⟩ ∨ y = ⟨.object, .obj none⟩ := by exact hv.elim (fun e => by subst e; exact .inl p3.1) fun e => by subst e; exact .inr p3.1
  have hA : ∀ k, Mem.asArray oom st l k = .ub := by intro k; rcases hy with rfl | rfl <;> simp [Mem.asArray, p2, State.blank]
  have hO : ∀ k, Mem.asObject oom st l k = .ub := by intro k; rcases hy with rfl | rfl <;> simp [Mem.asObject, p2, State.blank]
  have hcA : ∀ k, constArray st l k = .ub := by intro k; rcases hy with rfl | rfl <;> simp [constArray, p2, State.sees]
  have hcO : ∀ k, constObject st l k = .ub := by intro k; rcases hy with rfl | rfl <;> simp [constObject, p2, State.sees]
  have hpast : ∀ sel path, st.resolve ⟨s.x, s.path ++ sel :: path⟩ = none ∧ st.missing [⟨s.x, s.path ++ sel :: path⟩] = .ub := by
    intro sel path
    have hn : st.part y sel = none ∧ st.sees y = false := by rcases hy with rfl | rfl <;> cases sel <;> simp [State.part, State.sees]
    unfold State.resolve at p1
    cases hr : st.read (.var s.x) with
    | none => rw [hr] at p1; cases p1
    | some u =>
      rw [hr] at p1
      have := locate_past hn.1 hn.2 p1 p2 (path := path)
      simp [State.resolve, State.missing, hr, this.1, this.2]
  have other : ∀ {q : Place}, (σ.get q).isSome → ∃ l, st.resolve q = some l := fun {q} h => by
    obtain ⟨w, hw⟩ := Option.isSome_iff_exists.1 h
    obtain ⟨l, _, _, h1, _⟩ := H.place T hw
    exact ⟨l, h1⟩
  cases ho with
  | part hx => simp [step, (H.absent _ hx).1, hpast]
  | take hx => simp [step, (H.absent _ hx).1, hpast]
  | put => simp [step, hpast]
  | index => simp [step, p1, hO]
  | emplaceBack hq => obtain ⟨_, hq⟩ := other hq; simp [step, p1, hq, hA]
  | emplaceKey hq => obtain ⟨_, hq⟩ := other hq; simp [step, p1, hq, hO]
  | erasePos => simp [step, p1, hA]
  | eraseKey => simp [step, p1, hO]
  | append hq => obtain ⟨_, hq⟩ := other hq; simp [step, p1, hq, hcA]
  | appendTo hq =>
    obtain ⟨l', z, _, q1, q2, q3, _⟩ := H.place T hq
    obtain ⟨a, xs, C, e, _⟩ := q3
    simp [step, p1, q1, constArray, q2, e, hA]
  | merge hq => obtain ⟨_, hq⟩ := other hq; simp [step, p1, hq, hcO]
  | mergeTo hq =>
    obtain ⟨l', z, _, q1, q2, q3, _⟩ := H.place T hq
    obtain ⟨a, xs, C, e, _⟩ := q3
    simp [step, p1, q1, constObject, q2, e, hO]
  | asArray => simp [step, p1, hA]
  | asObject => simp [step, p1, hO]

end Meojson.Mem
