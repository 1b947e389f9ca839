import Verif.Model.TakeWork
import Verif.Spec.Take
import Verif.Spec.TakeWork
import Verif.Proofs.Take
import Verif.Proofs.ConvertWork

/-! The work of conversions from an rvalue. -/

set_option autoImplicit false

namespace Meojson
open Value Work

variable (F : Floats)

theorem asRvTicks_le (t : Ty) (v : Value) : t.asRvTicks F v ≤ (t.asW F v).ticks := by
  cases t <;> simp only [Ty.asRvTicks, Nat.le_refl]
  exact weight_pos v

theorem asRvTicks_eq {t : Ty} (h : t.NotJson) (v : Value) : t.asRvTicks F v = (t.asW F v).ticks := by
  cases t <;> first | exact h.elim | rfl

/-- At most as much, and as much if `p`. -/
structure Most (p : Prop) (a b : Nat) : Prop where
  le : a ≤ b
  eq : p → a = b

theorem Most.add {p : Prop} {a b c d : Nat} (h : Most p a b) (k : Most p c d) : Most p (a + c) (b + d) :=
  ⟨by have := h.le; have := k.le; omega, fun hp => by rw [h.eq hp, k.eq hp]⟩

theorem Most.refl (p : Prop) (a : Nat) : Most p a a := ⟨Nat.le_refl a, fun _ => rfl⟩

theorem Most.mono {p q : Prop} {a b : Nat} (h : Most q a b) (k : p → q) : Most p a b := ⟨h.le, fun hp => h.eq (k hp)⟩

theorem asRvTicks_most (t : Ty) (v : Value) : Most t.NotJson (t.asRvTicks F v) (t.asW F v).ticks := ⟨asRvTicks_le F t v, fun h => asRvTicks_eq F h v⟩

/-- The loops. -/
theorem takeEachTicks_most {α β γ : Type} {p : Prop} {f : α → α × Out β} {g : α → Work γ} {cost done : α → Nat} : ∀ {vs : List α},
    (∀ v ∈ vs, (∃ x y, (f v).2 = .ok x ∧ (g v).res = .ok y ∧ Most p (cost v + done v) (g v).ticks) ∨
      ((∀ x, (f v).2 ≠ .ok x) ∧ (∀ y, (g v).res ≠ .ok y) ∧ Most p (cost v) (g v).ticks)) →
    Most p (takeEachTicks f cost done vs) (eachOfW g vs).ticks
  | [], _ => .refl _ _
  | v :: vs, h => by
    have ih := takeEachTicks_most (vs := vs) fun w hw => h w (List.mem_cons_of_mem _ hw)
    rw [takeEachTicks, eachOfW]
    rcases h v (by simp) with ⟨x, y, hx, hy, hm⟩ | ⟨hx, hy, hm⟩
    · have : ((g v).bind fun x => (eachOfW g vs).bind fun xs => ret (.ok (x :: xs))).tick.ticks = (g v).ticks + (eachOfW g vs).ticks + 1 := by
        simp only [tick, Work.bind, hy]
        cases (eachOfW g vs).res <;> rfl
      rw [this, hx]
      have := (hm.add ih).add (.refl p 1)
      exact ⟨by have := this.le; simp only; omega, fun hp => by have := this.eq hp; simp only; omega⟩
    · have : ((g v).bind fun x => (eachOfW g vs).bind fun xs => ret (.ok (x :: xs))).tick.ticks = (g v).ticks + 1 := by
        simp only [tick, Work.bind]
        cases hr : (g v).res with
        | ok y => exact absurd hr (hy y)
        | throw e => rfl
        | ub => rfl
      rw [this]
      cases hf : (f v).2 with
      | ok x => exact absurd hf (hx x)
      | throw e => exact hm.add (.refl p 1)
      | ub => exact hm.add (.refl p 1)

theorem each_most (t : Ty) {vs : List Value} (h : ∀ v ∈ vs, v.Sound) : Most t.NotJson (takeEachTicks (t.asRv F) (t.asRvTicks F) (fun _ => 0) vs) (eachOfW (t.asW F) vs).ticks := by
  refine takeEachTicks_most fun v hv => ?_
  rw [asRv_snd F t (h v hv), asW_res]
  cases hr : t.as F v with
  | ok x => exact .inl ⟨x, x, rfl, rfl, asRvTicks_most F t v⟩
  | throw e => exact .inr ⟨by simp, by simp, asRvTicks_most F t v⟩
  | ub => exact .inr ⟨by simp, by simp, asRvTicks_most F t v⟩

theorem takeAllTicks_most : ∀ (ts : Tys) (vs : List Value) (_ : ∀ v ∈ vs, v.Sound), Most ts.NotJson (ts.takeAllTicks F vs) (ts.asAllW F vs).ticks
  | .nil, _, _ => by simp only [Tys.takeAllTicks, Tys.asAllW]; exact .refl _ _
  | .cons _ _, [], _ => by simp only [Tys.takeAllTicks, Tys.asAllW]; exact .refl _ _
  | .cons t ts, v :: vs, h => by
    have ih := takeAllTicks_most ts vs fun w hw => h w (List.mem_cons_of_mem _ hw)
    have h0 := asRvTicks_most F t v
    have hr := asW_res F t v
    simp only [Tys.takeAllTicks, Tys.asAllW, asRv_snd F t (h v (by simp)), tick, Work.bind, hr, Tys.NotJson]
    have h0 := h0.mono (p := t.NotJson ∧ ts.NotJson) (·.1)
    have ih := ih.mono (p := t.NotJson ∧ ts.NotJson) (·.2)
    cases t.as F v with
    | ok x =>
      have := (h0.add ih).add (.refl _ 1)
      cases (ts.asAllW F vs).res <;> exact ⟨by have := this.le; simp only [ret]; omega, fun hp => by have := this.eq hp; simp only [ret]; omega⟩
    | throw e => exact h0.add (.refl _ 1)
    | ub => exact h0.add (.refl _ 1)

theorem takeAnyTicks_most : ∀ (ts : Tys) (i : Nat) (v : Value) (_ : v.Sound), Most ts.NotJson (ts.takeAnyTicks F v) (ts.asAnyW F i v).ticks
  | .nil, _, _, _ => by simp only [Tys.takeAnyTicks, Tys.asAnyW]; exact .refl _ _
  | .cons t ts, i, v, hv => by
    have ih := takeAnyTicks_most ts (i + 1) v hv
    have h0 := asRvTicks_most F t v
    obtain ⟨b, hb⟩ := is_total F t v hv
    have hr := isW_res F t v
    simp only [Tys.takeAnyTicks, Tys.asAnyW, Work.bind, hr, hb, Tys.NotJson]
    cases b with
    | true =>
      have := (Most.refl (t.NotJson ∧ ts.NotJson) (t.isW F v).ticks).add (h0.mono (·.1))
      simp only [if_true]
      cases (t.asW F v).res <;> exact this
    | false =>
      simp only [Bool.false_eq_true, if_false]
      exact (Most.refl (t.NotJson ∧ ts.NotJson) (t.isW F v).ticks).add (ih.mono (·.2))

theorem elements_cases {v : Value} (hv : v.Sound) : (∃ vs, v.asArray = .ok vs ∧ v.elementsM = vs ∧ (∀ w ∈ vs, w.Sound) ∧ v.weight = 1 + weightAll vs) ∨ (∃ e, v.asArray = .throw e ∧ v.elementsM = []) := by
  cases sound_shape hv with
  | array vs h =>
    refine .inl ⟨vs, rfl, ?_, h, by rw [weight]⟩
    cases vs <;> rfl
  | string s => cases s <;> exact .inr ⟨_, rfl, rfl⟩
  | object ms _ _ => cases ms <;> exact .inr ⟨_, rfl, rfl⟩
  | _ => exact .inr ⟨_, rfl, rfl⟩

theorem members_cases {v : Value} (hv : v.Sound) : (∃ ms, v.asObject = .ok ms ∧ v.membersM = ms ∧ (∀ e ∈ ms, e.2.Sound) ∧ v.weight = 1 + weightMembers ms) ∨ (∃ e, v.asObject = .throw e ∧ v.membersM = []) := by
  cases sound_shape hv with
  | object ms _ h =>
    refine .inl ⟨ms, rfl, ?_, h, by rw [weight]⟩
    cases ms <;> rfl
  | string s => cases s <;> exact .inr ⟨_, rfl, rfl⟩
  | array vs _ => cases vs <;> exact .inr ⟨_, rfl, rfl⟩
  | _ => exact .inr ⟨_, rfl, rfl⟩

theorem elements_most {p : Prop} {v : Value} (hv : v.Sound) {f : List Value → Nat} {G : List Value → Work CVal} (h0 : f [] = 0)
    (h : ∀ vs, (∀ w ∈ vs, w.Sound) → Most p (f vs) (G vs).ticks) : Most p (f v.elementsM + 1) ((ret v.asArray).bind G).tick.ticks := by
  rcases elements_cases hv with ⟨vs, ha, he, hs, -⟩ | ⟨e, ha, he⟩
  · rw [ha, he]
    have := (h vs hs).add (.refl p 1)
    simp only [tick, Work.bind, ret, Nat.zero_add]
    exact this
  · rw [ha, he, h0]
    exact .refl _ _

theorem bind_ret_ticks' {α : Type} (r : Work α) (g : α → Out CVal) : (r.bind fun x => ret (g x)).ticks = r.ticks := by
  unfold Work.bind
  cases r.res <;> rfl

theorem members_most {p : Prop} {v : Value} (hv : v.Sound) {f : List (Bytes × Value) → Nat} {G : List (Bytes × Value) → Work CVal} (h0 : f [] = 0)
    (h : ∀ ms, (∀ e ∈ ms, e.2.Sound) → Most p (f ms) (G ms).ticks) : Most p (f v.membersM + 1) ((ret v.asObject).bind G).tick.ticks := by
  rcases members_cases hv with ⟨vs, ha, he, hs, -⟩ | ⟨e, ha, he⟩
  · rw [ha, he]
    have := (h vs hs).add (.refl p 1)
    simp only [tick, Work.bind, ret, Nat.zero_add]
    exact this
  · rw [ha, he, h0]
    exact .refl _ _

theorem takeEachTicks_ok {α β : Type} {f : α → α × Out β} {cost done : α → Nat} (hf : ∀ v, ∃ x, (f v).2 = .ok x) :
    ∀ vs, takeEachTicks f cost done vs = (vs.map fun v => cost v + done v + 1).sum
  | [] => rfl
  | v :: vs => by
    obtain ⟨x, hx⟩ := hf v
    rw [takeEachTicks, hx, List.map_cons, List.sum_cons, takeEachTicks_ok hf vs]

theorem sum_weightMembers : ∀ ms : List (Bytes × Value), (ms.map fun e => 0 + e.1.length + 1).sum ≤ weightMembers ms
  | [] => Nat.le_refl _
  | (k, v) :: ms => by
    have := sum_weightMembers ms
    have := weight_pos v
    rw [List.map_cons, List.sum_cons, weightMembers]
    show 0 + k.length + 1 + _ ≤ _
    omega

theorem map_most (t : Ty) {ms : List (Bytes × Value)} (h : ∀ e ∈ ms, e.2.Sound) :
    Most t.NotJson (takeEachTicks (fun e : Bytes × Value => let r := t.asRv F e.2; ((e.1, r.1), r.2.bind fun x => Out.ok (e.1, x))) (fun e => t.asRvTicks F e.2) (fun e => e.1.length) ms)
      (eachOfW (fun e : Bytes × Value => (t.asW F e.2).bind fun x => ⟨.ok (e.1, x), e.1.length, 0⟩) ms).ticks := by
  refine takeEachTicks_most fun e he => ?_
  have h0 := asRvTicks_most F t e.2
  have hr := asW_res F t e.2
  simp only [asRv_snd F t (h e he), Work.bind, hr]
  cases hr : t.as F e.2 with
  | ok x => exact .inl ⟨_, _, rfl, rfl, h0.add (.refl _ _)⟩
  | throw e => exact .inr ⟨by simp [Out.bind], by simp, h0⟩
  | ub => exact .inr ⟨by simp [Out.bind], by simp, h0⟩

mutual
theorem takeTicks_most : ∀ (t : Ty) (v : Value) (_ : v.Sound), Most t.Copied (t.takeTicks F v) (t.asW F v).ticks
  | .json, v, _ => by
    simp only [Ty.takeTicks, Ty.asW, Ty.Copied]
    exact ⟨weight_pos v, False.elim⟩
  | .nullable .pointer t, v, hv => by
    simp only [Ty.takeTicks, Ty.asW, Ty.Copied]
    split
    · exact .refl _ _
    · have := (takeTicks_most t v hv).add (.refl _ 1)
      simpa only [tick, bind_ret_ticks'] using this
  | .nullable .optional t, v, hv => by
    simp only [Ty.takeTicks, Ty.asW, Ty.Copied]
    have := (takeTicks_most t v hv).add (.refl _ 1)
    simpa only [tick, bind_ret_ticks'] using this
  | .jarray, v, hv => by
    simp only [Ty.takeTicks, Ty.asW, Ty.Copied]
    refine ⟨?_, False.elim⟩
    rw [takeEachTicks_ok (fun v => ⟨v, rfl⟩)]
    rcases elements_cases hv with ⟨vs, -, he, -, hw⟩ | ⟨e, -, he⟩
    · have := weightAll_length vs
      rw [he, hw]
      simp only [List.map_const', List.sum_replicate_nat]
      omega
    · rw [he]; exact weight_pos v
  | .jobject, v, hv => by
    simp only [Ty.takeTicks, Ty.asW, Ty.Copied]
    refine ⟨?_, False.elim⟩
    rw [takeEachTicks_ok (fun v => ⟨_, rfl⟩)]
    rcases members_cases hv with ⟨ms, -, he, -, hw⟩ | ⟨e, -, he⟩
    · have := sum_weightMembers ms
      rw [he, hw]
      omega
    · rw [he]; exact weight_pos v
  | .seq t, v, hv => by
    simp only [Ty.takeTicks, Ty.asW, Ty.Copied]
    exact elements_most hv rfl fun vs hs => by rw [bind_ret_ticks']; exact each_most F t hs
  | .set _ t, v, hv => by
    simp only [Ty.takeTicks, Ty.asW, Ty.Copied]
    exact elements_most hv rfl fun vs hs => by rw [bind_ret_ticks']; exact each_most F t hs
  | .fixed n t, v, hv => by
    simp only [Ty.takeTicks, Ty.asW, Ty.Copied]
    refine elements_most hv (f := fun vs => if vs.length = n then takeEachTicks (t.asRv F) (t.asRvTicks F) (fun _ => 0) vs else 0) (by simp [takeEachTicks]) fun vs hs => ?_
    split
    · rw [bind_ret_ticks']; exact each_most F t hs
    · exact .refl _ _
  | .tuple ts, v, hv => by
    simp only [Ty.takeTicks, Ty.asW, Ty.Copied]
    split
    · rename_i h1
      have := ((takeNthTicks_most ts 0 v hv).add (.refl _ 1)).mono (p := ts.NotJson ∧ (ts.size = 1 → ts.Copied)) fun h => h.2 h1
      simpa only [tick, bind_ret_ticks', if_pos h1] using this
    · rename_i h1
      refine Most.mono (q := ts.NotJson) ?_ (·.1)
      refine elements_most hv (f := fun vs => if vs.length = ts.size then ts.takeAllTicks F vs else 0) ?_ fun vs hs => ?_
      · cases ts <;> simp [Tys.takeAllTicks]
      · split
        · rw [bind_ret_ticks']; exact takeAllTicks_most F ts vs hs
        · exact .refl _ _
  | .variant ts, v, hv => by
    simp only [Ty.takeTicks, Ty.asW, Ty.Copied]
    cases ts.chosen with
    | some i =>
      have := ((takeNthTicks_most ts i v hv).add (.refl _ 1)).mono (p := ts.NotJson ∧ ts.Copied) (·.2)
      simpa only [tick, bind_ret_ticks'] using this
    | none => exact ((takeAnyTicks_most F ts 0 v hv).add (.refl _ 1)).mono (p := ts.NotJson ∧ ts.Copied) (·.1)
  | .map t, v, hv => by
    simp only [Ty.takeTicks, Ty.asW, Ty.Copied]
    exact members_most hv rfl fun ms hs => by rw [bind_ret_ticks']; exact map_most F t hs
  | .null, v, _ | .bool, v, _ | .int _, v, _ | .float _, v, _ | .string, v, _ | .enum _, v, _ | .struct _, v, _ | .user _, v, _ => by
    simp only [Ty.takeTicks]; exact .refl _ _
theorem takeNthTicks_most : ∀ (ts : Tys) (i : Nat) (v : Value) (_ : v.Sound), Most ts.Copied (ts.takeNthTicks F i v) (ts.asNthW F i v).ticks
  | .nil, _, _, _ => by simp only [Tys.takeNthTicks, Tys.asNthW]; exact .refl _ _
  | .cons t ts, 0, v, hv => by
    simp only [Tys.takeNthTicks, Tys.asNthW, Tys.Copied]
    exact (takeTicks_most t v hv).mono (·.1)
  | .cons t ts, i + 1, v, hv => by
    simp only [Tys.takeNthTicks, Tys.asNthW, Tys.Copied]
    exact (takeNthTicks_most ts i v hv).mono (·.2)
end

end Meojson
