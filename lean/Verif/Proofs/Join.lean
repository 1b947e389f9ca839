import Verif.Model.Join
import Verif.Spec.Join
import Verif.Proofs.MapOps
import Verif.Proofs.Take

/-!
# Proofs about `+` and `|` with operands of either kind
-/

set_option autoImplicit false

namespace Meojson
open Spec RawObject

namespace Joiner
variable {J : Joiner}

/-- A request with a number from `n` up to `m` has been refused. -/
def Refused (J : Joiner) (n m : Nat) : Prop := ∃ i, n ≤ i ∧ i < m ∧ J.gives i = false

theorem Refused.mono {n m n' m' : Nat} (h : Refused J n m) (hn : n' ≤ n) (hm : m ≤ m') : Refused J n' m' := by
  obtain ⟨i, a, b, c⟩ := h
  exact ⟨i, by omega, by omega, c⟩

theorem grant_goes (k : Nat) : ∀ n, (J.grant k n).1 = true ∧ n ≤ (J.grant k n).2 ∨ (J.grant k n).1 = false ∧ Refused J n (J.grant k n).2 ∧ n ≤ (J.grant k n).2 := by
  induction k with
  | zero => intro n; exact .inl ⟨rfl, Nat.le_refl _⟩
  | succ k ih =>
    intro n
    unfold Joiner.grant
    by_cases h : J.gives n = true
    · simp only [h, if_true]
      rcases ih (n + 1) with ⟨a, b⟩ | ⟨a, b, c⟩
      · exact .inl ⟨a, by omega⟩
      · exact .inr ⟨a, b.mono (by omega) (Nat.le_refl _), by omega⟩
    · simp only [h]
      exact .inr ⟨rfl, ⟨n, Nat.le_refl _, by simp, by simpa using h⟩, by simp⟩

theorem first_goes {σ α : Type} (k : Nat) (x : σ) (f : Nat → Held σ α) (n : Nat) :
    (∃ m, n ≤ m ∧ J.first k x f n = f m) ∨ ∃ m, n ≤ m ∧ J.first k x f n = (x, .throw .badAlloc, m) ∧ Refused J n m := by
  unfold Joiner.first
  rcases grant_goes (J := J) k n with ⟨a, b⟩ | ⟨a, b, c⟩
  · rcases h : J.grant k n with ⟨g, m⟩
    rw [h] at a b
    cases a
    exact .inl ⟨m, b, rfl⟩
  · rcases h : J.grant k n with ⟨g, m⟩
    rw [h] at a b c
    cases a
    exact .inr ⟨m, c, rfl, b⟩

/-- An operation on containers that either does everything, or leaves what `left` admits. -/
def Joins {σ : Type} (J : Joiner) (join : σ → σ → Nat → Held (σ × σ) Unit) (whole : σ → σ → σ) (used : σ → σ) (left : σ → σ → σ → σ → Prop) : Prop :=
  ∀ a b n, n ≤ (join a b n).2.2 ∧
    ((join a b n).1 = (whole a b, used b) ∧ (join a b n).2.1 = .ok () ∨
      (join a b n).2.1 = .throw .badAlloc ∧ Refused J n (join a b n).2.2 ∧ left a b (join a b n).1.1 (join a b n).1.2)

theorem append_joins (mv : Bool) :
    Joins J (J.append mv) (fun a b => a ++ b) (fun b => if mv then b.map Value.emptied else b) (fun a b a' b' => a' = a ∧ b' = b) := by
  intro a b n
  unfold Joiner.append
  rcases first_goes (J := J) (J.room a.length b.length + if mv then 0 else (b.map J.copies).sum) (a, b)
    (fun n => ((a ++ b, if mv then b.map Value.emptied else b), Out.ok (), n)) n with ⟨m, hm, e⟩ | ⟨m, hm, e, hr⟩
  · rw [e]; exact ⟨hm, .inl ⟨rfl, rfl⟩⟩
  · rw [e]; exact ⟨hm, .inr ⟨rfl, hr, rfl, rfl⟩⟩

/-- A member of the right operand after it has been merged. -/
def spentMember (mv : Bool) (e : Bytes × Value) : Bytes × Value := (e.1, if mv then e.2.emptied else e.2)

/-- What a merge that failed leaves. -/
def Halfway (mv : Bool) (ms ns ms' ns' : List (Bytes × Value)) : Prop :=
  ∃ done left, ns = done ++ left ∧ ns' = done.map (spentMember mv) ++ left ∧
    (ms' = Value.mergeObject ms done ∨ ∃ k x left' old, left = (k, x) :: left' ∧ mv = false ∧ find k (Value.mergeObject ms done) = some old ∧
      ms' = insertOrAssign k (old.retag x.type) (Value.mergeObject ms done))

theorem merge_joins (mv : Bool) : Joins J (J.merge mv) Value.mergeObject (List.map (spentMember mv)) (Halfway mv) := by
  intro ms ns
  induction ns generalizing ms with
  | nil => intro n; exact ⟨Nat.le_refl _, .inl ⟨rfl, rfl⟩⟩
  | cons e ns ih =>
    obtain ⟨k, x⟩ := e
    intro n
    have step : ∀ m, n ≤ m → ∀ r, r = (let r := J.merge mv (insertOrAssign k x ms) ns m; ((r.1.1, (k, if mv then x.emptied else x) :: r.1.2), r.2) :
        Held (List (Bytes × Value) × List (Bytes × Value)) Unit) → n ≤ r.2.2 ∧
        (r.1 = (Value.mergeObject ms ((k, x) :: ns), ((k, x) :: ns).map (spentMember mv)) ∧ r.2.1 = .ok () ∨
          r.2.1 = .throw .badAlloc ∧ Refused J n r.2.2 ∧ Halfway mv ms ((k, x) :: ns) r.1.1 r.1.2) := by
      intro m hm r hr
      subst hr
      obtain ⟨h0, h1⟩ := ih (insertOrAssign k x ms) m
      refine ⟨Nat.le_trans hm h0, ?_⟩
      rcases h1 with ⟨h2, h3⟩ | ⟨h2, h3, done, left, rfl, h4, h5⟩
      · refine .inl ⟨?_, h3⟩
        simp only [h2]
        rfl
      · refine .inr ⟨h2, h3.mono hm (Nat.le_refl _), (k, x) :: done, left, rfl, ?_, ?_⟩
        · simp only [h4, spentMember, List.map_cons, List.cons_append]
        · exact h5
    unfold Joiner.merge
    cases hf : find k ms with
    | some old =>
      cases mv with
      | true => exact step n (Nat.le_refl _) _ rfl
      | false =>
        simp only []
        rcases first_goes (J := J) (J.copies x) (insertOrAssign k (old.retag x.type) ms, (k, x) :: ns)
          (fun n => let r := J.merge false (insertOrAssign k x ms) ns n; ((r.1.1, (k, x) :: r.1.2), r.2)) n with ⟨m, hm, e⟩ | ⟨m, hm, e, hr⟩
        · have := step m hm _ rfl
          simp only [Bool.false_eq_true, if_false] at this e ⊢
          rw [e]; exact this
        · simp only [Bool.false_eq_true, if_false] at e ⊢
          rw [e]
          exact ⟨hm, .inr ⟨rfl, hr, [], (k, x) :: ns, rfl, rfl, .inr ⟨k, x, ns, old, rfl, rfl, hf, rfl⟩⟩⟩
    | none =>
      simp only []
      rcases first_goes (J := J) (J.nodes k + if mv then 0 else J.copies x) (ms, (k, x) :: ns)
        (fun n => let r := J.merge mv (insertOrAssign k x ms) ns n; ((r.1.1, (k, if mv then x.emptied else x) :: r.1.2), r.2)) n with ⟨m, hm, e⟩ | ⟨m, hm, e, hr⟩
      · rw [e]; exact step m hm _ rfl
      · rw [e]
        exact ⟨hm, .inr ⟨rfl, hr, [], (k, x) :: ns, rfl, rfl, .inl rfl⟩⟩


/-- What `make_unique` and an operation on containers before it come to. -/
theorem box_goes {σ : Type} {join : σ → σ → Nat → Held (σ × σ) Unit} {whole : σ → σ → σ} {used : σ → σ} {left : σ → σ → σ → σ → Prop} (hj : Joins J join whole used left)
    (wrap during : σ → Value) (after : Value) (a b : σ) {n m : Nat} (hn : n ≤ m) {r : Held (Value × σ) Value} (hr : r = J.box wrap during after (join a b m)) :
    r.1 = (after, used b) ∧ r.2.1 = .ok (wrap (whole a b)) ∨
    r.2.1 = .throw .badAlloc ∧ Refused J n r.2.2 ∧ (r.1 = (after, used b) ∨ ∃ a' b', left a b a' b' ∧ r.1 = (during a', b')) := by
  subst hr
  obtain ⟨h0, ⟨h1, h2⟩ | ⟨h1, h2, h3⟩⟩ := hj a b m
  · unfold Joiner.box
    rw [h2]
    simp only [h1]
    rcases first_goes (J := J) 1 (after, used b) (fun n => ((after, used b), Out.ok (wrap (whole a b)), n)) (join a b m).2.2 with ⟨l, hl, e⟩ | ⟨l, hl, e, hr⟩
    · rw [e]; exact .inl ⟨rfl, rfl⟩
    · rw [e]; exact .inr ⟨rfl, hr.mono (by omega) (Nat.le_refl _), .inl rfl⟩
  · unfold Joiner.box
    rw [h1]
    exact .inr ⟨rfl, h2.mono hn (Nat.le_refl _), .inr ⟨_, _, h3, rfl⟩⟩

/-- The left operand is an lvalue with a container in it. -/
theorem fromCopy_goes {σ : Type} {join : σ → σ → Nat → Held (σ × σ) Unit} {whole : σ → σ → σ} {used : σ → σ} {left : σ → σ → σ → σ → Prop} (hj : Joins J join whole used left)
    (wrap : σ → Value) (cost : σ → Nat) (v : Value) (a b : σ) (n : Nat) {r : Held (Value × σ) Value} (hr : r = J.fromCopy (.ok a) wrap cost join v b n) :
    r.1 = (v, used b) ∧ r.2.1 = .ok (wrap (whole a b)) ∨
    r.2.1 = .throw .badAlloc ∧ Refused J n r.2.2 ∧ (r.1 = (v, used b) ∨ r.1 = (v, b) ∨ ∃ a' b', left a b a' b' ∧ r.1 = (v, b')) := by
  unfold Joiner.fromCopy at hr
  simp only [] at hr
  rcases first_goes (J := J) (cost a) (v, b) (fun n => J.box wrap (fun _ => v) v (join a b n)) n with ⟨m, hm, e⟩ | ⟨m, hm, e, h⟩
  · rcases box_goes hj wrap (fun _ => v) v a b hm (hr.trans e) with h | ⟨h1, h2, h3 | h3⟩
    · exact .inl h
    · exact .inr ⟨h1, h2, .inl h3⟩
    · exact .inr ⟨h1, h2, .inr (.inr h3)⟩
  · rw [e] at hr
    subst hr
    exact .inr ⟨rfl, h, .inr (.inl rfl)⟩

/-- A type error: the text of the exception is asked for. -/
theorem complain_goes {σ α : Type} (x : σ) (n : Nat) {r : Held σ α} (hr : r = J.complain x n) : r.1 = x ∧ (r.2.1 = .throw .json ∨ r.2.1 = .throw .badAlloc ∧ Refused J n r.2.2) := by
  subst hr
  unfold Joiner.complain
  by_cases h : J.gives n = true
  · simp [h]
  · exact ⟨rfl, .inr ⟨by simp [h], n, Nat.le_refl _, Nat.lt_succ_self _, by simpa using h⟩⟩

theorem empty_is {v : Value} (hv : v.Sound) : v.empty = .ok true ∧ Blank v ∨ v.empty = .ok false ∧ ¬ Blank v := by
  cases sound_shape hv with
  | string s => cases s <;> simp [Value.empty, Value.type, Blank]
  | array vs => cases vs <;> simp [Value.empty, Value.type, Blank]
  | object ms => cases ms <;> simp [Value.empty, Value.type, Blank]
  | _ => simp [Value.empty, Value.type, Blank, Value.ofBool]

theorem asArray_is {v : Value} (hv : v.Sound) : (∃ vs, v = .arr .array vs) ∨ v.type ≠ .array ∧ v.asArray = .throw .json := by
  by_cases ht : v.type = .array
  · cases sound_shape hv <;> first | exact .inl ⟨_, rfl⟩ | (simp [Value.type, Value.ofBool] at ht)
  · exact .inr ⟨ht, by unfold Value.asArray; rw [if_neg ht, typeError_sound hv]⟩

theorem asObject_is {v : Value} (hv : v.Sound) : (∃ ms, v = .obj .object ms) ∨ v.type ≠ .object ∧ v.asObject = .throw .json := by
  by_cases ht : v.type = .object
  · cases sound_shape hv <;> first | exact .inl ⟨_, rfl⟩ | (simp [Value.type, Value.ofBool] at ht)
  · exact .inr ⟨ht, by unfold Value.asObject; rw [if_neg ht, typeError_sound hv]⟩

/-- The elements of a right operand that has been used. -/
theorem usedUp (m : Bool) {xs : List Value} (hx : ∀ x ∈ xs, x.Sound) : UsedUp m xs (if m then xs.map Value.emptied else xs) := by
  cases m with
  | false => rfl
  | true =>
    show List.Forall₂ Gone xs (xs.map Value.emptied)
    induction xs with
    | nil => exact .nil
    | cons x xs ih =>
      refine .cons ?_ (ih fun y hy => hx y (List.mem_cons_of_mem _ hy))
      cases sound_shape (hx x List.mem_cons_self) <;> first | exact .str | exact .arr | exact .obj

theorem usedUpMembers (m : Bool) {ns : List (Bytes × Value)} (hx : ∀ e ∈ ns, e.2.Sound) : UsedUpMembers m ns (ns.map (spentMember m)) := by
  cases m with
  | false => show ns.map (spentMember false) = ns; exact List.map_id' ns
  | true =>
    show List.Forall₂ _ ns (ns.map (spentMember true))
    induction ns with
    | nil => exact .nil
    | cons x xs ih =>
      refine .cons ⟨rfl, ?_⟩ (ih fun y hy => hx y (List.mem_cons_of_mem _ hy))
      obtain ⟨k, x⟩ := x
      show Gone x x.emptied
      cases sound_shape (show x.Sound from hx (k, x) List.mem_cons_self) <;> first | exact .str | exact .arr | exact .obj

theorem union_merge {ms ns : List (Bytes × Value)} (hm : Sorted ms) (hn : Sorted ns) : Union ms ns (Value.mergeObject ms ns) := by
  refine ⟨mergeObject_sorted hm, fun k x => ?_⟩
  rw [← find_eq_some (mergeObject_sorted hm), ← find_eq_some hn, ← find_eq_some hm, ← find_eq_none hn, find_mergeObject hn]
  cases find k ns <;> simp

theorem merge_nil {ns : List (Bytes × Value)} (hn : Sorted ns) : Value.mergeObject [] ns = ns := by
  apply sorted_ext (mergeObject_sorted Sorted.nil) hn
  intro k
  rw [find_mergeObject hn]
  cases find k ns <;> simp [find]

theorem halfway_midway {m : Bool} {ms ns r os : List (Bytes × Value)} (hm : Sorted ms) (hn : Sorted ns) (hx : ∀ e ∈ ns, e.2.Sound) (h : Halfway m ms ns r os) : Midway m ms ns r os := by
  obtain ⟨done, left, rfl, rfl, h⟩ := h
  have hd : Sorted done := (List.pairwise_append.1 hn).1
  have hu := usedUpMembers m fun e he => hx e (List.mem_append_left _ he)
  rcases h with rfl | ⟨k, x, left, old, rfl, rfl, hf, rfl⟩
  · exact .between (union_merge hm hd) hu
  · exact .assigning (union_merge hm hd) hu rfl ((find_eq_some (mergeObject_sorted hm) _ _).1 hf)
      (union_merge (ns := [(k, old.retag x.type)]) (mergeObject_sorted hm) (by simp [Sorted]))

theorem plus_goes (l m : Bool) {v : Value} (hv : v.Sound) {xs : List Value} (hx : ∀ x ∈ xs, x.Sound) (n : Nat) {r : Held (Value × List Value) Value} (hr : r = J.plus l m v xs n) :
    (Concat l v xs r.1.1 r.2.1 ∧ ((∃ y, r.2.1 = .ok y) → UsedUp m xs r.1.2) ∧ (r.2.1 = .throw .json → r.1.2 = xs)) ∨
    (r.2.1 = .throw .badAlloc ∧ Refused J n r.2.2 ∧ ConcatFailed l m v xs r.1.1 r.1.2) := by
  have hu := usedUp m hx
  cases l with
  | false =>
    rcases asArray_is hv with ⟨vs, rfl⟩ | ⟨ht, e⟩
    · rcases fromCopy_goes (append_joins m) (.arr .array) J.arrayCost (.arr .array vs) vs xs n hr with ⟨h1, h2⟩ | ⟨h1, h2, h3 | h3 | ⟨_, _, ⟨_, rfl⟩, h3⟩⟩
      · rw [h1, h2]; exact .inl ⟨.kept, fun _ => hu, fun h => nomatch h⟩
      · rw [h3]; exact .inr ⟨h1, h2, .lost hu⟩
      · rw [h3]; exact .inr ⟨h1, h2, .kept⟩
      · rw [h3]; exact .inr ⟨h1, h2, .kept⟩
    · have hr' : r = J.complain (v, xs) n := by rw [hr]; simp only [Joiner.plus, Joiner.fromCopy, e]; rfl
      obtain ⟨h1, h2 | ⟨h2, h3⟩⟩ := complain_goes _ _ hr'
      · rw [h1, h2]; exact .inl ⟨.noArray ht, (fun ⟨_, h⟩ => nomatch h), fun _ => rfl⟩
      · rw [h1]; exact .inr ⟨h2, h3, .kept⟩
  | true =>
    rcases empty_is hv with ⟨he, hb⟩ | ⟨he, hb⟩
    · have hc : Concat true v xs (.arr .array []) (.ok (.arr .array xs)) := by
        rcases asArray_is hv with ⟨vs, rfl⟩ | ⟨ht, e⟩
        · cases vs with
          | nil => exact .taken
          | cons _ _ => simp [Value.empty, Value.type] at he
        · exact .made hb ht
      have hr' : r = J.first 1 (v.retag .array, xs) (fun n => J.box (.arr .array) (.arr .array) (.arr .array []) (J.append m [] xs n)) n := by
        rw [hr]; simp only [Joiner.plus, Joiner.inPlace, he]; rfl
      rcases first_goes (J := J) 1 (v.retag .array, xs) (fun n => J.box (.arr .array) (.arr .array) (.arr .array []) (J.append m [] xs n)) n with ⟨k, hk, e⟩ | ⟨k, hk, e, h⟩
      · rcases box_goes (append_joins m) (.arr .array) (.arr .array) (.arr .array []) [] xs hk (hr'.trans e) with ⟨h1, h2⟩ | ⟨h1, h2, h3 | ⟨_, _, ⟨rfl, rfl⟩, h3⟩⟩
        · rw [h1, h2]; exact .inl ⟨hc, fun _ => hu, fun h => nomatch h⟩
        · rw [h3]; exact .inr ⟨h1, h2, .lost (l := true) hu⟩
        · rw [h3]; exact .inr ⟨h1, h2, .made rfl hb⟩
      · rw [e] at hr'
        subst hr'
        exact .inr ⟨rfl, h, .mislabelled rfl hb⟩
    · rcases asArray_is hv with ⟨vs, rfl⟩ | ⟨ht, e⟩
      · have hr' : r = J.box (.arr .array) (.arr .array) (.arr .array []) (J.append m vs xs n) := by rw [hr]; simp only [Joiner.plus, Joiner.inPlace, he]; rfl
        rcases box_goes (append_joins m) (.arr .array) (.arr .array) (.arr .array []) vs xs (Nat.le_refl n) hr' with ⟨h1, h2⟩ | ⟨h1, h2, h3 | ⟨_, _, ⟨rfl, rfl⟩, h3⟩⟩
        · rw [h1, h2]; exact .inl ⟨.taken, fun _ => hu, fun h => nomatch h⟩
        · rw [h3]; exact .inr ⟨h1, h2, .lost (l := true) hu⟩
        · rw [h3]; exact .inr ⟨h1, h2, .kept⟩
      · have hr' : r = J.complain (v, xs) n := by rw [hr]; simp only [Joiner.plus, Joiner.inPlace, he, e]; rfl
        obtain ⟨h1, h2 | ⟨h2, h3⟩⟩ := complain_goes _ _ hr'
        · rw [h1, h2]; exact .inl ⟨.other ht hb, (fun ⟨_, h⟩ => nomatch h), fun _ => rfl⟩
        · rw [h1]; exact .inr ⟨h2, h3, .kept⟩

theorem or_goes (l m : Bool) {v : Value} (hv : v.Sound) {ns : List (Bytes × Value)} (hn : Sorted ns) (hx : ∀ e ∈ ns, e.2.Sound) (n : Nat)
    {r : Held (Value × List (Bytes × Value)) Value} (hr : r = J.or l m v ns n) :
    (United l v ns r.1.1 r.2.1 ∧ ((∃ y, r.2.1 = .ok y) → UsedUpMembers m ns r.1.2) ∧ (r.2.1 = .throw .json → r.1.2 = ns)) ∨
    (r.2.1 = .throw .badAlloc ∧ Refused J n r.2.2 ∧ UnionFailed l m v ns r.1.1 r.1.2) := by
  have hu := usedUpMembers m hx
  have hs : ∀ ms, v = .obj .object ms → Sorted ms := by
    rintro ms rfl
    cases sound_shape hv with
    | object _ hs => exact hs
  cases l with
  | false =>
    rcases asObject_is hv with ⟨ms, rfl⟩ | ⟨ht, e⟩
    · rcases fromCopy_goes (merge_joins m) (.obj .object) J.objectCost (.obj .object ms) ms ns n hr with ⟨h1, h2⟩ | ⟨h1, h2, h3 | h3 | ⟨_, _, h4, h3⟩⟩
      · rw [h1, h2]; exact .inl ⟨.kept (union_merge (hs _ rfl) hn), fun _ => hu, fun h => nomatch h⟩
      · rw [h3]; exact .inr ⟨h1, h2, .lost hu⟩
      · rw [h3]; exact .inr ⟨h1, h2, .kept⟩
      · rw [h3]; exact .inr ⟨h1, h2, .midway (l := false) rfl (halfway_midway (hs _ rfl) hn hx h4)⟩
    · have hr' : r = J.complain (v, ns) n := by rw [hr]; simp only [Joiner.or, Joiner.fromCopy, e]; rfl
      obtain ⟨h1, h2 | ⟨h2, h3⟩⟩ := complain_goes _ _ hr'
      · rw [h1, h2]; exact .inl ⟨.noObject ht, (fun ⟨_, h⟩ => nomatch h), fun _ => rfl⟩
      · rw [h1]; exact .inr ⟨h2, h3, .kept⟩
  | true =>
    rcases empty_is hv with ⟨he, hb⟩ | ⟨he, hb⟩
    · have hc : United true v ns (.obj .object []) (.ok (.obj .object ns)) := by
        rcases asObject_is hv with ⟨ms, rfl⟩ | ⟨ht, e⟩
        · cases ms with
          | nil => have := union_merge Sorted.nil hn; rw [merge_nil hn] at this; exact .taken this
          | cons _ _ => simp [Value.empty, Value.type] at he
        · exact .made hb ht
      have hr' : r = J.first 1 (v.retag .object, ns) (fun n => J.box (.obj .object) (.obj .object) (.obj .object []) (J.merge m [] ns n)) n := by
        rw [hr]; simp only [Joiner.or, Joiner.inPlace, he]; rfl
      rcases first_goes (J := J) 1 (v.retag .object, ns) (fun n => J.box (.obj .object) (.obj .object) (.obj .object []) (J.merge m [] ns n)) n with ⟨k, hk, e⟩ | ⟨k, hk, e, h⟩
      · rcases box_goes (merge_joins m) (.obj .object) (.obj .object) (.obj .object []) [] ns hk (hr'.trans e) with ⟨h1, h2⟩ | ⟨h1, h2, h3 | ⟨_, _, h4, h3⟩⟩
        · rw [h1, h2, merge_nil hn]; exact .inl ⟨hc, fun _ => hu, fun h => nomatch h⟩
        · rw [h3]; exact .inr ⟨h1, h2, .lost (l := true) hu⟩
        · rw [h3]; exact .inr ⟨h1, h2, .midwayMade rfl hb (halfway_midway Sorted.nil hn hx h4)⟩
      · rw [e] at hr'
        subst hr'
        exact .inr ⟨rfl, h, .mislabelled rfl hb⟩
    · rcases asObject_is hv with ⟨ms, rfl⟩ | ⟨ht, e⟩
      · have hr' : r = J.box (.obj .object) (.obj .object) (.obj .object []) (J.merge m ms ns n) := by rw [hr]; simp only [Joiner.or, Joiner.inPlace, he]; rfl
        rcases box_goes (merge_joins m) (.obj .object) (.obj .object) (.obj .object []) ms ns (Nat.le_refl n) hr' with ⟨h1, h2⟩ | ⟨h1, h2, h3 | ⟨_, _, h4, h3⟩⟩
        · rw [h1, h2]; exact .inl ⟨.taken (union_merge (hs _ rfl) hn), fun _ => hu, fun h => nomatch h⟩
        · rw [h3]; exact .inr ⟨h1, h2, .lost (l := true) hu⟩
        · rw [h3]; exact .inr ⟨h1, h2, .midway (l := true) rfl (halfway_midway (hs _ rfl) hn hx h4)⟩
      · have hr' : r = J.complain (v, ns) n := by rw [hr]; simp only [Joiner.or, Joiner.inPlace, he, e]; rfl
        obtain ⟨h1, h2 | ⟨h2, h3⟩⟩ := complain_goes _ _ hr'
        · rw [h1, h2]; exact .inl ⟨.other ht hb, (fun ⟨_, h⟩ => nomatch h), fun _ => rfl⟩
        · rw [h1]; exact .inr ⟨h2, h3, .kept⟩

theorem grant_ample (hJ : ∀ i, J.gives i = true) (k : Nat) : ∀ n, J.grant k n = (true, n + k) := by
  induction k with
  | zero => intro n; rfl
  | succ k ih => intro n; unfold Joiner.grant; rw [hJ n, if_pos rfl, ih]; congr 1; omega

theorem first_ample {σ α : Type} (hJ : ∀ i, J.gives i = true) (k : Nat) (x : σ) (f : Nat → Held σ α) (n : Nat) : J.first k x f n = f (n + k) := by
  unfold Joiner.first; rw [grant_ample hJ]

/-- Requests for the members of the right operand: a node where the key is new, and a copy unless they are moved. -/
def mergeCost (J : Joiner) (m : Bool) (ms ns : List (Bytes × Value)) : Nat :=
  (ns.map fun e => (if e.1 ∈ ms.map Prod.fst then 0 else J.nodes e.1) + if m then 0 else J.copies e.2).sum

theorem mem_keys {ms : List (Bytes × Value)} (hm : Sorted ms) (k : Bytes) : k ∈ ms.map Prod.fst ↔ (find k ms).isSome = true := by
  constructor
  · intro h
    obtain ⟨⟨k, x⟩, h', rfl⟩ := List.mem_map.1 h
    rw [(find_eq_some hm _ _).2 h']; rfl
  · intro h
    obtain ⟨x, h⟩ := Option.isSome_iff_exists.1 h
    exact List.mem_map.2 ⟨_, (find_eq_some hm _ _).1 h, rfl⟩

theorem merge_requests (hJ : ∀ i, J.gives i = true) (m : Bool) {ns : List (Bytes × Value)} (hn : Sorted ns) : ∀ {ms : List (Bytes × Value)}, Sorted ms → ∀ n,
    (J.merge m ms ns n).2.1 = .ok () ∧ (J.merge m ms ns n).2.2 = n + mergeCost J m ms ns := by
  induction ns with
  | nil => intro ms _ n; exact ⟨rfl, rfl⟩
  | cons e ns ih =>
    obtain ⟨k, x⟩ := e
    intro ms hm n
    obtain ⟨hk, hn⟩ := List.pairwise_cons.1 hn
    have hs := insertOrAssign_sorted hm k x
    have same : mergeCost J m (insertOrAssign k x ms) ns = mergeCost J m ms ns := by
      unfold mergeCost
      congr 1
      apply List.map_congr_left
      intro e he
      have : e.1 ∈ (insertOrAssign k x ms).map Prod.fst ↔ e.1 ∈ ms.map Prod.fst := by
        have hne : e.1 ≠ k := fun h => by
          have := hk e he
          rw [h] at this
          exact absurd this (by simp)
        rw [mem_keys hs, mem_keys hm, find_insertOrAssign, if_neg hne]
      simp only [this]
    unfold Joiner.merge
    cases hf : find k ms with
    | some old =>
      have hmem : k ∈ ms.map Prod.fst := (mem_keys hm k).2 (by rw [hf]; rfl)
      simp only [first_ample hJ]
      refine ⟨(ih hn hs _).1, ((ih hn hs _).2).trans ?_⟩
      rw [same]
      simp only [mergeCost, List.map_cons, List.sum_cons, hmem, if_true]
      omega
    | none =>
      have hmem : k ∉ ms.map Prod.fst := fun h => by have := (mem_keys hm k).1 h; rw [hf] at this; cases this
      simp only [first_ample hJ]
      refine ⟨(ih hn hs _).1, ((ih hn hs _).2).trans ?_⟩
      rw [same]
      simp only [mergeCost, List.map_cons, List.sum_cons, hmem, if_false]
      omega

end Joiner
end Meojson
