import Verif.Proofs.HeapRace

/-! Schedules of threads. -/

set_option autoImplicit false

namespace Meojson.Mem
open Stores

/-- The memory that belongs to some variables, and what is free. -/
def Belongs (st : State) (xs : List Nat) (a : Nat) : Prop := st.heap.next ≤ a ∨ ∃ x ∈ xs, Owns st x a

def regsOf (st : State) (op : Op) : Regs where
  W x := x ∈ writes op
  X x := x ∈ uses op
  R := Belongs st (writes op)
  Q := Belongs st (uses op)
  L _ _ := False
  M _ _ := False
  lm _ _ h := h
  mr _ _ h := h.elim
  wx x h := by simp [uses, h]
  rq a h := h.imp id fun ⟨x, hx, h⟩ => ⟨x, by simp [uses, hx], h⟩

theorem belongs_cell {st : State} {xs : List Nat} (hf : Fresh st) {a : Nat} {c : Cell} (h : Belongs st xs a) (e : st.heap.cell a = some c) : c.In (Belongs st xs) := by
  rcases h with h | ⟨x, hx, h⟩
  · rw [hf a h] at e; cases e
  · exact fun v hv b hb => Or.inr ⟨x, hx, .child h e hv hb⟩

theorem alike_srel {st st' : State} {op : Op} (hf : Fresh st) (hf' : Fresh st') (A : Alike (uses op) st st') : SRel (regsOf st op) st st' st st' where
  heap := {
    r := fun a c h e => belongs_cell hf h e
    q := fun a c h e => belongs_cell hf h e
    new := fun a h => Or.inl h
    next := A.next
    agree := fun a h => by
      rcases h with h | ⟨x, hx, h⟩
      · rw [hf a h, hf' a (A.next ▸ h)]
      · exact A.cell x hx a h
    kept := fun _ _ => sameBut_refl _
    kept' := fun _ _ => sameBut_refl _
    slot := fun _ _ h => h.elim
    l := fun _ _ _ h => h.elim
    m := fun _ _ _ h => h.elim }
  w x v hx e a ha := Or.inr ⟨x, hx, .root e ha⟩
  x x v hx e a ha := Or.inr ⟨x, hx, .root e ha⟩
  var x hx := A.var x hx
  kept _ _ := rfl
  kept' _ _ := rfl

theorem srel_owns {G : Regs} {B B' s s' : State} (H : SRel G B B' s s') {x a : Nat} (hx : G.X x) (h : Owns s x a) : G.Q a := by
  induction h with
  | root e p => exact H.x x _ hx e _ p
  | child _ e m p ih => exact H.heap.q _ _ ih e _ m _ p

theorem alike_owns {st st' : State} {xs : List Nat} (A : Alike xs st st') {x a : Nat} (hx : x ∈ xs) (h : Owns st' x a) : Owns st x a := by
  induction h with
  | root e p => exact .root (A.var x hx ▸ e) p
  | child _ e m p ih => exact .child ih (A.cell x hx _ ih ▸ e) m p

theorem sameEnd_imp {P R : State → State → Prop} (h : ∀ s s', P s s' → R s s') {f f' : Fin} (hf : SameEnd P f f') : SameEnd R f f' := by
  cases f <;> cases f' <;> simp only [SameEnd] at hf ⊢
  · exact h _ _ hf
  · exact h _ _ hf

theorem step_private {st st' : State} (hf : Fresh st) (hf' : Fresh st') (oom : Nat → Bool) (op : Op) (A : Alike (uses op) st st') :
    SameEnd (fun s s' => Alike (uses op) s s' ∧ Kept (writes op) st s ∧ Kept (writes op) st' s') (step oom st op) (step oom st' op) := by
  have up : ∀ x ∈ writes op, ∀ a, Owns st x a → Owns st' x a := by
    intro x hx a h
    have hx' : x ∈ uses op := by simp [uses, hx]
    induction h with
    | root e p => exact .root ((A.var x hx').trans e) p
    | child hb e m p ih => exact .child ih ((A.cell x hx' _ hb).trans e) m p
  have hr := step_rel (alike_srel hf hf' A) oom op (fun x h => h) fun p hp => by
    show p.x ∈ uses op
    simp only [uses, List.mem_append, List.mem_map]
    exact Or.inr ⟨p, hp, rfl⟩
  refine sameEnd_imp (fun s s' H => ⟨⟨H.heap.next, H.var, fun x hx a h => H.heap.agree a (srel_owns H hx h)⟩,
    ⟨H.kept, fun a ha ho => sameBut_eq (H.heap.kept a fun h => ?_) fun _ h => h⟩, ⟨H.kept', fun a ha ho => sameBut_eq (H.heap.kept' a fun h => ?_) fun _ h => h⟩⟩) hr
  · rcases h with h | ⟨x, hx, h⟩
    · omega
    · exact ho x hx h
  · rcases h with h | ⟨x, hx, h⟩
    · rw [A.next] at ha; omega
    · exact ho x hx (up x hx a h)

/-! ### Stores -/

/-- Two stores agree on some variables. -/
def Same (P : Nat → Prop) (σ τ : Store) : Prop := ∀ x, P x → τ x = σ x

section
variable {P : Nat → Prop} {σ τ : Store}

theorem Same.get (h : Same P σ τ) {p : Place} (hp : P p.x) : τ.get p = σ.get p := by simp only [Store.get, h p.x hp]
theorem Same.put (h : Same P σ τ) (x : Nat) (v : Option Value) : Same P (σ.put x v) (τ.put x v) := fun y hy => by
  simp only [Store.put]
  split
  · rfl
  · exact h y hy
theorem Same.set (h : Same P σ τ) {p : Place} (hp : P p.x) (w : Value) : Same P (σ.set p w) (τ.set p w) := by
  simp only [Store.set, h p.x hp]
  exact h.put _ _

theorem put_frame {x : Nat} {v : Option Value} {ws : List Nat} (hx : x ∈ ws) : ∀ y, y ∉ ws → σ.put x v y = σ y := fun y hy => by
  simp only [Store.put]
  split
  · subst y; exact absurd hx hy
  · rfl
theorem set_frame {p : Place} {w : Value} {ws : List Nat} (hx : p.x ∈ ws) : ∀ y, y ∉ ws → σ.set p w y = σ y := put_frame hx

/-- A statement of the specification reads and writes only the variables it uses. -/
theorem step_same {op : Op} {σ' : Store} (h : Step σ op σ') (hP : ∀ x ∈ uses op, P x) (hs : Same P σ τ) : ∃ τ', Step τ op τ' ∧ Same P σ' τ' := by
  have hp : ∀ p ∈ places op, P p.x := fun p h => hP _ (by simp only [uses, List.mem_append, List.mem_map]; exact Or.inr ⟨p, h, rfl⟩)
  have hw : ∀ p ∈ touches op, P p.x := fun p h => hP _ (by simp only [uses, writes, List.mem_append, List.mem_map]; exact Or.inl ⟨p, h, rfl⟩)
  induction h with
  | @init x v hx hv => exact ⟨_, .init ((hs _ (hw ⟨x, []⟩ (by simp [touches]))).trans hx) hv, hs.put _ _⟩
  | @copyInit x s v hx hg hwv =>
    have ps := hp s (by simp [places])
    exact ⟨_, .copyInit ((hs _ (hw ⟨x, []⟩ (by simp [touches]))).trans hx) ((hs.get ps).trans hg) hwv, hs.put _ _⟩
  | @moveInit x s v junk hx hg =>
    have ps := hp s (by simp [places])
    exact ⟨_, .moveInit ((hs _ (hw ⟨x, []⟩ (by simp [touches]))).trans hx) ((hs.get ps).trans hg), (hs.set ps _).put _ _⟩
  | @copyAssign d s w v hd hg hwv hin =>
    have pd := hp d (by simp [places])
    have ps := hp s (by simp [places])
    exact ⟨_, .copyAssign ((hs.get pd).trans hd) ((hs.get ps).trans hg) hwv hin, hs.set pd _⟩
  | @assign d w v hd hv =>
    have pd := hp d (by simp [places])
    exact ⟨_, .assign ((hs.get pd).trans hd) hv, hs.set pd _⟩
  | @moveAssign d s w v junk hd hg h1 h2 h3 =>
    have pd := hp d (by simp [places])
    have ps := hp s (by simp [places])
    exact ⟨_, .moveAssign ((hs.get pd).trans hd) ((hs.get ps).trans hg) h1 h2 h3, (hs.set ps _).set pd _⟩
  | @moveAssignPart d s w v junk hd hg h1 h2 =>
    have pd := hp d (by simp [places])
    have ps := hp s (by simp [places])
    exact ⟨_, .moveAssignPart ((hs.get pd).trans hd) ((hs.get ps).trans hg) h1 h2, hs.set pd _⟩
  | @moveAssignSelf d v junk hd =>
    have pd := hp d (by simp [places])
    exact ⟨_, .moveAssignSelf ((hs.get pd).trans hd), hs.set pd _⟩
  | @index p k v ms hg hm =>
    have pd := hp p (by simp [places])
    exact ⟨_, .index ((hs.get pd).trans hg) hm, hs.set pd _⟩
  | @emplaceBack p s v vs w hg hm hi hg2 hwv =>
    have pd := hp p (by simp [places])
    have ps := hp s (by simp [places])
    exact ⟨_, .emplaceBack ((hs.get pd).trans hg) hm ((hs.get ps) ▸ hi) (((hs.set pd _).get ps).trans hg2) hwv, hs.set pd _⟩
  | @emplaceKey p k s v ms w hg hm hi hg2 hwv hin =>
    have pd := hp p (by simp [places])
    have ps := hp s (by simp [places])
    exact ⟨_, .emplaceKey ((hs.get pd).trans hg) hm ((hs.get ps) ▸ hi) (((hs.set pd _).get ps).trans hg2) hwv hin, hs.set pd _⟩
  | @erasePos p i v vs hg hm =>
    have pd := hp p (by simp [places])
    exact ⟨_, .erasePos ((hs.get pd).trans hg) hm, hs.set pd _⟩
  | @eraseKey p k v ms hg hm =>
    have pd := hp p (by simp [places])
    exact ⟨_, .eraseKey ((hs.get pd).trans hg) hm, hs.set pd _⟩
  | @append p s v vs us ws hg hm hg2 hne hg3 hwv =>
    have pd := hp p (by simp [places])
    have ps := hp s (by simp [places])
    exact ⟨_, .append ((hs.get pd).trans hg) hm ((hs.get ps).trans hg2) hne (((hs.set pd _).get ps).trans hg3) hwv, hs.set pd _⟩
  | @merge p s v ms ws hg hm hg2 hap hwv =>
    have pd := hp p (by simp [places])
    have ps := hp s (by simp [places])
    exact ⟨_, .merge ((hs.get pd).trans hg) hm ((hs.get ps).trans hg2) hap hwv, hs.set pd _⟩
  | @mergeSelf p ms hg hne hwv =>
    have pd := hp p (by simp [places])
    exact ⟨_, .mergeSelf ((hs.get pd).trans hg) hne hwv, hs⟩
  | @asArray p v vs hg hm =>
    have pd := hp p (by simp [places])
    exact ⟨_, .asArray ((hs.get pd).trans hg) hm, hs.set pd _⟩
  | @asObject p v ms hg hm =>
    have pd := hp p (by simp [places])
    exact ⟨_, .asObject ((hs.get pd).trans hg) hm, hs.set pd _⟩
  | @emplaceBackMove p s u v vs w junk hg hg2 hn hg3 hm =>
    have pd := hp p (by simp [places])
    have ps := hp s (by simp [places])
    exact ⟨_, .emplaceBackMove ((hs.get pd).trans hg) ((hs.get ps).trans hg2) hn (((hs.set ps _).get pd).trans hg3) hm, (hs.set ps _).set pd _⟩
  | @emplaceKeyMove p k s u v ms w junk hg hg2 hn hg3 hm hl =>
    have pd := hp p (by simp [places])
    have ps := hp s (by simp [places])
    exact ⟨_, .emplaceKeyMove ((hs.get pd).trans hg) ((hs.get ps).trans hg2) hn (((hs.set ps _).get pd).trans hg3) hm hl, (hs.set ps _).set pd _⟩
  | @emplaceKeyMoveOld σ' p k s ms old junk hg hl h ih =>
    have pd := hp p (by simp [places])
    have ps := hp s (by simp [places])
    have h1 : ∀ x ∈ uses (.moveAssign ⟨p.x, p.path ++ [.key k]⟩ s junk), P x := by
      intro x hx
      simp only [uses, writes, touches, places, List.map_cons, List.map_nil, List.mem_append, List.mem_cons, List.not_mem_nil, or_false] at hx
      rcases hx with (rfl | rfl) | (rfl | rfl) <;> assumption
    obtain ⟨τ', h2, h3⟩ := ih h1 (fun q hq => h1 _ (by simp only [uses, List.mem_append, List.mem_map]; exact Or.inr ⟨q, hq, rfl⟩))
      (fun q hq => h1 _ (by simp only [uses, writes, List.mem_append, List.mem_map]; exact Or.inl ⟨q, hq, rfl⟩))
    exact ⟨τ', .emplaceKeyMoveOld ((hs.get pd).trans hg) hl h2, h3⟩
  | @appendMove p s u v vs ws junk hg hg2 hn hg3 hm =>
    have pd := hp p (by simp [places])
    have ps := hp s (by simp [places])
    exact ⟨_, .appendMove ((hs.get pd).trans hg) ((hs.get ps).trans hg2) hn (((hs.set ps _).get pd).trans hg3) hm, (hs.set ps _).set pd _⟩
  | @mergeMove p s v ms ws junk hg hm hg2 hap =>
    have pd := hp p (by simp [places])
    have ps := hp s (by simp [places])
    exact ⟨_, .mergeMove ((hs.get pd).trans hg) hm ((hs.get ps).trans hg2) hap, (hs.set ps _).set pd _⟩
  | @drop x v hx => exact ⟨_, .drop ((hs _ (hw ⟨x, []⟩ (by simp [touches]))).trans hx), hs.put _ _⟩

theorem step_frame {op : Op} {σ' : Store} (h : Step σ op σ') : ∀ x, x ∉ writes op → σ' x = σ x := by
  induction h with
  | init | copyInit | drop => exact put_frame (by simp [writes, touches])
  | copyAssign | assign | moveAssignPart | moveAssignSelf | index | emplaceBack | emplaceKey | erasePos | eraseKey | append | merge | asArray | asObject =>
    exact set_frame (by simp [writes, touches])
  | mergeSelf => exact fun _ _ => rfl
  | moveInit => exact fun x hx => (put_frame (by simp [writes, touches]) x hx).trans (set_frame (by simp [writes, touches]) x hx)
  | moveAssign | emplaceBackMove | emplaceKeyMove | appendMove | mergeMove =>
    exact fun x hx => (set_frame (by simp [writes, touches]) x hx).trans (set_frame (by simp [writes, touches]) x hx)
  | emplaceKeyMoveOld _ _ _ ih => exact ih

theorem refused_same {op : Op} (h : Refused σ op) (hP : ∀ x ∈ uses op, P x) (hs : Same P σ τ) : Refused τ op := by
  have hp : ∀ p ∈ places op, P p.x := fun p h => hP _ (by simp only [uses, List.mem_append, List.mem_map]; exact Or.inr ⟨p, h, rfl⟩)
  have hw : ∀ p ∈ touches op, P p.x := fun p h => hP _ (by simp only [uses, writes, List.mem_append, List.mem_map]; exact Or.inl ⟨p, h, rfl⟩)
  have hg : ∀ p ∈ places op, τ.get p = σ.get p := fun p h => hs.get (hp p h)
  have habs : ∀ p ∈ places op, Absent σ p → Absent τ p := fun p h ⟨v, h1, h2⟩ => ⟨v, (hs p.x (hp p h)).trans h1, h2⟩
  cases h with
  | @absent _ p h1 h2 h3 h4 =>
    refine .absent (fun x hx => (hs x ?_).trans (h1 x hx)) (fun q hq => ?_) h3 (habs p h3 h4)
    · cases op <;> simp only [declares, Option.some.injEq, reduceCtorEq] at hx <;> subst hx <;> exact hw ⟨_, []⟩ (by simp [touches])
    · rcases h2 q hq with h | h
      · exact Or.inl (hg q hq ▸ h)
      · exact Or.inr (habs q hq h)
  | emplaceBack h1 h2 h3 => exact .emplaceBack ((hg _ (by simp [places])).trans h1) h2 (by rw [hg _ (by simp [places])]; exact h3)
  | erasePos h1 h2 => exact .erasePos ((hg _ (by simp [places])).trans h1) h2
  | index h1 h2 => exact .index ((hg _ (by simp [places])).trans h1) h2
  | emplaceKey h1 h2 h3 => exact .emplaceKey ((hg _ (by simp [places])).trans h1) h2 (by rw [hg _ (by simp [places])]; exact h3)
  | eraseKey h1 h2 => exact .eraseKey ((hg _ (by simp [places])).trans h1) h2
  | append h1 h2 h3 => exact .append ((hg _ (by simp [places])).trans h1) h2 ((hg _ (by simp [places])).trans h3)
  | appendNone h1 h2 h3 => exact .appendNone (by rw [hg _ (by simp [places])]; exact h1) ((hg _ (by simp [places])).trans h2) h3
  | merge h1 h2 h3 => exact .merge ((hg _ (by simp [places])).trans h1) h2 ((hg _ (by simp [places])).trans h3)
  | mergeNone h1 h2 h3 => exact .mergeNone (by rw [hg _ (by simp [places])]; exact h1) ((hg _ (by simp [places])).trans h2) h3
  | asArray h1 h2 => exact .asArray ((hg _ (by simp [places])).trans h1) h2
  | asObject h1 h2 => exact .asObject ((hg _ (by simp [places])).trans h1) h2
  | emplaceBackMove h1 h2 h3 => exact .emplaceBackMove ((hg _ (by simp [places])).trans h1) h2 (by rw [hg _ (by simp [places])]; exact h3)
  | emplaceKeyMove h1 h2 h3 => exact .emplaceKeyMove ((hg _ (by simp [places])).trans h1) h2 (by rw [hg _ (by simp [places])]; exact h3)
  | appendMove h1 h2 h3 => exact .appendMove ((hg _ (by simp [places])).trans h1) h2 ((hg _ (by simp [places])).trans h3)
  | appendMoveNone h1 h2 h3 => exact .appendMoveNone (by rw [hg _ (by simp [places])]; exact h1) ((hg _ (by simp [places])).trans h2) h3
  | mergeMove h1 h2 h3 => exact .mergeMove ((hg _ (by simp [places])).trans h1) h2 ((hg _ (by simp [places])).trans h3)
  | mergeMoveNone h1 h2 h3 => exact .mergeMoveNone (by rw [hg _ (by simp [places])]; exact h1) ((hg _ (by simp [places])).trans h2) h3

end

theorem steps_same {P : Nat → Prop} : ∀ {ops : List Op} {σ τ σ' : Store}, Steps σ ops σ' → (∀ op ∈ ops, ∀ x ∈ uses op, P x) → Same P σ τ →
    ∃ τ', Steps τ ops τ' ∧ Same P σ' τ'
  | _, _, _, _, .nil, _, hs => ⟨_, .nil, hs⟩
  | _, _, _, _, .cons h1 h2, hP, hs => by
    obtain ⟨τ1, h3, h4⟩ := step_same h1 (hP _ (by simp)) hs
    obtain ⟨τ2, h5, h6⟩ := steps_same h2 (fun op h => hP op (by simp [h])) h4
    exact ⟨τ2, .cons h3 h5, h6⟩
  | _, _, _, _, .refused h1 h2, hP, hs => by
    obtain ⟨τ2, h5, h6⟩ := steps_same h2 (fun op h => hP op (by simp [h])) hs
    exact ⟨τ2, .refused (refused_same h1 (hP _ (by simp)) hs) h5, h6⟩

theorem thread_cons_same (i : Nat) (op : Op) (rest : List (Nat × Op)) : thread i ((i, op) :: rest) = op :: thread i rest := by simp [thread]
theorem thread_cons_other {i j : Nat} (h : j ≠ i) (op : Op) (rest : List (Nat × Op)) : thread i ((j, op) :: rest) = thread i rest := by simp [thread, h]

theorem mem_thread {i : Nat} {op : Op} {sched : List (Nat × Op)} (h : op ∈ thread i sched) : (i, op) ∈ sched := by
  simp only [thread, List.mem_map, List.mem_filter, decide_eq_true_eq] at h
  obtain ⟨⟨j, o⟩, ⟨h1, h2⟩, rfl⟩ := h
  exact h2 ▸ h1

theorem schedules : ∀ (sched : List (Nat × Op)) (σ : Store) (τ : Nat → Store),
    (∀ i o1 j o2, (i, o1) ∈ sched → (j, o2) ∈ sched → i ≠ j → NoConflict o1 o2) → (∀ i, Steps σ (thread i sched) (τ i)) →
    ∃ σ', Steps σ (sched.map (·.2)) σ' ∧ ∀ i x, (∀ j o, (j, o) ∈ sched → j ≠ i → x ∉ writes o) → σ' x = τ i x
  | [], σ, τ, _, h => ⟨σ, .nil, fun i x _ => by have := h i; simp only [thread, List.filter_nil, List.map_nil] at this; cases this; rfl⟩
  | (i, op) :: rest, σ, τ, hn, h => by
    have hi := h i
    rw [thread_cons_same] at hi
    have hn' : ∀ i o1 j o2, (i, o1) ∈ rest → (j, o2) ∈ rest → i ≠ j → NoConflict o1 o2 :=
      fun i o1 j o2 h1 h2 => hn i o1 j o2 (by simp [h1]) (by simp [h2])
    -- The store after the first statement, which differs only in what the statement writes.
    have key : ∀ σ1, (∀ x, x ∉ writes op → σ1 x = σ x) → Steps σ1 (thread i rest) (τ i) →
        ∃ σ', Steps σ1 (rest.map (·.2)) σ' ∧ ∀ j x, (∀ k o, (k, o) ∈ (i, op) :: rest → k ≠ j → x ∉ writes o) → σ' x = τ j x := by
      intro σ1 hfr hst
      have hτ : ∀ j, ∃ τ', Steps σ1 (thread j rest) τ' ∧ (j = i → τ' = τ i) ∧ (j ≠ i → ∀ x, x ∉ writes op → τ' x = τ j x) := by
        intro j
        by_cases hj : j = i
        · subst hj; exact ⟨_, hst, fun _ => rfl, fun h => absurd rfl h⟩
        · have hsj := h j
          rw [thread_cons_other (fun e => hj e.symm)] at hsj
          obtain ⟨τ', h1, h2⟩ := steps_same (P := fun x => x ∉ writes op) hsj (fun o ho x hx hw => by
            exact (hn i op j o (by simp) (by simp [mem_thread ho]) (fun e => hj e.symm)).1 x hw hx) (fun x hx => hfr x hx)
          exact ⟨τ', h1, fun e => absurd e hj, fun _ x hx => h2 x hx⟩
      obtain ⟨σ', h1, h2⟩ := schedules rest σ1 (fun j => Classical.choose (hτ j)) hn' fun j => (Classical.choose_spec (hτ j)).1
      refine ⟨σ', h1, fun j x hx => ?_⟩
      rw [h2 j x fun k o hk => hx k o (by simp [hk])]
      obtain ⟨_, a, c⟩ := Classical.choose_spec (hτ j)
      by_cases hj : j = i
      · rw [a hj, hj]
      · exact c hj x (hx i op (by simp) fun e => hj e.symm)
    cases hi with
    | cons h1 h2 =>
      obtain ⟨σ', h3, h4⟩ := key _ (step_frame h1) h2
      exact ⟨σ', .cons h1 h3, h4⟩
    | refused h1 h2 =>
      obtain ⟨σ', h3, h4⟩ := key _ (fun _ _ => rfl) h2
      exact ⟨σ', .refused h1 h3, h4⟩

/-! ### What belongs to a variable -/

mutual
theorem Rep.closed {h : Cells} : ∀ {v : Value} {x : HVal} {A : List Nat}, Rep h v x A →
    (∀ a, pointer x = some a → a ∈ A) ∧ ∀ b ∈ A, ∀ c, h b = some c → ∀ w ∈ c.children, ∀ a, pointer w = some a → a ∈ A
  | .str _ _, _, _, ⟨e1, e2⟩ => by subst e1 e2; simp [pointer]
  | .arrNull _, _, _, ⟨e1, e2⟩ => by subst e1 e2; simp [pointer]
  | .objNull _, _, _, ⟨e1, e2⟩ => by subst e1 e2; simp [pointer]
  | .arr _ _, _, _, ⟨a, xs, B, e1, e2, e3, e4⟩ => by
    subst e1 e4
    obtain ⟨h1, h2⟩ := RepL.closed e3
    refine ⟨fun b hb => by simp [pointer] at hb; simp [hb], fun b hb c hc w hw d hd => List.mem_cons_of_mem _ ?_⟩
    rcases List.mem_cons.1 hb with rfl | hb
    · rw [e2] at hc; cases hc; exact h1 w hw d hd
    · exact h2 b hb c hc w hw d hd
  | .obj _ _, _, _, ⟨a, xs, B, e1, e2, e3, e4⟩ => by
    subst e1 e4
    obtain ⟨h1, h2⟩ := RepM.closed e3
    refine ⟨fun b hb => by simp [pointer] at hb; simp [hb], fun b hb c hc w hw d hd => List.mem_cons_of_mem _ ?_⟩
    rcases List.mem_cons.1 hb with rfl | hb
    · rw [e2] at hc; cases hc; exact h1 w hw d hd
    · exact h2 b hb c hc w hw d hd
theorem RepL.closed {h : Cells} : ∀ {vs : List Value} {xs : List HVal} {A : List Nat}, RepL h vs xs A →
    (∀ x ∈ xs, ∀ a, pointer x = some a → a ∈ A) ∧ ∀ b ∈ A, ∀ c, h b = some c → ∀ w ∈ c.children, ∀ a, pointer w = some a → a ∈ A
  | [], _, _, ⟨e1, e2⟩ => by subst e1 e2; simp
  | _ :: _, _, _, ⟨x, xs', B, C, e1, e2, e3, e4⟩ => by
    subst e1 e4
    obtain ⟨h1, h2⟩ := Rep.closed e2
    obtain ⟨h3, h4⟩ := RepL.closed e3
    refine ⟨fun y hy a ha => List.mem_append.2 ?_, fun b hb c hc w hw d hd => List.mem_append.2 ?_⟩
    · rcases List.mem_cons.1 hy with rfl | hy
      · exact Or.inl (h1 a ha)
      · exact Or.inr (h3 y hy a ha)
    · exact (List.mem_append.1 hb).imp (fun hb => h2 b hb c hc w hw d hd) fun hb => h4 b hb c hc w hw d hd
theorem RepM.closed {h : Cells} : ∀ {vs : List (Bytes × Value)} {xs : List (Bytes × HVal)} {A : List Nat}, RepM h vs xs A →
    (∀ x ∈ xs.map (·.2), ∀ a, pointer x = some a → a ∈ A) ∧ ∀ b ∈ A, ∀ c, h b = some c → ∀ w ∈ c.children, ∀ a, pointer w = some a → a ∈ A
  | [], _, _, ⟨e1, e2⟩ => by subst e1 e2; simp
  | (_, _) :: _, _, _, ⟨x, xs', B, C, e1, e2, e3, e4⟩ => by
    subst e1 e4
    obtain ⟨h1, h2⟩ := Rep.closed e2
    obtain ⟨h3, h4⟩ := RepM.closed e3
    refine ⟨fun y hy a ha => List.mem_append.2 ?_, fun b hb c hc w hw d hd => List.mem_append.2 ?_⟩
    · rcases List.mem_cons.1 hy with rfl | hy
      · exact Or.inl (h1 a ha)
      · exact Or.inr (h3 y hy a ha)
    · exact (List.mem_append.1 hb).imp (fun hb => h2 b hb c hc w hw d hd) fun hb => h4 b hb c hc w hw d hd
end

theorem SRep.owns {st : State} {σ : Store} {E : List Nat} {F : Nat → List Nat} (H : SRep st σ E F) {x a : Nat} (h : Owns st x a) : a ∈ F x := by
  have hx : ∃ v, σ x = some v := by
    cases e : σ x with
    | some v => exact ⟨v, rfl⟩
    | none =>
      have := (H.absent x e).1
      clear H
      induction h with
      | root e2 _ => rw [this] at e2; cases e2
      | child _ _ _ _ ih => exact ih
  obtain ⟨v, hv⟩ := hx
  obtain ⟨w, hw, hr⟩ := H.rep x v hv
  obtain ⟨h1, h2⟩ := hr.closed
  induction h with
  | root e p => rw [hw] at e; cases e; exact h1 _ p
  | child _ e m p ih => exact h2 _ ih _ e _ m _ p

end Meojson.Mem
