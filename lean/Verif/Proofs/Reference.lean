import Verif.Model.Reference
import Verif.Spec.Reference
import Verif.Proofs.HeapRun

/-! References and the locations they designate; what single writes, allocations and deallocations leave of them. -/

set_option autoImplicit false

namespace Meojson.Mem
open Stores

section
variable {st st' : State}

theorem slot_read {r : Ref} {l : Loc} (h : st.slot r = some l) : ∃ v, st.read l = some v := by
  cases r with
  | var x =>
    simp only [State.slot] at h
    split at h
    · next hx => cases h; exact Option.isSome_iff_exists.1 hx
    · cases h
  | elem a i =>
    simp only [State.slot] at h
    split at h
    · next vs hc =>
      split at h
      · next hi => cases h; exact ⟨vs[i], by simp [State.read, hc, Cell.children, hi]⟩
      · cases h
    · cases h
  | member a k =>
    simp only [State.slot] at h
    split at h
    · next ms hc =>
      obtain ⟨i, hi, rfl⟩ := Option.map_eq_some_iff.1 h
      have := keyIndex_lt hi
      exact ⟨ms[i].2, by simp [State.read, hc, Cell.children, this]⟩
    · cases h

theorem deref_slot {r : Ref} {v : HVal} (h : st.deref r = some v) : ∃ l, st.slot r = some l ∧ st.read l = some v := Option.bind_eq_some_iff.1 h

theorem deref_of {r : Ref} {l : Loc} (h : st.slot r = some l) : st.deref r = st.read l := by rw [State.deref, h]; rfl

/-- The key at the index of a key. -/
theorem keyIndex_key {k : Bytes} : ∀ {ms : List (Bytes × HVal)} {i : Nat}, keyIndex k ms = some i → (ms[i]?).map (·.1) = some k
  | [], _, h => by simp [keyIndex] at h
  | (k', v) :: ms, i, h => by
    simp only [keyIndex] at h
    rcases bytesLt_cases k k' with ⟨h1, h2, h3⟩ | ⟨rfl, h1, h2⟩ | ⟨h1, h2, h3⟩
    · simp [h1] at h
    · simp [h1] at h; subst h; rfl
    · simp only [h1, h2, if_true, Bool.false_eq_true, if_false] at h
      obtain ⟨j, hj, rfl⟩ := Option.map_eq_some_iff.1 h
      simpa using keyIndex_key hj

/-- Different references designate different locations. -/
theorem slot_inj {r r' : Ref} {l : Loc} (h : st.slot r = some l) (h' : st.slot r' = some l) : r = r' := by
  cases r with
  | var x =>
    simp only [State.slot] at h
    split at h <;> cases h
    cases r' with
    | var y => simp only [State.slot] at h'; split at h' <;> cases h'; rfl
    | elem a i =>
      simp only [State.slot] at h'; split at h'
      · split at h' <;> cases h'
      · cases h'
    | member a k =>
      simp only [State.slot] at h'; split at h'
      · obtain ⟨i, hi, e⟩ := Option.map_eq_some_iff.1 h'; cases e
      · cases h'
  | elem a i =>
    simp only [State.slot] at h
    split at h
    · next vs hc =>
      split at h <;> cases h
      cases r' with
      | var y => simp only [State.slot] at h'; split at h' <;> cases h'
      | elem b j =>
        simp only [State.slot] at h'; split at h'
        · split at h' <;> cases h'; rfl
        · cases h'
      | member b k =>
        simp only [State.slot] at h'; split at h'
        · next hc' => obtain ⟨j, hj, e⟩ := Option.map_eq_some_iff.1 h'; cases e; rw [hc] at hc'; cases hc'
        · cases h'
    · cases h
  | member a k =>
    simp only [State.slot] at h
    split at h
    · next ms hc =>
      obtain ⟨i, hi, rfl⟩ := Option.map_eq_some_iff.1 h
      cases r' with
      | var y => simp only [State.slot] at h'; split at h' <;> cases h'
      | elem b j =>
        simp only [State.slot] at h'
        split at h'
        · next hc' => split at h' <;> cases h'; rw [hc] at hc'; cases hc'
        · cases h'
      | member b k' =>
        simp only [State.slot] at h'; split at h'
        · next hc' =>
          obtain ⟨j, hj, e⟩ := Option.map_eq_some_iff.1 h'; cases e
          rw [hc] at hc'; cases hc'
          have h1 := keyIndex_key hi
          rw [keyIndex_key hj] at h1
          cases h1; rfl
        · cases h'
    · cases h

/-- The cell of a reference is that of its location. -/
theorem slot_cell {r : Ref} {l : Loc} (h : st.slot r = some l) {A : List Addr} : l.In A ↔ ∃ a, r.cell = some a ∧ a ∈ A := by
  cases r with
  | var x =>
    simp only [State.slot] at h; split at h <;> cases h
    simp [Loc.In, Ref.cell]
  | elem a i =>
    simp only [State.slot] at h; split at h
    · split at h <;> cases h
      simp [Loc.In, Ref.cell]
    · cases h
  | member a k =>
    simp only [State.slot] at h; split at h
    · obtain ⟨i, hi, rfl⟩ := Option.map_eq_some_iff.1 h
      simp [Loc.In, Ref.cell]
    · cases h

/-- One step of a path, as a location and as a reference. -/
theorem part_under (st : State) (v : HVal) (s : Sel) : st.part v s = (v.under s).bind st.slot := by
  obtain ⟨t, r⟩ := v
  cases s with
  | pos i =>
    simp only [State.part, HVal.under]
    split <;> simp_all [State.slot] <;> rfl
  | key k =>
    simp only [State.part, HVal.under]
    split <;> simp_all [State.slot] <;> rfl

theorem follow_locate : ∀ {path : List Sel} {r : Ref} {l : Loc}, st.slot r = some l → st.locate l path = (st.follow r path).bind st.slot
  | [], r, l, h => by
    obtain ⟨v, hv⟩ := slot_read h
    simp [State.locate, State.follow, deref_of h, hv, h]
  | s :: path, r, l, h => by
    simp only [State.locate, State.follow, deref_of h]
    cases st.read l with
    | none => rfl
    | some v =>
      simp only [Option.bind_some, part_under]
      cases v.under s with
      | none => rfl
      | some r' =>
        simp only [Option.bind_some]
        cases hr : st.slot r' with
        | some l' => simp only [Option.bind_some]; exact follow_locate hr
        | none =>
          cases path with
          | nil => simp [State.follow, State.deref, hr]
          | cons => simp [State.follow, State.deref, hr]

theorem follow_slot : ∀ {path : List Sel} {r r' : Ref}, st.follow r path = some r' → ∃ l, st.slot r' = some l
  | [], r, r', h => by
    simp only [State.follow] at h
    split at h
    · next hd => cases h; obtain ⟨v, hv⟩ := Option.isSome_iff_exists.1 hd; obtain ⟨l, hl, _⟩ := deref_slot hv; exact ⟨l, hl⟩
    · cases h
  | s :: path, r, r', h => by
    simp only [State.follow] at h
    obtain ⟨v, _, h⟩ := Option.bind_eq_some_iff.1 h
    obtain ⟨r1, _, h⟩ := Option.bind_eq_some_iff.1 h
    exact follow_slot h

/-- A place and the reference to it. -/
theorem refer_resolve {p : Place} {l : Loc} (h : st.resolve p = some l) : ∃ r, st.refer p = some r ∧ st.slot r = some l := by
  simp only [State.resolve, State.read] at h
  obtain ⟨v, hv, h⟩ := Option.bind_eq_some_iff.1 h
  rw [follow_locate (r := .var p.x) (by simp [State.slot, hv])] at h
  exact Option.bind_eq_some_iff.1 h

theorem resolve_refer {p : Place} {r : Ref} {l : Loc} (h : st.refer p = some r) (hl : st.slot r = some l) : st.resolve p = some l := by
  have : ∃ v, st.var p.x = some v := by
    cases hx : st.var p.x with
    | some v => exact ⟨v, rfl⟩
    | none =>
      exfalso
      have hd : st.deref (.var p.x) = none := by simp [State.deref, State.slot, hx]
      obtain ⟨x, path⟩ := p
      cases path <;> simp [State.refer, State.follow] at h <;> rw [hd] at h <;> simp at h
  obtain ⟨v, hv⟩ := this
  simp only [State.resolve, State.read, hv, Option.bind_some]
  rw [follow_locate (r := .var p.x) (by simp [State.slot, hv])]
  exact Option.bind_eq_some_iff.2 ⟨r, h, hl⟩

theorem follow_append : ∀ {p q : List Sel} {r : Ref}, st.follow r (p ++ q) = (st.follow r p).bind (st.follow · q)
  | [], q, r => by
    simp only [List.nil_append, State.follow]
    cases hd : st.deref r with
    | some v => simp
    | none => cases q <;> simp [State.follow, hd]
  | s :: p, q, r => by
    simp only [List.cons_append, State.follow]
    cases st.deref r with
    | none => rfl
    | some v =>
      simp only [Option.bind_some]
      cases v.under s with
      | none => rfl
      | some r' => simp only [Option.bind_some]; exact follow_append

theorem refer_below {p : Place} {q : List Sel} : st.refer (Place.below p q) = (st.refer p).bind (st.follow · q) := follow_append

/-! ### What references designate after a change -/

/-- The cell of a reference is an old one. -/
def Ref.old (r : Ref) (n : Nat) : Prop := ∀ a, r.cell = some a → a < n

theorem Ref.old.mono {r : Ref} {n m : Nat} (h : r.old n) (hm : n ≤ m) : r.old m := fun a ha => Nat.lt_of_lt_of_le (h a ha) hm

theorem deref_old (cl : st.heap.Clean) {r : Ref} {v : HVal} (hd : st.deref r = some v) : r.old st.heap.next := by
  intro a ha
  obtain ⟨l, hl, _⟩ := deref_slot hd
  refine Nat.lt_of_not_le fun hn => ?_
  have hc := cl a hn
  cases r with
  | var x => cases ha
  | elem b i => cases ha; simp [State.slot, hc] at hl
  | member b k => cases ha; simp [State.slot, hc] at hl

/-- The reference designates the location (a variable does so before it is declared, too). -/
def State.hits (st : State) (l : Loc) : Ref → Prop
  | .var x => l = .var x
  | r => st.slot r = some l

theorem hits_of_slot {r : Ref} {l : Loc} (h : st.slot r = some l) : st.hits l r := by
  cases r with
  | var x => simp only [State.slot] at h; split at h <;> cases h; rfl
  | elem => exact h
  | member => exact h

theorem hits_slot {r : Ref} {l l' : Loc} (h : st.hits l r) (h' : st.slot r = some l') : l' = l := by
  cases r with
  | var x => simp only [State.slot] at h'; split at h' <;> cases h'; exact h.symm
  | elem => rw [show st.slot _ = _ from h] at h'; cases h'; rfl
  | member => rw [show st.slot _ = _ from h] at h'; cases h'; rfl

theorem hits_unique {r : Ref} {l l' : Loc} (h : st.hits l r) (h' : st.hits l' r) : l = l' := by
  cases r with
  | var x => exact Eq.trans (show l = _ from h) (show l' = _ from h').symm
  | elem => exact Option.some.inj (h.symm.trans h')
  | member => exact Option.some.inj (h.symm.trans h')

/-- After the change, an old reference that is not in `S` designates the object that it designated before, or nothing. -/
def Back (st st' : State) (S : Ref → Prop) : Prop :=
  st.heap.next ≤ st'.heap.next ∧ ∀ r v, r.old st.heap.next → ¬ S r → st'.deref r = some v → st.deref r = some v

theorem Back.refl (st : State) {S : Ref → Prop} : Back st st S := ⟨Nat.le_refl _, fun _ _ _ _ h => h⟩

theorem Back.mono {S S' : Ref → Prop} (h : Back st st' S) (hS : ∀ r, r.old st.heap.next → S r → S' r) : Back st st' S' :=
  ⟨h.1, fun r v ho hn hd => h.2 r v ho (fun h => hn (hS r ho h)) hd⟩

theorem Back.trans {st1 st2 st3 : State} {S1 S2 S : Ref → Prop} (h1 : Back st1 st2 S1) (h2 : Back st2 st3 S2) (hS1 : ∀ r, r.old st1.heap.next → S1 r → S r)
    (hS2 : ∀ r, r.old st1.heap.next → S2 r → S r) : Back st1 st3 S :=
  ⟨Nat.le_trans h1.1 h2.1, fun r v ho hn hd => h1.2 r v ho (fun h => hn (hS1 r ho h)) (h2.2 r v (ho.mono h1.1) (fun h => hn (hS2 r ho h)) hd)⟩

/-- The same path leads to the same place, if it leads anywhere and nothing on the way was changed. -/
theorem Back.follow {S : Ref → Prop} (h : Back st st' S) (cl : st.heap.Clean) : ∀ {path : List Sel} {r r1 r2 : Ref},
    (∀ pre c post r0, path = pre ++ c :: post → st.follow r pre = some r0 → ¬ S r0) → st.follow r path = some r1 → st'.follow r path = some r2 → r2 = r1
  | [], r, r1, r2, _, h1, h2 => by
    simp only [State.follow] at h1 h2
    split at h1 <;> cases h1
    split at h2 <;> cases h2
    rfl
  | c :: path, r, r1, r2, hp, h1, h2 => by
    simp only [State.follow] at h1 h2
    obtain ⟨v, hv, h1⟩ := Option.bind_eq_some_iff.1 h1
    obtain ⟨v', hv', h2⟩ := Option.bind_eq_some_iff.1 h2
    have := h.2 r v' (deref_old cl hv) (hp [] c path r rfl (by simp [State.follow, hv])) hv'
    rw [hv] at this; cases this
    obtain ⟨r3, hu, h1⟩ := Option.bind_eq_some_iff.1 h1
    rw [hu] at h2
    refine h.follow cl (fun pre c' post r0 e hr0 => hp (c :: pre) c' post r0 (by rw [e]; rfl) ?_) h1 h2
    simp [State.follow, hv, hu, hr0]

/-! ### Single changes -/

theorem deref_var (st : State) (x : Nat) : st.deref (.var x) = st.var x := by
  simp only [State.deref, State.slot]
  cases h : st.var x <;> simp [State.read, h]

theorem deref_elem {a : Addr} {vs : List HVal} (h : st.heap.cell a = some (.arr vs)) (i : Nat) : st.deref (.elem a i) = vs[i]? := by
  simp only [State.deref, State.slot, h]
  split
  · next hi => simp [State.read, h, Cell.children]
  · next hi => simp [Nat.le_of_not_lt hi]

theorem find_keyIndex {k : Bytes} : ∀ {ms : List (Bytes × HVal)}, (keyIndex k ms).bind (fun i => (ms[i]?).map (·.2)) = RawObject.find k ms
  | [] => rfl
  | (k', v) :: ms => by
    simp only [keyIndex, RawObject.find]
    split
    · rfl
    · split
      · rw [← find_keyIndex (ms := ms)]; cases keyIndex k ms <;> rfl
      · rfl

theorem deref_member {a : Addr} {ms : List (Bytes × HVal)} (h : st.heap.cell a = some (.obj ms)) (k : Bytes) : st.deref (.member a k) = RawObject.find k ms := by
  simp only [State.deref, State.slot, h, ← find_keyIndex]
  cases keyIndex k ms with
  | none => rfl
  | some i => simp [State.read, h, Cell.children]

theorem deref_none {a : Addr} (h : st.heap.cell a = none) {r : Ref} (hr : r.cell = some a) : st.deref r = none := by
  cases r with
  | var x => cases hr
  | elem b i => cases hr; simp [State.deref, State.slot, h]
  | member b k => cases hr; simp [State.deref, State.slot, h]

theorem elem_of {a : Addr} {vs : List HVal} (h : st.heap.cell a = some (.arr vs)) {r : Ref} {v : HVal} (hr : r.cell = some a) (hd : st.deref r = some v) :
    ∃ i, r = .elem a i ∧ vs[i]? = some v := by
  cases r with
  | var x => cases hr
  | elem b i => cases hr; rw [deref_elem h] at hd; exact ⟨i, rfl, hd⟩
  | member b k => cases hr; simp [State.deref, State.slot, h] at hd

theorem member_of {a : Addr} {ms : List (Bytes × HVal)} (h : st.heap.cell a = some (.obj ms)) {r : Ref} {v : HVal} (hr : r.cell = some a) (hd : st.deref r = some v) :
    ∃ k, r = .member a k ∧ RawObject.find k ms = some v := by
  cases r with
  | var x => cases hr
  | member b k => cases hr; rw [deref_member h] at hd; exact ⟨k, rfl, hd⟩
  | elem b k => cases hr; simp [State.deref, State.slot, h] at hd

theorem slot_cells {r : Ref} {a : Addr} (hr : r.cell = some a) (hc : st'.heap.cell a = st.heap.cell a) : st'.slot r = st.slot r := by
  cases r with
  | var x => cases hr
  | elem b i => cases hr; simp only [State.slot, hc]
  | member b i => cases hr; simp only [State.slot, hc]

theorem deref_cells {r : Ref} {a : Addr} (hr : r.cell = some a) (hc : st'.heap.cell a = st.heap.cell a) : st'.deref r = st.deref r := by
  rw [State.deref, State.deref, slot_cells hr hc]
  cases hs : st.slot r with
  | none => rfl
  | some l =>
    obtain ⟨b, i, rfl, hb⟩ := (slot_cell hs (A := [a])).2 ⟨a, hr, by simp⟩
    obtain rfl : b = a := by simpa using hb
    simp [State.read, hc]

/-- Cells are added and freed, and nothing else happens. -/
def Shrinks (st st' : State) : Prop :=
  st'.var = st.var ∧ st.heap.next ≤ st'.heap.next ∧ ∀ a, a < st.heap.next → st'.heap.cell a = st.heap.cell a ∨ st'.heap.cell a = none

theorem Shrinks.refl (st : State) : Shrinks st st := ⟨rfl, Nat.le_refl _, fun _ _ => .inl rfl⟩

theorem Shrinks.trans {st1 st2 st3 : State} (h1 : Shrinks st1 st2) (h2 : Shrinks st2 st3) : Shrinks st1 st3 :=
  ⟨h2.1.trans h1.1, Nat.le_trans h1.2.1 h2.2.1, fun a ha => by
    rcases h2.2.2 a (Nat.lt_of_lt_of_le ha h1.2.1) with h | h
    · rw [h]; exact h1.2.2 a ha
    · exact .inr h⟩

theorem Shrinks.deref (h : Shrinks st st') {r : Ref} (ho : r.old st.heap.next) {v : HVal} (hd : st'.deref r = some v) : st.deref r = some v := by
  cases hr : r.cell with
  | none =>
    cases r with
    | var x => rw [deref_var] at hd ⊢; rw [← h.1]; exact hd
    | elem => cases hr
    | member => cases hr
  | some a =>
    rcases h.2.2 a (ho a hr) with hc | hc
    · rw [← deref_cells hr hc]; exact hd
    · rw [deref_none hc hr] at hd; cases hd

theorem Shrinks.back (h : Shrinks st st') : Back st st' fun _ => False := ⟨h.2.1, fun _ _ ho _ hd => h.deref ho hd⟩

theorem Shrinks.hits (h : Shrinks st st') {l : Loc} {r : Ref} (ho : r.old st.heap.next) (hh : st'.hits l r) : st.hits l r := by
  cases r with
  | var x => exact hh
  | elem a i =>
    rcases h.2.2 a (ho a rfl) with hc | hc
    · have := slot_cells (r := .elem a i) rfl hc; exact this.symm.trans hh
    · simp [State.hits, State.slot, hc] at hh
  | member a k =>
    rcases h.2.2 a (ho a rfl) with hc | hc
    · have := slot_cells (r := .member a k) rfl hc; exact this.symm.trans hh
    · simp [State.hits, State.slot, hc] at hh

/-- Writing changes no slots. -/
theorem slot_write (st : State) (l : Loc) (v : HVal) {r : Ref} {a : Addr} (hr : r.cell = some a) : (st.write l v).slot r = st.slot r := by
  cases l with
  | var y => exact slot_cells hr rfl
  | child b j =>
    by_cases e : a = b
    · subst e
      cases r with
      | var x => cases hr
      | elem c i =>
        cases hr
        simp only [State.slot, State.write, Heap.set, if_true]
        cases st.heap.cell a with
        | none => rfl
        | some c => cases c <;> simp [Cell.setChild]
      | member c k =>
        cases hr
        simp only [State.slot, State.write, Heap.set, if_true]
        cases st.heap.cell a with
        | none => rfl
        | some c =>
          cases c with
          | arr vs => simp [Cell.setChild]
          | obj ms =>
            simp only [Option.map_some, Cell.setChild]
            rw [keyIndex_congr (ys := ms)]
            apply List.ext_getElem?
            intro n
            simp only [List.getElem?_map, List.getElem?_modify]
            by_cases hjn : j = n <;> simp [hjn]
            cases ms[n]? <;> rfl
    · exact slot_cells hr (by simp [State.write, Heap.set, e])

theorem hits_write (st : State) (l l' : Loc) (v : HVal) {r : Ref} : (st.write l v).hits l' r ↔ st.hits l' r := by
  cases r with
  | var x => exact Iff.rfl
  | elem a i => simp only [State.hits]; rw [slot_write st l v (a := a) rfl]
  | member a k => simp only [State.hits]; rw [slot_write st l v (a := a) rfl]

theorem Back.write (st : State) (l : Loc) (v : HVal) : Back st (st.write l v) (st.hits l) := by
  refine ⟨by rw [write_next]; exact Nat.le_refl _, fun r u _ hn hd => ?_⟩
  cases r with
  | var x =>
    rw [deref_var] at hd ⊢
    rw [write_var_other fun e => hn e] at hd
    exact hd
  | elem a i =>
    obtain ⟨l', hl', hv'⟩ := deref_slot hd
    rw [slot_write st l v (a := a) rfl] at hl'
    rw [deref_of hl']
    rw [read_write_other fun e => hn (by rw [e]; exact hl')] at hv'
    exact hv'
  | member a k =>
    obtain ⟨l', hl', hv'⟩ := deref_slot hd
    rw [slot_write st l v (a := a) rfl] at hl'
    rw [deref_of hl']
    rw [read_write_other fun e => hn (by rw [e]; exact hl')] at hv'
    exact hv'

theorem write_deref {l : Loc} {v u : HVal} {r : Ref} (h : st.hits l r) (hd : (st.write l v).deref r = some u) : u = v := by
  cases r with
  | var x =>
    rw [deref_var, show l = .var x from h] at hd
    simpa [State.write] using hd.symm
  | elem a i =>
    obtain ⟨w, hw⟩ := slot_read (show st.slot _ = _ from h)
    rw [deref_of ((slot_write st l v (a := a) rfl).trans h), read_write_same hw] at hd
    exact (Option.some.inj hd).symm
  | member a k =>
    obtain ⟨w, hw⟩ := slot_read (show st.slot _ = _ from h)
    rw [deref_of ((slot_write st l v (a := a) rfl).trans h), read_write_same hw] at hd
    exact (Option.some.inj hd).symm

/-- A change of one cell. -/
theorem Back.cell {a : Addr} {c : Option Cell} {S : Ref → Prop}
    (h : ∀ r v, r.cell = some a → ¬ S r → (st.withHeap (st.heap.set a c)).deref r = some v → st.deref r = some v) :
    Back st (st.withHeap (st.heap.set a c)) S := by
  refine ⟨Nat.le_refl _, fun r v _ hn hd => ?_⟩
  cases hr : r.cell with
  | none =>
    cases r with
    | var x => rw [deref_var] at hd ⊢; exact hd
    | elem => cases hr
    | member => cases hr
  | some b =>
    by_cases e : b = a
    · subst e; exact h r v hr hn hd
    · rw [deref_cells (st := st) hr (by simp [State.withHeap, Heap.set, e])] at hd; exact hd

theorem cell_set (st : State) (a : Addr) (c : Option Cell) : (st.withHeap (st.heap.set a c)).heap.cell a = c := if_pos rfl

theorem Back.push {a : Addr} {vs : List HVal} (h : st.heap.cell a = some (.arr vs)) (ws : List HVal) :
    Back st (st.withHeap (st.heap.set a (some (.arr (vs ++ ws))))) fun r => ∃ i, vs.length ≤ i ∧ r = .elem a i := by
  refine Back.cell fun r v hr hn hd => ?_
  obtain ⟨i, rfl, hi⟩ := elem_of (cell_set ..) hr hd
  have : i < vs.length := Nat.lt_of_not_le fun hle => hn ⟨i, hle, rfl⟩
  rw [deref_elem h, ← List.getElem?_append_left this, hi]

theorem find_none_of_keyIndex {k : Bytes} {ms : List (Bytes × HVal)} (h : keyIndex k ms = none) : RawObject.find k ms = none := by
  rw [← find_keyIndex, h]; rfl

theorem Back.insert {a : Addr} {ms : List (Bytes × HVal)} (h : st.heap.cell a = some (.obj ms)) (k : Bytes) (w : HVal) :
    Back st (st.withHeap (st.heap.set a (some (.obj (RawObject.emplace k w ms).1)))) (· = .member a k) := by
  refine Back.cell fun r v hr hn hd => ?_
  obtain ⟨k', rfl, hi⟩ := member_of (cell_set ..) hr hd
  have hne : k' ≠ k := fun e => hn (by rw [e])
  rw [RawObject.find_emplace, if_neg hne] at hi
  rw [deref_member h, hi]

theorem Back.erase {a : Addr} {ms : List (Bytes × HVal)} (h : st.heap.cell a = some (.obj ms)) (hs : RawObject.Sorted ms) (k : Bytes) :
    Back st (st.withHeap (st.heap.set a (some (.obj (RawObject.erase k ms).1)))) fun _ => False := by
  refine Back.cell fun r v hr _ hd => ?_
  obtain ⟨k', rfl, hi⟩ := member_of (cell_set ..) hr hd
  rw [RawObject.find_erase hs] at hi
  split at hi
  · cases hi
  · rw [deref_member h, hi]

theorem Back.eraseIdx {a : Addr} {vs : List HVal} (h : st.heap.cell a = some (.arr vs)) (i : Nat) :
    Back st (st.withHeap (st.heap.set a (some (.arr (vs.eraseIdx i))))) fun r => ∃ j, i ≤ j ∧ r = .elem a j := by
  refine Back.cell fun r v hr hn hd => ?_
  obtain ⟨j, rfl, hj⟩ := elem_of (cell_set ..) hr hd
  have : j < i := Nat.lt_of_not_le fun hle => hn ⟨j, hle, rfl⟩
  rw [List.getElem?_eraseIdx, if_pos this] at hj
  rw [deref_elem h, hj]

theorem Back.elems {b : Addr} {zs : List HVal} : Back st (st.withHeap (st.heap.set b (some (.arr zs)))) fun r => ∃ j, r = .elem b j := by
  refine Back.cell fun r v hr hn hd => ?_
  obtain ⟨j, rfl, hj⟩ := elem_of (cell_set ..) hr hd
  exact absurd ⟨j, rfl⟩ hn

theorem Back.declare (x : Nat) (v : HVal) : Back st (st.write (.var x) v) (· = .var x) :=
  (Back.write st (.var x) v).mono fun r _ h => by
    cases r with
    | var y => exact (Loc.var.inj h).symm ▸ rfl
    | elem a i =>
      obtain ⟨b, j, e, _⟩ := (slot_cell (show st.slot _ = _ from h) (A := [a])).2 ⟨a, rfl, by simp⟩; cases e
    | member a i =>
      obtain ⟨b, j, e, _⟩ := (slot_cell (show st.slot _ = _ from h) (A := [a])).2 ⟨a, rfl, by simp⟩; cases e

theorem Back.undeclare (x : Nat) : Back st ⟨st.heap, fun y => if y = x then none else st.var y⟩ fun _ => False := by
  refine ⟨Nat.le_refl _, fun r u _ _ hd => ?_⟩
  cases r with
  | var y =>
    rw [deref_var] at hd ⊢
    simp only at hd
    split at hd
    · cases hd
    · exact hd
  | elem a i => exact (deref_cells (st := st) (st' := ⟨st.heap, fun y => if y = x then none else st.var y⟩) (a := a) rfl rfl).symm.trans hd
  | member a i => exact (deref_cells (st := st) (st' := ⟨st.heap, fun y => if y = x then none else st.var y⟩) (a := a) rfl rfl).symm.trans hd

/-! ### Destroying and copying -/

/-- Cells are added and freed. -/
def Heap.Shrinks (h g : Heap) : Prop := h.next ≤ g.next ∧ ∀ a, a < h.next → g.cell a = h.cell a ∨ g.cell a = none

theorem Heap.Shrinks.refl (h : Heap) : h.Shrinks h := ⟨Nat.le_refl _, fun _ _ => .inl rfl⟩

theorem Heap.Shrinks.trans {h1 h2 h3 : Heap} (e1 : h1.Shrinks h2) (e2 : h2.Shrinks h3) : h1.Shrinks h3 :=
  ⟨Nat.le_trans e1.1 e2.1, fun a ha => by
    rcases e2.2 a (Nat.lt_of_lt_of_le ha e1.1) with h | h
    · rw [h]; exact e1.2 a ha
    · exact .inr h⟩

theorem Heap.Shrinks.free {h g : Heap} (e : h.Shrinks g) (a : Addr) : h.Shrinks (g.set a none) :=
  ⟨e.1, fun b hb => by
    simp only [Heap.set]
    split
    · exact .inr rfl
    · exact e.2 b hb⟩

theorem Heap.Shrinks.fresh {h g : Heap} (e : h.Shrinks g) {a : Addr} (ha : h.next ≤ a) (c : Option Cell) : h.Shrinks (g.set a c) :=
  ⟨e.1, fun b hb => by
    simp only [Heap.set]
    rw [if_neg (by omega)]
    exact e.2 b hb⟩

theorem Heap.Shrinks.bump (h : Heap) : h.Shrinks h.bump := ⟨Nat.le_succ _, fun _ _ => .inl rfl⟩

theorem Heap.Shrinks.state {g : Heap} (h : st.heap.Shrinks g) : Mem.Shrinks st (st.withHeap g) := ⟨rfl, h.1, h.2⟩

theorem destroyList_shrinks {f : Heap → HVal → Option Heap} (hf : ∀ h v g, f h v = some g → h.Shrinks g) :
    ∀ (vs : List HVal) (h g : Heap), destroyList f h vs = some g → h.Shrinks g
  | [], h, g, e => by cases e; exact .refl _
  | v :: vs, h, g, e => by
    obtain ⟨h1, e1, e2⟩ := Option.bind_eq_some_iff.1 e
    exact (hf _ _ _ e1).trans (destroyList_shrinks hf vs h1 g e2)

theorem destroyVal_shrinks : ∀ (n : Nat) (h : Heap) (v : HVal) (g : Heap), destroyVal n h v = some g → h.Shrinks g
  | 0, _, _, _, e => by cases e
  | n + 1, h, v, g, e => by
    simp only [destroyVal] at e
    split at e
    · cases e; exact .refl _
    · cases e; exact .refl _
    · cases e; exact .refl _
    · split at e
      · obtain ⟨h1, e1, e2⟩ := Option.bind_eq_some_iff.1 e
        cases e2
        exact (destroyList_shrinks (destroyVal_shrinks n) _ _ _ e1).free _
      · cases e
    · split at e
      · obtain ⟨h1, e1, e2⟩ := Option.bind_eq_some_iff.1 e
        cases e2
        exact (destroyList_shrinks (destroyVal_shrinks n) _ _ _ e1).free _
      · cases e

/-- Cells are added. -/
def Heap.Grows (h g : Heap) : Prop := h.next ≤ g.next ∧ ∀ a, a < h.next → g.cell a = h.cell a

theorem Heap.Grows.trans {h1 h2 h3 : Heap} (e1 : h1.Grows h2) (e2 : h2.Grows h3) : h1.Grows h3 :=
  ⟨Nat.le_trans e1.1 e2.1, fun a ha => (e2.2 a (Nat.lt_of_lt_of_le ha e1.1)).trans (e1.2 a ha)⟩

theorem Heap.Grows.fresh {h g : Heap} (e : h.Grows g) {a : Addr} (ha : h.next ≤ a) (c : Option Cell) : h.Grows (g.set a c) :=
  ⟨e.1, fun b hb => by
    simp only [Heap.set]
    rw [if_neg (by omega)]
    exact e.2 b hb⟩

theorem Heap.Grows.bump (h : Heap) : h.Grows h.bump := ⟨Nat.le_succ _, fun _ _ => rfl⟩

theorem Heap.Grows.shrinks {h g : Heap} (e : h.Grows g) : h.Shrinks g := ⟨e.1, fun a ha => .inl (e.2 a ha)⟩

theorem copyList_grows {f : Heap → HVal → Copy HVal} (hf : ∀ h v g w, f h v = .ok g w → h.Grows g) :
    ∀ (vs : List HVal) (h g : Heap) (ws : List HVal), copyList f h vs = .ok g ws → h.Grows g
  | [], h, g, ws, e => by cases e; exact ⟨Nat.le_refl _, fun _ _ => rfl⟩
  | v :: vs, h, g, ws, e => by
    simp only [copyList] at e
    split at e
    · cases e
    · cases e
    · next h1 v' e1 =>
      split at e
      · next h2 vs' e2 => cases e; exact (hf _ _ _ _ e1).trans (copyList_grows hf vs _ _ _ e2)
      · cases e
      · split at e <;> cases e

theorem copyVal_grows (oom : Addr → Bool) : ∀ (n : Nat) (h : Heap) (v : HVal) (g : Heap) (w : HVal), copyVal oom n h v = .ok g w → h.Grows g
  | 0, _, _, _, _, e => by cases e
  | n + 1, h, v, g, w, e => by
    simp only [copyVal] at e
    split at e
    · split at e <;> cases e; exact .bump _
    · cases e
    · cases e
    · split at e
      · split at e
        · cases e
        · split at e
          · next h' vs' e1 => cases e; exact ((Heap.Grows.bump h).trans (copyList_grows (copyVal_grows oom n) _ _ _ _ e1)).fresh (Nat.le_refl _) _
          · cases e
          · cases e
      · cases e
    · split at e
      · split at e
        · cases e
        · split at e
          · next h' vs' e1 => cases e; exact ((Heap.Grows.bump h).trans (copyList_grows (copyVal_grows oom n) _ _ _ _ e1)).fresh (Nat.le_refl _) _
          · cases e
          · cases e
      · cases e

theorem build_shrinks (h : Heap) (v : Value) : h.Shrinks (build h v).1 := by
  obtain ⟨B, _, hg⟩ := build_rep v h
  exact ⟨hg.next, fun a ha => .inl (hg.old a fun hb => by have := (hg.fresh a hb).1; omega)⟩

theorem replace_back {d : Loc} {v : HVal} (h : replace st d v = .done st') : Shrinks (st.write d v) st' := by
  simp only [replace] at h
  split at h
  · cases h
  · split at h
    · next g hg => cases h; exact (destroyVal_shrinks _ _ _ _ hg).state
    · cases h

theorem copyFrom_back {oom : Addr → Bool} {s : Loc} {k : State → HVal → Fin} (h : copyFrom oom st s k = .done st') :
    ∃ g v, st.heap.Grows g ∧ k (st.withHeap g) v = .done st' := by
  simp only [copyFrom] at h
  split at h
  · cases h
  · split at h
    · next g w hg => exact ⟨_, w, copyVal_grows _ _ _ _ _ _ hg, h⟩
    · cases h
    · cases h

theorem write_shrinks_back {st1 : State} {l : Loc} {v : HVal} (h : Shrinks (st.write l v) st1) : Back st st1 (st.hits l) :=
  (Back.write st l v).trans h.back (fun _ _ h => h) fun _ _ h => h.elim

theorem copyAssign_back {oom : Addr → Bool} {d s : Loc} (h : copyAssign oom st d s = .done st') : Back st st' (st.hits d) := by
  simp only [copyAssign] at h
  split at h
  · obtain ⟨g, v, h1, h⟩ := copyFrom_back h
    have h1 := h1.shrinks.state
    have h2 := replace_back h
    refine (write_shrinks_back h1).trans (write_shrinks_back h2) (fun _ _ h => h) fun r ho hh => ?_
    exact (hits_write st d d _).1 (h1.hits (by rw [write_next]; exact ho) hh)
  · cases h

/-- Text has no parts. -/
def HVal.pointer (v : HVal) : Prop := ∀ s, v.raw ≠ .text s

theorem moveAssign_back {junk : Bytes} {d s : Loc} (h : moveAssign junk st d s = .done st') :
    Back st st' (fun r => st.hits d r ∨ st.hits s r) ∧
    ∀ r v, r.old st.heap.next → st.hits d r → st'.deref r = some v → (∃ sv, st.read s = some sv ∧ (sv.pointer ∨ ¬ st.hits s r → v = sv)) := by
  simp only [moveAssign] at h
  split at h
  · next dv sv hd hs =>
    split at h
    · next hsame =>
      split at h
      · next t ht =>
        cases h
        refine ⟨?_, fun r v ho hh hr => ⟨sv, hs, fun hp => ?_⟩⟩
        rotate_left
        · rcases hp with hp | hp
          · exact absurd ht (hp t)
          · refine write_deref ((hits_write ..).2 hh) ((Back.write _ s _).2 r v (by simpa [write_next] using ho) (fun h => hp ?_) hr)
            exact (hits_write ..).1 ((hits_write ..).1 h)
        refine (Back.write st d ⟨sv.ty, dv.raw⟩).trans (S2 := fun r => st.hits d r ∨ st.hits s r) ?_ (fun _ _ h => .inl h) (fun _ _ h => h)
        refine (Back.write _ d sv).trans (Back.write _ s _) (fun r _ h => .inl ?_) (fun r _ h => .inr ?_)
        · exact (hits_write ..).1 h
        · exact (hits_write ..).1 ((hits_write ..).1 h)
      · have h2 := replace_back h
        refine ⟨?_, fun r v ho hh hr => ⟨sv, hs, fun _ => ?_⟩⟩
        · refine (Back.write st d ⟨sv.ty, dv.raw⟩).trans (S2 := fun r => st.hits d r ∨ st.hits s r) ?_ (fun _ _ h => .inl h) (fun _ _ h => h)
          refine (Back.write _ s _).trans (write_shrinks_back h2) (fun r _ h => .inr ?_) (fun r _ h => .inl ?_)
          · exact (hits_write ..).1 h
          · exact (hits_write ..).1 ((hits_write ..).1 h)
        · refine write_deref ?_ (h2.deref (by simpa [write_next] using ho) hr)
          exact (hits_write ..).2 ((hits_write ..).2 hh)
    · next hdiff =>
      split at h
      · cases h
      · next g hg =>
        split at h
        · cases h
        · cases h
          have h1 : Shrinks (st.write d ⟨sv.ty, dv.raw⟩) ((st.write d ⟨sv.ty, dv.raw⟩).withHeap g) := (destroyVal_shrinks _ _ _ _ hg).state
          have hb := write_shrinks_back h1
          refine ⟨?_, fun r v ho hh hr => ⟨sv, hs, fun _ => ?_⟩⟩
          · refine hb.trans (S2 := fun r => ((st.write d ⟨sv.ty, dv.raw⟩).withHeap g).hits d r ∨ ((st.write d ⟨sv.ty, dv.raw⟩).withHeap g).hits s r) ?_
              (fun _ _ h => .inl h) (fun r ho h => ?_)
            · exact (Back.write _ d sv).trans (Back.write _ s _) (fun r _ h => .inl h) (fun r _ h => .inr ((hits_write ..).1 h))
            · have ho' : r.old (st.write d ⟨sv.ty, dv.raw⟩).heap.next := by rw [write_next]; exact ho
              exact h.imp (fun h => (hits_write ..).1 (h1.hits ho' h)) fun h => (hits_write ..).1 (h1.hits ho' h)
          · have hne : d ≠ s := fun e => by
              subst e; rw [hd] at hs; cases hs
              cases hr : dv.raw <;> simp [hr, Raw.same] at hdiff
            have ho' : r.old (st.write d ⟨sv.ty, dv.raw⟩).heap.next := by rw [write_next]; exact ho
            obtain ⟨l, hl, _⟩ := deref_slot hr
            have hl := (hits_write ..).1 ((hits_write ..).1 (hits_of_slot hl))
            obtain rfl := hits_unique ((hits_write ..).1 (h1.hits ho' hl)) hh
            refine write_deref hl ((Back.write _ s _).2 r v ?_ (fun h => hne (hits_unique hl ((hits_write ..).1 h))) hr)
            rw [write_next]
            exact ho'.mono h1.2.1
  · cases h

/-! ### Containers -/

theorem hits_child_elem {a : Addr} {i : Nat} {r : Ref} {vs : List HVal} (hc : st.heap.cell a = some (.arr vs)) (h : st.hits (.child a i) r) : r = .elem a i := by
  cases r with
  | var x => cases h
  | elem b j =>
    obtain ⟨v, hv⟩ := slot_read (show st.slot _ = _ from h)
    have : i < vs.length := by
      simp only [State.read, hc, Option.bind_some, Cell.children] at hv
      exact (List.getElem?_eq_some_iff.1 hv).1
    exact slot_inj (show st.slot _ = _ from h) (by simp [State.slot, hc, this])
  | member b k =>
    obtain ⟨c, j, e, hc'⟩ := (slot_cell (show st.slot _ = _ from h) (A := [b])).2 ⟨b, rfl, by simp⟩
    cases e
    obtain rfl : a = b := by simpa using hc'
    simp [State.hits, State.slot, hc] at h

theorem hits_child_member {a : Addr} {i : Nat} {k : Bytes} {r : Ref} {ms : List (Bytes × HVal)} (hc : st.heap.cell a = some (.obj ms)) (hk : keyIndex k ms = some i)
    (h : st.hits (.child a i) r) : r = .member a k := by
  have hs : st.slot (.member a k) = some (.child a i) := by simp [State.slot, hc, hk]
  cases r with
  | var x => cases h
  | elem b j => exact slot_inj (show st.slot _ = _ from h) hs
  | member b j => exact slot_inj (show st.slot _ = _ from h) hs

theorem cell_grows {g : Heap} (h : st.heap.Grows g) {a : Addr} (ha : a < st.heap.next) {c : Option Cell} (hc : (st.withHeap g).heap.cell a = c) : st.heap.cell a = c := by
  rw [← hc]; exact (h.2 a ha).symm

/-- References into the container at `a` that designate nothing. -/
def State.vacant (st : State) (a : Addr) (r : Ref) : Prop := r.cell = some a ∧ st.deref r = none

theorem vacant_grows {g : Heap} (h : st.heap.Grows g) {a : Addr} {r : Ref} (ho : r.old st.heap.next) (hv : (st.withHeap g).vacant a r) : st.vacant a r :=
  ⟨hv.1, by rw [← deref_cells (st := st) (st' := st.withHeap g) hv.1 (h.2 a (ho a hv.1))]; exact hv.2⟩

theorem Back.pushed {a : Addr} {vs : List HVal} (h : st.heap.cell a = some (.arr vs)) (ws : List HVal) :
    Back st (st.withHeap (st.heap.set a (some (.arr (vs ++ ws))))) (st.vacant a) :=
  (Back.push h ws).mono fun r _ ⟨i, hi, e⟩ => by subst e; exact ⟨rfl, by rw [deref_elem h]; exact List.getElem?_eq_none hi⟩

theorem emplaceBack_back {oom : Addr → Bool} {s : Loc} {a : Addr} (h : (copyFrom oom st s fun st v =>
      match st.heap.cell a with
      | some (.arr vs) => .done (st.withHeap (st.heap.set a (some (.arr (vs ++ [v])))))
      | _ => .ub) = .done st') : Back st st' (st.vacant a) := by
  obtain ⟨g, v, h1, h⟩ := copyFrom_back h
  split at h
  · next vs hc =>
    cases h
    exact h1.shrinks.state.back.trans (Back.pushed hc _) (fun _ _ h => h.elim) fun r ho hv => vacant_grows h1 ho hv
  · cases h

theorem appendArray_back {oom : Addr → Bool} {a b : Addr} (h : appendArray oom st a b = .done st') : Back st st' (st.vacant a) := by
  simp only [appendArray] at h
  split at h
  · cases h
  · split at h
    · next vs ws hc _ =>
      split at h
      · next g ws' hg =>
        cases h
        have h1 := copyList_grows (copyVal_grows oom _) _ _ _ _ hg
        refine ⟨h1.1, fun r v ho hn hd => ?_⟩
        cases hr : r.cell with
        | none =>
          cases r with
          | var x => rw [deref_var] at hd ⊢; exact hd
          | elem => cases hr
          | member => cases hr
        | some b =>
          by_cases e : b = a
          · subst e
            obtain ⟨i, rfl, hi⟩ := elem_of (st := st.withHeap (g.set b _)) (if_pos rfl) hr hd
            rw [deref_elem hc]
            by_cases hlt : i < vs.length
            · rw [List.getElem?_append_left hlt] at hi; exact hi
            · exact absurd ⟨rfl, by rw [deref_elem hc]; exact List.getElem?_eq_none (Nat.le_of_not_lt hlt)⟩ hn
          · rw [deref_cells (st := st) hr (by simpa [State.withHeap, Heap.set, e] using h1.2 b (ho b hr))] at hd; exact hd
      · cases h
      · cases h
    · cases h

theorem insertOrAssign_back {oom : Addr → Bool} {a : Addr} {k : Bytes} {s : Loc} (h : insertOrAssign oom st a k s = .done st') : Back st st' (· = .member a k) := by
  simp only [insertOrAssign] at h
  split at h
  · next ms hc =>
    split at h
    · next i hk => exact (copyAssign_back h).mono fun r _ hh => hits_child_member hc hk hh
    · obtain ⟨g, v, h1, h⟩ := copyFrom_back h
      split at h
      · next ms' hc' => cases h; exact h1.shrinks.state.back.trans (Back.insert hc' k v) (fun _ _ h => h.elim) fun _ _ h => h
      · cases h
  · cases h

theorem mapIndex_back {oom : Addr → Bool} {a : Addr} {k : Bytes} (h : mapIndex oom st a k = .done st') : Back st st' (st.vacant a) := by
  simp only [mapIndex] at h
  split at h
  · next ms hc =>
    split at h
    · cases h; exact .refl _
    · next hk =>
      split at h
      · cases h
      · cases h
        refine (Heap.Grows.bump st.heap).shrinks.state.back.trans (Back.insert (st := st.withHeap st.heap.bump) hc k _) (fun _ _ h => h.elim) fun r _ h => ?_
        subst h
        exact ⟨rfl, by rw [deref_member hc]; exact find_none_of_keyIndex hk⟩
  · cases h

theorem mergeKeys_back {oom : Addr → Bool} {a b : Addr} : ∀ {ks : List Bytes} {st : State}, mergeKeys oom a b st ks = .done st' →
    Back st st' fun r => ∃ k ∈ ks, r = .member a k
  | [], st, h => by
    simp only [mergeKeys] at h
    split at h <;> cases h
    exact .refl _
  | k :: ks, st, h => by
    simp only [mergeKeys] at h
    split at h
    · split at h
      · simp only [Fin.bind] at h
        split at h
        · next st1 h1 =>
          exact (insertOrAssign_back h1).trans (mergeKeys_back h) (fun r _ e => ⟨k, by simp, e⟩) fun r _ ⟨k', hk, e⟩ => ⟨k', by simp [hk], e⟩
        · cases h
        · cases h
      · cases h
    · cases h

theorem dispose_back {v : HVal} (h : dispose st v = .done st') : Shrinks st st' := by
  simp only [dispose] at h
  split at h
  · next g hg => cases h; exact (destroyVal_shrinks _ _ _ _ hg).state
  · cases h

theorem grow_back {oom : Addr → Bool} {k : State → Fin} (h : grow oom st k = .done st') : k (st.withHeap st.heap.bump) = .done st' := by
  simp only [grow] at h
  split at h
  · cases h
  · exact h

theorem hits_bump {l : Loc} {r : Ref} : (st.withHeap st.heap.bump).hits l r ↔ st.hits l r := by
  cases r with
  | var x => exact Iff.rfl
  | elem a i => simp only [State.hits]; rw [slot_cells (st := st) (st' := st.withHeap st.heap.bump) (a := a) rfl rfl]
  | member a i => simp only [State.hits]; rw [slot_cells (st := st) (st' := st.withHeap st.heap.bump) (a := a) rfl rfl]

theorem deref_vacant {r : Ref} (h : st.slot r = none) : st.deref r = none := by rw [State.deref, h]; rfl

theorem slot_none {r : Ref} (h : st.deref r = none) : st.slot r = none := by
  cases hs : st.slot r with
  | none => rfl
  | some l => obtain ⟨v, hv⟩ := slot_read hs; rw [deref_of hs, hv] at h; cases h

theorem pushMove_back {oom : Addr → Bool} {junk : Bytes} {a : Addr} {s : Loc} (h : pushMove oom junk st a s = .done st') :
    Back st st' (fun r => st.hits s r ∨ st.vacant a r) ∧ ∀ vs v, st.heap.cell a = some (.arr vs) → st'.deref (.elem a vs.length) = some v → st.read s = some v := by
  have h := grow_back h
  simp only [takeFrom] at h
  split at h
  · cases h
  · next sv hs =>
    have hs' : st.read s = some sv := (read_bump st s).symm.trans hs
    split at h
    · next vs hc =>
      cases h
      refine ⟨?_, fun vs' v hc' hd => ?_⟩
      · refine (Heap.Grows.bump st.heap).shrinks.state.back.trans
          (S2 := fun r => (st.withHeap st.heap.bump).hits s r ∨ ((st.withHeap st.heap.bump).write s (sv.movedFrom junk)).vacant a r)
          ((Back.write _ s (sv.movedFrom junk)).trans (Back.pushed hc _) (fun _ _ h => .inl h) fun _ _ h => .inr h) (fun _ _ h => h.elim) fun r ho h => ?_
        refine h.imp hits_bump.1 fun h => ⟨h.1, deref_vacant ?_⟩
        have := slot_none h.2
        rwa [slot_write _ _ _ h.1, slot_cells (st := st) (st' := st.withHeap st.heap.bump) h.1 rfl] at this
      · have hlen : vs.length = vs'.length := by
          cases s with
          | var x =>
            have : some (Cell.arr vs') = some (.arr vs) := hc'.symm.trans hc
            cases this; rfl
          | child b j =>
            have hc : (if a = b then _ else st.heap.cell a) = some (Cell.arr vs) := hc
            split at hc
            · next e =>
              subst e
              simp only [State.withHeap, Heap.bump] at hc
              rw [hc'] at hc
              simp only [Option.map_some, Cell.setChild, Option.some.injEq, Cell.arr.injEq] at hc
              rw [← hc]; simp
            · rw [hc'] at hc; cases hc; rfl
        rw [deref_elem (cell_set ..), ← hlen] at hd
        simp at hd
        rw [hs', hd]
    · cases h

theorem insertOrAssignMove_back {oom : Addr → Bool} {junk : Bytes} {a : Addr} {k : Bytes} {s : Loc} (h : insertOrAssignMove oom junk st a k s = .done st') :
    Back st st' (fun r => st.hits s r ∨ r = .member a k) ∧
    ∀ v, a < st.heap.next → st'.deref (.member a k) = some v → ∃ sv, st.read s = some sv ∧ (sv.pointer ∨ ¬ st.hits s (.member a k) → v = sv) := by
  simp only [insertOrAssignMove] at h
  split at h
  · next ms hc =>
    split at h
    · next i hk =>
      have := moveAssign_back h
      refine ⟨this.1.mono fun r _ h => h.symm.imp id fun h => hits_child_member hc hk h, fun v ha hd => this.2 _ v (fun b hb => by cases hb; exact ha) ?_ hd⟩
      simp [State.hits, State.slot, hc, hk]
    · next hk =>
      have h := grow_back h
      simp only [takeFrom] at h
      split at h
      · cases h
      · next sv hs =>
        have hs' : st.read s = some sv := (read_bump st s).symm.trans hs
        split at h
        · next ms' hc' =>
          cases h
          refine ⟨?_, fun v _ hd => ⟨sv, hs', fun _ => ?_⟩⟩
          · refine (Heap.Grows.bump st.heap).shrinks.state.back.trans (S2 := fun r => (st.withHeap st.heap.bump).hits s r ∨ r = .member a k)
              ((Back.write _ s (sv.movedFrom junk)).trans (Back.insert hc' k sv) (fun _ _ h => .inl h) fun _ _ h => .inr h) (fun _ _ h => h.elim) fun r ho h => ?_
            exact h.imp hits_bump.1 id
          · rw [deref_member (cell_set ..), RawObject.find_emplace, if_pos rfl] at hd
            have : RawObject.find k ms' = none := by
              rw [← deref_member hc' k]
              refine deref_vacant ?_
              rw [slot_write _ _ _ (a := a) rfl, slot_cells (st := st) (st' := st.withHeap st.heap.bump) (a := a) rfl rfl]
              simp [State.slot, hc, hk]
            rw [this] at hd
            exact (Option.some.inj hd).symm
        · cases h
  · cases h

theorem appendArrayMove_back {oom : Addr → Bool} {junk : Nat → Bytes} {a b : Addr} (h : appendArrayMove oom junk st a b = .done st') :
    Back st st' (fun r => (∃ j, r = .elem b j) ∨ st.vacant a r) ∧
    ∀ vs j v, st.heap.cell a = some (.arr vs) → st'.deref (.elem a (vs.length + j)) = some v → st.deref (.elem b j) = some v := by
  simp only [appendArrayMove] at h
  split at h
  · cases h
  · next hab =>
    split at h
    · next vs ws hc hc' =>
      have h := grow_back h
      cases h
      refine ⟨?_, fun vs' j v hvs hd => ?_⟩
      · refine (Heap.Grows.bump st.heap).shrinks.state.back.trans (S2 := fun r => (∃ j, r = .elem b j) ∨ st.vacant a r)
          ((Back.elems (st := st.withHeap st.heap.bump) (b := b) (zs := ws.mapIdx fun i w => w.movedFrom (junk i))).trans
            (Back.push (st := (st.withHeap st.heap.bump).withHeap ((st.withHeap st.heap.bump).heap.set b _)) (a := a) (vs := vs)
              ((if_neg hab).trans hc) ws)
            (fun _ _ h => .inl h) fun r _ ⟨i, hi, e⟩ => .inr ⟨by rw [e]; rfl, by rw [e, deref_elem hc]; exact List.getElem?_eq_none hi⟩)
          (fun _ _ h => h.elim) fun _ _ h => h
      · rw [hc] at hvs; cases hvs
        have hd : (State.withHeap _ ((Heap.set _ b _).set a (some (.arr (vs ++ ws))))).deref (.elem a (vs.length + j)) = some v := hd
        rw [deref_elem (vs := vs ++ ws) (by simp [State.withHeap, Heap.set])] at hd
        rw [deref_elem hc', ← hd, List.getElem?_append_right (Nat.le_add_right ..), Nat.add_sub_cancel_left]
    · cases h

theorem mergeKeysMove_back {oom : Addr → Bool} {junk : Bytes → Bytes} {a b : Addr} (hab : a ≠ b) : ∀ {ks : List Bytes} {st : State}, ks.Nodup → a < st.heap.next →
    b < st.heap.next → mergeKeysMove oom junk a b st ks = .done st' →
    Back st st' (fun r => ∃ k ∈ ks, r = .member a k ∨ r = .member b k) ∧
    ∀ k ∈ ks, ∀ v, st'.deref (.member a k) = some v → st.deref (.member b k) = some v
  | [], st, _, _, _, h => by
    simp only [mergeKeysMove] at h
    split at h <;> cases h
    exact ⟨.refl _, fun _ h => by simp at h⟩
  | k :: ks, st, hnd, ha, hb, h => by
    simp only [mergeKeysMove] at h
    split at h
    · next ms hc =>
      split at h
      · next i hk =>
        simp only [Fin.bind] at h
        split at h
        · next st1 h1 =>
          rw [List.nodup_cons] at hnd
          obtain ⟨g1, g2⟩ := insertOrAssignMove_back h1
          obtain ⟨i1, i2⟩ := mergeKeysMove_back hab hnd.2 (Nat.lt_of_lt_of_le ha g1.1) (Nat.lt_of_lt_of_le hb g1.1) h
          refine ⟨g1.trans i1 (fun r _ h => ⟨k, by simp, ?_⟩) fun r _ ⟨k', hk, e⟩ => ⟨k', by simp [hk], e⟩, fun k' hk' v hd => ?_⟩
          · exact h.symm.imp id fun h => hits_child_member hc hk h
          · rcases List.mem_cons.1 hk' with rfl | hk'
            · have ho : Ref.old (.member a k') st.heap.next := fun c hc => by cases hc; exact ha
              have hd1 := i1.2 _ v (ho.mono g1.1) (fun ⟨k2, hk2, e⟩ => by
                rcases e with e | e
                · cases e; exact hnd.1 hk2
                · cases e; exact hab rfl) hd
              obtain ⟨sv, hs, hv⟩ := g2 v ha hd1
              rw [hv (.inr fun hh => by cases hits_child_member hc hk hh; exact hab rfl)]
              rw [deref_of (l := .child b i) (by simp [State.slot, hc, hk]), hs]
            · refine g1.2 _ v (fun c hc => by cases hc; exact hb) ?_ (i2 k' hk' v hd)
              rintro (h | h)
              · cases hits_child_member hc hk h; exact hnd.1 hk'
              · cases h; exact hab rfl
        · cases h
        · cases h
      · cases h
    · cases h

end

end Meojson.Mem
