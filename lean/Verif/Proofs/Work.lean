import Verif.Model.Work
import Verif.Spec.Work
import Verif.Proofs.Escape

/-! The work of serialisation and comparison. -/

set_option autoImplicit false

namespace Meojson
open Work Value

namespace Work
@[simp] theorem andThen_res (r s : Work Bytes) : (r.andThen s).res = r.res.bind fun a => s.res.bind fun b => .ok (a ++ b) := by
  unfold andThen bind ret
  cases r.res <;> simp
  cases s.res <;> simp

theorem andThen_ticks (r s : Work Bytes) : (r.andThen s).ticks ≤ r.ticks + s.ticks := by
  unfold andThen bind ret
  cases r.res <;> simp
  cases s.res <;> simp

theorem andThen_depth (r s : Work Bytes) : (r.andThen s).depth ≤ max r.depth s.depth := by
  unfold andThen bind ret
  cases r.res <;> simp
  · cases s.res <;> simp
  · omega
  · omega

/-- At most five ticks for each byte, up to a constant; and how deep. -/
def Fine (w : Work Bytes) (c : Int) (d : Nat) : Prop := ∀ t, w.res = .ok t → (w.ticks : Int) ≤ 5 * t.length + c ∧ w.depth = d

theorem Fine.andThen {r s : Work Bytes} {c c' : Int} {d d' : Nat} (h : Fine r c d) (h' : Fine s c' d') : Fine (r.andThen s) (c + c') (max d d') := by
  intro t ht
  rw [andThen_res, Out.bind_eq_ok] at ht
  obtain ⟨a, ha, ht⟩ := ht
  rw [Out.bind_eq_ok] at ht
  obtain ⟨b, hb, ht⟩ := ht
  cases ht
  have h1 := h a ha
  have h2 := h' b hb
  simp only [Work.andThen, bind, ret, ha, hb, List.length_append]
  refine ⟨by push_cast; omega, by rw [h1.2, h2.2]; omega⟩

theorem Fine.tick {r : Work Bytes} {c : Int} {d : Nat} (h : Fine r c d) : Fine r.tick (c + 1) d := fun t ht => by
  have := h t ht
  exact ⟨by simp only [Work.tick]; push_cast; omega, this.2⟩

theorem Fine.nest {r : Work Bytes} {c : Int} {d : Nat} (h : Fine r c d) : Fine r.nest c (d + 1) := fun t ht => by
  have := h t ht
  exact ⟨this.1, by simp only [Work.nest]; rw [this.2]⟩

theorem Fine.mono {r : Work Bytes} {c c' : Int} {d d' : Nat} (h : Fine r c d) (hc : c ≤ c') (hd : d = d') : Fine r c' d' := fun t ht => by
  have := h t ht
  exact ⟨by omega, this.2.trans hd⟩

theorem fine_put (t : Bytes) : Fine (put t) (1 - 4 * t.length) 0 := fun t' h => by
  cases h
  exact ⟨by simp only [put]; push_cast; omega, rfl⟩

theorem fine_ret : Fine (ret (.ok [])) 0 0 := fun t h => by cases h; exact ⟨by simp [ret], rfl⟩

theorem length_escape (s : Bytes) : s.length ≤ (escapeString s).length ∧ (escapeString s).length ≤ 6 * s.length := by
  rw [escapeString_eq]
  induction s with
  | nil => simp
  | cons c s ih =>
    have : 1 ≤ (escByte c).length ∧ (escByte c).length ≤ 6 := by
      unfold escByte
      repeat' split
      all_goals simp
    simp only [List.flatMap_cons, List.length_append, List.length_cons]
    omega

theorem fine_escaped (s : Bytes) : Fine (escaped s) 1 0 := fun t h => by
  cases h
  have := (length_escape s).1
  exact ⟨by simp only [escaped]; push_cast; omega, rfl⟩

theorem fine_comma (b : Bool) : Fine (if b then ret (.ok []) else put [0x2c]) (if b then 0 else -3) 0 := by
  cases b
  · exact (fine_put [0x2c]).mono (by simp) rfl
  · exact fine_ret
end Work

theorem dumpLeafW_res (v : Value) : v.dumpLeafW.res = v.dumpTo := by
  unfold dumpLeafW
  split
  · simp [tick, put, escaped, dumpTo]
  · cases h : v.dumpTo <;> simp [tick, put, ret]

mutual
theorem dumpW_res : ∀ v : Value, v.dumpW.res = v.dumpTo
  | .str t s => by cases t <;> simp only [dumpW, dumpLeafW_res]
  | .arrNull t => by cases t <;> simp only [dumpW, dumpLeafW_res]
  | .objNull t => by cases t <;> simp only [dumpW, dumpLeafW_res]
  | .arr t vs => by
    cases t <;> simp only [dumpW, dumpLeafW_res]
    simp only [tick, nest, andThen_res, put, dumpElemsW_res vs, dumpTo]
    cases dumpElems vs <;> simp
  | .obj t ms => by
    cases t <;> simp only [dumpW, dumpLeafW_res]
    simp only [tick, nest, andThen_res, put, dumpMembersW_res ms, dumpTo]
    cases dumpMembers ms <;> simp
theorem dumpElemsW_res : ∀ vs : List Value, (dumpElemsW vs).res = dumpElems vs
  | [] => rfl
  | v :: vs => by
    simp only [dumpElemsW, tick, andThen_res, dumpW_res v, dumpElemsW_res vs, dumpElems]
    cases dumpTo v <;> cases dumpElems vs <;> cases vs <;> simp [put, ret]
theorem dumpMembersW_res : ∀ ms : List (Bytes × Value), (dumpMembersW ms).res = dumpMembers ms
  | [] => rfl
  | (k, v) :: ms => by
    simp only [dumpMembersW, tick, andThen_res, dumpW_res v, dumpMembersW_res ms, dumpMembers]
    cases dumpTo v <;> cases dumpMembers ms <;> cases ms <;> simp [put, ret, escaped]
end

mutual
theorem formatW_res (n : Nat) : ∀ (i : Nat) (v : Value), (v.formatW n i).res = v.formatTo n i
  | _, .str t s => by cases t <;> simp [formatW, formatTo, tick, dumpLeafW_res, dumpTo]
  | _, .arrNull t => by cases t <;> simp [formatW, formatTo, tick, dumpLeafW_res, dumpTo]
  | _, .objNull t => by cases t <;> simp [formatW, formatTo, tick, dumpLeafW_res, dumpTo]
  | i, .arr t vs => by
    cases t <;> simp only [formatW, formatTo, tick, dumpLeafW_res]
    simp only [nest, andThen_res, put, formatElemsW_res n i vs]
    cases formatElems n i vs <;> simp
  | i, .obj t ms => by
    cases t <;> simp only [formatW, formatTo, tick, dumpLeafW_res]
    simp only [nest, andThen_res, put, formatMembersW_res n i ms]
    cases formatMembers n i ms <;> simp
theorem formatElemsW_res (n : Nat) : ∀ (i : Nat) (vs : List Value), (formatElemsW n i vs).res = formatElems n i vs
  | _, [] => by simp only [formatElemsW, formatElems]; rfl
  | i, v :: vs => by
    simp only [formatElemsW, tick, andThen_res, formatW_res n (i + 1) v, formatElemsW_res n i vs, formatElems]
    cases formatTo n (i + 1) v <;> cases formatElems n i vs <;> cases vs <;> simp [put, ret]
theorem formatMembersW_res (n : Nat) : ∀ (i : Nat) (ms : List (Bytes × Value)), (formatMembersW n i ms).res = formatMembers n i ms
  | _, [] => by simp only [formatMembersW, formatMembers]; rfl
  | i, (k, v) :: ms => by
    simp only [formatMembersW, tick, andThen_res, formatW_res n (i + 1) v, formatMembersW_res n i ms, formatMembers]
    cases formatTo n (i + 1) v <;> cases formatMembers n i ms <;> cases ms <;> simp [put, ret, escaped]
end

/-! ### Linear in what is written -/

theorem fine_leaf (v : Value) : Fine v.dumpLeafW 2 0 := by
  unfold dumpLeafW
  split
  · rename_i s
    exact ((fine_put [0x22]).andThen ((fine_escaped s).andThen (fine_put [0x22]))).tick.mono (by simp) rfl
  · cases h : v.dumpTo with
    | ok t => exact (fine_put t).tick.mono (by omega) rfl
    | throw e => intro t ht; cases ht
    | ub => intro t ht; cases ht

mutual
theorem fine_dump : ∀ v : Value, Fine v.dumpW 2 v.nesting
  | .str t s => by cases t <;> exact fine_leaf _
  | .arrNull t => by cases t <;> exact fine_leaf _
  | .objNull t => by cases t <;> exact fine_leaf _
  | .arr t vs => by
    cases t <;> first
      | exact fine_leaf _
      | exact ((fine_put [0x5b]).andThen ((fine_dumpElems vs).andThen (fine_put [0x5d]))).nest.tick.tick.mono (by simp) (by simp [nesting])
  | .obj t ms => by
    cases t <;> first
      | exact fine_leaf _
      | exact ((fine_put [0x7b]).andThen ((fine_dumpMembers ms).andThen (fine_put [0x7d]))).nest.tick.tick.mono (by simp) (by simp [nesting])
theorem fine_dumpElems : ∀ vs : List Value, Fine (dumpElemsW vs) 4 (nestingAll vs)
  | [] => fine_ret.tick.mono (by omega) rfl
  | v :: vs => by
    have h := fine_dumpElems vs
    cases vs with
    | nil => exact ((fine_dump v).andThen ((fine_comma true).andThen (fine_ret.tick))).tick.mono (by simp) (by simp [nestingAll])
    | cons w ws => exact ((fine_dump v).andThen ((fine_comma false).andThen h)).tick.mono (by simp) (by simp [nestingAll])
theorem fine_dumpMembers : ∀ ms : List (Bytes × Value), Fine (dumpMembersW ms) 4 (nestingMembers ms)
  | [] => fine_ret.tick.mono (by omega) rfl
  | (k, v) :: ms => by
    have h := fine_dumpMembers ms
    have pre := fun {r : Work Bytes} {c : Int} {d : Nat} (h : Fine r c d) =>
      ((fine_put [0x22]).andThen ((fine_escaped k).andThen ((fine_put [0x22]).andThen ((fine_put [0x3a]).andThen h)))).tick
    cases ms with
    | nil => exact (pre ((fine_dump v).andThen ((fine_comma true).andThen (fine_ret.tick)))).mono (by simp) (by simp [nestingMembers])
    | cons w ws => exact (pre ((fine_dump v).andThen ((fine_comma false).andThen h))).mono (by simp) (by simp [nestingMembers])
end

mutual
theorem fine_format (n : Nat) : ∀ (i : Nat) (v : Value), Fine (v.formatW n i) 3 v.nesting
  | _, .str t s => by cases t <;> exact (fine_leaf _).tick.mono (by omega) rfl
  | _, .arrNull t => by cases t <;> exact (fine_leaf _).tick.mono (by omega) rfl
  | _, .objNull t => by cases t <;> exact (fine_leaf _).tick.mono (by omega) rfl
  | i, .arr t vs => by
    cases t <;> first
      | exact (fine_leaf _).tick.mono (by omega) rfl
      | exact ((fine_put [0x5b]).andThen ((fine_put [0x0a]).andThen ((fine_formatElems n i vs).andThen ((fine_put (spaces n i)).andThen (fine_put [0x5d]))))).nest.tick.tick.mono
          (by simp; omega) (by simp [nesting])
  | i, .obj t ms => by
    cases t <;> first
      | exact (fine_leaf _).tick.mono (by omega) rfl
      | exact ((fine_put [0x7b]).andThen ((fine_put [0x0a]).andThen ((fine_formatMembers n i ms).andThen ((fine_put (spaces n i)).andThen (fine_put [0x7d]))))).nest.tick.tick.mono
          (by simp; omega) (by simp [nesting])
theorem fine_formatElems (n : Nat) : ∀ (i : Nat) (vs : List Value), Fine (formatElemsW n i vs) 4 (nestingAll vs)
  | _, [] => by rw [formatElemsW]; exact fine_ret.tick.mono (by omega) rfl
  | i, v :: vs => by
    have h := fine_formatElems n i vs
    have pre := fun {b : Bool} {r : Work Bytes} {c : Int} {d : Nat} (h : Fine r c d) =>
      ((fine_put (spaces n (i + 1))).andThen ((fine_format n (i + 1) v).andThen ((fine_comma b).andThen ((fine_put [0x0a]).andThen h)))).tick
    rw [formatElemsW]
    cases vs with
    | nil => rw [formatElemsW]; exact (pre (b := true) fine_ret.tick).mono (by simp; omega) (by simp [nestingAll])
    | cons w ws => exact (pre (b := false) h).mono (by simp; omega) (by simp [nestingAll])
theorem fine_formatMembers (n : Nat) : ∀ (i : Nat) (ms : List (Bytes × Value)), Fine (formatMembersW n i ms) 4 (nestingMembers ms)
  | _, [] => by rw [formatMembersW]; exact fine_ret.tick.mono (by omega) rfl
  | i, (k, v) :: ms => by
    have h := fine_formatMembers n i ms
    have pre := fun {b : Bool} {r : Work Bytes} {c : Int} {d : Nat} (h : Fine r c d) =>
      ((fine_put (spaces n (i + 1))).andThen ((fine_put [0x22]).andThen ((fine_escaped k).andThen ((fine_put [0x22]).andThen ((fine_put [0x3a]).andThen ((fine_put [0x20]).andThen
        ((fine_format n (i + 1) v).andThen ((fine_comma b).andThen ((fine_put [0x0a]).andThen h))))))))).tick
    rw [formatMembersW]
    cases ms with
    | nil => rw [formatMembersW]; exact (pre (b := true) fine_ret.tick).mono (by simp; omega) (by simp [nestingMembers])
    | cons w ws => exact (pre (b := false) h).mono (by simp; omega) (by simp [nestingMembers])
end

/-! ### No less than what is written -/

namespace Work
/-- At least one tick for each byte, and `c` more. -/
def Least (w : Work Bytes) (c : Nat) : Prop := ∀ t, w.res = .ok t → t.length + c ≤ w.ticks

theorem Least.andThen {r s : Work Bytes} {c c' : Nat} (h : Least r c) (h' : Least s c') : Least (r.andThen s) (c + c') := by
  intro t ht
  rw [andThen_res, Out.bind_eq_ok] at ht
  obtain ⟨a, ha, ht⟩ := ht
  rw [Out.bind_eq_ok] at ht
  obtain ⟨b, hb, ht⟩ := ht
  cases ht
  have h1 := h a ha
  have h2 := h' b hb
  simp only [Work.andThen, bind, ret, ha, hb, List.length_append]
  omega

theorem Least.tick {r : Work Bytes} {c : Nat} (h : Least r c) : Least r.tick (c + 1) := fun t ht => by
  have := h t ht
  simp only [Work.tick]; omega

theorem Least.nest {r : Work Bytes} {c : Nat} (h : Least r c) : Least r.nest c := fun t ht => h t ht

theorem Least.mono {r : Work Bytes} {c c' : Nat} (h : Least r c) (hc : c' ≤ c) : Least r c' := fun t ht => by
  have := h t ht
  omega

theorem least_put (t : Bytes) : Least (put t) 1 := fun t' h => by cases h; simp [put]
theorem least_ret : Least (ret (.ok [])) 0 := fun t h => by cases h; simp [ret]
theorem least_escaped (s : Bytes) : Least (escaped s) (s.length + 1) := fun t h => by cases h; simp only [escaped]; omega
theorem least_comma (b : Bool) : Least (if b then ret (.ok []) else put [0x2c]) 0 := by
  cases b
  · exact (least_put [0x2c]).mono (by omega)
  · exact least_ret
end Work

theorem least_leaf (v : Value) : Least v.dumpLeafW 2 := by
  unfold dumpLeafW
  split
  · rename_i s
    exact ((least_put [0x22]).andThen ((least_escaped s).andThen (least_put [0x22]))).tick.mono (by omega)
  · cases h : v.dumpTo with
    | ok t => exact (least_put t).tick.mono (by omega)
    | throw e => intro t ht; cases ht
    | ub => intro t ht; cases ht

mutual
theorem least_dump : ∀ v : Value, Least v.dumpW (2 * v.count)
  | .str t s => by cases t <;> exact (least_leaf _).mono (by simp [count])
  | .arrNull t => by cases t <;> exact (least_leaf _).mono (by simp [count])
  | .objNull t => by cases t <;> exact (least_leaf _).mono (by simp [count])
  | .arr t vs => by
    cases t <;> first
      | exact (least_leaf _).mono (by simp [count])
      | exact ((least_put [0x5b]).andThen ((least_dumpElems vs).andThen (least_put [0x5d]))).nest.tick.tick.mono (by simp [count]; omega)
  | .obj t ms => by
    cases t <;> first
      | exact (least_leaf _).mono (by simp [count])
      | exact ((least_put [0x7b]).andThen ((least_dumpMembers ms).andThen (least_put [0x7d]))).nest.tick.tick.mono (by simp [count]; omega)
theorem least_dumpElems : ∀ vs : List Value, Least (dumpElemsW vs) (2 * countAll vs)
  | [] => least_ret.tick.mono (by simp [countAll])
  | v :: vs => ((least_dump v).andThen ((least_comma vs.isEmpty).andThen (least_dumpElems vs))).tick.mono (by simp [countAll]; omega)
theorem least_dumpMembers : ∀ ms : List (Bytes × Value), Least (dumpMembersW ms) (2 * countMembers ms)
  | [] => least_ret.tick.mono (by simp [countMembers])
  | (k, v) :: ms => ((least_put [0x22]).andThen ((least_escaped k).andThen ((least_put [0x22]).andThen ((least_put [0x3a]).andThen
      ((least_dump v).andThen ((least_comma ms.isEmpty).andThen (least_dumpMembers ms))))))).tick.mono (by simp [countMembers]; omega)
end

mutual
theorem least_format (n : Nat) : ∀ (i : Nat) (v : Value), Least (v.formatW n i) (2 * v.count)
  | _, .str t s => by cases t <;> exact (least_leaf _).tick.mono (by simp [count])
  | _, .arrNull t => by cases t <;> exact (least_leaf _).tick.mono (by simp [count])
  | _, .objNull t => by cases t <;> exact (least_leaf _).tick.mono (by simp [count])
  | i, .arr t vs => by
    cases t <;> first
      | exact (least_leaf _).tick.mono (by simp [count])
      | exact ((least_put [0x5b]).andThen ((least_put [0x0a]).andThen ((least_formatElems n i vs).andThen ((least_put (spaces n i)).andThen (least_put [0x5d]))))).nest.tick.tick.mono
          (by simp [count]; omega)
  | i, .obj t ms => by
    cases t <;> first
      | exact (least_leaf _).tick.mono (by simp [count])
      | exact ((least_put [0x7b]).andThen ((least_put [0x0a]).andThen ((least_formatMembers n i ms).andThen ((least_put (spaces n i)).andThen (least_put [0x7d]))))).nest.tick.tick.mono
          (by simp [count]; omega)
theorem least_formatElems (n : Nat) : ∀ (i : Nat) (vs : List Value), Least (formatElemsW n i vs) (2 * countAll vs)
  | _, [] => by rw [formatElemsW]; exact least_ret.tick.mono (by simp [countAll])
  | i, v :: vs => by
    rw [formatElemsW]
    exact ((least_put (spaces n (i + 1))).andThen ((least_format n (i + 1) v).andThen ((least_comma vs.isEmpty).andThen ((least_put [0x0a]).andThen (least_formatElems n i vs))))).tick.mono
      (by simp [countAll]; omega)
theorem least_formatMembers (n : Nat) : ∀ (i : Nat) (ms : List (Bytes × Value)), Least (formatMembersW n i ms) (2 * countMembers ms)
  | _, [] => by rw [formatMembersW]; exact least_ret.tick.mono (by simp [countMembers])
  | i, (k, v) :: ms => by
    rw [formatMembersW]
    exact ((least_put (spaces n (i + 1))).andThen ((least_put [0x22]).andThen ((least_escaped k).andThen ((least_put [0x22]).andThen ((least_put [0x3a]).andThen ((least_put [0x20]).andThen
      ((least_format n (i + 1) v).andThen ((least_comma ms.isEmpty).andThen ((least_put [0x0a]).andThen (least_formatMembers n i ms)))))))))).tick.mono (by simp [countMembers]; omega)
end

/-! ### Linear in the value, however it ends -/

theorem put_ticks (t : Bytes) : (put t).ticks = t.length + 1 := rfl
theorem escaped_ticks (s : Bytes) : (escaped s).ticks ≤ 7 * s.length + 1 := by
  have := (length_escape s).2
  simp only [escaped]; omega
theorem comma_ticks (b : Bool) : (if b then ret (.ok []) else put [0x2c] : Work Bytes).ticks ≤ 2 := by cases b <;> simp [put, ret]

theorem weight_pos (v : Value) : 1 ≤ v.weight := by cases v <;> simp [weight]

theorem leaf_ticks {v : Value} (hv : v.nesting = 0) : v.dumpLeafW.ticks ≤ 7 * v.weight := by
  cases v with
  | str ty s =>
    cases ty with
    | string =>
      have h1 := andThen_ticks (put [0x22]) ((escaped s).andThen (put [0x22]))
      have h2 := andThen_ticks (escaped s) (put [0x22])
      have h3 := escaped_ticks s
      simp only [put_ticks, List.length_singleton] at h1 h2
      simp only [dumpLeafW, tick, weight]; omega
    | _ => simp only [dumpLeafW, dumpTo, tick, put, ret, weight, List.length_cons, List.length_nil] <;> omega
  | arr ty vs =>
    cases ty with
    | array => simp [nesting] at hv
    | _ => simp only [dumpLeafW, dumpTo, tick, put, ret, weight, List.length_cons, List.length_nil] <;> omega
  | obj ty vs =>
    cases ty with
    | object => simp [nesting] at hv
    | _ => simp only [dumpLeafW, dumpTo, tick, put, ret, weight, List.length_cons, List.length_nil] <;> omega
  | arrNull ty => cases ty <;> simp [dumpLeafW, dumpTo, tick, put, ret, weight]
  | objNull ty => cases ty <;> simp [dumpLeafW, dumpTo, tick, put, ret, weight]

theorem dumpW_leaf {v : Value} (hv : v.nesting = 0) : v.dumpW = v.dumpLeafW := by
  cases v with
  | arr ty vs => cases ty <;> first | rfl | simp [nesting] at hv
  | obj ty vs => cases ty <;> first | rfl | simp [nesting] at hv
  | _ ty => cases ty <;> rfl

theorem formatW_leaf {v : Value} (n i : Nat) (hv : v.nesting = 0) : v.formatW n i = v.dumpLeafW.tick := by
  cases v with
  | arr ty vs => cases ty <;> first | (simp only [formatW]; done) | simp [nesting] at hv
  | obj ty vs => cases ty <;> first | (simp only [formatW]; done) | simp [nesting] at hv
  | _ ty => cases ty <;> simp only [formatW]

theorem shape (v : Value) : v.nesting = 0 ∨ (∃ vs, v = .arr .array vs) ∨ ∃ ms, v = .obj .object ms := by
  cases v with
  | arr ty vs => cases ty <;> simp [nesting]
  | obj ty vs => cases ty <;> simp [nesting]
  | _ ty => exact .inl rfl

theorem at2 (r s : Work Bytes) {a b : Nat} (hr : r.ticks ≤ a) (hs : s.ticks ≤ b) : (r.andThen s).ticks ≤ a + b := by
  have := andThen_ticks r s; omega

mutual
theorem dump_ticks : ∀ v : Value, v.dumpW.ticks + 10 ≤ 20 * v.weight
  | .str t s => by
    have h : (Value.str t s).nesting = 0 := rfl
    have := leaf_ticks h
    have := weight_pos (.str t s)
    rw [dumpW_leaf h]; omega
  | .arrNull t => by
    have h : (Value.arrNull t).nesting = 0 := rfl
    have := leaf_ticks h
    have := weight_pos (.arrNull t)
    rw [dumpW_leaf h]; omega
  | .objNull t => by
    have h : (Value.objNull t).nesting = 0 := rfl
    have := leaf_ticks h
    have := weight_pos (.objNull t)
    rw [dumpW_leaf h]; omega
  | .arr t vs => by
    rcases shape (.arr t vs) with h | ⟨_, e⟩ | ⟨_, e⟩
    · have := leaf_ticks h
      have := weight_pos (.arr t vs)
      rw [dumpW_leaf h]; omega
    · cases e
      have := at2 (put [0x5b]) _ (Nat.le_refl _) (at2 (dumpElemsW vs) (put [0x5d]) (dumpElems_ticks vs) (Nat.le_refl _))
      simp only [put_ticks, List.length_singleton] at this
      simp only [dumpW, tick, nest, weight]; omega
    · cases e
  | .obj t ms => by
    rcases shape (.obj t ms) with h | ⟨_, e⟩ | ⟨_, e⟩
    · have := leaf_ticks h
      have := weight_pos (.obj t ms)
      rw [dumpW_leaf h]; omega
    · cases e
    · cases e
      have := at2 (put [0x7b]) _ (Nat.le_refl _) (at2 (dumpMembersW ms) (put [0x7d]) (dumpMembers_ticks ms) (Nat.le_refl _))
      simp only [put_ticks, List.length_singleton] at this
      simp only [dumpW, tick, nest, weight]; omega
theorem dumpElems_ticks : ∀ vs : List Value, (dumpElemsW vs).ticks ≤ 20 * weightAll vs + 1
  | [] => by simp [dumpElemsW, tick, ret]
  | v :: vs => by
    have h := dump_ticks v
    have := at2 v.dumpW _ (Nat.le_refl _) (at2 _ _ (comma_ticks vs.isEmpty) (dumpElems_ticks vs))
    simp only [dumpElemsW, tick, weightAll]; omega
theorem dumpMembers_ticks : ∀ ms : List (Bytes × Value), (dumpMembersW ms).ticks ≤ 20 * weightMembers ms + 1
  | [] => by simp [dumpMembersW, tick, ret]
  | (k, v) :: ms => by
    have h := dump_ticks v
    have := at2 (put [0x22]) _ (Nat.le_refl _) (at2 _ _ (escaped_ticks k) (at2 (put [0x22]) _ (Nat.le_refl _) (at2 (put [0x3a]) _ (Nat.le_refl _)
      (at2 v.dumpW _ (Nat.le_refl _) (at2 _ _ (comma_ticks ms.isEmpty) (dumpMembers_ticks ms))))))
    simp only [put_ticks, List.length_singleton] at this
    simp only [dumpMembersW, tick, weightMembers]; omega
end

theorem spaces_ticks {n i D : Nat} (h : i ≤ D) : (put (spaces n i)).ticks ≤ n * D + 1 := by
  have h1 : n * i % 2 ^ 64 ≤ n * i := Nat.mod_le _ _
  have h2 : n * i ≤ n * D := Nat.mul_le_mul_left n h
  simp only [put_ticks, spaces, List.length_replicate]; omega

mutual
theorem format_ticks {n D M : Nat} (hM : 2 * (n * D) + 25 ≤ M) : ∀ (i : Nat) (v : Value), i + v.nesting ≤ D → (v.formatW n i).ticks + (n * D + 15) ≤ M * v.weight
  | i, .str t s, _ => by
    have h : (Value.str t s).nesting = 0 := rfl
    have h1 := leaf_ticks h
    have h2 := weight_pos (.str t s)
    generalize (Value.str t s).weight = w at *
    have h3 : (2 * (n * D) + 25) * w ≤ M * w := Nat.mul_le_mul_right w hM
    have h4 : n * D * 1 ≤ n * D * w := Nat.mul_le_mul_left _ h2
    rw [Nat.add_mul, Nat.mul_assoc] at h3
    rw [formatW_leaf n i h, tick]; simp only; omega
  | i, .arrNull t, _ => by
    have h : (Value.arrNull t).nesting = 0 := rfl
    have h1 := leaf_ticks h
    simp only [weight] at h1 ⊢
    rw [formatW_leaf n i h, tick]; simp only; omega
  | i, .objNull t, _ => by
    have h : (Value.objNull t).nesting = 0 := rfl
    have h1 := leaf_ticks h
    simp only [weight] at h1 ⊢
    rw [formatW_leaf n i h, tick]; simp only; omega
  | i, .arr t vs, hi => by
    rcases shape (.arr t vs) with h | ⟨_, e⟩ | ⟨_, e⟩
    · have h1 := leaf_ticks h
      have h2 := weight_pos (.arr t vs)
      rw [formatW_leaf n i h, tick]; simp only
      generalize (Value.arr t vs).weight = w at *
      have h3 : (2 * (n * D) + 25) * w ≤ M * w := Nat.mul_le_mul_right w hM
      have h4 : n * D * 1 ≤ n * D * w := Nat.mul_le_mul_left _ h2
      rw [Nat.add_mul, Nat.mul_assoc] at h3
      omega
    · cases e
      simp only [nesting] at hi
      have := at2 (put [0x5b]) _ (Nat.le_refl _) (at2 (put [0x0a]) _ (Nat.le_refl _) (at2 _ _ (formatElems_ticks hM i vs (by omega))
        (at2 _ (put [0x5d]) (spaces_ticks (n := n) (show i ≤ D by omega)) (Nat.le_refl _))))
      simp only [put_ticks, List.length_singleton] at this
      simp only [formatW, tick, nest, weight, Nat.mul_add]; omega
    · cases e
  | i, .obj t ms, hi => by
    rcases shape (.obj t ms) with h | ⟨_, e⟩ | ⟨_, e⟩
    · have h1 := leaf_ticks h
      have h2 := weight_pos (.obj t ms)
      rw [formatW_leaf n i h, tick]; simp only
      generalize (Value.obj t ms).weight = w at *
      have h3 : (2 * (n * D) + 25) * w ≤ M * w := Nat.mul_le_mul_right w hM
      have h4 : n * D * 1 ≤ n * D * w := Nat.mul_le_mul_left _ h2
      rw [Nat.add_mul, Nat.mul_assoc] at h3
      omega
    · cases e
    · cases e
      simp only [nesting] at hi
      have := at2 (put [0x7b]) _ (Nat.le_refl _) (at2 (put [0x0a]) _ (Nat.le_refl _) (at2 _ _ (formatMembers_ticks hM i ms (by omega))
        (at2 _ (put [0x7d]) (spaces_ticks (n := n) (show i ≤ D by omega)) (Nat.le_refl _))))
      simp only [put_ticks, List.length_singleton] at this
      simp only [formatW, tick, nest, weight, Nat.mul_add]; omega
theorem formatElems_ticks {n D M : Nat} (hM : 2 * (n * D) + 25 ≤ M) : ∀ (i : Nat) (vs : List Value), i + 1 + nestingAll vs ≤ D → (formatElemsW n i vs).ticks ≤ M * weightAll vs + 1
  | _, [], _ => by rw [formatElemsW]; simp [tick, ret]
  | i, v :: vs, hi => by
    simp only [nestingAll] at hi
    have h := format_ticks hM (i + 1) v (by omega)
    have := at2 _ _ (spaces_ticks (n := n) (show i + 1 ≤ D by omega)) (at2 (v.formatW n (i + 1)) _ (Nat.le_refl _) (at2 _ _ (comma_ticks vs.isEmpty)
      (at2 (put [0x0a]) _ (Nat.le_refl _) (formatElems_ticks hM i vs (by omega)))))
    simp only [put_ticks, List.length_singleton] at this
    rw [formatElemsW]
    simp only [tick, weightAll, Nat.mul_add]; omega
theorem formatMembers_ticks {n D M : Nat} (hM : 2 * (n * D) + 25 ≤ M) : ∀ (i : Nat) (ms : List (Bytes × Value)), i + 1 + nestingMembers ms ≤ D →
    (formatMembersW n i ms).ticks ≤ M * weightMembers ms + 1
  | _, [], _ => by rw [formatMembersW]; simp [tick, ret]
  | i, (k, v) :: ms, hi => by
    simp only [nestingMembers] at hi
    have h := format_ticks hM (i + 1) v (by omega)
    have hk : 25 * k.length ≤ M * k.length := Nat.mul_le_mul_right _ (by omega)
    have := at2 _ _ (spaces_ticks (n := n) (show i + 1 ≤ D by omega)) (at2 (put [0x22]) _ (Nat.le_refl _) (at2 _ _ (escaped_ticks k) (at2 (put [0x22]) _ (Nat.le_refl _)
      (at2 (put [0x3a]) _ (Nat.le_refl _) (at2 (put [0x20]) _ (Nat.le_refl _) (at2 (v.formatW n (i + 1)) _ (Nat.le_refl _) (at2 _ _ (comma_ticks ms.isEmpty)
      (at2 (put [0x0a]) _ (Nat.le_refl _) (formatMembers_ticks hM i ms (by omega))))))))))
    simp only [put_ticks, List.length_singleton] at this
    rw [formatMembersW]
    simp only [tick, weightMembers, Nat.mul_add]; omega
end

/-! ### Depth, however it ends -/

theorem ad2 (r s : Work Bytes) {a b : Nat} (hr : r.depth ≤ a) (hs : s.depth ≤ b) : (r.andThen s).depth ≤ max a b := by
  have := andThen_depth r s; omega
theorem comma_depth (b : Bool) : (if b then ret (.ok []) else put [0x2c] : Work Bytes).depth ≤ 0 := by cases b <;> simp [put, ret]
theorem leaf_depth (v : Value) : v.dumpLeafW.depth ≤ 0 := by
  unfold dumpLeafW
  split
  · rename_i s
    have := ad2 (put [0x22]) _ (Nat.le_refl _) (ad2 (escaped s) (put [0x22]) (Nat.le_refl _) (Nat.le_refl _))
    simp only [show (put [0x22]).depth = 0 from rfl, show (escaped s).depth = 0 from rfl] at this
    simp only [tick]; omega
  · split <;> simp [tick, put, ret]

mutual
theorem dump_depth : ∀ v : Value, v.dumpW.depth ≤ v.nesting
  | .str t s => by rw [dumpW_leaf rfl]; exact leaf_depth _
  | .arrNull t => by rw [dumpW_leaf rfl]; exact leaf_depth _
  | .objNull t => by rw [dumpW_leaf rfl]; exact leaf_depth _
  | .arr t vs => by
    rcases shape (.arr t vs) with h | ⟨_, e⟩ | ⟨_, e⟩
    · rw [dumpW_leaf h]; exact Nat.le_trans (leaf_depth _) (Nat.zero_le _)
    · cases e
      have := ad2 (put [0x5b]) _ (Nat.le_refl _) (ad2 (dumpElemsW vs) (put [0x5d]) (dumpElems_depth vs) (Nat.le_refl _))
      simp only [put] at this
      simp only [dumpW, tick, nest, nesting, put]; omega
    · cases e
  | .obj t ms => by
    rcases shape (.obj t ms) with h | ⟨_, e⟩ | ⟨_, e⟩
    · rw [dumpW_leaf h]; exact Nat.le_trans (leaf_depth _) (Nat.zero_le _)
    · cases e
    · cases e
      have := ad2 (put [0x7b]) _ (Nat.le_refl _) (ad2 (dumpMembersW ms) (put [0x7d]) (dumpMembers_depth ms) (Nat.le_refl _))
      simp only [put] at this
      simp only [dumpW, tick, nest, nesting, put]; omega
theorem dumpElems_depth : ∀ vs : List Value, (dumpElemsW vs).depth ≤ nestingAll vs
  | [] => by simp [dumpElemsW, tick, ret]
  | v :: vs => by
    have := ad2 _ _ (dump_depth v) (ad2 _ _ (comma_depth vs.isEmpty) (dumpElems_depth vs))
    simp only [dumpElemsW, tick, nestingAll]; omega
theorem dumpMembers_depth : ∀ ms : List (Bytes × Value), (dumpMembersW ms).depth ≤ nestingMembers ms
  | [] => by simp [dumpMembersW, tick, ret]
  | (k, v) :: ms => by
    have := ad2 (put [0x22]) _ (Nat.le_refl _) (ad2 (escaped k) _ (Nat.le_refl _) (ad2 (put [0x22]) _ (Nat.le_refl _) (ad2 (put [0x3a]) _ (Nat.le_refl _)
      (ad2 _ _ (dump_depth v) (ad2 _ _ (comma_depth ms.isEmpty) (dumpMembers_depth ms))))))
    simp only [show (put [0x22]).depth = 0 from rfl, show (put [0x3a]).depth = 0 from rfl, show (escaped k).depth = 0 from rfl] at this
    simp only [dumpMembersW, tick, nestingMembers]; omega
end

mutual
theorem format_depth (n : Nat) : ∀ (i : Nat) (v : Value), (v.formatW n i).depth ≤ v.nesting
  | i, .str t s => by rw [formatW_leaf n i rfl]; exact leaf_depth _
  | i, .arrNull t => by rw [formatW_leaf n i rfl]; exact leaf_depth _
  | i, .objNull t => by rw [formatW_leaf n i rfl]; exact leaf_depth _
  | i, .arr t vs => by
    rcases shape (.arr t vs) with h | ⟨_, e⟩ | ⟨_, e⟩
    · rw [formatW_leaf n i h]; exact Nat.le_trans (leaf_depth _) (Nat.zero_le _)
    · cases e
      have := ad2 (put [0x5b]) _ (Nat.le_refl _) (ad2 (put [0x0a]) _ (Nat.le_refl _) (ad2 _ _ (formatElems_depth n i vs) (ad2 (put (spaces n i)) (put [0x5d]) (Nat.le_refl _) (Nat.le_refl _))))
      simp only [show ∀ t, (put t).depth = 0 from fun _ => rfl] at this
      simp only [formatW, tick, nest, nesting]; omega
    · cases e
  | i, .obj t ms => by
    rcases shape (.obj t ms) with h | ⟨_, e⟩ | ⟨_, e⟩
    · rw [formatW_leaf n i h]; exact Nat.le_trans (leaf_depth _) (Nat.zero_le _)
    · cases e
    · cases e
      have := ad2 (put [0x7b]) _ (Nat.le_refl _) (ad2 (put [0x0a]) _ (Nat.le_refl _) (ad2 _ _ (formatMembers_depth n i ms) (ad2 (put (spaces n i)) (put [0x7d]) (Nat.le_refl _) (Nat.le_refl _))))
      simp only [show ∀ t, (put t).depth = 0 from fun _ => rfl] at this
      simp only [formatW, tick, nest, nesting]; omega
theorem formatElems_depth (n : Nat) : ∀ (i : Nat) (vs : List Value), (formatElemsW n i vs).depth ≤ nestingAll vs
  | _, [] => by rw [formatElemsW]; simp [tick, ret]
  | i, v :: vs => by
    have := ad2 (put (spaces n (i + 1))) _ (Nat.le_refl _) (ad2 _ _ (format_depth n (i + 1) v) (ad2 _ _ (comma_depth vs.isEmpty) (ad2 (put [0x0a]) _ (Nat.le_refl _) (formatElems_depth n i vs))))
    simp only [show ∀ t, (put t).depth = 0 from fun _ => rfl] at this
    rw [formatElemsW]
    simp only [tick, nestingAll]; omega
theorem formatMembers_depth (n : Nat) : ∀ (i : Nat) (ms : List (Bytes × Value)), (formatMembersW n i ms).depth ≤ nestingMembers ms
  | _, [] => by rw [formatMembersW]; simp [tick, ret]
  | i, (k, v) :: ms => by
    have := ad2 (put (spaces n (i + 1))) _ (Nat.le_refl _) (ad2 (put [0x22]) _ (Nat.le_refl _) (ad2 (escaped k) _ (Nat.le_refl _) (ad2 (put [0x22]) _ (Nat.le_refl _)
      (ad2 (put [0x3a]) _ (Nat.le_refl _) (ad2 (put [0x20]) _ (Nat.le_refl _) (ad2 _ _ (format_depth n (i + 1) v) (ad2 _ _ (comma_depth ms.isEmpty)
      (ad2 (put [0x0a]) _ (Nat.le_refl _) (formatMembers_depth n i ms)))))))))
    simp only [show ∀ t, (put t).depth = 0 from fun _ => rfl, show (escaped k).depth = 0 from rfl] at this
    rw [formatMembersW]
    simp only [tick, nestingMembers]; omega
end

/-! ### Comparison -/

theorem textEq_le (s t : Bytes) : textEqW s t ≤ s.length + 1 ∧ textEqW s t ≤ t.length + 1 := by
  unfold textEqW; split <;> omega

theorem eqLeafW_res (v w : Value) : (eqLeafW v w).res = v.eq w := by
  unfold eqLeafW; split <;> rfl

theorem eqLeafW_ticks (v w : Value) : (eqLeafW v w).ticks + 2 ≤ 5 * v.weight ∧ (eqLeafW v w).ticks + 2 ≤ 5 * w.weight := by
  have h1 := weight_pos v
  have h2 := weight_pos w
  unfold eqLeafW
  split
  · rename_i t s u s'
    have := textEq_le s s'
    simp only [weight] at *
    split <;> omega
  · simp only; omega

theorem eqLeafW_depth (v w : Value) : (eqLeafW v w).depth = 0 := by
  unfold eqLeafW; split <;> rfl

theorem eqW_leaf {v w : Value} (h : ¬ ((∃ vs ws, v = .arr .array vs ∧ w = .arr .array ws) ∨ ∃ ms ns, v = .obj .object ms ∧ w = .obj .object ns)) : v.eqW w = v.eqLeafW w := by
  cases v with
  | arr ty vs =>
    cases ty <;> try rfl
    cases w with
    | arr u ws => cases u <;> first | rfl | exact absurd (.inl ⟨_, _, rfl, rfl⟩) h
    | _ => rfl
  | obj ty vs =>
    cases ty <;> try rfl
    cases w with
    | obj u ws => cases u <;> first | rfl | exact absurd (.inr ⟨_, _, rfl, rfl⟩) h
    | _ => rfl
  | _ ty => cases ty <;> rfl

theorem bind_res {α β : Type} (r : Work α) (f : α → Work β) : (r.bind f).res = r.res.bind fun a => (f a).res := by
  unfold Work.bind; cases r.res <;> rfl

theorem bind_ticks {α β : Type} (r : Work α) (f : α → Work β) {b : Nat} (h : ∀ a, (f a).ticks ≤ b) : (r.bind f).ticks ≤ r.ticks + b := by
  unfold Work.bind
  cases r.res with
  | ok a => have := h a; simp only; omega
  | throw e => simp only; omega
  | ub => simp only; omega

theorem bind_depth {α β : Type} (r : Work α) (f : α → Work β) {b : Nat} (h : ∀ a, (f a).depth ≤ b) : (r.bind f).depth ≤ max r.depth b := by
  unfold Work.bind
  cases r.res with
  | ok a => have := h a; simp only; omega
  | throw e => simp only; omega
  | ub => simp only; omega

/-- The three things that are said about a comparison. -/
structure Compared (r : Work Bool) (res : Out Bool) (a b d e : Nat) : Prop where
  res : r.res = res
  left : r.ticks ≤ a
  right : r.ticks ≤ b
  depthLeft : r.depth ≤ d
  depthRight : r.depth ≤ e

theorem Compared.leaf {v w : Value} (h : v.eqW w = v.eqLeafW w) : Compared (v.eqW w) (v.eq w) (5 * v.weight - 2) (5 * w.weight - 2) v.nesting w.nesting := by
  have := eqLeafW_ticks v w
  rw [h]
  exact ⟨eqLeafW_res v w, by omega, by omega, by rw [eqLeafW_depth]; omega, by rw [eqLeafW_depth]; omega⟩

mutual
theorem eqW_all : ∀ v w : Value, Compared (v.eqW w) (v.eq w) (5 * v.weight - 2) (5 * w.weight - 2) v.nesting w.nesting
  | .arr t vs, w => by
    by_cases h : ∃ ws, t = .array ∧ w = .arr .array ws
    · obtain ⟨ws, rfl, rfl⟩ := h
      simp only [eqW, eq, type, weight, nesting]
      by_cases hl : vs.length = ws.length
      · obtain ⟨h1, h2, h3, h4, h5⟩ := eqElemsW_all vs ws
        simp only [hl, ne_eq, not_true_eq_false, if_false]
        refine ⟨?_, ?_, ?_, ?_, ?_⟩ <;> simp only [tick, nest]
        · exact h1
        all_goals omega
      · simp only [hl, ne_eq, not_false_eq_true, if_true, not_true_eq_false, if_false]
        refine ⟨rfl, ?_, ?_, ?_, ?_⟩ <;> simp only [tick, nest, ret] <;> omega
    · exact .leaf (eqW_leaf (by rintro (⟨_, ws, e, rfl⟩ | ⟨_, _, e, _⟩); · cases e; exact h ⟨ws, rfl, rfl⟩
                                · cases e))
  | .obj t ms, w => by
    by_cases h : ∃ ns, t = .object ∧ w = .obj .object ns
    · obtain ⟨ns, rfl, rfl⟩ := h
      simp only [eqW, eq, type, weight, nesting]
      by_cases hl : ms.length = ns.length
      · obtain ⟨h1, h2, h3, h4, h5⟩ := eqMembersW_all ms ns
        simp only [hl, ne_eq, not_true_eq_false, if_false]
        refine ⟨?_, ?_, ?_, ?_, ?_⟩ <;> simp only [tick, nest]
        · exact h1
        all_goals omega
      · simp only [hl, ne_eq, not_false_eq_true, if_true, not_true_eq_false, if_false]
        refine ⟨rfl, ?_, ?_, ?_, ?_⟩ <;> simp only [tick, nest, ret] <;> omega
    · exact .leaf (eqW_leaf (by rintro (⟨_, _, e, _⟩ | ⟨_, ns, e, rfl⟩); · cases e
                                · cases e; exact h ⟨ns, rfl, rfl⟩))
  | .str _ _, w => .leaf (eqW_leaf (by rintro (⟨_, _, e, _⟩ | ⟨_, _, e, _⟩) <;> cases e))
  | .arrNull _, w => .leaf (eqW_leaf (by rintro (⟨_, _, e, _⟩ | ⟨_, _, e, _⟩) <;> cases e))
  | .objNull _, w => .leaf (eqW_leaf (by rintro (⟨_, _, e, _⟩ | ⟨_, _, e, _⟩) <;> cases e))
theorem eqElemsW_all : ∀ vs ws : List Value, Compared (eqElemsW vs ws) (eqElems vs ws) (5 * weightAll vs + 1) (5 * weightAll ws + 1) (nestingAll vs) (nestingAll ws)
  | [], ws => by
    simp only [eqElemsW, eqElems]
    refine ⟨rfl, ?_, ?_, ?_, ?_⟩ <;> simp [tick, ret]
  | _ :: _, [] => by
    simp only [eqElemsW, eqElems]
    refine ⟨rfl, ?_, ?_, ?_, ?_⟩ <;> simp [tick, ret]
  | v :: vs, w :: ws => by
    have p1 := weight_pos v
    have p2 := weight_pos w
    obtain ⟨h1, h2, h3, h4, h5⟩ := eqW_all v w
    obtain ⟨g1, g2, g3, g4, g5⟩ := eqElemsW_all vs ws
    have t1 := bind_ticks (v.eqW w) (fun b => if b then eqElemsW vs ws else ret (.ok false)) (b := (eqElemsW vs ws).ticks) (by intro b; cases b <;> simp [ret])
    have t2 := bind_depth (v.eqW w) (fun b => if b then eqElemsW vs ws else ret (.ok false)) (b := (eqElemsW vs ws).depth) (by intro b; cases b <;> simp [ret])
    simp only [eqElemsW, eqElems, weightAll, nestingAll]
    refine ⟨?_, ?_, ?_, ?_, ?_⟩
    · simp only [tick, bind_res, h1]
      cases v.eq w with
      | ok b => cases b <;> simp [ret, g1]
      | _ => rfl
    all_goals simp only [tick]; omega
theorem eqMembersW_all : ∀ ms ns : List (Bytes × Value), Compared (eqMembersW ms ns) (eqMembers ms ns) (5 * weightMembers ms + 1) (5 * weightMembers ns + 1)
    (nestingMembers ms) (nestingMembers ns)
  | [], ws => by
    simp only [eqMembersW, eqMembers]
    refine ⟨rfl, ?_, ?_, ?_, ?_⟩ <;> simp [tick, ret]
  | _ :: _, [] => by
    simp only [eqMembersW, eqMembers]
    refine ⟨rfl, ?_, ?_, ?_, ?_⟩ <;> simp [tick, ret]
  | (k, v) :: ms, (k', w) :: ns => by
    have p1 := weight_pos v
    have p2 := weight_pos w
    have pk := textEq_le k k'
    obtain ⟨h1, h2, h3, h4, h5⟩ := eqW_all v w
    obtain ⟨g1, g2, g3, g4, g5⟩ := eqMembersW_all ms ns
    have t1 := bind_ticks (v.eqW w) (fun b => if b then eqMembersW ms ns else ret (.ok false)) (b := (eqMembersW ms ns).ticks) (by intro b; cases b <;> simp [ret])
    have t2 := bind_depth (v.eqW w) (fun b => if b then eqMembersW ms ns else ret (.ok false)) (b := (eqMembersW ms ns).depth) (by intro b; cases b <;> simp [ret])
    simp only [eqMembersW, eqMembers, weightMembers, nestingMembers]
    by_cases hk : k = k'
    · refine ⟨?_, ?_, ?_, ?_, ?_⟩
      · simp only [tick, bind_res, hk, decide_true, Out.bind_ok, if_true, h1, ne_eq, not_true_eq_false, if_false]
        cases v.eq w with
        | ok b => cases b <;> simp [ret, g1]
        | _ => rfl
      all_goals
        simp only [tick, Work.bind, hk, decide_true, if_true] at *
        omega
    · refine ⟨?_, ?_, ?_, ?_, ?_⟩
      · simp only [tick, bind_res, hk, decide_false, Out.bind_ok, ne_eq, not_false_eq_true, if_true]; rfl
      all_goals
        simp only [tick, Work.bind, hk, decide_false, ret, Bool.false_eq_true, if_false]
        omega
end

end Meojson
