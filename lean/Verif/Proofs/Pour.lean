import Verif.Model.Pour

/-!
# Proofs for C97: writing into one string that grows

Every function of Model/Pour.lean does the same as a list of appends followed by an ending (`Does`); what is to be shown of strings is then shown for such lists.
-/

set_option autoImplicit false

namespace Meojson

/-- The appends, and then `e`. -/
def pourAll (L : Str) : List Bytes → Out Unit → Sink → Poured
  | [], e, s => ⟨e, s⟩
  | t :: ts, e, s => (L.put t s).andThen fun s => pourAll L ts e s

/-- What the appends and the ending say. -/
def told (ts : List Bytes) (e : Out Unit) : Out Bytes := e.bind fun _ => .ok ts.flatten

/-- `p` is a list of appends, and what it writes is `r`. -/
def Does (L : Str) (p : Sink → Poured) (r : Out Bytes) : Prop := ∃ ts e, (∀ s, p s = pourAll L ts e s) ∧ r = told ts e

theorem andThen_assoc (r : Poured) (f g : Sink → Poured) : (r.andThen f).andThen g = r.andThen fun s => (f s).andThen g := by
  rcases r with ⟨_ | _ | _, _⟩ <;> rfl

theorem pourAll_append (L : Str) (ts us : List Bytes) (e : Out Unit) (s : Sink) :
    (pourAll L ts (.ok ()) s).andThen (fun s => pourAll L us e s) = pourAll L (ts ++ us) e s := by
  induction ts generalizing s with
  | nil => rfl
  | cons t ts ih =>
    simp only [pourAll, List.cons_append]
    rw [andThen_assoc]
    congr 1; funext s'
    exact ih s'

theorem pourAll_stop (L : Str) (ts : List Bytes) {e : Out Unit} (h : e ≠ .ok ()) (f : Sink → Poured) (s : Sink) : (pourAll L ts e s).andThen f = pourAll L ts e s := by
  induction ts generalizing s with
  | nil => cases e <;> first | rfl | exact absurd rfl h
  | cons t ts ih =>
    simp only [pourAll]
    rw [andThen_assoc]
    congr 1; funext s'
    exact ih s'

theorem told_ok (ts : List Bytes) : told ts (.ok ()) = .ok ts.flatten := rfl

namespace Does
variable {L : Str}

theorem put (t : Bytes) : Does L (L.put t) (.ok t) := ⟨[t], .ok (), fun s => by
  simp only [pourAll]
  rcases h : L.put t s with ⟨_ | _ | _, _⟩ <;> rfl, by simp [told]⟩
theorem done : Does L Sink.done (.ok []) := ⟨[], .ok (), fun _ => rfl, rfl⟩
theorem throw (e : Exn) : Does L (Sink.throw e) (.throw e) := ⟨[], .throw e, fun _ => rfl, rfl⟩
theorem ub : Does L Sink.ub .ub := ⟨[], .ub, fun _ => rfl, rfl⟩

theorem andThen {p q : Sink → Poured} {a b : Out Bytes} (hp : Does L p a) (hq : Does L q b) :
    Does L (fun s => (p s).andThen q) (a.bind fun x => b.bind fun y => .ok (x ++ y)) := by
  obtain ⟨ts, e, hp, rfl⟩ := hp
  obtain ⟨us, e', hq, rfl⟩ := hq
  have hq : q = fun s => pourAll L us e' s := funext hq
  cases e with
  | ok u => exact ⟨ts ++ us, e', fun s => by show (p s).andThen q = _; rw [hp s, hq]; exact pourAll_append L ts us e' s, by cases e' <;> simp [told]⟩
  | throw x => exact ⟨ts, .throw x, fun s => by show (p s).andThen q = _; rw [hp s]; exact pourAll_stop L ts (by simp) q s, rfl⟩
  | ub => exact ⟨ts, .ub, fun s => by show (p s).andThen q = _; rw [hp s]; exact pourAll_stop L ts (by simp) q s, rfl⟩

theorem same {p q : Sink → Poured} {a b : Out Bytes} (h : Does L q a) (e : a = b) (hp : ∀ s, p s = q s) : Does L p b := by
  obtain ⟨ts, x, hq, r⟩ := h
  exact ⟨ts, x, fun s => (hp s).trans (hq s), e ▸ r⟩
theorem of {p : Sink → Poured} {a b : Out Bytes} (h : Does L p a) (e : a = b) : Does L p b := e ▸ h

theorem iteDone (c : Bool) (t : Bytes) : Does L (fun s => if c then s.done else L.put t s) (.ok (if c then [] else t)) := by
  cases c
  · exact put t
  · exact done
end Does

theorem escapeLoop_acc (r beg s : Bytes) : escapeLoop r beg s = r ++ escapeLoop [] beg s := by
  induction s generalizing r beg with
  | nil => simp [escapeLoop]
  | cons c s ih =>
    simp only [escapeLoop]
    split
    · rw [ih, ih ([] ++ _ ++ _)]; simp
    · split
      · rw [ih, ih ([] ++ _ ++ _)]; simp
      · exact ih r beg

theorem does_escapeLoop (L : Str) (beg s : Bytes) : Does L (pourEscapeLoop L beg s) (.ok (escapeLoop [] beg s)) := by
  induction s generalizing beg with
  | nil => exact (Does.put (between beg [])).same (by simp [escapeLoop]) fun s => by rw [pourEscapeLoop]
  | cons c s ih =>
    cases h : escapeLetter c with
    | some e =>
      refine ((Does.put (between beg (c :: s))).andThen ((Does.put [0x5c]).andThen ((Does.put [e]).andThen (ih s)))).same ?_ fun s => by simp only [pourEscapeLoop, h]
      simp only [escapeLoop, h]
      rw [escapeLoop_acc ([] ++ _ ++ _)]; simp
    | none =>
      by_cases hc : c < 0x20
      · refine ((Does.put (between beg (c :: s))).andThen ((Does.put [0x5c, 0x75, 0x30, 0x30]).andThen ((Does.put [hexDigit (c >>> 4)]).andThen ((Does.put [hexDigit (c &&& 0x0F)]).andThen (ih s))))).same
          ?_ fun s => by simp only [pourEscapeLoop, h, hc, if_true]
        simp only [escapeLoop, h, hc, if_true]
        rw [escapeLoop_acc ([] ++ _ ++ _)]; simp
      · exact (ih beg).same (by simp only [escapeLoop, h, hc, if_false]) fun s => by simp only [pourEscapeLoop, h, hc, if_false]

theorem does_escaped (L : Str) (s : Bytes) : Does L (pourEscaped L s) (.ok (escapeString s)) := does_escapeLoop L s s

namespace Value

theorem does_broken {L : Str} {v : Value} (h : v.type = .array ∨ v.type = .object) (h1 : ∀ vs, v ≠ .arr .array vs) (h2 : ∀ ms, v ≠ .obj .object ms) :
    Does L (pourBroken v) v.dumpTo := by
  rcases v with ⟨t, s⟩ | ⟨t, vs⟩ | t | ⟨t, ms⟩ | t <;> rcases h with h | h <;> simp only [Value.type] at h <;> subst h
  · exact Does.throw _
  · exact Does.throw _
  · exact absurd rfl (h1 vs)
  · exact Does.throw _
  · exact Does.ub
  · exact Does.throw _
  · exact Does.throw _
  · exact absurd rfl (h2 ms)
  · exact Does.throw _
  · exact Does.ub

theorem does_leaf {L : Str} {v : Value} (h1 : ∀ vs, v ≠ .arr .array vs) (h2 : ∀ ms, v ≠ .obj .object ms) : Does L (pour L v) v.dumpTo := by
  have brk := fun h => (does_broken (L := L) (v := v) h h1 h2)
  rcases v with ⟨t, s⟩ | ⟨t, vs⟩ | t | ⟨t, ms⟩ | t
  · cases t
    all_goals
      first
      | (refine (Does.throw .json).same ?_ fun _ => ?_; (simp only [dumpTo]); (simp only [pour, Value.type]); done)
      | (refine (Does.put [0x6e, 0x75, 0x6c, 0x6c]).same ?_ fun _ => ?_; (simp only [dumpTo]); (simp only [pour, Value.type]); done)
      | (refine (Does.put s).same ?_ fun _ => ?_; (simp only [dumpTo]); (simp only [pour, Value.type]); done)
      | (refine (brk ?_).same ?_ fun _ => ?_; (simp [Value.type]); rfl; (simp only [pour, Value.type]); done)
      | (refine ((Does.put [0x22]).andThen ((does_escaped L s).andThen (Does.put [0x22]))).same ?_ fun _ => ?_; (simp [dumpTo]); (simp only [pour, Value.type]); done)
  all_goals
    cases t
  all_goals
    first
    | exact absurd rfl (h1 _)
    | exact absurd rfl (h2 _)
    | (refine (Does.throw .json).same ?_ fun _ => ?_; (simp only [dumpTo]); (simp only [pour, Value.type]); done)
    | (refine (Does.put [0x6e, 0x75, 0x6c, 0x6c]).same ?_ fun _ => ?_; (simp only [dumpTo]); (simp only [pour, Value.type]); done)
    | (refine (Does.throw .badVariant).same ?_ fun _ => ?_; (simp only [dumpTo]); (simp only [pour, Value.type]); done)
    | (refine (brk ?_).same ?_ fun _ => ?_; (simp [Value.type]); rfl; (simp only [pour, Value.type]); done)
    | (refine ((Does.put [0x22]).andThen (Does.throw .badVariant)).same ?_ fun _ => ?_; (simp [dumpTo]); (simp only [pour, Value.type]); done)

theorem does_formatLeaf {L : Str} (indent times : Nat) {v : Value} (h1 : ∀ vs, v ≠ .arr .array vs) (h2 : ∀ ms, v ≠ .obj .object ms) : Does L (pourFormat L indent times v) (v.formatTo indent times) := by
  have brk := fun h => (does_broken (L := L) (v := v) h h1 h2)
  have leaf := does_leaf (L := L) h1 h2
  rcases v with ⟨t, s⟩ | ⟨t, vs⟩ | t | ⟨t, ms⟩ | t <;> cases t <;>
    first
    | exact absurd rfl (h1 _)
    | exact absurd rfl (h2 _)
    | (refine leaf.same ?_ fun s => ?_; simp only [formatTo]; simp only [pourFormat, Value.type]; done)
    | (refine (brk ?_).same ?_ fun s => ?_; simp [Value.type]; simp only [formatTo, dumpTo]; simp only [pourFormat, Value.type]; done)
    | (refine (Does.throw .json).same ?_ fun s => ?_; simp only [formatTo, dumpTo]; simp only [pourFormat, Value.type]; done)

mutual
theorem does_pour (L : Str) : ∀ v : Value, Does L (pour L v) v.dumpTo
  | .arr .array vs => by
    refine ((Does.put [0x5b]).andThen ((does_elems L vs).andThen (Does.put [0x5d]))).same ?_ fun s => by rw [pour]
    rw [dumpTo]
    cases dumpElems vs <;> simp
  | .obj .object ms => by
    refine ((Does.put [0x7b]).andThen ((does_members L ms).andThen (Does.put [0x7d]))).same ?_ fun s => by rw [pour]
    rw [dumpTo]
    cases dumpMembers ms <;> simp
  | .str t s => does_leaf (by simp) (by simp)
  | .arr .null vs | .arr .boolean vs | .arr .number vs | .arr .string vs | .arr .object vs | .arr .invalid vs => does_leaf (by simp) (by simp)
  | .obj .null ms | .obj .boolean ms | .obj .number ms | .obj .string ms | .obj .array ms | .obj .invalid ms => does_leaf (by simp) (by simp)
  | .arrNull t => does_leaf (by simp) (by simp)
  | .objNull t => does_leaf (by simp) (by simp)
theorem does_elems (L : Str) : ∀ vs : List Value, Does L (pourElems L vs) (dumpElems vs)
  | [] => Does.done.same (by rw [dumpElems]) fun s => by rw [pourElems]
  | v :: vs => by
    refine ((does_pour L v).andThen ((Does.iteDone vs.isEmpty [0x2c]).andThen (does_elems L vs))).same ?_ fun s => by rw [pourElems]
    rw [dumpElems]
    cases dumpTo v <;> cases dumpElems vs <;> simp
theorem does_members (L : Str) : ∀ ms : List (Bytes × Value), Does L (pourMembers L ms) (dumpMembers ms)
  | [] => Does.done.same (by rw [dumpMembers]) fun s => by rw [pourMembers]
  | (k, v) :: ms => by
    refine ((Does.put [0x22]).andThen ((does_escaped L k).andThen ((Does.put [0x22]).andThen ((Does.put [0x3a]).andThen ((does_pour L v).andThen
      ((Does.iteDone ms.isEmpty [0x2c]).andThen (does_members L ms))))))).same ?_ fun s => by rw [pourMembers]
    rw [dumpMembers]
    cases dumpTo v <;> cases dumpMembers ms <;> simp
end

mutual
theorem does_format (L : Str) (n : Nat) : ∀ (times : Nat) (v : Value), Does L (pourFormat L n times v) (v.formatTo n times)
  | times, .arr .array vs => by
    refine ((Does.put [0x5b]).andThen ((Does.put [0x0a]).andThen ((does_formatElems L n times vs).andThen ((Does.put (spaces n times)).andThen (Does.put [0x5d]))))).same ?_ fun s => by rw [pourFormat]
    rw [formatTo]
    cases formatElems n times vs <;> simp
  | times, .obj .object ms => by
    refine ((Does.put [0x7b]).andThen ((Does.put [0x0a]).andThen ((does_formatMembers L n times ms).andThen ((Does.put (spaces n times)).andThen (Does.put [0x7d]))))).same ?_ fun s => by rw [pourFormat]
    rw [formatTo]
    cases formatMembers n times ms <;> simp
  | times, .str t s => does_formatLeaf n times (by simp) (by simp)
  | times, .arr .null vs | times, .arr .boolean vs | times, .arr .number vs | times, .arr .string vs | times, .arr .object vs | times, .arr .invalid vs => does_formatLeaf n times (by simp) (by simp)
  | times, .obj .null ms | times, .obj .boolean ms | times, .obj .number ms | times, .obj .string ms | times, .obj .array ms | times, .obj .invalid ms => does_formatLeaf n times (by simp) (by simp)
  | times, .arrNull t => does_formatLeaf n times (by simp) (by simp)
  | times, .objNull t => does_formatLeaf n times (by simp) (by simp)
theorem does_formatElems (L : Str) (n : Nat) : ∀ (times : Nat) (vs : List Value), Does L (pourFormatElems L n times vs) (formatElems n times vs)
  | times, [] => Does.done.same (by rw [formatElems]) fun s => by rw [pourFormatElems]
  | times, v :: vs => by
    refine ((Does.put (spaces n (times + 1))).andThen ((does_format L n (times + 1) v).andThen ((Does.iteDone vs.isEmpty [0x2c]).andThen ((Does.put [0x0a]).andThen
      (does_formatElems L n times vs))))).same ?_ fun s => by rw [pourFormatElems]
    rw [formatElems]
    cases formatTo n (times + 1) v <;> cases formatElems n times vs <;> simp
theorem does_formatMembers (L : Str) (n : Nat) : ∀ (times : Nat) (ms : List (Bytes × Value)), Does L (pourFormatMembers L n times ms) (formatMembers n times ms)
  | times, [] => Does.done.same (by rw [formatMembers]) fun s => by rw [pourFormatMembers]
  | times, (k, v) :: ms => by
    refine ((Does.put (spaces n (times + 1))).andThen ((Does.put [0x22]).andThen ((does_escaped L k).andThen ((Does.put [0x22]).andThen ((Does.put [0x3a]).andThen ((Does.put [0x20]).andThen
      ((does_format L n (times + 1) v).andThen ((Does.iteDone ms.isEmpty [0x2c]).andThen ((Does.put [0x0a]).andThen (does_formatMembers L n times ms)))))))))).same ?_ fun s => by rw [pourFormatMembers]
    rw [formatMembers]
    cases formatTo n (times + 1) v <;> cases formatMembers n times ms <;> simp
end

end Value

end Meojson
