import Verif.Model.Noexcept
import Verif.Props.Report
import Verif.Proofs.Convert

/-!
# C78: asking a value what it is does not end the program

`is<T>()`, `type_name()` and `value_info()` are `noexcept`. The claim: they answer for every value and every type, also when there is no memory left. It holds for `type_name()` and
`value_info()` with every standard library in use, and for `is<T>()` unless `T` contains a class with a `check_json` that throws, or, without memory, a struct with a long key.
-/

set_option autoImplicit false

namespace Meojson
open Value

/-- The claim. -/
def C78Claim : Prop := ∀ (F : Floats) (e : Env), 15 ≤ e.inside → ∀ (t : Ty) (v : Value) (c : Compiler), v.Sound →
  (∃ b, t.isIn F e v = .ok b) ∧ (∃ s, v.typeNameIn e c = .ok s) ∧ ∃ s, v.infoTextIn e c = .ok s

/-- The words for the types fit into any `std::string` of 7 characters, and the short form of `value_info()` into 12. -/
theorem word_length (t : VType) : t.word.length ≤ 7 := by cases t <;> decide +kernel

theorem infoBodyIn_memory (e : Env) (hm : e.memory = true) (info : Bytes) (v : Value) : v.infoBodyIn e info = v.infoBody info := by
  have mk : ∀ s, make e s = .ok s := fun s => by simp [make, Env.holds, hm]
  unfold infoBodyIn infoBody
  generalize v.type = ty
  cases ty <;> simp [mk]

theorem infoBodyIn_cases (e : Env) (info : Bytes) (v : Value) : v.infoBodyIn e info = v.infoBody info ∨ v.infoBodyIn e info = .throw .badAlloc := by
  have add : ∀ s : Bytes, ((make e s).bind fun s => make e (info ++ s)) = .ok (info ++ s) ∨ ((make e s).bind fun s => make e (info ++ s)) = .throw .badAlloc := by
    intro s
    unfold make
    by_cases a : e.holds s
    · by_cases b : e.holds (info ++ s) <;> simp [a, b]
    · simp [a]
  have scalar : ∀ a b d : Bytes, (v.dumpTo.bind fun s => (make e s).bind fun s =>
        if 100 < s.length then ((make e (a ++ s.take 100 ++ b)).bind fun s => make e (info ++ s)) else ((make e (d ++ s)).bind fun s => make e (info ++ s))) =
        (v.dumpTo.bind fun s => if 100 < s.length then .ok (info ++ (a ++ s.take 100 ++ b)) else .ok (info ++ (d ++ s))) ∨
      (v.dumpTo.bind fun s => (make e s).bind fun s =>
        if 100 < s.length then ((make e (a ++ s.take 100 ++ b)).bind fun s => make e (info ++ s)) else ((make e (d ++ s)).bind fun s => make e (info ++ s))) = .throw .badAlloc := by
    intro a b d
    cases v.dumpTo with
    | ub => exact .inl rfl
    | throw x => exact .inl rfl
    | ok s =>
      simp only [Out.bind_ok]
      by_cases h : e.holds s
      · simp only [show make e s = .ok s by simp [make, h], Out.bind_ok]
        split
        · exact add _
        · exact add _
      · right; simp [make, h]
  unfold infoBodyIn infoBody
  generalize v.type = ty
  cases ty
  case array =>
    cases v.asArray with
    | ub => exact .inl rfl
    | throw x => exact .inl rfl
    | ok s => exact add _
  case object =>
    cases v.asObject with
    | ub => exact .inl rfl
    | throw x => exact .inl rfl
    | ok s => exact add _
  all_goals first | exact .inl rfl | exact scalar _ _ _

/-- `type_name()` and `value_info()` never end the program if 12 characters need no memory. `value_info()` is then what it is with memory, or (only without memory) its first part. -/
theorem C78_info (e : Env) (h : 12 ≤ e.inside) (c : Compiler) (v : Value) :
    v.typeNameIn e c = .ok v.type.word ∧
    (v.infoTextIn e c = v.infoText c ∨ e.memory = false ∧ v.infoTextIn e c = .ok (ascii "type=" ++ v.type.word)) := by
  have hw := word_length v.type
  have h5 : (ascii "type=").length = 5 := by decide +kernel
  have e1 : v.typeNameIn e c = .ok v.type.word := by
    have : v.type.word.length ≤ e.inside := by omega
    simp [typeNameIn, C59_type_name, Env.holds, this]
  obtain ⟨x, hx⟩ : ∃ x, ascii "type=" ++ v.type.word = x := ⟨_, rfl⟩
  have e2 : x.length ≤ e.inside := by rw [← hx, List.length_append, h5]; omega
  refine ⟨e1, ?_⟩
  unfold infoTextIn infoText
  rw [e1, C59_type_name]
  dsimp only [Out.bind]
  rw [hx]
  have e3 : make e x = .ok x := by simp [make, Env.holds, e2]
  rw [e3]
  dsimp only
  cases hm : e.memory with
  | true =>
    left
    rw [infoBodyIn_memory e hm]
    cases v.infoBody x <;> rfl
  | false =>
    rcases infoBodyIn_cases e x v with k | k
    · left
      rw [k]
      cases v.infoBody x <;> rfl
    · right
      rw [k]
      exact ⟨rfl, rfl⟩

example : (Value.ofBool true).infoTextIn ⟨15, false, fun _ _ => false, fun _ => false⟩ .gcc = .ok (ascii "type=boolean") ∧
    (Value.ofBool true).infoTextIn ⟨15, true, fun _ _ => false, fun _ => false⟩ .gcc = .ok (ascii "type=boolean, value=true") := by decide +kernel

/-- With a `std::string` of eleven characters inside it would end the program. -/
theorem C78_info_sharp (e : Env) (h : e.inside < 12) (hm : e.memory = false) (c : Compiler) : (Value.str .invalid []).infoTextIn e c = .ub := by
  obtain ⟨x, hx⟩ : ∃ x, ascii "type=" ++ (Value.str .invalid []).type.word = x := ⟨_, rfl⟩
  have b : x.length = 12 := by rw [← hx]; decide +kernel
  have d : e.holds x = false := by
    unfold Env.holds
    rw [hm, b]
    simpa using h
  obtain ⟨y, hy⟩ : ∃ y, (Value.str .invalid []).type.word = y := ⟨_, rfl⟩
  rw [hy] at hx
  have hn : make e x = .throw .badAlloc := by simp [make, d]
  unfold infoTextIn typeNameIn
  rw [C59_type_name, hy]
  dsimp only [Out.bind]
  by_cases hh : e.holds y
  · rw [if_pos hh]
    dsimp only
    rw [hx, hn]
    rfl
  · rw [if_neg hh]

/-! ### `is<T>()` -/

mutual
/-- No class in it has a `check_json` that throws, and its structs can be made and have keys that can. -/
def Ty.Safe (e : Env) : Ty → Prop
  | .user U => ∀ v, e.throws U v = false
  | .struct fs => e.fails fs = false ∧ fs.Safe e none
  | .nullable _ t | .seq t | .set _ t | .fixed _ t | .map t => t.Safe e
  | .tuple ts | .variant ts => ts.Safe e
  | _ => True
def Tys.Safe (e : Env) : Tys → Prop
  | .nil => True
  | .cons t ts => t.Safe e ∧ ts.Safe e
/-- `k` is the key that a `MEO_KEY` has set. -/
def Fields.Safe (e : Env) : Fields → Option Bytes → Prop
  | .done, _ => True
  | .opt rest, k => rest.Safe e k
  | .key k rest, _ => rest.Safe e (some k)
  | .var name _ t rest, k => (e.memory = true ∨ (k.getD name).length ≤ e.inside) ∧ t.Safe e ∧ rest.Safe e none
end

theorem allAre_congr {α : Type} {p q : α → Out Bool} : ∀ {vs : List α}, (∀ v ∈ vs, p v = q v) → allAre p vs = allAre q vs
  | [], _ => rfl
  | v :: vs, h => by
    rw [allAre, allAre, h v (by simp), allAre_congr fun w hw => h w (by simp [hw])]

mutual
theorem isIn_safe (F : Floats) (e : Env) : ∀ (t : Ty) (v : Value), t.Safe e → v.Sound → t.isIn F e v = t.is F v
  | .user U, v, h, _ => by rw [Ty.isIn, Ty.is, h v]; rfl
  | .json, _, _, _ => by rw [Ty.isIn, Ty.is]
  | .struct fs, v, h, hv => by
    obtain ⟨r, hr⟩ := check_total F fs {} v hv
    rw [Ty.isIn, Ty.is, h.1, checkIn_safe F e fs {} v h.2 hv, hr]; rfl
  | .bool, v, _, _ => by rw [Ty.isIn, Ty.is]
  | .null, v, _, _ => by rw [Ty.isIn, Ty.is]
  | .nullable _ t, v, h, hv => by rw [Ty.isIn, Ty.is, isIn_safe F e t v h hv]
  | .enum E, v, _, _ => by rw [Ty.isIn, Ty.is]
  | .int T, v, _, _ => by rw [Ty.isIn, Ty.is]
  | .float f, v, _, _ => by rw [Ty.isIn, Ty.is]
  | .string, v, _, _ => by rw [Ty.isIn, Ty.is]
  | .jarray, v, _, _ => by rw [Ty.isIn, Ty.is]
  | .jobject, v, _, _ => by rw [Ty.isIn, Ty.is]
  | .seq t, v, h, hv => by
    rw [Ty.isIn, Ty.is]
    cases sound_shape hv with
    | array vs hs =>
      simp only [Value.type, if_true, Value.asArray, Out.noexcept, Out.bind_ok]
      exact allAre_congr fun w hw => isIn_safe F e t w h (hs w hw)
    | _ => rfl
  | .set _ t, v, h, hv => by
    rw [Ty.isIn, Ty.is]
    cases sound_shape hv with
    | array vs hs =>
      simp only [Value.type, if_true, Value.asArray, Out.noexcept, Out.bind_ok]
      exact allAre_congr fun w hw => isIn_safe F e t w h (hs w hw)
    | _ => rfl
  | .fixed n t, v, h, hv => by
    rw [Ty.isIn, Ty.is]
    cases sound_shape hv with
    | array vs hs =>
      simp only [Value.type, if_true, Value.asArray, Out.noexcept, Out.bind_ok]
      rw [allAre_congr fun w hw => isIn_safe F e t w h (hs w hw)]
    | _ => rfl
  | .tuple ts, v, h, hv => by
    rw [Ty.isIn, Ty.is]
    cases sound_shape hv with
    | array vs hs =>
      simp only [Value.type, if_true, Value.asArray, Out.noexcept, Out.bind_ok]
      rw [areAllIn_safe F e ts vs h hs]
    | _ => rfl
  | .variant ts, v, h, hv => by rw [Ty.isIn, Ty.is, isAnyIn_safe F e ts v h hv]
  | .map t, v, h, hv => by
    rw [Ty.isIn, Ty.is]
    cases sound_shape hv with
    | object ms _ hs =>
      simp only [Value.type, if_true, Value.asObject, Out.noexcept, Out.bind_ok]
      exact allAre_congr fun m hm => isIn_safe F e t m.2 h (hs m hm)
    | _ => rfl
theorem areAllIn_safe (F : Floats) (e : Env) : ∀ (ts : Tys) (vs : List Value), ts.Safe e → (∀ v ∈ vs, v.Sound) → ts.areAllIn F e vs = ts.areAll F vs
  | .nil, _, _, _ => by rw [Tys.areAllIn, Tys.areAll]
  | .cons _ _, [], _, _ => by rw [Tys.areAllIn, Tys.areAll]
  | .cons t ts, v :: vs, h, hv => by
    rw [Tys.areAllIn, Tys.areAll, isIn_safe F e t v h.1 (hv v (by simp)), areAllIn_safe F e ts vs h.2 fun w hw => hv w (by simp [hw])]
theorem isAnyIn_safe (F : Floats) (e : Env) : ∀ (ts : Tys) (v : Value), ts.Safe e → v.Sound → ts.isAnyIn F e v = ts.isAny F v
  | .nil, _, _, _ => by rw [Tys.isAnyIn, Tys.isAny]
  | .cons t ts, v, h, hv => by rw [Tys.isAnyIn, Tys.isAny, isIn_safe F e t v h.1 hv, isAnyIn_safe F e ts v h.2 hv]
theorem checkIn_safe (F : Floats) (e : Env) : ∀ (fs : Fields) (st : NextState) (v : Value), fs.Safe e st.overrideKey → v.Sound → fs.checkIn F e st v = fs.check F st v
  | .done, _, _, _, _ => by rw [Fields.checkIn, Fields.check]
  | .opt rest, st, v, h, hv => by rw [Fields.checkIn, Fields.check]; exact checkIn_safe F e rest _ v h hv
  | .key _ rest, st, v, h, hv => by rw [Fields.checkIn, Fields.check]; exact checkIn_safe F e rest _ v h hv
  | .var name d t rest, st, v, h, hv => by
    obtain ⟨o, ho, _, hs⟩ := findKey_step hv (st.keyFor name)
    obtain ⟨h1, h2, h3⟩ := h
    have hk : e.holds (st.keyFor name) = true := by
      unfold Env.holds NextState.keyFor
      rcases h1 with h | h <;> simp [h]
    rw [Fields.checkIn, Fields.check, hk, ho, checkIn_safe F e rest {} v h3 hv]
    simp only [Out.noexcept, Out.bind_ok]
    cases o with
    | none => rfl
    | some w => simp only [isIn_safe F e t w h2 (hs w rfl)]; rfl
end

/-- `is<T>()` answers as with unlimited memory if no class in `T` has a `check_json` that throws, and the structs in `T` have short keys or there is memory. -/
theorem C78_is_partial (F : Floats) (e : Env) (t : Ty) (h : t.Safe e) (v : Value) (hv : v.Sound) : t.isIn F e v = t.is F v ∧ ∃ b, t.isIn F e v = .ok b := by
  have := isIn_safe F e t v h hv
  exact ⟨this, by rw [this]; exact is_total F t v hv⟩

/-- Non-vacuous: a map to vectors of a struct with a short key, without memory; the same with a long key and memory. -/
example : (Ty.map (.seq (.struct (.var (ascii "x") .null (.int ⟨true, 32⟩) .done)))).Safe ⟨15, false, fun _ _ => true, fun _ => false⟩ ∧
    (Ty.struct (.key (ascii "a key of more than fifteen bytes") (.var (ascii "x") .null (.int ⟨true, 32⟩) .done))).Safe ⟨15, true, fun _ _ => true, fun _ => false⟩ := by
  refine ⟨⟨rfl, .inr (by decide +kernel), trivial, trivial⟩, rfl, .inl rfl, trivial, trivial⟩

theorem allAre_or {α : Type} {p q : α → Out Bool} : ∀ {vs : List α}, (∀ v ∈ vs, p v = q v ∨ p v = .ub) → allAre p vs = allAre q vs ∨ allAre p vs = .ub
  | [], _ => .inl rfl
  | v :: vs, h => by
    rw [allAre, allAre]
    rcases h v (by simp) with h1 | h1
    · rw [h1]
      cases q v with
      | ok b =>
        cases b
        · exact .inl rfl
        · exact allAre_or fun w hw => h w (by simp [hw])
      | throw x => exact .inl rfl
      | ub => exact .inl rfl
    · rw [h1]; exact .inr rfl

mutual
theorem isIn_or (F : Floats) (e : Env) : ∀ (t : Ty) (v : Value), v.Sound → t.isIn F e v = t.is F v ∨ t.isIn F e v = .ub
  | .user U, v, _ => by rw [Ty.isIn, Ty.is]; cases e.throws U v <;> simp
  | .json, _, _ => by rw [Ty.isIn, Ty.is]; exact .inl rfl
  | .struct fs, v, hv => by
    obtain ⟨r, hr⟩ := check_total F fs {} v hv
    rw [Ty.isIn, Ty.is]
    cases e.fails fs
    · rcases checkIn_or F e fs {} v hv with h | h | h
      · rw [h, hr]; exact .inl rfl
      · rw [h]; exact .inr rfl
      · rw [h]; exact .inr rfl
    · exact .inr rfl
  | .bool, v, _ => by rw [Ty.isIn, Ty.is]; exact .inl rfl
  | .null, v, _ => by rw [Ty.isIn, Ty.is]; exact .inl rfl
  | .nullable _ t, v, hv => by
    rw [Ty.isIn, Ty.is]
    split
    · exact .inl rfl
    · exact isIn_or F e t v hv
  | .enum E, v, _ => by rw [Ty.isIn, Ty.is]; exact .inl rfl
  | .int T, v, _ => by rw [Ty.isIn, Ty.is]; exact .inl rfl
  | .float f, v, _ => by rw [Ty.isIn, Ty.is]; exact .inl rfl
  | .string, v, _ => by rw [Ty.isIn, Ty.is]; exact .inl rfl
  | .jarray, v, _ => by rw [Ty.isIn, Ty.is]; exact .inl rfl
  | .jobject, v, _ => by rw [Ty.isIn, Ty.is]; exact .inl rfl
  | .seq t, v, hv => by
    rw [Ty.isIn, Ty.is]
    cases sound_shape hv with
    | array vs hs => exact allAre_or fun w hw => isIn_or F e t w (hs w hw)
    | _ => exact .inl rfl
  | .set _ t, v, hv => by
    rw [Ty.isIn, Ty.is]
    cases sound_shape hv with
    | array vs hs => exact allAre_or fun w hw => isIn_or F e t w (hs w hw)
    | _ => exact .inl rfl
  | .fixed n t, v, hv => by
    rw [Ty.isIn, Ty.is]
    cases sound_shape hv with
    | array vs hs =>
      simp only [Value.type, if_true, Value.asArray, Out.noexcept, Out.bind_ok]
      split
      · exact allAre_or fun w hw => isIn_or F e t w (hs w hw)
      · exact .inl rfl
    | _ => exact .inl rfl
  | .tuple ts, v, hv => by
    rw [Ty.isIn, Ty.is]
    cases sound_shape hv with
    | array vs hs =>
      simp only [Value.type, if_true, Value.asArray, Out.noexcept, Out.bind_ok]
      split
      · exact areAllIn_or F e ts vs hs
      · exact .inl rfl
    | _ => exact .inl rfl
  | .variant ts, v, hv => by rw [Ty.isIn, Ty.is]; exact isAnyIn_or F e ts v hv
  | .map t, v, hv => by
    rw [Ty.isIn, Ty.is]
    cases sound_shape hv with
    | object ms _ hs => exact allAre_or fun m hm => isIn_or F e t m.2 (hs m hm)
    | _ => exact .inl rfl
theorem areAllIn_or (F : Floats) (e : Env) : ∀ (ts : Tys) (vs : List Value), (∀ v ∈ vs, v.Sound) → ts.areAllIn F e vs = ts.areAll F vs ∨ ts.areAllIn F e vs = .ub
  | .nil, _, _ => by rw [Tys.areAllIn, Tys.areAll]; exact .inl rfl
  | .cons _ _, [], _ => by rw [Tys.areAllIn, Tys.areAll]; exact .inl rfl
  | .cons t ts, v :: vs, hv => by
    rw [Tys.areAllIn, Tys.areAll]
    rcases isIn_or F e t v (hv v (by simp)) with h | h
    · rw [h]
      cases t.is F v with
      | ok b =>
        cases b
        · exact .inl rfl
        · exact areAllIn_or F e ts vs fun w hw => hv w (by simp [hw])
      | throw x => exact .inl rfl
      | ub => exact .inl rfl
    · rw [h]; exact .inr rfl
theorem isAnyIn_or (F : Floats) (e : Env) : ∀ (ts : Tys) (v : Value), v.Sound → ts.isAnyIn F e v = ts.isAny F v ∨ ts.isAnyIn F e v = .ub
  | .nil, _, _ => by rw [Tys.isAnyIn, Tys.isAny]; exact .inl rfl
  | .cons t ts, v, hv => by
    rw [Tys.isAnyIn, Tys.isAny]
    rcases isIn_or F e t v hv with h | h
    · rw [h]
      cases t.is F v with
      | ok b =>
        cases b
        · exact isAnyIn_or F e ts v hv
        · exact .inl rfl
      | throw x => exact .inl rfl
      | ub => exact .inl rfl
    · rw [h]; exact .inr rfl
theorem checkIn_or (F : Floats) (e : Env) : ∀ (fs : Fields) (st : NextState) (v : Value), v.Sound →
    fs.checkIn F e st v = fs.check F st v ∨ fs.checkIn F e st v = .ub ∨ fs.checkIn F e st v = .throw .badAlloc
  | .done, _, _, _ => by rw [Fields.checkIn, Fields.check]; exact .inl rfl
  | .opt rest, st, v, hv => by rw [Fields.checkIn, Fields.check]; exact checkIn_or F e rest _ v hv
  | .key _ rest, st, v, hv => by rw [Fields.checkIn, Fields.check]; exact checkIn_or F e rest _ v hv
  | .var name d t rest, st, v, hv => by
    obtain ⟨o, ho, _, hs⟩ := findKey_step hv (st.keyFor name)
    rw [Fields.checkIn, Fields.check, ho]
    cases e.holds (st.keyFor name)
    · exact .inr (.inr rfl)
    · simp only [Out.noexcept, Out.bind_ok]
      cases o with
      | none =>
        by_cases hopt : st.isOptional
        · simp only [hopt]; exact checkIn_or F e rest {} v hv
        · simp only [hopt]; exact .inl rfl
      | some w =>
        rcases isIn_or F e t w (hs w rfl) with h | h
        · simp only [h]
          cases t.is F w with
          | ok b =>
            cases b
            · exact .inl rfl
            · exact checkIn_or F e rest {} v hv
          | throw x => exact .inl rfl
          | ub => exact .inl rfl
        · simp only [h]; exact .inr (.inl rfl)
end

/-- Whatever happens inside: `is<T>()` answers what it would answer with memory, or ends the program. -/
theorem C78_same (F : Floats) (e : Env) (t : Ty) (v : Value) (hv : v.Sound) : t.isIn F e v = t.is F v ∨ t.isIn F e v = .ub := isIn_or F e t v hv

/-- A `check_json` that throws ends the program. -/
theorem C78_user (F : Floats) (e : Env) (U : User) (v : Value) : (Ty.user U).isIn F e v = .ub ↔ e.throws U v = true := by
  rw [Ty.isIn]; cases e.throws U v <;> simp

/-- Without memory, so does a struct whose first key is long, whatever the value: `find_value` is called with a `std::string` made of it. -/
theorem C78_struct (F : Floats) (e : Env) (hm : e.memory = false) (name : Bytes) (d : CVal) (t : Ty) (rest : Fields) (hl : e.inside < name.length) (v : Value) :
    (Ty.struct (.var name d t rest)).isIn F e v = .ub := by
  have : e.holds name = false := by simp only [Env.holds, hm]; simpa using hl
  rw [Ty.isIn, Fields.checkIn]
  cases e.fails (.var name d t rest)
  · have : e.holds (({} : NextState).keyFor name) = false := this
    rw [this]; rfl
  · rfl

/-- So the claim is false. -/
theorem C78_refuted : ¬ C78Claim := by
  intro h
  obtain ⟨⟨b, hb⟩, _⟩ := h ⟨fun _ _ => [], fun _ _ => none⟩ ⟨15, true, fun _ _ => true, fun _ => false⟩ (by decide)
    (.user ⟨fun _ => True, fun _ => true, fun _ => none, fun _ => none⟩) .null .gcc (by simp [Value.Sound, Value.null, Value.Wf])
  rw [Ty.isIn] at hb
  cases hb

/-- And false without any function of the user's: `is<S>()` for a struct with a member name of 16 characters, when memory is short. -/
theorem C78_refuted_struct : ∃ (S : Fields), ∀ (F : Floats) (v : Value), (Ty.struct S).isIn F ⟨15, false, fun _ _ => false, fun _ => false⟩ v = .ub :=
  ⟨.var (ascii "sixteen_letters_") .null .json .done, fun F v => C78_struct F _ rfl _ _ _ _ (by decide +kernel) v⟩

end Meojson
