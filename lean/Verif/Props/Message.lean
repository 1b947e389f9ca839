import Verif.Proofs.Message

/-!
# C87: what the exception of a failed conversion says

The text names the type that was wanted and describes the value that was there, at the innermost place that did not fit; but a number is quoted in full, and a struct does not say which
member was wrong.
-/

set_option autoImplicit false

namespace Meojson
open Spec Value

/-- The type at a position. -/
def Tys.nth : Tys → Nat → Option Ty
  | .nil, _ => none
  | .cons t _, 0 => some t
  | .cons _ ts, i + 1 => ts.nth i

/-- What `as<T>()` converts on its way: the content of a nullable wrapper, the elements of a container, the alternative of a variant, the members of a struct. -/
inductive Part (F : Floats) : Ty → Value → Ty → Value → Prop
  | pointer {t : Ty} {v : Value} (h : v.type ≠ .null) : Part F (.nullable .pointer t) v t v
  | optional {t : Ty} {v : Value} : Part F (.nullable .optional t) v t v
  | seq {t : Ty} {v w : Value} {i : Int} (h : Step v (.pos i) w) : Part F (.seq t) v t w
  | set {lt : CVal → CVal → Bool} {t : Ty} {v w : Value} {i : Int} (h : Step v (.pos i) w) : Part F (.set lt t) v t w
  | fixed {n : Nat} {t : Ty} {v w : Value} {i : Int} (h : Step v (.pos i) w) : Part F (.fixed n t) v t w
  | tuple {ts : Tys} {t : Ty} {v w : Value} {i : Nat} (h : ts.nth i = some t) (hv : Step v (.pos i) w) : Part F (.tuple ts) v t w
  | single {t : Ty} {v : Value} : Part F (.tuple (.cons t .nil)) v t v
  | chosen {ts : Tys} {i : Nat} {t : Ty} {v : Value} (h : ts.chosen = some i) (hi : ts.nth i = some t) : Part F (.variant ts) v t v
  | alternative {ts : Tys} {i : Nat} {t : Ty} {v : Value} (h : ts.nth i = some t) (hi : t.is F v = .ok true) : Part F (.variant ts) v t v
  | map {t : Ty} {v w : Value} {k : Bytes} (h : Step v (.key k) w) : Part F (.map t) v t w
  | member {fs : Fields} {m : Member} {v w : Value} (hm : m ∈ fs.members) (h : m.Present F v w) : Part F (.struct fs) v m.ty w

/-- The same, any number of times. -/
inductive PartOf (F : Floats) : Ty → Value → Ty → Value → Prop
  | here {t : Ty} {v : Value} : PartOf F t v t v
  | inner {t u s : Ty} {v w x : Value} (h : Part F t v u w) (hs : PartOf F u w s x) : PartOf F t v s x

/-- The name that a text gives to the type, and the type of JSON value it wants. -/
def Ty.target (N : Names) : Ty → Option (Bytes × VType)
  | .bool => some (ascii "boolean", .boolean)
  | .int T => some (N.int T, .number)
  | .float f => some (N.float f, .number)
  | .string => some (ascii "string", .string)
  | .null => some (ascii "monostate", .null)
  | .jarray | .seq _ | .set _ _ | .fixed _ _ | .tuple _ => some (ascii "array", .array)
  | .jobject | .map _ => some (ascii "object", .object)
  | _ => none

/-- The texts of this library about a value `v` (described by `i`) that is not a `T`, and what is wrong with it. -/
inductive About (F : Floats) (N : Names) (i : Bytes) : Ty → Value → Bytes → Prop
  /-- `v` is of another type than `T` wants. -/
  | kind {t : Ty} {v : Value} {target : Bytes} {ty : VType} (h : t.target N = some (target, ty)) (hv : v.type ≠ ty) :
    About F N i t v (ascii "Type error: cannot convert to " ++ target ++ ascii ", expected=" ++ ty.word ++ ascii ", " ++ i)
  /-- A number that is not in the type. -/
  | int {T : IntTy} {s : Bytes} (h : tryParseInteger T s = none) :
    About F N i (.int T) (.str .number s) (ascii "Parse error: cannot convert number '" ++ s ++ ascii "' to " ++ N.int T)
  | float {f : FloatFmt} {s : Bytes} (h : F.read f s = none) :
    About F N i (.float f) (.str .number s) (ascii "Parse error: cannot convert number '" ++ s ++ ascii "' to " ++ N.float f)
  /-- A text that is no name of the enumeration. -/
  | enumText {E : EnumTy} {s : Bytes} (h : E.ofString s = none) : About F N i (.enum E) (.str .string s) (ascii "Cannot convert to enum: invalid enum string value, " ++ i)
  | enumKind {E : EnumTy} {v : Value} (h : v.type ≠ .string ∧ v.type ≠ .number) : About F N i (.enum E) v (ascii "Cannot convert to enum: expected string or number type, " ++ i)
  | enumInt {E : EnumTy} {T : IntTy} {s : Bytes} (hE : E.under = .int T) (h : tryParseInteger T s = none) :
    About F N i (.enum E) (.str .number s) (ascii "Parse error: cannot convert number '" ++ s ++ ascii "' to " ++ N.int T)
  | enumBool {E : EnumTy} {s : Bytes} (hE : E.under = .bool) :
    About F N i (.enum E) (.str .number s) (ascii "Type error: cannot convert to " ++ ascii "boolean" ++ ascii ", expected=" ++ ascii "boolean" ++ ascii ", " ++ i)
  /-- An array of another size. -/
  | size {n : Nat} {t : Ty} {vs : List Value} (h : vs.length ≠ n) :
    About F N i (.fixed n t) (.arr .array vs) (ascii "Array size mismatch: expected=" ++ natText n ++ ascii ", actual=" ++ natText vs.length)
  | tupleSize {ts : Tys} {vs : List Value} (h : vs.length ≠ ts.size) :
    About F N i (.tuple ts) (.arr .array vs) (ascii "Array size mismatch for tuple conversion: expected=" ++ natText ts.size ++ ascii ", actual=" ++ natText vs.length)
  /-- No alternative fits. -/
  | variant {ts : Tys} {v : Value} (h : ∀ j t, ts.nth j = some t → t.is F v = .ok false) :
    About F N i (.variant ts) v (ascii "Type error: cannot convert to any variant alternative, " ++ i)
  /-- A member is missing, or of another type. The text does not say which. -/
  | struct {fs : Fields} {v : Value} {m : Member} (hm : m ∈ fs.members) (h : m.Bad F v) :
    About F N i (.struct fs) v (ascii "Deserialization failed: from_json() returned false, " ++ i)
  | user {U : User} {v : Value} (h : U.load v = none) : About F N i (.user U) v (ascii "Deserialization failed: from_json() returned false, " ++ i)

/-- The conversions with texts are those of Model/Convert.lean: C27 says when they throw. -/
theorem C87_plain (F : Floats) (c : Compiler) (N : Names) (t : Ty) (v : Value) : (t.asT F c N v).plain = t.as F v := plain_as F c N t v

private theorem bind_error {α β : Type} {r : Told α} {f : α → Told β} {m : Bytes} (h : r.bind f = .error m) : r = .error m ∨ ∃ a, r = .ok a ∧ f a = .error m := by
  cases r with
  | ok a => exact .inr ⟨a, rfl, h⟩
  | error x => cases h; exact .inl rfl
  | other e => cases h
  | ub => cases h

private theorem bind_ok_error {α β : Type} {r : Told α} {f : α → β} {m : Bytes} (h : (r.bind fun a => .ok (f a)) = .error m) : r = .error m := by
  rcases bind_error h with h | ⟨a, -, h⟩
  · exact h
  · cases h

private theorem lift_error {α : Type} {r : Out α} {m : Bytes} : Told.lift r ≠ .error m := by cases r <;> exact nofun

private theorem each_error {α β : Type} {f : α → Told β} {m : Bytes} : ∀ {vs : List α}, eachTold f vs = .error m → ∃ v ∈ vs, f v = .error m
  | [], h => by cases h
  | v :: vs, h => by
    rcases bind_error h with h | ⟨x, -, h⟩
    · exact ⟨v, by simp, h⟩
    · obtain ⟨w, hw, h⟩ := each_error (bind_ok_error h)
      exact ⟨w, by simp [hw], h⟩

private theorem complain_error {α : Type} {c : Compiler} {text : Bytes} {v : Value} {m : Bytes} (h : (v.complain c text : Told α) = .error m) :
    ∃ i, v.infoText c = .ok i ∧ m = text ++ i := by
  unfold complain at h
  cases hi : v.infoText c with
  | ok i => rw [hi] at h; exact ⟨i, rfl, by cases h; rfl⟩
  | throw e => rw [hi] at h; cases h
  | ub => rw [hi] at h; cases h

section
variable {F : Floats} {c : Compiler} {N : Names}

/-- What is to be shown: the text is about something within. -/
private def Good (F : Floats) (c : Compiler) (N : Names) (t : Ty) (v : Value) (m : Bytes) : Prop :=
  ∃ s w i, PartOf F t v s w ∧ w.Sound ∧ w.infoText c = .ok i ∧ About F N i s w m

private theorem Good.inner {t u : Ty} {v w : Value} {m : Bytes} (h : Part F t v u w) (hg : Good F c N u w m) : Good F c N t v m := by
  obtain ⟨s, x, i, h1, h2, h3, h4⟩ := hg
  exact ⟨s, x, i, .inner h h1, h2, h3, h4⟩

private theorem wanted_good {α : Type} {t : Ty} {v : Value} (hv : v.Sound) {m target kind : Bytes} {ty : VType} (ht : t.target N = some (target, ty)) (hk : kind = ty.word) (hn : v.type ≠ ty)
    (h : (v.complain c (wanted target kind) : Told α) = .error m) : Good F c N t v m := by
  obtain ⟨i, h1, rfl⟩ := complain_error h
  subst hk
  exact ⟨t, v, i, .here, hv, h1, .kind ht hn⟩

private theorem info_ok {v : Value} (hv : v.Sound) : ∃ i, v.infoText c = .ok i := by
  obtain ⟨h1, h2, -⟩ := C59_defined c v
  rcases h1 with h1 | h1
  · exact h1
  · rcases h2.1 h1 with rfl | rfl <;> exact hv.elim

private theorem array_good {t : Ty} {v : Value} (hv : v.Sound) {m : Bytes} (ht : t.target N = some (ascii "array", .array)) (h : v.asArrayT c = .error m) : Good F c N t v m := by
  unfold asArrayT at h
  split at h
  · exact absurd h lift_error
  · next hn => exact wanted_good hv ht rfl hn h

private theorem object_good {t : Ty} {v : Value} (hv : v.Sound) {m : Bytes} (ht : t.target N = some (ascii "object", .object)) (h : v.asObjectT c = .error m) : Good F c N t v m := by
  unfold asObjectT at h
  split at h
  · exact absurd h lift_error
  · next hn => exact wanted_good hv ht rfl hn h

private theorem array_ok {v : Value} (hv : v.Sound) {vs : List Value} (h : v.asArrayT c = .ok vs) : v = .arr .array vs ∧ ∀ w ∈ vs, w.Sound := by
  unfold asArrayT at h
  cases sound_shape hv with
  | array ws hw => cases h; exact ⟨rfl, hw⟩
  | _ =>
    rw [if_neg (by simp [Value.type, ofBool])] at h
    unfold complain at h
    revert h
    cases infoText c _ <;> intro h <;> cases h

private theorem object_ok {v : Value} (hv : v.Sound) {ms : List (Bytes × Value)} (h : v.asObjectT c = .ok ms) : v = .obj .object ms ∧ ∀ e ∈ ms, e.2.Sound := by
  unfold asObjectT at h
  cases sound_shape hv with
  | object ws _ hw => cases h; exact ⟨rfl, hw⟩
  | _ =>
    rw [if_neg (by simp [Value.type, ofBool])] at h
    unfold complain at h
    revert h
    cases infoText c _ <;> intro h <;> cases h

private theorem int_good {T : IntTy} {v : Value} (hv : v.Sound) {m : Bytes} (h : v.asIntT c N T = .error m) :
    (∃ s, v = .str .number s ∧ tryParseInteger T s = none ∧ m = unreadable s (N.int T)) ∨ v.type ≠ .number ∧ ∃ i, v.infoText c = .ok i ∧ m = wanted (N.int T) (ascii "number") ++ i := by
  unfold asIntT at h
  cases sound_shape hv with
  | number s =>
    refine .inl ⟨s, rfl, ?_⟩
    simp only [Value.type, if_true, basicStr, Told.lift, Told.bind] at h
    cases hs : tryParseInteger T s with
    | some n => rw [hs] at h; cases h
    | none => rw [hs] at h; cases h; exact ⟨rfl, rfl⟩
  | _ =>
    refine .inr ⟨by simp [Value.type, ofBool], ?_⟩
    rw [if_neg (by simp [Value.type, ofBool])] at h
    exact complain_error h

private theorem load_bad : ∀ {fs : Fields} {st : NextState} {v : Value} {dst : List CVal} {k : Bytes}, v.Sound → (fs.loadT F c N st v dst).1 = .ok (some k) →
    ∃ m ∈ fs.membersFrom st.isOptional st.overrideKey, m.Bad F v
  | .done, st, v, dst, k, _, h => by simp only [Fields.loadT] at h; cases h
  | .opt rest, st, v, dst, k, hv, h => by
    simp only [Fields.loadT] at h
    exact load_bad (fs := rest) hv h
  | .key k' rest, st, v, dst, k, hv, h => by
    simp only [Fields.loadT] at h
    exact load_bad (fs := rest) hv h
  | .var _ _ _ _, _, _, [], _, _, h => by simp only [Fields.loadT] at h; cases h
  | .var name d0 t rest, st, v, d :: dst, k, hv, h => by
    simp only [Fields.loadT] at h
    obtain ⟨o, h1, h2, h3⟩ := findKey_step hv (st.keyFor name)
    rw [h1] at h
    have key : (Fields.var name d0 t rest).membersFrom st.isOptional st.overrideKey = ⟨st.keyFor name, st.isOptional, t⟩ :: rest.membersFrom false none := by
      unfold NextState.keyFor; cases st.overrideKey <;> rfl
    rw [key]
    cases o with
    | none =>
      simp only at h
      split at h
      · obtain ⟨m, hm, hb⟩ := load_bad (fs := rest) hv h
        exact ⟨m, List.mem_cons_of_mem _ hm, hb⟩
      · next ho =>
        refine ⟨_, List.mem_cons_self, .inl ⟨fun w hw => ?_, by simpa using ho⟩⟩
        exact absurd ((h2 w).2 hw) nofun
    | some w =>
      simp only at h
      obtain ⟨b, hb⟩ := is_total F t w (h3 w rfl)
      rw [hb] at h
      cases b with
      | false => exact ⟨_, List.mem_cons_self, .inr ⟨w, (h2 w).1 rfl, hb⟩⟩
      | true =>
        simp only at h
        cases ht : t.asT F c N w with
        | ok x =>
          rw [ht] at h
          obtain ⟨m, hm, hb⟩ := load_bad (fs := rest) hv h
          exact ⟨m, List.mem_cons_of_mem _ hm, hb⟩
        | error m => rw [ht] at h; cases h
        | other m => rw [ht] at h; cases h
        | ub => rw [ht] at h; cases h

private theorem says_enum {E : EnumTy} {v : Value} {m : Bytes} (hv : v.Sound) (h : (Ty.enum E).asT F c N v = .error m) : Good F c N (.enum E) v m := by
  simp only [Ty.asT] at h
  have h := bind_ok_error h
  unfold asEnumT at h
  cases sound_shape hv with
  | string s =>
    simp only [Value.type, if_true] at h
    rcases bind_error h with h | ⟨s', h1, h⟩
    · cases h
    · cases h1
      cases hs : E.ofString s with
      | some e => rw [hs] at h; cases h
      | none =>
        rw [hs] at h
        obtain ⟨i, h2, rfl⟩ := complain_error h
        exact ⟨_, _, i, .here, hv, h2, .enumText hs⟩
  | number s =>
    rw [if_neg (by simp [Value.type, ofBool]), if_pos (show (str VType.number s).type = .number from rfl)] at h
    cases hE : E.under with
    | bool =>
      rw [hE] at h
      have h := bind_ok_error h
      unfold asBooleanT at h
      rw [if_neg (by simp [Value.type, ofBool])] at h
      obtain ⟨i, h2, rfl⟩ := complain_error h
      exact ⟨_, _, i, .here, hv, h2, .enumBool hE⟩
    | int T =>
      rw [hE] at h
      obtain ⟨i, hi⟩ := info_ok (c := c) hv
      rcases int_good hv h with ⟨s', e, h1, rfl⟩ | ⟨h1, -⟩
      · cases e; exact ⟨_, _, i, .here, hv, hi, .enumInt hE h1⟩
      · exact absurd rfl h1
  | _ =>
    rw [if_neg (by simp [Value.type, ofBool]), if_neg (by simp [Value.type, ofBool])] at h
    obtain ⟨i, h2, rfl⟩ := complain_error h
    exact ⟨_, _, i, .here, hv, h2, .enumKind (by simp [Value.type, ofBool])⟩

private theorem says_int {T : IntTy} {v : Value} {m : Bytes} (hv : v.Sound) (h : (Ty.int T).asT F c N v = .error m) : Good F c N (.int T) v m := by
  simp only [Ty.asT] at h
  rcases int_good hv (bind_ok_error h) with ⟨s, rfl, h1, rfl⟩ | ⟨h1, i, h2, rfl⟩
  · obtain ⟨i, hi⟩ := info_ok (c := c) hv
    exact ⟨_, _, i, .here, hv, hi, .int h1⟩
  · exact ⟨_, _, i, .here, hv, h2, .kind rfl h1⟩

private theorem says_float {f : FloatFmt} {v : Value} {m : Bytes} (hv : v.Sound) (h : (Ty.float f).asT F c N v = .error m) : Good F c N (.float f) v m := by
  simp only [Ty.asT] at h
  have h := bind_ok_error h
  unfold asFloatT at h
  cases sound_shape hv with
  | number s =>
    obtain ⟨i, hi⟩ := info_ok (c := c) hv
    simp only [Value.type, if_true, basicStr, Told.lift, Told.bind] at h
    cases hs : F.read f s with
    | some n => rw [hs] at h; cases h
    | none => rw [hs] at h; cases h; exact ⟨_, _, i, .here, hv, hi, .float hs⟩
  | _ => exact wanted_good hv rfl rfl (by simp [Value.type, ofBool]) (by rw [if_neg (by simp [Value.type, ofBool])] at h; exact h)

private theorem says_bool {v : Value} {m : Bytes} (hv : v.Sound) (h : Ty.bool.asT F c N v = .error m) : Good F c N .bool v m := by
  simp only [Ty.asT] at h
  have h := bind_ok_error h
  unfold asBooleanT at h
  cases sound_shape hv with
  | «true» => cases h
  | «false» => cases h
  | _ => exact wanted_good hv rfl rfl (by simp [Value.type, ofBool]) (by rw [if_neg (by simp [Value.type, ofBool])] at h; exact h)

private def AnyText (c : Compiler) (v : Value) (m : Bytes) : Prop := ∃ i, v.infoText c = .ok i ∧ m = ascii "Type error: cannot convert to any variant alternative, " ++ i

mutual
private theorem says : ∀ (t : Ty) (v : Value) (m : Bytes), v.Sound → t.asT F c N v = .error m → Good F c N t v m
  | .json, v, m, hv, h => by
    simp only [Ty.asT] at h
    exact absurd (bind_ok_error h) lift_error
  | .struct fs, v, m, hv, h => by
    simp only [Ty.asT] at h
    rcases bind_error h with h | ⟨r, h1, h⟩
    · obtain ⟨mem, hm, w, hp, hg⟩ := says_load fs {} v fs.defaults m hv h
      exact hg.inner (.member hm hp)
    · cases r with
      | none => cases h
      | some k =>
        obtain ⟨i, h2, rfl⟩ := complain_error h
        obtain ⟨mem, hm, hb⟩ := load_bad hv h1
        exact ⟨_, _, i, .here, hv, h2, .struct hm hb⟩
  | .user U, v, m, hv, h => by
    simp only [Ty.asT] at h
    cases hl : U.load v with
    | some x => rw [hl] at h; cases h
    | none =>
      rw [hl] at h
      obtain ⟨i, h2, rfl⟩ := complain_error h
      exact ⟨_, _, i, .here, hv, h2, .user hl⟩
  | .bool, v, m, hv, h => says_bool hv h
  | .null, v, m, hv, h => by
    simp only [Ty.asT] at h
    have h := bind_ok_error h
    unfold asMonostateT at h
    split at h
    · cases h
    · next hn => exact wanted_good hv rfl rfl hn h
  | .nullable .pointer t, v, m, hv, h => by
    simp only [Ty.asT] at h
    split at h
    · cases h
    · next hn => exact (says t v m hv (bind_ok_error h)).inner (.pointer hn)
  | .nullable .optional t, v, m, hv, h => by
    simp only [Ty.asT] at h
    exact (says t v m hv (bind_ok_error h)).inner .optional
  | .enum E, v, m, hv, h => says_enum hv h
  | .int T, v, m, hv, h => says_int hv h
  | .float f, v, m, hv, h => says_float hv h
  | .string, v, m, hv, h => by
    simp only [Ty.asT] at h
    have h := bind_ok_error h
    unfold asStringT at h
    split at h
    · exact absurd h lift_error
    · next hn => exact wanted_good hv rfl rfl hn h
  | .jarray, v, m, hv, h => by
    simp only [Ty.asT] at h
    replace h := bind_error h
    rcases h with h | ⟨vs, h1, h⟩
    · exact array_good hv rfl h
    · obtain ⟨w, -, h⟩ := each_error (bind_ok_error h)
      exact absurd h lift_error
  | .seq t, v, m, hv, h => by
    simp only [Ty.asT] at h
    replace h := bind_error h
    rcases h with h | ⟨vs, h1, h⟩
    · exact array_good hv rfl h
    · obtain ⟨rfl, hs⟩ := array_ok hv h1
      obtain ⟨w, hw, h⟩ := each_error (bind_ok_error h)
      obtain ⟨i, hi⟩ := step_of_mem hw
      exact (says t w m (hs w hw) h).inner (.seq hi)
  | .set lt t, v, m, hv, h => by
    simp only [Ty.asT] at h
    replace h := bind_error h
    rcases h with h | ⟨vs, h1, h⟩
    · exact array_good hv rfl h
    · obtain ⟨rfl, hs⟩ := array_ok hv h1
      obtain ⟨w, hw, h⟩ := each_error (bind_ok_error h)
      obtain ⟨i, hi⟩ := step_of_mem hw
      exact (says t w m (hs w hw) h).inner (.set hi)
  | .fixed n t, v, m, hv, h => by
    simp only [Ty.asT] at h
    replace h := bind_error h
    rcases h with h | ⟨vs, h1, h⟩
    · exact array_good hv rfl h
    · obtain ⟨rfl, hs⟩ := array_ok hv h1
      split at h
      · obtain ⟨w, hw, h⟩ := each_error (bind_ok_error h)
        obtain ⟨i, hi⟩ := step_of_mem hw
        exact (says t w m (hs w hw) h).inner (.fixed hi)
      · next hn =>
        cases h
        obtain ⟨i, hi⟩ := info_ok (c := c) hv
        exact ⟨_, _, i, .here, hv, hi, .size hn⟩
  | .tuple ts, v, m, hv, h => by
    simp only [Ty.asT] at h
    split at h
    · next h1 =>
      obtain ⟨t, rfl⟩ : ∃ t, ts = .cons t .nil := by
        cases ts with
        | nil => simp [Tys.size] at h1
        | cons t ts => cases ts with
          | nil => exact ⟨t, rfl⟩
          | cons t' ts => simp [Tys.size] at h1
      obtain ⟨t', h2, hg⟩ := says_nth (.cons t .nil) 0 v m hv (bind_ok_error h)
      simp only [Tys.nth, Option.some.injEq] at h2
      subst h2
      exact hg.inner .single
    · replace h := bind_error h
      rcases h with h | ⟨vs, h1, h⟩
      · exact array_good hv rfl h
      · obtain ⟨rfl, hs⟩ := array_ok hv h1
        split at h
        · obtain ⟨i, t, w, h2, h3, hg⟩ := says_all ts vs m hs (bind_ok_error h)
          exact hg.inner (.tuple h2 (.pos (by omega) (by simpa using h3)))
        · next hn =>
          cases h
          obtain ⟨i, hi⟩ := info_ok (c := c) hv
          exact ⟨_, _, i, .here, hv, hi, .tupleSize hn⟩
  | .variant ts, v, m, hv, h => by
    simp only [Ty.asT] at h
    cases hc : ts.chosen with
    | some i =>
      rw [hc] at h
      obtain ⟨t, h2, hg⟩ := says_nth ts i v m hv (bind_ok_error h)
      exact hg.inner (.chosen hc h2)
    | none =>
      rw [hc] at h
      rcases says_any ts 0 v m hv h with ⟨h1, i, h2, rfl⟩ | ⟨i, t, h1, h2, hg⟩
      · exact ⟨_, _, i, .here, hv, h2, .variant h1⟩
      · exact hg.inner (.alternative h1 h2)
  | .jobject, v, m, hv, h => by
    simp only [Ty.asT] at h
    replace h := bind_error h
    rcases h with h | ⟨ms, h1, h⟩
    · exact object_good hv rfl h
    · obtain ⟨w, -, h⟩ := each_error (bind_ok_error h)
      exact absurd (bind_ok_error h) lift_error
  | .map t, v, m, hv, h => by
    simp only [Ty.asT] at h
    replace h := bind_error h
    rcases h with h | ⟨ms, h1, h⟩
    · exact object_good hv rfl h
    · obtain ⟨rfl, hs⟩ := object_ok hv h1
      obtain ⟨e, he, h⟩ := each_error (bind_ok_error h)
      exact (says t e.2 m (hs e he) (bind_ok_error h)).inner (.map (k := e.1) (.key he))
private theorem says_all : ∀ (ts : Tys) (vs : List Value) (m : Bytes), (∀ v ∈ vs, v.Sound) → ts.asAllT F c N vs = .error m →
    ∃ i t w, ts.nth i = some t ∧ vs[i]? = some w ∧ Good F c N t w m
  | .nil, _, m, _, h => by simp only [Tys.asAllT] at h; cases h
  | .cons _ _, [], m, _, h => by simp only [Tys.asAllT] at h; cases h
  | .cons t ts, v :: vs, m, hv, h => by
    simp only [Tys.asAllT] at h
    rcases bind_error h with h | ⟨x, -, h⟩
    · exact ⟨0, t, v, rfl, rfl, says t v m (hv v (by simp)) h⟩
    · obtain ⟨i, t', w, h1, h2, h3⟩ := says_all ts vs m (fun w hw => hv w (by simp [hw])) (bind_ok_error h)
      exact ⟨i + 1, t', w, h1, by simpa using h2, h3⟩
private theorem says_nth : ∀ (ts : Tys) (i : Nat) (v : Value) (m : Bytes), v.Sound → ts.asNthT F c N i v = .error m → ∃ t, ts.nth i = some t ∧ Good F c N t v m
  | .nil, _, _, m, _, h => by simp only [Tys.asNthT] at h; cases h
  | .cons t _, 0, v, m, hv, h => by
    simp only [Tys.asNthT] at h
    exact ⟨t, rfl, says t v m hv h⟩
  | .cons _ ts, i + 1, v, m, hv, h => by
    simp only [Tys.asNthT] at h
    exact says_nth ts i v m hv h
private theorem says_any : ∀ (ts : Tys) (i : Nat) (v : Value) (m : Bytes), v.Sound → ts.asAnyT F c N i v = .error m →
    (∀ j t, ts.nth j = some t → t.is F v = .ok false) ∧ AnyText c v m ∨
      ∃ j t, ts.nth j = some t ∧ t.is F v = .ok true ∧ Good F c N t v m
  | .nil, _, v, m, hv, h => by
    simp only [Tys.asAnyT] at h
    exact .inl ⟨fun _ _ => nofun, complain_error h⟩
  | .cons t ts, i, v, m, hv, h => by
    simp only [Tys.asAnyT] at h
    obtain ⟨b, hb⟩ := is_total F t v hv
    rw [hb] at h
    cases b with
    | true => exact .inr ⟨0, t, rfl, hb, says t v m hv (bind_ok_error h)⟩
    | false =>
      simp only [Told.lift, Told.bind, Bool.false_eq_true, if_false] at h
      refine (says_any ts (i + 1) v m hv h).elim (fun p => .inl ⟨fun j t' hj => ?_, p.2⟩) fun p => ?_
      · cases j with
        | zero => simp only [Tys.nth, Option.some.injEq] at hj; rw [← hj, hb]
        | succ j => exact p.1 j t' hj
      · obtain ⟨j, t', h1, h2⟩ := p
        exact .inr ⟨j + 1, t', h1, h2⟩
private theorem says_load : ∀ (fs : Fields) (st : NextState) (v : Value) (dst : List CVal) (m : Bytes), v.Sound → (fs.loadT F c N st v dst).1 = .error m →
    ∃ mem ∈ fs.membersFrom st.isOptional st.overrideKey, ∃ w, mem.Present F v w ∧ Good F c N mem.ty w m
  | .done, _, _, dst, m, _, h => by simp only [Fields.loadT] at h; cases h
  | .opt rest, st, v, dst, m, hv, h => by
    simp only [Fields.loadT] at h
    exact says_load rest _ v dst m hv h
  | .key k rest, st, v, dst, m, hv, h => by
    simp only [Fields.loadT] at h
    exact says_load rest _ v dst m hv h
  | .var _ _ _ _, _, _, [], m, _, h => by simp only [Fields.loadT] at h; cases h
  | .var name d0 t rest, st, v, d :: dst, m, hv, h => by
    simp only [Fields.loadT] at h
    obtain ⟨o, h1, h2, h3⟩ := findKey_step hv (st.keyFor name)
    rw [h1] at h
    have key : (Fields.var name d0 t rest).membersFrom st.isOptional st.overrideKey = ⟨st.keyFor name, st.isOptional, t⟩ :: rest.membersFrom false none := by
      unfold NextState.keyFor; cases st.overrideKey <;> rfl
    rw [key]
    cases o with
    | none =>
      simp only at h
      split at h
      · obtain ⟨mem, hm, w, hp⟩ := says_load rest {} v dst m hv h
        exact ⟨mem, List.mem_cons_of_mem _ hm, w, hp⟩
      · cases h
    | some w =>
      simp only at h
      obtain ⟨b, hb⟩ := is_total F t w (h3 w rfl)
      rw [hb] at h
      cases b with
      | false => cases h
      | true =>
        simp only at h
        cases ht : t.asT F c N w with
        | ok x =>
          rw [ht] at h
          obtain ⟨mem, hm, w, hp⟩ := says_load rest {} v dst m hv h
          exact ⟨mem, List.mem_cons_of_mem _ hm, w, hp⟩
        | error m' =>
          rw [ht] at h
          cases h
          exact ⟨_, List.mem_cons_self, w, ⟨(h2 w).1 rfl, hb⟩, says t w m (h3 w rfl) ht⟩
        | other m => rw [ht] at h; cases h
        | ub => rw [ht] at h; cases h
end

end

section
variable {F : Floats} {c : Compiler} {N : Names}

private theorem bind_other {α β : Type} {r : Told α} {f : α → Told β} (h : r.bind f = .other .json) : r = .other .json ∨ ∃ a, r = .ok a ∧ f a = .other .json := by
  cases r with
  | ok a => exact .inr ⟨a, rfl, h⟩
  | error x => cases h
  | other e => cases h; exact .inl rfl
  | ub => cases h

private theorem bind_ok_other {α β : Type} {r : Told α} {f : α → β} (h : (r.bind fun a => .ok (f a)) = .other .json) : r = .other .json := by
  rcases bind_other h with h | ⟨a, -, h⟩
  · exact h
  · cases h

private theorem each_other {α β : Type} {f : α → Told β} : ∀ {vs : List α}, eachTold f vs = .other .json → ∃ v ∈ vs, f v = .other .json
  | [], h => by cases h
  | v :: vs, h => by
    rcases bind_other h with h | ⟨x, -, h⟩
    · exact ⟨v, by simp, h⟩
    · obtain ⟨w, hw, h⟩ := each_other (bind_ok_other h)
      exact ⟨w, by simp [hw], h⟩

private theorem complain_other {α : Type} {text : Bytes} {v : Value} : (v.complain c text : Told α) ≠ .other .json := by
  unfold complain
  rcases (C59_defined c v).1 with ⟨t, h⟩ | h <;> rw [h] <;> exact nofun

private theorem copied_other {v : Value} : Told.lift v.copied ≠ .other .json := by unfold copied; split <;> exact nofun

private theorem basic_other {v : Value} : Told.lift v.basicStr ≠ .other .json := by cases v <;> exact nofun

private theorem array_other {v : Value} : v.asArrayT c ≠ .other .json := by
  unfold asArrayT
  split
  · next h => unfold asArray; rw [if_pos h]; cases v <;> exact nofun
  · exact complain_other

private theorem object_other {v : Value} : v.asObjectT c ≠ .other .json := by
  unfold asObjectT
  split
  · next h => unfold asObject; rw [if_pos h]; cases v <;> exact nofun
  · exact complain_other

private theorem boolean_other {v : Value} : v.asBooleanT c ≠ .other .json := by
  unfold asBooleanT
  split
  · intro h
    rcases bind_other h with h | ⟨s, -, h⟩
    · exact basic_other h
    · split at h
      · cases h
      · split at h <;> cases h
  · exact complain_other

private theorem int_other {T : IntTy} {v : Value} : v.asIntT c N T ≠ .other .json := by
  unfold asIntT
  split
  · intro h
    rcases bind_other h with h | ⟨s, -, h⟩
    · exact basic_other h
    · split at h <;> cases h
  · exact complain_other

mutual
private theorem no_other : ∀ (t : Ty) (v : Value), v.Sound → t.asT F c N v ≠ .other .json
  | .json, v, hv => fun h => by
    simp only [Ty.asT] at h
    exact copied_other (bind_ok_other h)
  | .struct fs, v, hv => fun h => by
    simp only [Ty.asT] at h
    rcases bind_other h with h | ⟨r, -, h⟩
    · exact no_other_load fs {} v fs.defaults hv h
    · cases r with
      | none => cases h
      | some k => exact complain_other h
  | .user U, v, hv => fun h => by
    simp only [Ty.asT] at h
    split at h
    · cases h
    · exact complain_other h
  | .bool, v, hv => fun h => by
    simp only [Ty.asT] at h
    exact boolean_other (bind_ok_other h)
  | .null, v, hv => fun h => by
    simp only [Ty.asT] at h
    have h := bind_ok_other h
    unfold asMonostateT at h
    split at h
    · cases h
    · exact complain_other h
  | .nullable .pointer t, v, hv => fun h => by
    simp only [Ty.asT] at h
    split at h
    · cases h
    · exact no_other t v hv (bind_ok_other h)
  | .nullable .optional t, v, hv => fun h => by
    simp only [Ty.asT] at h
    exact no_other t v hv (bind_ok_other h)
  | .enum E, v, hv => fun h => by
    simp only [Ty.asT] at h
    have h := bind_ok_other h
    unfold asEnumT at h
    split at h
    · next hs =>
      rcases bind_other h with h | ⟨s, -, h⟩
      · unfold asStringViewT at h
        rw [if_pos hs] at h
        exact basic_other h
      · split at h
        · cases h
        · exact complain_other h
    · split at h
      · split at h
        · exact boolean_other (bind_ok_other h)
        · exact int_other h
      · exact complain_other h
  | .int T, v, hv => fun h => by
    simp only [Ty.asT] at h
    exact int_other (bind_ok_other h)
  | .float f, v, hv => fun h => by
    simp only [Ty.asT] at h
    have h := bind_ok_other h
    unfold asFloatT at h
    split at h
    · rcases bind_other h with h | ⟨s, -, h⟩
      · exact basic_other h
      · split at h <;> cases h
    · exact complain_other h
  | .string, v, hv => fun h => by
    simp only [Ty.asT] at h
    have h := bind_ok_other h
    unfold asStringT at h
    split at h
    · exact basic_other h
    · exact complain_other h
  | .jarray, v, hv => fun h => by
    simp only [Ty.asT] at h
    rcases bind_other h with h | ⟨vs, h1, h⟩
    · exact array_other h
    · obtain ⟨w, -, h⟩ := each_other (bind_ok_other h)
      exact copied_other h
  | .seq t, v, hv => fun h => by
    simp only [Ty.asT] at h
    rcases bind_other h with h | ⟨vs, h1, h⟩
    · exact array_other h
    · obtain ⟨w, hw, h⟩ := each_other (bind_ok_other h)
      exact no_other t w ((array_ok hv h1).2 w hw) h
  | .set lt t, v, hv => fun h => by
    simp only [Ty.asT] at h
    rcases bind_other h with h | ⟨vs, h1, h⟩
    · exact array_other h
    · obtain ⟨w, hw, h⟩ := each_other (bind_ok_other h)
      exact no_other t w ((array_ok hv h1).2 w hw) h
  | .fixed n t, v, hv => fun h => by
    simp only [Ty.asT] at h
    rcases bind_other h with h | ⟨vs, h1, h⟩
    · exact array_other h
    · split at h
      · obtain ⟨w, hw, h⟩ := each_other (bind_ok_other h)
        exact no_other t w ((array_ok hv h1).2 w hw) h
      · cases h
  | .tuple ts, v, hv => fun h => by
    simp only [Ty.asT] at h
    split at h
    · exact no_other_nth ts 0 v hv (bind_ok_other h)
    · rcases bind_other h with h | ⟨vs, h1, h⟩
      · exact array_other h
      · split at h
        · exact no_other_all ts vs (array_ok hv h1).2 (bind_ok_other h)
        · cases h
  | .variant ts, v, hv => fun h => by
    simp only [Ty.asT] at h
    split at h
    · exact no_other_nth ts _ v hv (bind_ok_other h)
    · exact no_other_any ts 0 v hv h
  | .jobject, v, hv => fun h => by
    simp only [Ty.asT] at h
    rcases bind_other h with h | ⟨ms, h1, h⟩
    · exact object_other h
    · obtain ⟨w, -, h⟩ := each_other (bind_ok_other h)
      exact copied_other (bind_ok_other h)
  | .map t, v, hv => fun h => by
    simp only [Ty.asT] at h
    rcases bind_other h with h | ⟨ms, h1, h⟩
    · exact object_other h
    · obtain ⟨e, he, h⟩ := each_other (bind_ok_other h)
      exact no_other t e.2 ((object_ok hv h1).2 e he) (bind_ok_other h)
private theorem no_other_all : ∀ (ts : Tys) (vs : List Value), (∀ v ∈ vs, v.Sound) → ts.asAllT F c N vs ≠ .other .json
  | .nil, _, _ => fun h => by simp only [Tys.asAllT] at h; cases h
  | .cons _ _, [], _ => fun h => by simp only [Tys.asAllT] at h; cases h
  | .cons t ts, v :: vs, hv => fun h => by
    simp only [Tys.asAllT] at h
    rcases bind_other h with h | ⟨x, -, h⟩
    · exact no_other t v (hv v (by simp)) h
    · exact no_other_all ts vs (fun w hw => hv w (by simp [hw])) (bind_ok_other h)
private theorem no_other_nth : ∀ (ts : Tys) (i : Nat) (v : Value), v.Sound → ts.asNthT F c N i v ≠ .other .json
  | .nil, _, _, _ => fun h => by simp only [Tys.asNthT] at h; cases h
  | .cons t _, 0, v, hv => fun h => by
    simp only [Tys.asNthT] at h
    exact no_other t v hv h
  | .cons _ ts, i + 1, v, hv => fun h => by
    simp only [Tys.asNthT] at h
    exact no_other_nth ts i v hv h
private theorem no_other_any : ∀ (ts : Tys) (i : Nat) (v : Value), v.Sound → ts.asAnyT F c N i v ≠ .other .json
  | .nil, _, v, hv => fun h => by
    simp only [Tys.asAnyT] at h
    exact complain_other h
  | .cons t ts, i, v, hv => fun h => by
    simp only [Tys.asAnyT] at h
    obtain ⟨b, hb⟩ := is_total F t v hv
    rw [hb] at h
    cases b with
    | true => exact no_other t v hv (bind_ok_other h)
    | false => exact no_other_any ts (i + 1) v hv h
private theorem no_other_load : ∀ (fs : Fields) (st : NextState) (v : Value) (dst : List CVal), v.Sound → (fs.loadT F c N st v dst).1 ≠ .other .json
  | .done, _, _, dst, _ => fun h => by simp only [Fields.loadT] at h; cases h
  | .opt rest, st, v, dst, hv => fun h => by
    simp only [Fields.loadT] at h
    exact no_other_load rest _ v dst hv h
  | .key k rest, st, v, dst, hv => fun h => by
    simp only [Fields.loadT] at h
    exact no_other_load rest _ v dst hv h
  | .var _ _ _ _, _, _, [], _ => fun h => by simp only [Fields.loadT] at h; cases h
  | .var name _ t rest, st, v, d :: dst, hv => fun h => by
    simp only [Fields.loadT] at h
    obtain ⟨o, h1, h2, h3⟩ := findKey_step hv (st.keyFor name)
    rw [h1] at h
    cases o with
    | none =>
      simp only at h
      split at h
      · exact no_other_load rest {} v dst hv h
      · cases h
    | some w =>
      simp only at h
      obtain ⟨b, hb⟩ := is_total F t w (h3 w rfl)
      rw [hb] at h
      cases b with
      | false => cases h
      | true =>
        simp only at h
        cases ht : t.asT F c N w with
        | ok x => rw [ht] at h; exact no_other_load rest {} v dst hv h
        | error m' => rw [ht] at h; cases h
        | other m => rw [ht] at h; cases h; exact no_other t w (h3 w rfl) ht
        | ub => rw [ht] at h; cases h
end

end

/-- When `as<T>()` throws, there is a text, and it is about a part of the value that is not of the type wanted there. -/
theorem C87_innermost_partial (F : Floats) (c : Compiler) (N : Names) (t : Ty) (v : Value) (hv : v.Sound) (h : t.as F v = .throw .json) :
    ∃ m, t.asT F c N v = .error m ∧ ∃ s w i, PartOf F t v s w ∧ w.Sound ∧ w.infoText c = .ok i ∧ About F N i s w m := by
  have hp := C87_plain F c N t v
  rw [h] at hp
  cases hr : t.asT F c N v with
  | error m => exact ⟨m, rfl, says t v m hv hr⟩
  | ok x => rw [hr] at hp; cases hp
  | other e => rw [hr] at hp; cases hp; exact absurd hr (no_other t v hv)
  | ub => rw [hr] at hp; cases hp

/-- `as_string_view()` and the conversion to `nullptr_t` (which no type of `Ty` uses) say so by name. -/
theorem C87_named (c : Compiler) (v : Value) (hv : v.Sound) :
    (v.type ≠ .string → ∃ i, v.infoText c = .ok i ∧ v.asStringViewT c = .error (ascii "Type error: cannot convert to string_view, expected=string, " ++ i)) ∧
    (v.type ≠ .null → ∃ i, v.infoText c = .ok i ∧ v.asNullptrT c = .error (ascii "Type error: cannot convert to nullptr_t, expected=null, " ++ i)) := by
  obtain ⟨i, hi⟩ := info_ok (c := c) hv
  have e1 : wanted (ascii "string_view") (ascii "string") = ascii "Type error: cannot convert to string_view, expected=string, " := by decide +kernel
  have e2 : wanted (ascii "nullptr_t") (ascii "null") = ascii "Type error: cannot convert to nullptr_t, expected=null, " := by decide +kernel
  refine ⟨fun h => ⟨i, hi, ?_⟩, fun h => ⟨i, hi, ?_⟩⟩
  · rw [asStringViewT, if_neg h, e1, complain, hi]
    rfl
  · rw [asNullptrT, if_neg h, e2, complain, hi]
    rfl

/-! ### Length -/

private theorem natTextF_length : ∀ (k fuel n : Nat), n < 10 ^ (k + 1) → (natTextF fuel n).length ≤ k + 1
  | k, 0, n, _ => by simp [natTextF]
  | 0, fuel + 1, n, h => by
    unfold natTextF
    rw [if_pos (by simpa using h)]
    simp
  | k + 1, fuel + 1, n, h => by
    unfold natTextF
    split
    · simp
    · have := natTextF_length k fuel (n / 10) (by rw [Nat.div_lt_iff_lt_mul (by omega)]; rw [Nat.pow_succ] at h; exact h)
      simp; omega

private theorem natText_length {n : Nat} (h : n < 2 ^ 64) : (natText n).length ≤ 20 := natTextF_length 19 _ n (Nat.lt_of_lt_of_le h (by decide))

private theorem word_length (t : VType) : t.word.length ≤ 7 := by cases t <;> decide +kernel

private theorem info_length {c : Compiler} {v : Value} (hv : v.Sound) {i : Bytes} (hi : v.infoText c = .ok i) (ha : ∀ vs, v = .arr .array vs → vs.length < 2 ^ 64)
    (ho : ∀ ms, v = .obj .object ms → ms.length < 2 ^ 64) : i.length ≤ 123 := by
  obtain ⟨h1, h2, h3, h4⟩ := C59_info c v hv
  have l1 : (ascii "type=").length = 5 := by decide +kernel
  have l2 : (ascii ", value=").length = 8 := by decide +kernel
  have l3 : (ascii "...").length = 3 := by decide +kernel
  have l4 : (ascii "type=array, size=").length = 17 := by decide +kernel
  have l5 : (ascii "type=object, size=").length = 18 := by decide +kernel
  have lw := word_length v.type
  have scalar : v.type = .boolean ∨ v.type = .number ∨ v.type = .string → i.length ≤ 123 := by
    intro hs
    obtain ⟨t, -, g1, g2⟩ := h2 hs
    by_cases hl : t.length ≤ 100
    · rw [g1 hl] at hi
      obtain rfl := Out.ok.inj hi
      simp only [List.length_append, l1, l2]
      omega
    · rw [g2 (by omega)] at hi
      obtain rfl := Out.ok.inj hi
      simp only [List.length_append, List.length_take, l1, l2, l3]
      omega
  have plain : v.type = .null ∨ v.type = .invalid → i.length ≤ 123 := by
    intro hs
    rw [h1 hs] at hi
    obtain rfl := Out.ok.inj hi
    simp only [List.length_append, l1]
    omega
  cases sound_shape hv with
  | array vs _ =>
    rw [h3 vs rfl] at hi
    obtain rfl := Out.ok.inj hi
    have := natText_length (ha vs rfl)
    simp only [List.length_append, l4]
    omega
  | object ms _ _ =>
    rw [h4 ms rfl] at hi
    obtain rfl := Out.ok.inj hi
    have := natText_length (ho ms rfl)
    simp only [List.length_append, l5]
    omega
  | invalid => exact plain (.inr rfl)
  | null => exact plain (.inl rfl)
  | «true» => exact scalar (.inl rfl)
  | «false» => exact scalar (.inl rfl)
  | number s => exact scalar (.inr (.inl rfl))
  | string s => exact scalar (.inr (.inr rfl))

/-- A text is at most 200 bytes long, unless it is about a number: that is quoted in full. (`long double` and `unsigned long long` are the longest names.) -/
theorem C87_length_partial (F : Floats) (c : Compiler) (N : Names) (hN : (∀ T, (N.int T).length ≤ 18) ∧ ∀ f, (N.float f).length ≤ 18) (t : Ty) (v : Value) (hv : v.Sound) (i m : Bytes)
    (hi : v.infoText c = .ok i) (h : About F N i t v m) (ha : ∀ vs, v = .arr .array vs → vs.length < 2 ^ 64) (ho : ∀ ms, v = .obj .object ms → ms.length < 2 ^ 64)
    (ht : ∀ n s, t = .fixed n s → n < 2 ^ 64) (hts : ∀ ts, t = .tuple ts → ts.size < 2 ^ 64) :
    m.length ≤ 200 ∨ ∃ s, v = .str .number s ∧ m.length ≤ 60 + s.length := by
  have li := info_length hv hi ha ho
  have l1 : (ascii "Type error: cannot convert to ").length = 30 := by decide +kernel
  have l2 : (ascii ", expected=").length = 11 := by decide +kernel
  have l3 : (ascii ", ").length = 2 := by decide +kernel
  have l4 : (ascii "Parse error: cannot convert number '").length = 36 := by decide +kernel
  have l5 : (ascii "' to ").length = 5 := by decide +kernel
  have l6 : (ascii "boolean").length = 7 := by decide +kernel
  have l7 : (ascii ", actual=").length = 9 := by decide +kernel
  cases h with
  | @kind _ _ target ty h hn =>
    left
    have lt : target.length ≤ 18 := by
      have w : ∀ x ∈ [ascii "boolean", ascii "string", ascii "monostate", ascii "array", ascii "object"], x.length ≤ 18 := by decide +kernel
      cases t <;> simp only [Ty.target, Option.some.injEq, Prod.mk.injEq] at h <;> first
        | (obtain ⟨rfl, -⟩ := h; first | exact hN.1 _ | exact hN.2 _ | exact w _ (by simp))
        | cases h
    have := word_length ty
    simp only [List.length_append, l1, l2, l3]
    omega
  | int h => right; have := hN.1; refine ⟨_, rfl, ?_⟩; simp only [List.length_append, l4, l5]; have := hN.1 ‹IntTy›; omega
  | float h => right; refine ⟨_, rfl, ?_⟩; simp only [List.length_append, l4, l5]; have := hN.2 ‹FloatFmt›; omega
  | enumText h =>
    left
    have : (ascii "Cannot convert to enum: invalid enum string value, ").length ≤ 60 := by decide +kernel
    rw [List.length_append]; omega
  | enumKind h =>
    left
    have : (ascii "Cannot convert to enum: expected string or number type, ").length ≤ 60 := by decide +kernel
    rw [List.length_append]; omega
  | @enumInt E T s hE h => right; refine ⟨_, rfl, ?_⟩; simp only [List.length_append, l4, l5]; have := hN.1 T; omega
  | enumBool hE => left; simp only [List.length_append, l1, l2, l3, l6]; omega
  | @size n s vs h =>
    left
    have : (ascii "Array size mismatch: expected=").length ≤ 60 := by decide +kernel
    have := natText_length (ht n s rfl)
    have := natText_length (ha vs rfl)
    simp only [List.length_append, l7]; omega
  | @tupleSize ts vs h =>
    left
    have : (ascii "Array size mismatch for tuple conversion: expected=").length ≤ 60 := by decide +kernel
    have := natText_length (hts ts rfl)
    have := natText_length (ha vs rfl)
    simp only [List.length_append, l7]; omega
  | variant h =>
    left
    have : (ascii "Type error: cannot convert to any variant alternative, ").length ≤ 60 := by decide +kernel
    rw [List.length_append]; omega
  | struct hm h =>
    left
    have : (ascii "Deserialization failed: from_json() returned false, ").length ≤ 60 := by decide +kernel
    rw [List.length_append]; omega
  | user h =>
    left
    have : (ascii "Deserialization failed: from_json() returned false, ").length ≤ 60 := by decide +kernel
    rw [List.length_append]; omega

/-- No bound holds for numbers: `json::parse("[0.000...0]")->at(0).as_integer()` throws a text that contains all the digits, while `value_info()` shortens what it shows to 100 bytes. -/
theorem C87_refuted (F : Floats) (c : Compiler) (N : Names) (n : Nat) :
    ∃ (s m : Bytes), Number s ∧ (Ty.int cInt).asT F c N (.str .number s) = .error m ∧ n ≤ m.length := by
  have no : tryParseInteger cInt ([0x30, 0x2e] ++ List.replicate (n + 1) 0x30) = none := by
    cases hr : tryParseInteger cInt ([0x30, 0x2e] ++ List.replicate (n + 1) 0x30) with
    | none => rfl
    | some x =>
      rcases ((tryParseInteger_eq _ _ _).1 hr).2 with ⟨h, -⟩ | ⟨-, ds, h, -⟩
      · exact absurd (h.2 0x2e (by simp)) (by unfold Digit; decide)
      · exact absurd (List.cons.inj h).1 (by decide)
  refine ⟨[0x30, 0x2e] ++ List.replicate (n + 1) 0x30, unreadable ([0x30, 0x2e] ++ List.replicate (n + 1) 0x30) (N.int cInt), ?_, ?_, ?_⟩
  · refine ⟨[], [0x30], 0x2e :: List.replicate (n + 1) 0x30, [], .inl rfl, .inl rfl, .inr ⟨_, ⟨by simp, ?_⟩, rfl⟩, .inl rfl, by simp⟩
    intro c hc
    rw [(List.mem_replicate.1 hc).2]
    unfold Digit
    decide
  · simp only [Ty.asT, asIntT, Value.type, if_true, basicStr, Told.lift, Told.bind, no]
  · simp only [unreadable, List.length_append, List.length_replicate]
    omega

namespace MessageExamples

def names : Names := ⟨fun T => if T.signed then ascii "integer" else ascii "unsigned", fun _ => ascii "double"⟩
def floats : Floats := ⟨fun _ _ => [], fun _ _ => none⟩

/-- `struct S { int a; int b; MEO_JSONIZATION(a, b); };` -/
def S : Fields := .var (ascii "a") (.int 0) (.int cInt) (.var (ascii "b") (.int 0) (.int cInt) .done)

/-- `{"a":1,"b":"x"}` and `{"a":"x","b":1}` -/
def badB : Value := .obj .object [(ascii "a", .ofInt 1), (ascii "b", .str .string (ascii "x"))]
def badA : Value := .obj .object [(ascii "a", .str .string (ascii "x")), (ascii "b", .ofInt 1)]

end MessageExamples

/-- The text, if there is one. -/
def Told.text {α : Type} : Told α → Option Bytes
  | .error m => some m
  | _ => none

open MessageExamples in
/-- The text about a struct says that something is wrong, and not which member: a wrong `b` gives the same text as a wrong `a`, and it names neither. (`from_json` has a second argument for the
key; `as<T>()` does not use it.) -/
theorem C87_refuted_member (c : Compiler) : badA.Sound ∧ badB.Sound ∧
    ((Ty.struct S).asT floats c names badA).text = some (ascii "Deserialization failed: from_json() returned false, type=object, size=2") ∧
    ((Ty.struct S).asT floats c names badB).text = some (ascii "Deserialization failed: from_json() returned false, type=object, size=2") ∧
    (Ty.int cInt).is floats (.str .string (ascii "x")) = .ok false :=
  ⟨⟨by decide +kernel, by simp [Value.ofInt, Value.WfMembers, Value.Wf]⟩, ⟨by decide +kernel, by simp [Value.ofInt, Value.WfMembers, Value.Wf]⟩, by cases c <;> decide +kernel,
    by cases c <;> decide +kernel, rfl⟩

/-! Not vacuous: one text of each kind. -/

section
open MessageExamples

private abbrev says? (t : Ty) (v : Value) : Option Bytes := (t.asT floats .gcc names v).text
private abbrev text (s : String) : Value := .str .string (ascii s)

example : says? .bool (text "x") = some (ascii "Type error: cannot convert to boolean, expected=boolean, type=string, value=\"x\"") := by decide +kernel
example : says? (.int cInt) (.str .number (ascii "1e3")) = some (ascii "Parse error: cannot convert number '1e3' to integer") := by decide +kernel
example : says? (.float .double) (.str .number (ascii "1e999")) = some (ascii "Parse error: cannot convert number '1e999' to double") := by decide +kernel
example : says? (.seq (.seq (.int cInt))) (.arr .array [.arr .array [.ofInt 1], .arr .array [.ofInt 2, text "x"]]) =
    some (ascii "Type error: cannot convert to integer, expected=number, type=string, value=\"x\"") := by decide +kernel
example : says? (.fixed 2 .bool) (.arr .array []) = some (ascii "Array size mismatch: expected=2, actual=0") := by decide +kernel
example : says? (.tuple (.cons .bool (.cons .bool .nil))) (.arr .array []) = some (ascii "Array size mismatch for tuple conversion: expected=2, actual=0") := by decide +kernel
example : says? (.variant (.cons .bool (.cons (.int cInt) .nil))) (text "x") = some (ascii "Type error: cannot convert to any variant alternative, type=string, value=\"x\"") := by
  decide +kernel
example : says? .null (.ofInt 1) = some (ascii "Type error: cannot convert to monostate, expected=null, type=number, value=1") := by decide +kernel
example : says? (.map .bool) (.arr .array [.null]) = some (ascii "Type error: cannot convert to object, expected=object, type=array, size=1") := by decide +kernel
example : says? (.nullable .pointer .bool) .null = none := by decide +kernel
-- A struct within a vector is named as a whole.
example : says? (.seq (.struct S)) (.arr .array [badA]) = some (ascii "Deserialization failed: from_json() returned false, type=object, size=2") := by decide +kernel

end

/-- A Boolean whose text is neither `true` nor `false`, which only the constructor from a type and a text can make, is quoted. -/
theorem C87_misfit (F : Floats) (c : Compiler) (N : Names) (s : Bytes) (h1 : s ≠ ascii "true") (h2 : s ≠ ascii "false") :
    Ty.bool.asT F c N (.str .boolean s) = .error (ascii "Parse error: invalid boolean value '" ++ s ++ ascii "'") := by
  show (Told.bind (if s = ascii "true" then _ else if s = ascii "false" then _ else _) _) = _
  rw [if_neg h1, if_neg h2]; rfl

end Meojson
