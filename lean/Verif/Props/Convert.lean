import Verif.Proofs.RoundTrip
import Verif.Proofs.Keep
import Verif.Proofs.Struct
import Verif.Props.Access
import Verif.Props.Serialize

/-!
# C++ types: `is<T>`, `as<T>`, constructors, enums, `MEO_JSONIZATION` (C27-C32, C51; typed form of C26)

Every theorem holds for every conversion `F` between floating-point numbers and text.
-/

set_option autoImplicit false

namespace Meojson
open Spec RawObject

namespace Samples

private abbrev i32 : IntTy := ⟨true, 32⟩

/-- A machine without floating point, for the examples. -/
def noFloats : Floats := ⟨fun _ _ => [0x30], fun _ _ => none⟩

/-- `enum class Color { red, green };` -/
def color : EnumTy := ⟨.int i32, -128, 128, fun e => if e = 0 then ascii "red" else if e = 1 then ascii "green" else ascii "(Color)7", false⟩

/-- `enum class Case { red, RED };` -/
def caseClash : EnumTy := ⟨.int i32, -128, 128, fun e => if e = 0 then ascii "red" else if e = 1 then ascii "RED" else ascii "(Case)7", false⟩

/-- `enum class Wide : int64_t { zero = 0, big = 1LL << 32 };` -/
def wide : EnumTy := ⟨.int ⟨true, 64⟩, -128, 128, fun e => if e = 0 then ascii "zero" else if e = 2 ^ 32 then ascii "big" else ascii "(Wide)7", false⟩

/-- `enum class Byte : uint8_t { low = 1, high = 200 };` -/
def byte : EnumTy := ⟨.int ⟨false, 8⟩, -128, 128, fun e => if e = 1 then ascii "low" else if e = 200 then ascii "high" else ascii "(Byte)7", false⟩

/-- `enum class Flag : bool { off, on };` -/
def flag : EnumTy := ⟨.bool, -128, 128, fun e => if e = 0 then ascii "off" else ascii "on", false⟩

/-- `struct S { int a; std::optional<std::string> b; std::variant<int, std::string> c; MEO_JSONIZATION(a, MEO_OPT MEO_KEY("kk") b, c); };` -/
def fields : Fields :=
  .var (ascii "a") (.int 0) (.int i32) (.opt (.key (ascii "kk") (.var (ascii "b") .nothing (.nullable .optional .string)
    (.var (ascii "c") (.alt 0 (.int 0)) (.variant (.cons (.int i32) (.cons .string .nil))) .done))))

/-- Its three members as JSON sees them. -/
example : fields.members.map (fun m => (m.key, m.optional)) = [(ascii "a", false), (ascii "kk", true), (ascii "c", false)] := by decide +kernel

/-- `std::map<std::string, std::vector<S>>` -/
def type : Ty := .map (.seq (.struct fields))

def structValue : CVal := .list [.int (-5), .just (.str (ascii "x")), .alt 1 (.str (ascii "7"))]

def cval : CVal := .map [(ascii "p", .list [structValue]), (ascii "q", .list [])]

theorem fields_lossless : (Ty.struct fields).Has structValue ∧ (Ty.struct fields).Lossless noFloats structValue ∧
    (Ty.struct fields).Printable noFloats structValue := by
  refine ⟨⟨by show IntTy.Has _ _; unfold IntTy.Has; decide, trivial, trivial, trivial⟩, ⟨by decide +kernel, trivial, trivial, .inr ⟨rfl, trivial, ?_⟩, trivial⟩,
    trivial, trivial, trivial, trivial⟩
  intro u v y hu h
  cases hu
  simp only [Ty.store, Out.ok.injEq, Prod.mk.injEq] at h
  rw [← h.1]
  rfl

theorem cval_lossless : type.Has cval ∧ type.Lossless noFloats cval ∧ type.Printable noFloats cval := by
  have h := fields_lossless
  refine ⟨⟨by simp; decide, ?_⟩, ?_, ?_⟩
  · intro e he; simp at he; rcases he with rfl | rfl
    · intro x hx; simp at hx; subst hx; exact h.1
    · intro x hx; simp at hx
  · intro e he; simp at he; rcases he with rfl | rfl
    · intro x hx; simp at hx; subst hx; exact h.2.1
    · intro x hx; simp at hx
  · intro e he; simp at he; rcases he with rfl | rfl
    · intro x hx; simp at hx; subst hx; exact h.2.2
    · intro x hx; simp at hx

end Samples

/-! ## C27: `is<T>()` guarantees `as<T>()` -/

/-- Where type and value get on (`Apt`): either `is<T>()` is true and `as<T>()` returns a value, or `is<T>()` is false and `as<T>()` throws `json::exception`. -/
theorem C27_is_as_partial (F : Floats) (t : Ty) (v : Value) (hv : v.Sound) (ht : t.Apt v) :
    (t.is F v = .ok true ∧ ∃ x, t.as F v = .ok x) ∨ (t.is F v = .ok false ∧ t.as F v = .throw .json) := is_as F t v hv ht

/-- In particular for every value if the type has no enum with underlying type `bool`, no `std::optional`, no one-element tuple and no variant to which a `json::value`
converts implicitly, at any depth. -/
theorem C27_regular (F : Floats) (t : Ty) (ht : t.Regular) (v : Value) (hv : v.Sound) :
    (t.is F v = .ok true ∧ ∃ x, t.as F v = .ok x) ∨ (t.is F v = .ok false ∧ t.as F v = .throw .json) := is_as F t v hv (regular_apt ht v hv)

/-- For every type without exception, `is<T>()` answers, and `as<T>()` returns a value or throws `json::exception`; nothing else happens. -/
theorem C27_defined (F : Floats) (t : Ty) (v : Value) (hv : v.Sound) : (∃ b, t.is F v = .ok b) ∧ ((∃ x, t.as F v = .ok x) ∨ t.as F v = .throw .json) :=
  ⟨is_total F t v hv, as_total F t v hv⟩

namespace Samples
/-- `{"a":3,"c":4,"kk":"x"}` -/
def structJson : Value := .obj .object [(ascii "a", .ofInt 3), (ascii "c", .ofInt 4), (ascii "kk", .str .string (ascii "x"))]
theorem structJson_sound : structJson.Sound := ⟨by decide +kernel, by simp [Value.ofInt, Value.WfMembers, Value.Wf]⟩
theorem fields_apt : fields.Apt none structJson := by
  refine ⟨fun _ _ => trivial, fun w hw => ⟨?_, trivial⟩, fun _ _ => ⟨rfl, trivial, trivial, trivial⟩, trivial⟩
  cases hw with
  | key h =>
    simp only [List.mem_cons, List.not_mem_nil, or_false, Prod.mk.injEq] at h
    rcases h with ⟨h, _⟩ | ⟨h, _⟩ | ⟨_, rfl⟩
    · exact absurd h (by decide +kernel)
    · exact absurd h (by decide +kernel)
    · simp [Value.type]
end Samples

example : Samples.structJson.Sound ∧ (Ty.struct Samples.fields).Apt Samples.structJson := ⟨Samples.structJson_sound, Samples.fields_apt⟩
example : (Ty.map (.seq (.nullable .pointer (.tuple (.cons .string (.cons (.variant (.cons (.int ⟨true, 32⟩) (.cons .string .nil))) .nil)))))).Regular :=
  ⟨by decide, trivial, ⟨rfl, trivial, trivial, trivial⟩, trivial⟩
/-- Both cases occur. -/
example : (Ty.seq .string).is Samples.noFloats (.arr .array [.str .string []]) = .ok true ∧ (Ty.seq .string).is Samples.noFloats (.arr .array [.null]) = .ok false := by
  constructor <;> rfl

/-- An enum with underlying type `bool` (value.hpp:483-500 looks for a number, value_impl.hpp:284-289 for a boolean): `is<T>()` is true, `as<T>()` throws. -/
theorem C27_refuted : ¬ ∀ (F : Floats) (t : Ty) (v : Value), v.Sound → t.is F v = .ok true → ∃ x, t.as F v = .ok x := by
  intro h
  obtain ⟨x, hx⟩ := h Samples.noFloats (.enum Samples.flag) (.ofBool true) (ofBool_wf _ _ true) rfl
  cases hx

/-- `is<std::optional<T>>()` is true for null, but `as<std::optional<T>>()` constructs a `T` from the null, which throws unless `T` itself takes a null. The operator
that was written for the case (value.hpp:537-543) loses overload resolution against a constructor of `std::optional`. -/
theorem C27_refuted_optional (F : Floats) (t : Ty) :
    (Ty.nullable .optional t).is F .null = .ok true ∧ (t.as F .null = .throw .json → (Ty.nullable .optional t).as F .null = .throw .json) := by
  refine ⟨by rw [Ty.is]; rfl, fun h => ?_⟩
  rw [Ty.as, h]; rfl

example (F : Floats) (T : IntTy) : (Ty.int T).as F .null = .throw .json := by rfl
example (F : Floats) : (Ty.nullable .optional .string).is F .null = .ok true ∧ (Ty.nullable .optional .string).as F .null = .throw .json := by constructor <;> rfl

/-- A tuple with one element is read from the element, not from an array with it: `[5]` is a `std::tuple<int>` that cannot be read, and `5` is none but can. -/
theorem C27_refuted_tuple (F : Floats) :
    ((Ty.tuple (.cons (.int cInt) .nil)).is F (.arr .array [.ofInt 5]) = .ok true ∧ (Ty.tuple (.cons (.int cInt) .nil)).as F (.arr .array [.ofInt 5]) = .throw .json) ∧
    ((Ty.tuple (.cons (.int cInt) .nil)).is F (.ofInt 5) = .ok false ∧ (Ty.tuple (.cons (.int cInt) .nil)).as F (.ofInt 5) = .ok (.list [.int 5])) := by
  refine ⟨⟨?_, ?_⟩, ?_, ?_⟩ <;> rfl

/-- `C26_get` for a default of any type, where the element reached, if any, gets on with it. -/
theorem C26_get_typed (F : Floats) (t : Ty) (v : Value) (hv : v.Sound) (hlen : Storable v) (path : List Value.PathKey) (ht : ∀ x, Reaches v path x → t.Apt x)
    (hpath : ∀ i, Value.PathKey.pos i ∈ path → -(2 ^ 63 : Nat) ≤ i ∧ i < (2 ^ 64 : Nat)) (dflt : CVal) :
    (∃ x y, Reaches v path x ∧ t.is F x = .ok true ∧ t.as F x = .ok y ∧ v.getPath (t.is F) (t.as F) dflt path = .ok y) ∨
    ((∀ x, Reaches v path x → t.is F x = .ok false) ∧ v.getPath (t.is F) (t.as F) dflt path = .ok dflt) :=
  C26_get (t.is F) (t.as F) v hv hlen path (fun x hx hr => (is_as F t x hx (ht x hr)).symm.imp (·.1) id) hpath dflt

example : ∀ x, Reaches (.arr .array [.ofInt 5, .null]) [.pos 0] x → (Ty.nullable .optional (.int cInt)).Apt x := by
  intro x h
  cases h with
  | step hs hr => cases hr; cases hs with | pos _ h => cases h; exact ⟨by simp [Value.ofInt, Value.type], trivial⟩

/-- `v.get("k", std::optional<int>())` throws if the element is null. -/
theorem C26_refuted (F : Floats) (dflt : CVal) :
    (Value.obj .object [([0x6b], .null)]).getPath ((Ty.nullable .optional (.int cInt)).is F) ((Ty.nullable .optional (.int cInt)).as F) dflt [.key [0x6b]] =
      .throw .json := by rfl

/-! ## C45: `as_float`, `as_double`, `as_long_double` -/

/-- They return what `std::stof` and its siblings read in the text of a number, throw `json::exception` if these read nothing or not all of it, and throw it on every other well-formed value. -/
theorem C45_floats (F : Floats) (f : FloatFmt) (v : Value) (hv : v.Sound) :
    (∀ x, v.asFloat F f = .ok x ↔ ∃ s, v = .str .number s ∧ F.read f s = some x) ∧
    (v.type ≠ .number → v.asFloat F f = .throw .json) ∧ (v.type = .number → (∃ x, v.asFloat F f = .ok x) ∨ v.asFloat F f = .throw .json) := by
  cases sound_shape hv with
  | number s =>
    refine ⟨fun x => ?_, fun h => absurd rfl h, fun _ => ?_⟩ <;> cases hr : F.read f s <;> simp [Value.asFloat, Value.type, Value.basicStr, hr]
  | _ => refine ⟨?_, ?_, ?_⟩ <;> simp [Value.asFloat, Value.type, Value.typeError, Value.valueInfo, Value.basicStr, Value.ofBool]

example : (Value.str .number (ascii "1.5")).Sound := by simp [Value.Sound, Value.Wf]

/-! ## C28: conversion to json and back -/

/-- A value of which nothing is lost (`Lossless`) becomes, whatever the value category of the argument, one and the same json value; that is a `T`, and converts back to
the value. If every part of it is printable, it can be written, inside an array or by itself if it is a container, and what is read back in any build, with or without
the dialect of `parsec`, is the same json value. -/
theorem C28_roundtrip_partial (F : Floats) (t : Ty) (x : CVal) (hx : t.Has x) (hl : t.Lossless F x) :
    ∃ v, (∀ c, ∃ y, t.store F c x = .ok (v, y)) ∧ v.Sound ∧ t.is F v = .ok true ∧ t.as F v = .ok x ∧
      (t.Printable F x → ∀ (a : Accel) (indent : Option Nat),
        (∃ s, (Value.arr .array [v]).dumps indent = .ok s ∧ parse a.traits s = some (.arr .array [v]) ∧ parsec a.traits s = some (.arr .array [v])) ∧
        (v.IsContainer → ∃ s, v.dumps indent = .ok s ∧ parse a.traits s = some v ∧ parsec a.traits s = some v)) := by
  obtain ⟨v, hv⟩ := trip F t x hx hl
  refine ⟨v, hv.stores, hv.sound, hv.is, hv.as, fun hp a indent => ?_⟩
  have hj := hv.json hp
  have ha : (Value.arr .array [v]).Json := ⟨hj, trivial⟩
  cases indent with
  | none => exact ⟨C08_roundtrip a _ ha (.inl rfl), fun hc => C08_roundtrip a _ hj hc⟩
  | some n => exact ⟨C09_roundtrip_indented a _ ha (.inl rfl) n, fun hc => C09_roundtrip_indented a _ hj hc n⟩

example : Samples.type.Has Samples.cval ∧ Samples.type.Lossless Samples.noFloats Samples.cval ∧ Samples.type.Printable Samples.noFloats Samples.cval := Samples.cval_lossless
example : (Samples.type.store Samples.noFloats .lv Samples.cval).bind (fun r => r.1.dumps) =
    .ok (ascii "{\"p\":[{\"a\":-5,\"c\":\"7\",\"kk\":\"x\"}],\"q\":[]}") := by decide +kernel

/-- Types with nothing to lose: no floating point, enums, nullables, variants or structs inside. -/
example (F : Floats) (xs : List CVal) : (Ty.seq (.fixed 2 .string)).Lossless F (.list xs) := by
  intro x _
  cases x <;> try trivial
  intro y _
  trivial

/-- The conditions are needed. An empty `std::optional` is written as null and never read back as one: what `as` returns, if anything, has content. -/
theorem C28_optional_lost (F : Floats) (t : Ty) :
    (∀ c, (Ty.nullable .optional t).store F c .nothing = .ok (.null, .nothing)) ∧
    (∀ v x, (Ty.nullable .optional t).as F v = .ok x → ∃ y, x = .just y) ∧ ((Ty.nullable .optional (.int cInt)).as F .null = .throw .json) := by
  refine ⟨fun c => by rw [Ty.store], fun v x h => ?_, rfl⟩
  rw [Ty.as] at h
  cases ht : t.as F v with
  | ok y => rw [ht] at h; cases h; exact ⟨y, rfl⟩
  | throw e => rw [ht] at h; cases h
  | ub => rw [ht] at h; cases h

/-- A smart pointer to an empty one comes back empty. -/
theorem C28_nested_pointer (F : Floats) :
    ∃ v y, (Ty.nullable .pointer (.nullable .pointer .bool)).store F .constLv (.just .nothing) = .ok (v, y) ∧
      (Ty.nullable .pointer (.nullable .pointer .bool)).as F v = .ok .nothing := ⟨_, _, by simp only [Ty.store, Out.bind_ok]; rfl, rfl⟩

/-- A tuple with one element is written as an array and cannot be read from it. -/
theorem C28_tuple_lost (F : Floats) :
    ∃ v y, (Ty.tuple (.cons (.int cInt) .nil)).store F .constLv (.list [.int 5]) = .ok (v, y) ∧ (Ty.tuple (.cons (.int cInt) .nil)).as F v = .throw .json :=
  ⟨.arr .array [.ofInt 5], .list [.int 5], by simp only [Ty.store, Tys.storeAll, Out.bind_ok]; rfl, rfl⟩

/-- A `json::value` in a variant takes over the string, wherever it stands among the alternatives. -/
theorem C28_variant (F : Floats) (s : Bytes) :
    (∃ v y, (Ty.variant (.cons .json (.cons .string .nil))).store F .constLv (.alt 1 (.str s)) = .ok (v, y) ∧
      (Ty.variant (.cons .json (.cons .string .nil))).as F v = .ok (.alt 0 (.json (.str .string s)))) ∧
    (∃ v y, (Ty.variant (.cons .string (.cons .json .nil))).store F .constLv (.alt 0 (.str s)) = .ok (v, y) ∧
      (Ty.variant (.cons .string (.cons .json .nil))).as F v = .ok (.alt 1 (.json (.str .string s)))) :=
  ⟨⟨_, _, by simp only [Ty.store, Tys.storeAlt, Out.bind_ok]; rfl, rfl⟩, ⟨_, _, by simp only [Ty.store, Tys.storeAlt, Out.bind_ok]; rfl, rfl⟩⟩

/-- Two members under one key: the later wins. -/
theorem C28_same_key (F : Floats) :
    let t := Ty.struct (.var [0x61] (.bool false) .bool (.key [0x61] (.var [0x62] (.bool false) .bool .done)))
    ∃ v y, t.store F .constLv (.list [.bool true, .bool false]) = .ok (v, y) ∧ t.as F v = .ok (.list [.bool false, .bool false]) := by
  refine ⟨.obj .object [([0x61], .ofBool false)], .list [.bool true, .bool false], ?_, ?_⟩
  · simp only [Ty.store, Fields.dump, Out.bind_ok]; rfl
  · rfl

/-! ## C29: variants -/

/-- If a `json::value` converts implicitly to no alternative, or to several equally well (`ts.chosen = none`): `as<std::variant<Ts...>>` holds the first alternative with
`is<Ti>()`, converted by `as<Ti>()`; it throws `json::exception` exactly when there is none, and `is<std::variant<Ts...>>()` says which. -/
theorem C29_first_partial (F : Floats) (ts : Tys) (hc : ts.chosen = none) (v : Value) (hv : v.Sound) (ht : ts.AptAny v) :
    (∃ i t x, ts.get? i = some t ∧ t.is F v = .ok true ∧ (∀ i' t', i' < i → ts.get? i' = some t' → t'.is F v = .ok false) ∧ t.as F v = .ok x ∧
      (Ty.variant ts).is F v = .ok true ∧ (Ty.variant ts).as F v = .ok (.alt i x)) ∨
    ((∀ i t, ts.get? i = some t → t.is F v = .ok false) ∧ (Ty.variant ts).is F v = .ok false ∧ (Ty.variant ts).as F v = .throw .json) := by
  rcases any_first F ts 0 v hv ht with ⟨i, t, x, h1, h2, h3, h4, h5, h6⟩ | ⟨h1, h2, h3⟩
  · exact .inl ⟨i, t, x, h1, h2, h3, h4, by rw [Ty.is]; exact h5, by rw [Ty.as, hc]; simpa using h6⟩
  · exact .inr ⟨h1, by rw [Ty.is]; exact h2, by rw [Ty.as, hc]; exact h3⟩

/-- Otherwise it holds the one alternative to which a `json::value` converts implicitly, whatever the value is. -/
theorem C29_chosen (F : Floats) (ts : Tys) (i : Nat) (hc : ts.chosen = some i) (v : Value) (hv : v.Sound) :
    (∃ t x, ts.get? i = some t ∧ t.as F v = .ok x ∧ (Ty.variant ts).as F v = .ok (.alt i x)) ∨ (Ty.variant ts).as F v = .throw .json := by
  have h : ∀ (ts : Tys) (i : Nat), i < ts.size → ∃ t, ts.get? i = some t ∧ ts.asNth F i v = t.as F v := by
    intro ts
    induction ts using Tys.rec (motive_1 := fun _ => True) (motive_3 := fun _ => True) with
    | nil => intro i h; simp [Tys.size] at h
    | cons t ts _ ih =>
      intro i hi
      cases i with
      | zero => exact ⟨t, rfl, by rw [Tys.asNth]⟩
      | succ i =>
        obtain ⟨u, h1, h2⟩ := ih i (by simp only [Tys.size] at hi; omega)
        exact ⟨u, h1, by rw [Tys.asNth, h2]⟩
    | _ => trivial
  obtain ⟨t, h1, h2⟩ := h ts i (chosen_lt hc)
  rcases as_total F t v hv with ⟨x, hx⟩ | hx
  · exact .inl ⟨t, x, h1, hx, by rw [Ty.as, hc]; simp [h2, hx]⟩
  · exact .inr (by rw [Ty.as, hc]; simp [h2, hx])

/-- `as<std::variant<int, json::value>>()` of a number holds a `json::value`, though `int` comes first and matches. -/
theorem C29_refuted (F : Floats) : (Ty.int cInt).is F (.ofInt 5) = .ok true ∧
    (Ty.variant (.cons (.int cInt) (.cons .json .nil))).as F (.ofInt 5) = .ok (.alt 1 (.json (.ofInt 5))) := by constructor <;> rfl

/-- Which alternative that is: `json::value`, or one it wraps. -/
example : (Tys.cons .string (.cons .json .nil)).chosen = some 1 ∧ (Tys.cons .string (.cons (.nullable .optional .json) .nil)).chosen = some 1 ∧
    (Tys.cons .string (.cons .jarray .nil)).chosen = none ∧ (Tys.cons (.nullable .optional .json) (.cons (.tuple (.cons .json .nil)) .nil)).chosen = none := by decide +kernel
/-- Alternatives that both fit, in both orders; and none that fits. -/
example (F : Floats) : (Ty.variant (.cons (.int ⟨true, 32⟩) (.cons (.int ⟨true, 64⟩) .nil))).as F (.ofInt 5) = .ok (.alt 0 (.int 5)) := by rfl
example (F : Floats) : (Ty.variant (.cons (.int ⟨true, 32⟩) (.cons (.int ⟨true, 64⟩) .nil))).as F (.ofInt (2 ^ 40)) = .ok (.alt 1 (.int (2 ^ 40))) := by rfl
example (F : Floats) : (Ty.variant (.cons .string (.cons .bool .nil))).as F (.ofInt 5) = .throw .json := by rfl

/-! ## C30: `check_json` and `from_json` -/

/-- Where the members get on with what they are read from, `check_json(j)` and `from_json(j)` give the same answer, whatever the object held before. If it is yes, no
member was bad (missing and not `MEO_OPT`, or of another type) and each was read; if it is no, `error_key` is the key of the first bad member, the members before it were
read, and neither it nor any later one was touched. -/
theorem C30_agree_partial (F : Floats) (fs : Fields) (j : Value) (hj : j.Sound) (hf : fs.Apt none j) (dst : List CVal) (hd : dst.length = fs.members.length) :
    ∃ r dst', fs.check F {} j = .ok r ∧ fs.load F {} j dst = (.ok r, dst') ∧ Outcome F j fs.members dst dst' r := by
  have hd' := hd.trans (members_length fs false none)
  obtain ⟨r, h1, h2⟩ := check_load F fs {} j hj hf dst hd'
  exact ⟨r, _, h1, Prod.ext h2 rfl, (load_members F fs {} j hj dst hd' r _ (Prod.ext h2 rfl)).2⟩

/-- In general `from_json(j)` either does all this, or throws `json::exception`; `check_json(j)` always answers. -/
theorem C30_defined (F : Floats) (fs : Fields) (j : Value) (hj : j.Sound) (dst : List CVal) (hd : dst.length = fs.members.length) :
    ∃ r dst', fs.check F {} j = .ok r ∧ ((fs.load F {} j dst = (.ok r, dst') ∧ Outcome F j fs.members dst dst' r) ∨ fs.load F {} j dst = (.throw .json, dst')) := by
  have hd' := hd.trans (members_length fs false none)
  obtain ⟨r, hr⟩ := check_total F fs {} j hj
  rcases load_tame F fs {} j hj dst hd' with ⟨r', h⟩ | h
  · obtain ⟨h1, h2⟩ := load_members F fs {} j hj dst hd' r' _ (Prod.ext h rfl)
    rw [hr] at h1; cases h1
    exact ⟨r, _, hr, .inl ⟨Prod.ext h rfl, h2⟩⟩
  · exact ⟨r, _, hr, .inr (Prod.ext h rfl)⟩

/-- A `std::optional` member under a key with a null: `check_json` says yes, `from_json` throws. -/
theorem C30_refuted (F : Floats) :
    let fs := Fields.var [0x61] .nothing (.nullable .optional (.int cInt)) .done
    fs.check F {} (.obj .object [([0x61], .null)]) = .ok none ∧ ∀ x, fs.load F {} (.obj .object [([0x61], .null)]) [x] = (.throw .json, [x]) :=
  ⟨rfl, fun _ => rfl⟩

example : Samples.structJson.Sound ∧ Samples.fields.Apt none Samples.structJson := ⟨Samples.structJson_sound, Samples.fields_apt⟩
/-- Missing `c`: `a` has been overwritten, `kk` is absent and optional. -/
example : Samples.fields.load Samples.noFloats {} (.obj .object [(ascii "a", .ofInt 3)]) [.int 0, .just (.str []), .alt 0 (.int 9)] =
    (.ok (some (ascii "c")), [.int 3, .just (.str []), .alt 0 (.int 9)]) := by rfl
/-- `kk` of a wrong type. -/
example : Samples.fields.check Samples.noFloats {} (.obj .object [(ascii "a", .ofInt 3), (ascii "kk", .ofInt 3)]) = .ok (some (ascii "kk")) := by rfl

/-- `from_json` is not atomic: when it fails it may have overwritten earlier members. -/
theorem C30_not_atomic : ∃ (fs : Fields) (j : Value) (dst dst' : List CVal) (k : Bytes), j.Sound ∧
    fs.load Samples.noFloats {} j dst = (.ok (some k), dst') ∧ dst' ≠ dst := by
  refine ⟨Samples.fields, .obj .object [(ascii "a", .ofInt 3)], [.int 0, .nothing, .alt 0 (.int 9)], [.int 3, .nothing, .alt 0 (.int 9)], ascii "c", ?_, rfl, by simp⟩
  exact ⟨by simp, ⟨by simp [Value.ofInt, Value.Wf], trivial⟩⟩

/-! ## C31: structs -/

/-- A struct of which nothing is lost becomes an object with exactly the keys of its members; any object that has these members, and possibly others, restores every
member, whatever they held before. -/
theorem C31_roundtrip (F : Floats) (fs : Fields) (xs : List CVal) (hx : (Ty.struct fs).Has (.list xs)) (hl : (Ty.struct fs).Lossless F (.list xs)) :
    ∃ ms, (∀ c, ∃ y, (Ty.struct fs).store F c (.list xs) = .ok (.obj .object ms, y)) ∧
      (∀ k, (∃ w, (k, w) ∈ ms) ↔ ∃ m ∈ fs.members, m.key = k) ∧
      ∀ ms', (Value.obj .object ms').Sound → (∀ e ∈ ms, e ∈ ms') → ∀ dst : List CVal, dst.length = fs.members.length →
        fs.check F {} (.obj .object ms') = .ok none ∧ fs.load F {} (.obj .object ms') dst = (.ok none, xs) := by
  obtain ⟨hn, hl⟩ := hl
  obtain ⟨kws, hk⟩ := trip_fields F fs {} xs hx hl
  have hkeys : kws.map Prod.fst = fs.members.map (·.key) := hk.keys
  have hs : RawObject.Sorted (insertAll kws []) := insertAll_sorted .nil
  refine ⟨insertAll kws [], fun c => ?_, fun k => ?_, fun ms' hms' hsub dst hd => ?_⟩
  · obtain ⟨ys, h⟩ := hk.dump []
    exact ⟨.list ys, by simp [Ty.store, h, Value.ofObject]⟩
  · have : (∃ m ∈ fs.members, m.key = k) ↔ k ∈ kws.map Prod.fst := by rw [hkeys]; simp
    rw [this]
    constructor
    · rintro ⟨w, hw⟩
      rcases mem_insertAll _ hw with h | h
      · exact List.mem_map.2 ⟨_, h, rfl⟩
      · simp at h
    · intro h
      obtain ⟨e, he, rfl⟩ := List.mem_map.1 h
      exact ⟨e.2, (find_eq_some hs _ _).1 (find_insertAll (by rw [hkeys]; exact hn) e he)⟩
  · refine hk.load ms' (fun e he => ?_) dst (hd.trans (members_length fs false none))
    exact (find_eq_some hms'.1 _ _).2 (hsub _ ((find_eq_some hs _ _).1 (find_insertAll (by rw [hkeys]; exact hn) e he)))

/-- A key that is absent and marked `MEO_OPT` leaves its member as it was. -/
theorem C31_optional (F : Floats) (fs : Fields) (j : Value) (hj : j.Sound) (dst dst' : List CVal) (hd : dst.length = fs.members.length)
    (h : fs.load F {} j dst = (.ok none, dst')) (i : Nat) (m : Member) (hm : fs.members[i]? = some m) (ha : ∀ w, ¬ Step j (.key m.key) w) :
    m.optional = true ∧ dst'[i]? = dst[i]? := by
  have h3 := (load_members F fs {} j hj dst (hd.trans (members_length fs false none)) none dst' h).2
  obtain ⟨_, old, new, h4, h5, h6⟩ := h3.2.2 i m (by obtain ⟨h, _⟩ := List.getElem?_eq_some_iff.1 hm; exact h) hm
  rcases h6 with ⟨w, hw, _⟩ | ⟨_, ho, rfl⟩
  · exact absurd hw (ha w)
  · exact ⟨ho, by rw [h4, h5]⟩

example : (Ty.struct Samples.fields).Has Samples.structValue ∧ (Ty.struct Samples.fields).Lossless Samples.noFloats Samples.structValue :=
  ⟨Samples.fields_lossless.1, Samples.fields_lossless.2.1⟩
/-- An absent optional key and an unknown one. -/
example : Samples.fields.load Samples.noFloats {} (.obj .object [(ascii "a", .ofInt 3), (ascii "c", .ofInt 4), (ascii "d", .null)]) [.int 0, .just (.str [0x78]), .alt 0 (.int 9)] =
    (.ok none, [.int 3, .just (.str [0x78]), .alt 0 (.int 4)]) := by rfl

/-- A struct with an empty `std::optional` in it is written with a null, and from that it cannot be read back. -/
theorem C31_empty_optional_lost (F : Floats) :
    let t := Ty.struct (.var [0x61] .nothing (.nullable .optional (.int cInt)) .done)
    ∃ v y, t.store F .constLv (.list [.nothing]) = .ok (v, y) ∧ t.is F v = .ok true ∧ t.as F v = .throw .json := by
  refine ⟨.obj .object [([0x61], .null)], .list [.nothing], ?_, ?_, ?_⟩
  · simp only [Ty.store, Fields.dump, Out.bind_ok]; rfl
  · rfl
  · rfl

/-- A struct all of whose members are `MEO_OPT` accepts every value that is no object: numbers, strings, null. -/
theorem C31_all_optional_accepts_scalars (F : Floats) (fs : Fields) (hopt : ∀ m ∈ fs.members, m.optional = true) (j : Value) (hj : j.Sound)
    (hno : j.type ≠ .object) : (Ty.struct fs).is F j = .ok true ∧ (Ty.struct fs).as F j = .ok (.list fs.defaults) := by
  have hstep : ∀ k w, ¬ Step j (.key k) w := by rintro k w ⟨⟩; exact hno rfl
  obtain ⟨r, d, h1, h2, h3⟩ := C30_agree_partial F fs j hj (apt_no_step hstep fs none) fs.defaults ((defaults_length fs).trans (members_length fs false none).symm)
  have hr : r = none := by
    cases r with
    | none => rfl
    | some k =>
      obtain ⟨i, m, hm, _, hb, _⟩ := h3
      rcases hb with ⟨_, h⟩ | ⟨w, h, _⟩
      · rw [hopt m (List.mem_of_getElem? hm)] at h; cases h
      · exact absurd h (hstep _ _)
  subst hr
  have hdst : d = fs.defaults := by
    apply List.ext_getElem?
    intro i
    by_cases hi : i < fs.members.length
    · exact (C31_optional F fs j hj fs.defaults d ((defaults_length fs).trans (members_length fs false none).symm) h2 i _ (List.getElem?_eq_getElem hi) (hstep _)).2
    · exact h3.2.1 i (by omega)
  subst hdst
  exact ⟨by simp [Ty.is, h1], by simp [Ty.as, h2]⟩

example (F : Floats) : (Ty.struct (.opt (.var [0x61] (.bool false) .bool .done))).is F (.ofInt 42) = .ok true := by rfl

/-! ## C32: enums -/

/-- An enumerator in the reflected range whose name no other shares up to case converts to its name, and every spelling of the name in ASCII case converts to it. -/
theorem C32_roundtrip_partial (E : EnumTy) (hE : E.Compiles) (hc : E.Clear) (e : Int) (h1 : E.min ≤ e) (h2 : e ≤ E.max) (h3 : E.under.cast e = e)
    (h4 : Identifier (E.text e)) :
    E.toString e = .ok (E.text e) ∧ ∀ s, SameName (E.text e) s → E.ofString s = some e := by
  refine ⟨EnumTy.toString_in hE h1 h2 h3 h4, fun s hs => ?_⟩
  have hn : E.Named e (E.text e) := ⟨⟨e, h1, h2, h3⟩, rfl, h4⟩
  cases h : E.ofString s with
  | none => exact absurd hs (EnumTy.ofString_none.1 h e _ hn)
  | some e' =>
    obtain ⟨n, hn', hs'⟩ := EnumTy.ofString_some h
    rw [hc e' e n _ hn' hn (hs'.trans hs.symm)]

/-- A string converts to an enumerator with that name up to ASCII case, and is rejected exactly when there is none in the range. -/
theorem C32_text (E : EnumTy) (s : Bytes) :
    (∀ e, E.ofString s = some e → ∃ n, E.Named e n ∧ SameName n s) ∧
    (E.ofString s = none ↔ ∀ e n, E.Named e n → ¬ SameName n s) ∧
    (E.ofString s = none → (Value.str .string s).asEnum E = .throw .json ∧ (Value.str .string s).isEnum E = .ok false) := by
  refine ⟨fun e h => EnumTy.ofString_some h, EnumTy.ofString_none, fun h => ?_⟩
  simp [Value.asEnum, Value.isEnum, Value.type, Value.asString, Value.basicStr, Out.noexcept, h, Value.typeError, Value.valueInfo]

/-- A value outside the range throws, provided that it and its distance from the range are `int`s; likewise one inside without a name. -/
theorem C32_outside_partial (E : EnumTy) (hn : E.asNumber = false) (e : Int) (he : cInt.Has e) (hs : cInt.Has (e - E.min)) :
    (e < E.min ∨ E.max < e → Value.ofEnum E e = .throw .json) ∧
    (E.under.cast e = e → ¬ Identifier (E.text e) → Value.ofEnum E e = .throw .json) := by
  refine ⟨fun h => by simp [Value.ofEnum, hn, EnumTy.toString_out he hs h], fun hc hi => ?_⟩
  have hnm : E.names (e - E.min) = [] := by
    by_cases h : E.names (e - E.min) = []
    · exact h
    · have := (EnumTy.names_eq E (e - E.min)).1 h
      rw [Int.sub_add_cancel, hc] at this
      exact absurd this hi
  have : E.toString e = .ok [] := by
    unfold EnumTy.toString
    simp only [EnumTy.wrap_of_has he, hs, not_true, if_false, hnm, ite_self]
  simp [Value.ofEnum, hn, this]

namespace Samples

theorem color_compiles : color.Compiles := by
  refine ⟨?_, ?_, by decide, ?_⟩ <;> (rw [EnumTy.cInt_has]; decide)

private theorem color_named {e : Int} {s : Bytes} (h : color.Named e s) : (e = 0 ∧ s = ascii "red") ∨ (e = 1 ∧ s = ascii "green") := by
  obtain ⟨_, h2, h3⟩ := h
  simp only [color] at h2
  by_cases h0 : e = 0
  · exact .inl ⟨h0, by simp [h0] at h2; exact h2.symm⟩
  · by_cases h1 : e = 1
    · exact .inr ⟨h1, by simp [h1] at h2; exact h2.symm⟩
    · simp only [h0, h1, if_false] at h2
      rw [← h2, ← isValidName_iff] at h3
      exact absurd h3 (by decide +kernel)

theorem color_clear : color.Clear := by
  intro e e' s s' h h' hs
  rcases color_named h with ⟨rfl, rfl⟩ | ⟨rfl, rfl⟩ <;> rcases color_named h' with ⟨rfl, rfl⟩ | ⟨rfl, rfl⟩ <;> first | rfl | (exact absurd hs.length (by decide +kernel))

end Samples

example : Samples.color.Compiles ∧ Samples.color.Clear ∧ Samples.color.under.cast 1 = 1 ∧ Identifier (Samples.color.text 1) :=
  ⟨Samples.color_compiles, Samples.color_clear, by decide +kernel, by rw [← isValidName_iff]; decide +kernel⟩
example : Samples.color.ofString (ascii "GreeN") = some 1 := by decide +kernel
example : Samples.color.ofString (ascii "greens") = none := by decide +kernel
example : Value.ofEnum Samples.color 129 = .throw .json ∧ Value.ofEnum Samples.color 7 = .throw .json := by decide +kernel

/-- Two enumerators that differ in case only (legal C++): the second is read as the first. -/
theorem C32_refuted : ∃ (E : EnumTy) (e e' : Int) (s : Bytes), E.Compiles ∧ E.min ≤ e ∧ e ≤ E.max ∧ Identifier s ∧
    E.toString e = .ok s ∧ E.ofString s = some e' ∧ e' ≠ e := by
  refine ⟨Samples.caseClash, 1, 0, ascii "RED", ?_, by decide, by decide, by rw [← isValidName_iff]; decide +kernel, by decide +kernel, by decide +kernel, by decide⟩
  refine ⟨?_, ?_, by decide, ?_⟩ <;> (rw [EnumTy.cInt_has]; decide)

/-- A value outside the range that gets the name of another: `static_cast<int>` drops the upper half (enum_reflection.hpp:186). -/
theorem C32_refuted_wide : ∃ (E : EnumTy) (e : Int) (v : Value), E.Compiles ∧ E.under.Has e ∧ E.max < e ∧ Value.ofEnum E e = .ok v ∧ v.asEnum E = .ok 0 := by
  refine ⟨Samples.wide, 2 ^ 32, .str .string (ascii "zero"), ?_, ?_, by decide, by decide +kernel, by decide +kernel⟩
  · refine ⟨?_, ?_, by decide, ?_⟩ <;> (rw [EnumTy.cInt_has]; decide)
  · show IntTy.Has _ _
    unfold IntTy.Has
    decide

/-- A value near the upper end of `int`: the subtraction of the (negative) lower bound overflows, which is undefined. -/
theorem C32_refuted_overflow : ∃ (E : EnumTy) (e : Int), E.Compiles ∧ E.under.Has e ∧ E.max < e ∧ Value.ofEnum E e = .ub := by
  refine ⟨Samples.color, 2 ^ 31 - 1, Samples.color_compiles, ?_, by decide, by decide +kernel⟩
  show IntTy.Has _ _
  unfold IntTy.Has
  decide

/-- With an 8-bit unsigned underlying type the names of values above 128 can be read but not written. -/
theorem C32_bytes_one_way : Samples.byte.ofString (ascii "high") = some 200 ∧ Value.ofEnum Samples.byte 200 = .throw .json := by decide +kernel

/-! ## C51: a variable converted to json keeps its value -/

/-- A const variable keeps its value if no smart pointer to a nullable wrapper occurs in its type (except to one of plain numbers and the like). -/
theorem C51_const_partial (F : Floats) (t : Ty) (ht : t.NoNested) (x y : CVal) (v : Value) (h : t.store F .constLv x = .ok (v, y)) : y = x :=
  const_keep F t ht x y v h

/-- So does a non-const variable if its type itself is no nullable wrapper (except of plain content). -/
theorem C51_lvalue_partial (F : Floats) (t : Ty) (ht : t.NoNested) (hn : ∀ w u, t = .nullable w u → u.Plain) (x y : CVal) (v : Value)
    (h : t.store F .lv x = .ok (v, y)) : y = x := by
  by_cases hi : t.IsNullable
  · cases t <;> simp only [Ty.IsNullable] at hi
    rename_i w u
    cases x <;> simp only [Ty.store] at h <;> try cases h
    · rfl
    · obtain ⟨a, h1, h2⟩ := bind_keep h
      simp only [Prod.mk.injEq] at h2
      rw [← h2.2, plain_keep F (hn w u rfl) (v := a.1) (y := a.2) h1]
  · rw [lv_const F hi] at h
    exact const_keep F t ht x y v h

example : Samples.type.NoNested ∧ ∀ w u, Samples.type = .nullable w u → u.Plain := by
  simp [Samples.type, Samples.fields, Ty.NoNested, Fields.NoNested, Tys.NoNested]
example : ∃ v, (Ty.seq (.nullable .pointer .string)).store Samples.noFloats .lv (.list [.just (.str [0x61])]) = .ok (v, .list [.just (.str [0x61])]) :=
  ⟨_, by simp only [Ty.store, eachBoth, Out.bind_ok]; rfl⟩
example : (Ty.seq (.nullable .pointer .string)).NoNested := trivial

/-- `std::optional<std::string> o = "a"; json::value v(o);` empties the string in `o`: the constructor for rvalues takes a forwarding reference (value.hpp:138-148). -/
theorem C51_refuted (F : Floats) : (Ty.nullable .optional .string).store F .lv (.just (.str [0x61])) = .ok (.str .string [0x61], .just (.str [])) := by
  simp only [Ty.store, Out.bind_ok]; rfl

/-- A variable that holds an array is left with a null pointer; converting it once more is undefined. -/
theorem C51_refuted_twice (F : Floats) :
    ∃ v y, (Ty.nullable .optional .json).store F .lv (.just (.json (.arr .array []))) = .ok (v, y) ∧ (Ty.nullable .optional .json).store F .constLv y = .ub := by
  refine ⟨.arr .array [], .just (.json (.arrNull .array)), ?_, ?_⟩
  · simp only [Ty.store]; rfl
  · simp only [Ty.store]; rfl

/-- Even a const variable, inside a collection or not: `*p` of a const smart pointer is not const. -/
theorem C51_const_refuted (F : Floats) :
    (Ty.seq (.nullable .pointer (.nullable .optional .string))).store F .constLv (.list [.just (.just (.str [0x61]))]) =
      .ok (.arr .array [.str .string [0x61]], .list [.just (.just (.str []))]) := by
  simp only [Ty.store, eachBoth, Out.bind_ok]; rfl

/-- When a string inside is emptied, for every value category of the argument: in a `std::optional` unless that is const, in a smart pointer unless it is a const lvalue, in a collection, a map,
an array, a tuple or a variant only if it is an rvalue that is not const, in a set never. -/
theorem C51_emptied (F : Floats) (c : Cat) (s k : Bytes) (n : Nat) (lt : CVal → CVal → Bool) :
    let left (gone : Bool) : CVal := .str (if gone then [] else s)
    (Ty.string.store F c (.str s) = .ok (.str .string s, left (c = .rv))) ∧
    ((Ty.nullable .optional .string).store F c (.just (.str s)) = .ok (.str .string s, .just (left (c = .rv ∨ c = .lv)))) ∧
    ((Ty.nullable .pointer .string).store F c (.just (.str s)) = .ok (.str .string s, .just (left (c ≠ .constLv)))) ∧
    ((Ty.seq .string).store F c (.list [.str s]) = .ok (.ofArray [.str .string s], .list [left (c = .rv)])) ∧
    ((Ty.set lt .string).store F c (.list [.str s]) = .ok (.ofArray [.str .string s], .list [.str s])) ∧
    ((Ty.fixed n .string).store F c (.list [.str s]) = .ok (.ofArray [.str .string s], .list [left (c = .rv)])) ∧
    ((Ty.tuple (.cons .string .nil)).store F c (.list [.str s]) = .ok (.ofArray [.str .string s], .list [left (c = .rv)])) ∧
    ((Ty.variant (.cons .string .nil)).store F c (.alt 0 (.str s)) = .ok (.str .string s, .alt 0 (left (c = .rv)))) ∧
    ((Ty.map .string).store F c (.map [(k, .str s)]) = .ok (.ofObject [(k, .str .string s)], .map [(k, left (c = .rv))])) := by
  cases c <;> exact ⟨rfl, rfl, rfl, rfl, rfl, rfl, rfl, rfl, rfl⟩

end Meojson
