import Verif.Proofs.Typed
import Verif.Proofs.Category
import Verif.Props.Take
import Verif.Props.Float
import Verif.Spec.Heap

/-!
# User-written conversions, results of conversions, value categories (C61, C62; more on C29, C32, C34, C51)

Every theorem holds for every conversion `F` between floating-point numbers and text, unless it says otherwise.
-/

set_option autoImplicit false

namespace Meojson
open Spec Value RawObject

private abbrev i32 : IntTy := ⟨true, 32⟩

/-! ## C61: conversions that the user writes -/

namespace Samples
/-- `ThirdPartyStruct { int a = 100; }` with the conversions of sample.cpp:200-221 and test/serializing_test.cpp:160-181: `to_json` returns `t.a`, `check_json` is
`j.is_number()`, `from_json` assigns `j.as_integer()`. -/
def third : User where
  has x := ∃ n, x = .int n ∧ cInt.Has n
  check v := v.type = .number
  load v := match v.asInt cInt with
    | .ok n => some (.int n)
    | _ => none
  dump
    | .int n => some (.ofInt n)
    | _ => none

/-- `Outter2`, sample.cpp:234-240 -/
def outer : Ty := .struct (.var (ascii "outter2_a") (.int 10) (.int cInt) (.var (ascii "third") (.int 100) (.user third) .done))
end Samples

/-- `is<T>()` is what the user's `check_json` answers; `as<T>()` is the object that `from_json` filled, or `json::exception` if it returned false or threw; `json::value(x)`
is what `to_json` returned, and `x` keeps its value whatever its value category. -/
theorem C61_calls (F : Floats) (U : User) (v : Value) (x : CVal) (c : Cat) :
    (Ty.user U).is F v = .ok (U.check v) ∧
    (∀ y, U.load v = some y → (Ty.user U).as F v = .ok y) ∧ (U.load v = none → v.Sound → (Ty.user U).as F v = .throw .json) ∧
    (∀ w, U.dump x = some w → (Ty.user U).store F c x = .ok (w, x)) ∧ (U.dump x = none → (Ty.user U).store F c x = .throw .json) := by
  refine ⟨by rw [Ty.is], fun y h => by rw [Ty.as, h], fun h hv => ?_, fun w h => by rw [Ty.store, h], fun h => by rw [Ty.store, h]⟩
  rw [Ty.as, h]
  exact typeError_sound hv

/-- The user's conversions return what was put in, and write null just for what counts as such. -/
def User.Returns (U : User) : Prop :=
  ∀ x, U.has x → ∃ v, U.dump x = some v ∧ v.Sound ∧ U.check v = true ∧ U.load v = some x ∧ (v.type = .null ↔ x.IsNull)

mutual
/-- Types made of types of the user's (with conversions that return what was put in), booleans, integers, strings and JSON values by vectors, sets, arrays, maps, tuples (not of one element)
and classes (with different keys). -/
def Ty.MadeOfUsers : Ty → Prop
  | .user U => U.Returns
  | .seq t => t.MadeOfUsers
  | .set _ t => t.MadeOfUsers
  | .fixed _ t => t.MadeOfUsers
  | .map t => t.MadeOfUsers
  | .tuple ts => ts.size ≠ 1 ∧ ts.MadeOfUsers
  | .struct fs => (fs.members.map (·.key)).Nodup ∧ fs.MadeOfUsers
  | .float _ | .enum _ | .nullable _ _ | .variant _ => False
  | _ => True
def Tys.MadeOfUsers : Tys → Prop
  | .nil => True
  | .cons t ts => t.MadeOfUsers ∧ ts.MadeOfUsers
def Fields.MadeOfUsers : Fields → Prop
  | .done => True
  | .opt rest => rest.MadeOfUsers
  | .key _ rest => rest.MadeOfUsers
  | .var _ _ t rest => t.MadeOfUsers ∧ rest.MadeOfUsers
end

mutual
theorem madeOfUsers_lossless (F : Floats) : ∀ (t : Ty) (x : CVal), t.MadeOfUsers → t.Has x → t.Lossless F x
  | .user U, x, h, hx => h x hx
  | .seq t, .list xs, h, hx => fun x hm => madeOfUsers_lossless F t x h (hx x hm)
  | .set _ t, .list xs, h, hx => fun x hm => madeOfUsers_lossless F t x h (hx.1 x hm)
  | .fixed _ t, .list xs, h, hx => fun x hm => madeOfUsers_lossless F t x h (hx.2 x hm)
  | .map t, .map ms, h, hx => fun e hm => madeOfUsers_lossless F t e.2 h (hx.2 e hm)
  | .tuple ts, .list xs, h, hx => ⟨h.1, madeOfUsers_all F ts xs h.2 hx⟩
  | .struct fs, .list xs, h, hx => ⟨h.1, madeOfUsers_fields F fs xs h.2 hx⟩
  | .bool, x, _, hx | .int _, x, _, hx | .string, x, _, hx | .null, x, _, hx | .json, x, _, hx | .jarray, x, _, hx | .jobject, x, _, hx => by
    cases x <;> first | exact hx.elim | trivial
theorem madeOfUsers_all (F : Floats) : ∀ (ts : Tys) (xs : List CVal), ts.MadeOfUsers → ts.HasAll xs → ts.LosslessAll F xs
  | .nil, [], _, _ => trivial
  | .cons t ts, x :: xs, h, hx => ⟨madeOfUsers_lossless F t x h.1 hx.1, madeOfUsers_all F ts xs h.2 hx.2⟩
theorem madeOfUsers_fields (F : Floats) : ∀ (fs : Fields) (xs : List CVal), fs.MadeOfUsers → fs.Has xs → fs.Lossless F xs
  | .done, [], _, _ => trivial
  | .opt rest, xs, h, hx => madeOfUsers_fields F rest xs h hx
  | .key _ rest, xs, h, hx => madeOfUsers_fields F rest xs h hx
  | .var _ _ t rest, x :: xs, h, hx => ⟨madeOfUsers_lossless F t x h.1 hx.1, madeOfUsers_fields F rest xs h.2 hx.2⟩
end

/-- If the user's conversions return what was put in, so do those of every type made of the user's by containers, tuples and classes. -/
theorem C61_roundtrip (F : Floats) (t : Ty) (ht : t.MadeOfUsers) (x : CVal) (hx : t.Has x) :
    ∃ v, (∀ c, ∃ y, t.store F c x = .ok (v, y)) ∧ t.is F v = .ok true ∧ t.as F v = .ok x := by
  obtain ⟨v, h1, _, h2, h3, _⟩ := C28_roundtrip_partial F t x hx (madeOfUsers_lossless F t x ht hx)
  exact ⟨v, h1, h2, h3⟩

theorem third_returns : Samples.third.Returns := by
  intro x h
  obtain ⟨n, rfl, hn⟩ := h
  obtain ⟨v, hv⟩ := trip Samples.noFloats (.int cInt) (.int n) hn trivial
  obtain ⟨y, hs⟩ := hv.stores .rv
  rw [Ty.store] at hs
  cases hs
  have ha := hv.as
  rw [Ty.as] at ha
  refine ⟨.ofInt n, rfl, hv.sound, by simp [Samples.third, Value.ofInt, Value.type], ?_, by simp [Value.ofInt, Value.type, CVal.IsNull]⟩
  show (match (Value.ofInt n).asInt cInt with | .ok n => some (CVal.int n) | _ => none) = _
  cases hq : (Value.ofInt n).asInt cInt with
  | ok m => rw [hq] at ha; cases ha; rfl
  | throw e => rw [hq] at ha; cases ha
  | ub => rw [hq] at ha; cases ha

-- Not vacuous: the library's own example, in a map of vectors, and in the struct of the example.
example : ∃ v, (Ty.map (.seq (.user Samples.third))).as Samples.noFloats v = .ok (.map [(ascii "k", .list [.int 100, .int (-7)])]) := by
  obtain ⟨v, _, _, h⟩ := C61_roundtrip Samples.noFloats (.map (.seq (.user Samples.third))) third_returns (.map [(ascii "k", .list [.int 100, .int (-7)])])
    ⟨by simp, by
      rintro e he
      cases List.mem_singleton.1 he
      intro x hx
      rcases List.mem_cons.1 hx with rfl | hx
      · exact ⟨100, rfl, by unfold IntTy.Has; decide⟩
      · cases List.mem_singleton.1 hx
        exact ⟨-7, rfl, by unfold IntTy.Has; decide⟩⟩
  exact ⟨v, h⟩
example (F : Floats) : ∃ v y, Samples.outer.store F .lv (.list [.int 10, .int 100]) = .ok (v, y) ∧ v.dumps = .ok (ascii "{\"outter2_a\":10,\"third\":100}") ∧
    Samples.outer.as F v = .ok (.list [.int 10, .int 100]) :=
  ⟨.obj .object [(ascii "outter2_a", .ofInt 10), (ascii "third", .ofInt 100)], .list [.int 10, .int 100],
    by simp only [Samples.outer, Ty.store, Fields.dump, Samples.third, Out.bind_ok]; rfl, by decide +kernel, by rfl⟩

/-- The library asks nothing of the user that would make `is` and `as` agree, and its own examples do not: `1.5` is a `ThirdPartyStruct` and converting it throws. -/
theorem C27_refuted_user (F : Floats) : (Ty.user Samples.third).is F (.str .number (ascii "1.5")) = .ok true ∧
    (Ty.user Samples.third).as F (.str .number (ascii "1.5")) = .throw .json := by constructor <;> rfl

/-- Inside a struct: `check_json` accepts `{"outter2_a":1,"third":1.5}`; `from_json` assigns the first member and throws at the second, where for a member of another type it
would have returned false. -/
theorem C27_refuted_user_struct (F : Floats) :
    let v := Value.obj .object [(ascii "outter2_a", .ofInt 1), (ascii "third", .str .number (ascii "1.5"))]
    Samples.outer.is F v = .ok true ∧ Samples.outer.as F v = .throw .json ∧
    (Fields.load F (.var (ascii "outter2_a") (.int 10) (.int cInt) (.var (ascii "third") (.int 100) (.user Samples.third) .done)) {} v [.int 10, .int 100]) =
      (.throw .json, [.int 1, .int 100]) := by
  refine ⟨rfl, rfl, rfl⟩

/-! ## C62: a conversion to a type returns a value of the type -/

/-- Whatever `as<T>()` returns is a value of `T`: integers are in range, an enum holds a value of its underlying type, an array has its length, a set is sorted without
duplicates, the keys of a map ascend, a variant holds the alternative it says, and so on inside. -/
theorem C62_as (F : Floats) (t : Ty) (ht : t.Proper F) (v : Value) (hv : v.Sound) (x : CVal) (h : t.as F v = .ok x) : t.Has x := as_has F t ht v hv x h

/-- The same from an rvalue. -/
theorem C62_take (F : Floats) (t : Ty) (ht : t.Proper F) (v : Value) (hv : v.Sound) (x : CVal) (h : (t.take F v).2 = .ok x) : t.Has x := by
  rcases C54_blank F t v hv with h1 | ⟨_, h1 | h1⟩
  · exact as_has F t ht v hv x (h1 ▸ h)
  · exact as_has F t ht _ sound_nil x (h1 ▸ h)
  · exact as_has F t ht _ sound_empty x (h1 ▸ h)

/-- After `from_json`, successful or not, or left by an exception, the members of the struct hold values of their types if they did before. -/
theorem C62_members (F : Floats) (fs : Fields) (hf : fs.Proper F) (v : Value) (hv : v.Sound) (dst : List CVal) (hd : fs.Has dst) : fs.Has (fs.load F {} v dst).2 :=
  load_has F fs hf {} v hv dst hd

/-- What the machine reads as a `float`, `double` or `long double` is one: the condition on floating-point types holds. -/
theorem C62_float (keep : Bool) (point : Bytes) (f : FloatFmt) (hf : f.Machine) : (Ty.float f).Proper (floats keep point) := by
  intro s x h
  have hw := hf.wide
  have hp : 2 ≤ f.prec ∧ f.emin ≤ f.emax := by rcases hf with rfl | rfl | rfl <;> decide
  change readFloat f point s = some x at h
  unfold readFloat at h
  simp only at h
  split at h
  · cases h; trivial
  · split at h
    · cases h; trivial
    · cases hd : readDecimal point (readSign (s.dropWhile isSpace)).2 with
      | none => rw [hd] at h; cases h
      | some d =>
        rw [hd] at h
        simp only [Option.bind_some] at h
        rcases roundFloat_spec hp.1 hp.2 (readSign (s.dropWhile isSpace)).1 (q := scale 10 d.2 (d.1, 1)) (scale_pos (by decide) Nat.one_pos) with ⟨y, h1, _, h2, _⟩ | ⟨h1, _⟩
        · rw [h1] at h; cases h; exact h2.1
        · rw [h1] at h; cases h

/-- The set that `as<std::set<T>>()` returns: sorted without duplicates; what is in it was in the array; and for every element of the array it has an equivalent one. -/
theorem C62_set (F : Floats) (lt : CVal → CVal → Bool) (t : Ty) (hlt : StrictOrder t lt) (ht : t.Proper F) (vs : List Value) (hv : (Value.arr .array vs).Sound) (x : CVal)
    (h : (Ty.set lt t).as F (.arr .array vs) = .ok x) :
    ∃ l, x = .list l ∧ l.Pairwise (fun a b => lt a b = true ∧ lt b a = false) ∧ (∀ y ∈ l, ∃ v ∈ vs, t.as F v = .ok y) ∧
      ∀ v ∈ vs, ∃ y z, t.as F v = .ok y ∧ z ∈ l ∧ lt y z = false ∧ lt z y = false := by
  have hs : ∀ v ∈ vs, v.Sound := wfAll_iff.1 hv
  have hh := as_has F (.set lt t) ⟨hlt, ht⟩ _ hv x h
  rw [Ty.as] at h
  have ha : (Value.arr .array vs).asArray = .ok vs := rfl
  rw [ha, Out.bind_ok] at h
  cases he : eachOf (t.as F) vs with
  | throw e => rw [he] at h; cases h
  | ub => rw [he] at h; cases h
  | ok xs =>
    rw [he, Out.bind_ok] at h
    cases h
    have hx := each_has (P := t.Has) (fun v hv x hx => as_has F t ht v (hs v hv) x hx) he
    have hm := each_mem he
    refine ⟨_, rfl, hh.2, fun y hy => ?_, fun v hv => ?_⟩
    · rcases mem_foldl_set hy with hy | hy
      · obtain ⟨v, hv, h1⟩ := hm.1 y hy; exact ⟨v, hv, h1⟩
      · cases hy
    · obtain ⟨y, hy, h1⟩ := hm.2 v hv
      obtain ⟨z, hz, h2⟩ := foldl_set_covers hlt hx (l := []) (by simp) y (.inl hy)
      exact ⟨y, z, h1, hz, h2⟩

namespace Samples
/-- The order of integers -/
def intLt : CVal → CVal → Bool
  | .int a, .int b => a < b
  | _, _ => false

theorem intLt_order : StrictOrder (.int i32) intLt := by
  constructor
  · rintro a b ha hb h
    cases a <;> cases b <;> simp_all [intLt]
    omega
  · rintro a b c ha hb hc h1 h2
    cases a <;> cases b <;> cases c <;> simp_all [intLt]
    omega
end Samples

-- Not vacuous: a set, an enum, a tuple with a double and a user's type; a struct.
example : (Ty.tuple (.cons (.set Samples.intLt (.int i32)) (.cons (.enum Samples.flag) (.cons (.float .double) (.cons (.user Samples.third) .nil))))).Proper (floats false [0x2e]) := by
  refine ⟨⟨Samples.intLt_order, trivial⟩, (by intro T h; cases h), C62_float _ _ _ (.inr (.inl rfl)), ?_, trivial⟩
  intro v x hv h
  have h : (match v.asInt cInt with | .ok n => some (CVal.int n) | _ => none) = some x := h
  split at h
  · rename_i n hn
    cases h
    exact ⟨n, rfl, asInt_has hv hn⟩
  · cases h
example : (Ty.struct Samples.fields).Proper Samples.noFloats :=
  ⟨⟨trivial, trivial, ⟨trivial, trivial, trivial⟩, trivial⟩, by show IntTy.Has _ _; unfold IntTy.Has; decide, trivial, by show IntTy.Has _ _; unfold IntTy.Has; decide, trivial⟩
example (F : Floats) : (Ty.set Samples.intLt (.int i32)).as F (.arr .array [.ofInt 3, .ofInt 1, .ofInt 3, .ofInt 2]) = .ok (.list [.int 1, .int 2, .int 3]) := by rfl
-- The name is enough for an enum over bool, and the value is 0 or 1.
example (F : Floats) : (Ty.enum Samples.flag).as F (.str .string (ascii "on")) = .ok (.enum 1) := by
  have h : (Value.str .string (ascii "on")).asEnum Samples.flag = .ok 1 := by decide +kernel
  rw [Ty.as, h]; rfl

/-! ## C29: the alternative that a `json::value` converts to -/

/-- To which types a `json::value` converts implicitly: itself; an optional of, and a tuple of just, such a type; a variant that chooses an alternative. -/
theorem C29_implicit (t : Ty) : t.implicit = true ↔
    t = .json ∨ (∃ u, t = .nullable .optional u ∧ u.implicit = true) ∨ (∃ u, t = .tuple (.cons u .nil) ∧ u.implicit = true) ∨
      ∃ ts i, t = .variant ts ∧ ts.chosen = some i := by
  cases t <;> simp [Ty.implicit]
  · rename_i w u
    cases w <;> simp [Ty.implicit]
  · rename_i ts
    cases ts with
    | nil => simp [Tys.implicitOne]
    | cons u us => cases us <;> simp [Tys.implicitOne, Tys.size]
  · rename_i ts
    rw [Option.isSome_iff_exists]; rfl

/-- Which alternative of a variant is chosen: the first `json::value` if there is one; otherwise the only alternative to which a `json::value` converts implicitly. -/
theorem C29_choice (ts : Tys) (i : Nat) : ts.chosen = some i ↔
    (ts.get? i = some .json ∧ ∀ j < i, ts.get? j ≠ some .json) ∨
    ((∀ j, ts.get? j ≠ some .json) ∧ (∃ t, ts.get? i = some t ∧ t.implicit = true) ∧ ∀ j t, ts.get? j = some t → t.implicit = true → j = i) := chosen_iff

-- Both cases, and two that exclude each other.
example : (Tys.cons .string (.cons .json (.cons (.nullable .optional .json) .nil))).chosen = some 1 ∧
    (Tys.cons .string (.cons (.tuple (.cons (.nullable .optional .json) .nil)) .nil)).chosen = some 1 ∧
    (Tys.cons (.nullable .optional .json) (.cons (.tuple (.cons .json .nil)) .nil)).chosen = none := by decide +kernel

/-! ## C51: what a constructor makes of an argument, and what it leaves -/

/-- The value made does not depend on whether the argument is const, an lvalue or an rvalue. -/
theorem C51_same (F : Floats) (t : Ty) (x : CVal) (hx : t.Has x) (c c' : Cat) :
    ((t.store F c x).bind fun r => .ok r.1) = (t.store F c' x).bind fun r => .ok r.1 := store_same F t x hx c c'

example : Samples.type.Has Samples.cval := Samples.cval_lossless.1

/-- Moved from as an rvalue, a string, a `json::array` and a `json::object` are empty; a `json::value` holds an emptied string or a null pointer. -/
theorem C51_moved (F : Floats) (s : Bytes) (vs : List Value) (ms : List (Bytes × Value)) (t : VType) :
    Ty.string.store F .rv (.str s) = .ok (.str .string s, .str []) ∧ Ty.jarray.store F .rv (.jarray vs) = .ok (.arr .array vs, .jarray []) ∧
    Ty.jobject.store F .rv (.jobject ms) = .ok (.obj .object ms, .jobject []) ∧
    Ty.json.store F .rv (.json (.str t s)) = .ok (.str t s, .json (.str t [])) ∧
    Ty.json.store F .rv (.json (.arr .array vs)) = .ok (.arr .array vs, .json (.arrNull .array)) ∧
    Ty.json.store F .rv (.json (.obj .object ms)) = .ok (.obj .object ms, .json (.objNull .object)) := by
  refine ⟨?_, ?_, ?_, ?_, ?_, ?_⟩ <;> simp only [Ty.store] <;> rfl

/-! ## C34: conversions of a moved-from value -/

mutual
theorem intact_whole : ∀ v : Value, v.intact = true ↔ Stores.Whole v
  | .str _ _ => by simp [Value.intact, Stores.Whole]
  | .arr _ vs => by simp only [Value.intact, Stores.Whole]; exact intact_wholeAll vs
  | .obj _ ms => by simp only [Value.intact, Stores.Whole]; exact intact_wholeMembers ms
  | .arrNull _ => by simp [Value.intact, Stores.Whole]
  | .objNull _ => by simp [Value.intact, Stores.Whole]
theorem intact_wholeAll : ∀ vs : List Value, Value.intactAll vs = true ↔ Stores.WholeAll vs
  | [] => by simp [Value.intactAll, Stores.WholeAll]
  | v :: vs => by simp only [Value.intactAll, Stores.WholeAll, Bool.and_eq_true]; rw [intact_whole v, intact_wholeAll vs]
theorem intact_wholeMembers : ∀ ms : List (Bytes × Value), Value.intactMembers ms = true ↔ Stores.WholeMembers ms
  | [] => by simp [Value.intactMembers, Stores.WholeMembers]
  | (_, v) :: ms => by simp only [Value.intactMembers, Stores.WholeMembers, Bool.and_eq_true]; rw [intact_whole v, intact_wholeMembers ms]
end

/-- `as<json::value>()` copies: it returns the value, and is undefined exactly if something inside was moved from. So is the constructor from a const `json::value`. -/
theorem C34_as_json (F : Floats) (v : Value) :
    (Stores.Whole v → Ty.json.as F v = .ok (.json v) ∧ Ty.json.store F .constLv (.json v) = .ok (v, .json v)) ∧
    (¬ Stores.Whole v → Ty.json.as F v = .ub ∧ Ty.json.store F .constLv (.json v) = .ub) := by
  simp only [Ty.as, Ty.store, Value.copied]
  constructor
  · intro h
    rw [if_pos ((intact_whole v).2 h)]
    exact ⟨rfl, rfl⟩
  · intro h
    rw [if_neg fun h' => h ((intact_whole v).1 h')]
    exact ⟨rfl, rfl⟩

example : ¬ Stores.Whole (.arr .array [.arrNull .array]) ∧ Stores.Whole (.arr .array [.null]) := ⟨fun h => h.1, trivial, trivial⟩

/-! ## C32: `MEOJSON_ENUM_AS_NUMBER` -/

/-- With it an enum is written as the number of its underlying type; one over `bool` is written as `true` or `false`, and reading that back throws. -/
theorem C32_as_number (E : EnumTy) (hn : E.asNumber = true) (e : Int) :
    (∀ T, E.under = .int T → Value.ofEnum E e = .ok (.str .number (intText e))) ∧
    (E.under = .bool → Value.ofEnum E e = .ok (.str .boolean (ascii (if e = 0 then "false" else "true"))) ∧
      (Value.str .boolean (ascii (if e = 0 then "false" else "true"))).asEnum E = .throw .json) := by
  constructor
  · intro T hT
    simp only [Value.ofEnum, hn, hT, if_true]; rfl
  · intro hT
    simp only [Value.ofEnum, hn, hT, if_true]
    by_cases h : e = 0
    · subst h; exact ⟨by decide +kernel, rfl⟩
    · rw [if_neg h]
      refine ⟨by simp [h]; decide +kernel, rfl⟩

example : ∃ E : EnumTy, E.asNumber = true ∧ E.under = .bool := ⟨{ Samples.flag with asNumber := true }, rfl, rfl⟩

end Meojson
