import Verif.Proofs.Equal
import Verif.Props.Convert
import Verif.Props.Float

/-! # Comparing a value with something that is none (C79) -/

set_option autoImplicit false

namespace Meojson
open Spec

/-- The claim: `v == x` is true exactly if `v` is a `T` and, as a `T`, equals `x`; and `x` stays what it is. -/
def C79Claim (F : Floats) : Prop := ∀ (t : Ty) (c : Cat) (v : Value) (x : CVal), t.Has x → v.Json →
  ∃ b, t.equals F c v x = .ok (b, x) ∧ (b = true ↔ t.is F v = .ok true ∧ t.as F v = .ok x)

/-- `json::parse("[-0]")[0] == 0` is false, though the element is the integer 0. -/
theorem C79_refuted (F : Floats) : ¬ C79Claim F := by
  intro h
  have hj : (Value.str .number [0x2d, 0x30]).Json := (show IntLit [0x2d, 0x30] 0 from .inr ⟨[0x30], rfl, .inl rfl, by decide⟩).number
  obtain ⟨b, h1, h2⟩ := h (.int cInt) .constLv (.str .number [0x2d, 0x30]) (.int 0) (by show cInt.Has 0; decide) hj
  have e : (Ty.int cInt).equals F .constLv (.str .number [0x2d, 0x30]) (.int 0) = .ok (false, .int 0) := by simp only [Ty.equals, Ty.store, Out.bind_ok]; rfl
  rw [e] at h1
  cases h1
  have := h2.2 ⟨by simp only [Ty.is]; rfl, by simp only [Ty.as]; rfl⟩
  cases this

/-- `json::parse("[1.5]")[0] == 1.5` is false, as 1.5 is written `1.500000`; with `MEOJSON_KEEP_FLOATING_PRECISION` it is true, and false for `1.50`. -/
theorem C79_refuted_float :
    (Ty.float .double).as (floats false [0x2e]) (.str .number (ascii "1.5")) = .ok (.flt Samples.oneHalf) ∧
    (Ty.float .double).equals (floats false [0x2e]) .constLv (.str .number (ascii "1.5")) (.flt Samples.oneHalf) = .ok (false, .flt Samples.oneHalf) ∧
    (Ty.float .double).equals (floats true [0x2e]) .constLv (.str .number (ascii "1.5")) (.flt Samples.oneHalf) = .ok (true, .flt Samples.oneHalf) ∧
    (Ty.float .double).equals (floats true [0x2e]) .constLv (.str .number (ascii "1.50")) (.flt Samples.oneHalf) = .ok (false, .flt Samples.oneHalf) := by
  refine ⟨?_, ?_, ?_, ?_⟩ <;> simp only [Ty.equals, Ty.store, Ty.as, Out.bind_ok] <;> rfl

/-- The other way round: `json::value(1e-7) == 2e-7` is true, both being written `0.000000`. -/
theorem C79_refuted_small : ∃ x y : Fl, FloatFmt.double.Has x ∧ FloatFmt.double.Has y ∧ x ≠ y ∧ ∃ v, (Ty.float .double).store (floats false [0x2e]) .rv (.flt x) = .ok (v, .flt x) ∧
    (Ty.float .double).equals (floats false [0x2e]) .rv v (.flt y) = .ok (true, .flt y) := by
  refine ⟨.fin false 7555786372591432 (-76), .fin false 7555786372591432 (-75), by unfold FloatFmt.Has; decide, by unfold FloatFmt.Has; decide, by decide, _, by rw [Ty.store], ?_⟩
  simp only [Ty.equals, Ty.store, Out.bind_ok]
  rfl

/-- The names of an enum are read in any case, and compared exactly; sets are read in any order. -/
theorem C79_refuted_enum (F : Floats) :
    ((Ty.enum Samples.color).as F (.str .string (ascii "RED")) = .ok (.enum 0) ∧ (Ty.enum Samples.color).equals F .rv (.str .string (ascii "RED")) (.enum 0) = .ok (false, .enum 0)) ∧
    ∃ lt : CVal → CVal → Bool,
      (Ty.set lt .bool).as F (.arr .array [.ofBool true, .ofBool false]) = .ok (.list [.bool false, .bool true]) ∧
      (Ty.set lt .bool).equals F .constLv (.arr .array [.ofBool true, .ofBool false]) (.list [.bool false, .bool true]) = .ok (false, .list [.bool false, .bool true]) := by
  refine ⟨⟨?_, ?_⟩, fun a b => match a, b with | .bool a, .bool b => !a && b | _, _ => false, ?_, ?_⟩
  · simp only [Ty.as]; rfl
  · simp only [Ty.equals, Ty.store, Out.bind_ok]; rfl
  · simp only [Ty.as]; rfl
  · simp only [Ty.equals, Ty.store, Out.bind_ok, eachBoth]; rfl

/-- An empty `std::optional` equals no value at all, also not the null that it is written as. -/
theorem C79_refuted_optional (F : Floats) (t : Ty) (c : Cat) (v : Value) :
    (Ty.nullable .optional t).store F c .nothing = .ok (.null, .nothing) ∧ (Ty.nullable .optional t).equals F c v .nothing = .ok (false, .nothing) := by
  simp only [Ty.store, Ty.equals, and_self]

/-- `v == p` for a variable `p` that is a smart pointer empties what it points to (C51). -/
theorem C79_refuted_changed (F : Floats) :
    (Ty.nullable .pointer .string).equals F .lv (.str .string [0x61]) (.just (.str [0x61])) = .ok (true, .just (.str [])) ∧
    (Ty.nullable .pointer .string).equals F .lv (.str .string [0x61]) (.just (.str [])) = .ok (false, .just (.str [])) := by
  constructor <;> simp only [Ty.equals, Ty.store, Out.bind_ok] <;> rfl

/-! ### What does hold -/

private theorem equals_plain (F : Floats) (t : Ty) (c : Cat) (v : Value) (x : CVal) (h : t.NotOptional) (hj : t ≠ .json) :
    t.equals F c v x = (t.store F c x).bind fun r => (v.eq r.1).bind fun b => .ok (b, r.2) := by
  cases t with
  | json => exact absurd rfl hj
  | nullable w t => cases w with
    | optional => exact h.elim
    | pointer => simp only [Ty.equals]
  | _ => simp only [Ty.equals]

private theorem equals_trip (F : Floats) {num : Bytes → Prop} (v : Value) (hv : v.Wf num False) : ∀ (t : Ty) (x : CVal) (w : Value), t.Has x → t.Lossless F x → Trip F t x w →
    ∀ c, ∃ y, t.equals F c v x = .ok (decide (v = w), y)
  | .nullable .optional t, .nothing, _, _, hl, _, _ => hl.elim
  | .nullable .optional t, .just x, w, hx, hl, hw, c => by
    obtain ⟨u, hu⟩ := trip F t x hx hl
    have e : u = w := by
      obtain ⟨y, hy⟩ := hw.stores .constLv
      obtain ⟨z, hz⟩ := hu.stores (Cat.constLv.content .optional)
      simp only [Ty.store, hz, Out.bind_ok, Out.ok.injEq, Prod.mk.injEq] at hy
      exact hy.1
    subst e
    obtain ⟨y, hy⟩ := equals_trip F v hv t x u hx hl hu .constLv
    exact ⟨.just y, by simp [Ty.equals, hy]⟩
  | .json, .json w', w, hx, _, hw, c => by
    have e : w' = w := by
      obtain ⟨y, hy⟩ := hw.stores .rv
      simp only [Ty.store, if_true, Out.ok.injEq, Prod.mk.injEq] at hy
      exact hy.1
    subst e
    exact ⟨.json w', by simp [Ty.equals, eq_mixed v w' hv hw.sound]⟩
  | .nullable .pointer t, x, w, _, _, hw, c => by
    obtain ⟨y, hy⟩ := hw.stores c
    exact ⟨y, by simp [Ty.equals, hy, eq_mixed v w hv hw.sound]⟩
  | .bool, x, w, _, _, hw, c | .int _, x, w, _, _, hw, c | .float _, x, w, _, _, hw, c | .string, x, w, _, _, hw, c | .null, x, w, _, _, hw, c
  | .jarray, x, w, _, _, hw, c | .jobject, x, w, _, _, hw, c | .enum _, x, w, _, _, hw, c | .seq _, x, w, _, _, hw, c | .set _ _, x, w, _, _, hw, c
  | .fixed _ _, x, w, _, _, hw, c | .tuple _, x, w, _, _, hw, c | .variant _, x, w, _, _, hw, c | .map _, x, w, _, _, hw, c | .struct _, x, w, _, _, hw, c
  | .user _, x, w, _, _, hw, c => by
    obtain ⟨y, hy⟩ := hw.stores c
    exact ⟨y, by simp [Ty.equals, hy, eq_mixed v w hv hw.sound]⟩

/-- `v == x` compares `v` with what `x` is written as. If nothing is lost in writing `x` (C28), then `v == x` returns, and true means that `v` is a `T` and equals `x` as such; and `json::value(x) == x`. -/
theorem C79_equal_partial (F : Floats) (t : Ty) (x : CVal) (hx : t.Has x) (hl : t.Lossless F x) :
    ∃ w, (∀ c, ∃ y, t.store F c x = .ok (w, y)) ∧ t.is F w = .ok true ∧ t.as F w = .ok x ∧
      ∀ (v : Value) (c : Cat), v.Json → ∃ b y, t.equals F c v x = .ok (b, y) ∧ (b = true ↔ v = w) ∧ (b = true → t.is F v = .ok true ∧ t.as F v = .ok x) := by
  obtain ⟨w, hw⟩ := trip F t x hx hl
  refine ⟨w, hw.stores, hw.is, hw.as, fun v c hv => ?_⟩
  obtain ⟨y, hy⟩ := equals_trip F v hv t x w hx hl hw c
  refine ⟨_, y, hy, by simp, fun h => ?_⟩
  have : v = w := by simpa using h
  subst this
  exact ⟨hw.is, hw.as⟩

example : Samples.type.Has Samples.cval ∧ Samples.type.Lossless Samples.noFloats Samples.cval := ⟨Samples.cval_lossless.1, Samples.cval_lossless.2.1⟩
example : (Ty.seq (.int cInt)).equals Samples.noFloats .rv (.arr .array [.ofInt 1, .ofInt 2]) (.list [.int 1, .int 2]) = .ok (true, .list [.int 1, .int 2]) := by
  simp only [Ty.equals, Ty.store, eachBoth, Out.bind_ok]; rfl

/-- For types whose values are written in one way only (`OneForm`: booleans, integers, texts, null, json, and sequences, arrays, tuples, maps, pointers, optionals and variants of them) and values in which the
number `-0` does not occur, the claim holds. -/
theorem C79_exact_partial (F : Floats) (t : Ty) (ht : t.OneForm) (x : CVal) (hx : t.Has x) (hl : t.Lossless F x) (v : Value) (hv : v.NoMinusZero) (c : Cat) :
    ∃ b y, t.equals F c v x = .ok (b, y) ∧ (b = true ↔ t.as F v = .ok x) ∧ (b = true → t.is F v = .ok true) := by
  obtain ⟨w, hw⟩ := trip F t x hx hl
  obtain ⟨y, hy⟩ := equals_trip F v hv t x w hx hl hw c
  refine ⟨_, y, hy, ⟨fun h => ?_, fun h => ?_⟩, fun h => ?_⟩
  · have : v = w := by simpa using h
    subst this
    exact hw.as
  · obtain ⟨y1, h1⟩ := one_form F t v x .constLv ht hv h
    obtain ⟨y2, h2⟩ := hw.stores .constLv
    rw [h1] at h2
    simp only [Out.ok.injEq, Prod.mk.injEq] at h2
    simpa using h2.1
  · have : v = w := by simpa using h
    subst this
    exact hw.is

example : (Ty.map (.seq (.int cInt))).OneForm := trivial
example : (Value.obj .object [([0x61], .arr .array [.ofInt 1, .ofInt (-2)])]).NoMinusZero := by
  refine ⟨by simp, ⟨⟨(intText_intLit 1).number, by decide⟩, ⟨(intText_intLit (-2)).number, by decide⟩, trivial⟩, trivial⟩
example : (Ty.int cInt).equals Samples.noFloats .rv (.ofInt 5) (.int 5) = .ok (true, .int 5) ∧ (Ty.int cInt).equals Samples.noFloats .rv (.ofInt 6) (.int 5) = .ok (false, .int 5) ∧
    (Ty.int cInt).equals Samples.noFloats .rv (.str .string [0x35]) (.int 5) = .ok (false, .int 5) := by
  refine ⟨?_, ?_, ?_⟩ <;> simp only [Ty.equals, Ty.store, Out.bind_ok] <;> rfl

/-- `v == x` leaves `x` alone if it is const and contains no smart pointer to a nullable type, or is a variable whose type is, besides, no smart pointer itself (except to numbers and the like). -/
theorem C79_keeps_partial (F : Floats) (t : Ty) (ht : t.NoNested) (c : Cat) (hc : c = .constLv ∨ c = .lv ∧ ∀ u, t = .nullable .pointer u → u.Plain) (v : Value) (x y : CVal) (b : Bool)
    (h : t.equals F c v x = .ok (b, y)) : y = x := by
  have key : ∀ (t : Ty) (c : Cat) (x y : CVal) (b : Bool), t.NoNested → (c = .constLv ∨ c = .lv ∧ ∀ u, t = .nullable .pointer u → u.Plain) → t.NotOptional → t ≠ .json →
      t.equals F c v x = .ok (b, y) → y = x := by
    intro t c x y b ht hc ho hj h
    rw [equals_plain F t c v x ho hj] at h
    obtain ⟨r, h1, h⟩ := Out.bind_eq_ok.1 h
    obtain ⟨b', _, h⟩ := Out.bind_eq_ok.1 h
    simp only [Out.ok.injEq, Prod.mk.injEq] at h
    rw [← h.2]
    rcases hc with rfl | ⟨rfl, hn⟩
    · exact C51_const_partial F t ht x r.2 r.1 h1
    · refine C51_lvalue_partial F t ht (fun w u e => ?_) x r.2 r.1 h1
      subst e
      cases w with
      | optional => exact ho.elim
      | pointer => exact hn u rfl
  have loop : ∀ (t : Ty) (c : Cat) (x y : CVal) (b : Bool), t.NoNested → (c = .constLv ∨ c = .lv ∧ ∀ u, t = .nullable .pointer u → u.Plain) → t.equals F c v x = .ok (b, y) → y = x := by
    intro t
    induction t using Ty.rec (motive_2 := fun _ => True) (motive_3 := fun _ => True) with
    | nullable w t ih =>
      intro c x y b ht hc h
      cases w with
      | pointer => exact key _ c x y b ht hc trivial nofun h
      | optional =>
        cases x with
        | nothing => simp only [Ty.equals, Out.ok.injEq, Prod.mk.injEq] at h; exact h.2.symm
        | just x =>
          simp only [Ty.equals] at h
          obtain ⟨r, h1, h⟩ := Out.bind_eq_ok.1 h
          simp only [Out.ok.injEq, Prod.mk.injEq] at h
          rw [← h.2, ih .constLv x r.2 r.1 (by simpa only [Ty.NoNested] using ht) (.inl rfl) h1]
        | _ => simp only [Ty.equals, Ty.store, Out.bind_ub] at h; cases h
    | json =>
      intro c x y b ht hc h
      cases x with
      | json w =>
        simp only [Ty.equals] at h
        obtain ⟨r, h1, h⟩ := Out.bind_eq_ok.1 h
        simp only [Out.ok.injEq, Prod.mk.injEq] at h
        exact h.2.symm
      | _ => simp only [Ty.equals, Ty.store, Out.bind_ub] at h; cases h
    | nil => trivial
    | cons => trivial
    | done => trivial
    | opt => trivial
    | key => trivial
    | var => trivial
    | _ => intro c x y b ht hc h; exact key _ c x y b ht hc trivial nofun h
  exact loop t c x y b ht hc h

example : (Ty.nullable .optional (.seq .string)).NoNested := trivial
/-- A `std::optional` is left alone, unlike by `json::value(x)` (C51). -/
example (F : Floats) : (Ty.nullable .optional .string).equals F .lv (.str .string [0x61]) (.just (.str [0x61])) = .ok (true, .just (.str [0x61])) := by
  simp only [Ty.equals, Ty.store, Out.bind_ok]; rfl

/-- `v != x` is the opposite of `v == x`, for every type and value. -/
theorem C79_differs (F : Floats) (t : Ty) (c : Cat) (v : Value) (x : CVal) : t.differs F c v x = (t.equals F c v x).bind fun r => .ok (!r.1, r.2) := by
  have key : ∀ (o : Out (Value × CVal)), (o.bind fun r => (v.ne r.1).bind fun b => .ok (b, r.2)) =
      (o.bind fun r => (v.eq r.1).bind fun b => Out.ok (b, r.2)).bind fun r => .ok (!r.1, r.2) := by
    intro o
    cases o with
    | ok r => simp only [Out.bind_ok, Value.ne]; cases v.eq r.1 <;> rfl
    | _ => rfl
  induction t using Ty.rec (motive_2 := fun _ => True) (motive_3 := fun _ => True) generalizing c x with
  | nullable w t ih =>
    cases w with
    | pointer => simp only [Ty.equals, Ty.differs, key]
    | optional => cases x with
      | nothing => simp only [Ty.equals, Ty.differs]; rfl
      | just x =>
        simp only [Ty.equals, Ty.differs, ih]
        cases t.equals F .constLv v x <;> rfl
      | _ => simp only [Ty.equals, Ty.differs, key]
  | json => cases x with
    | json w => simp only [Ty.equals, Ty.differs, Value.ne]; cases v.eq w <;> rfl
    | _ => simp only [Ty.equals, Ty.differs, key]
  | nil => trivial
  | cons => trivial
  | done => trivial
  | opt => trivial
  | key => trivial
  | var => trivial
  | _ => simp only [Ty.equals, Ty.differs, key]

end Meojson
