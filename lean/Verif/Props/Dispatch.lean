import Verif.Model.Dispatch

/-!
# C74: a conversion that the user writes is the one that is used

For every kind of type, every set of functions the user has written for it, and lvalues and rvalues alike. `is<T>()` and `v.as<T>()` for lvalues do so; `json::value(x)`,
`static_cast<T>(v)` and `std::move(v).as<T>()` do so for some kinds only.
-/

set_option autoImplicit false

namespace Meojson.Dispatch

/-- Members can be written in classes of the user's only. -/
def Fits (k : Kind) (h : Hooks) : Prop :=
  (h.toMember = true ∨ h.checkMember = true ∨ h.fromMember = true) → k = .wrapper ∨ k = .fixed ∨ k = .collection ∨ k = .tupleLike ∨ k = .map ∨ k = .other

/-- The claim: if there is one `to_json`, writing uses it (or `move_to_json`); if there is a `check_json`, `is` uses it; if there is a `from_json`, `as` uses it (or `move_from_json`). -/
def C74Claim : Prop := ∀ k h c, Fits k h → c ≠ .constRv →
  (h.toMember ≠ h.toSpec → ∃ w, write k h c = some w ∧ w ≠ .builtIn) ∧
  (h.checkMember = true ∨ h.checkSpec = true → ∃ w, is k h = some w ∧ w ≠ .builtIn) ∧
  (h.fromMember = true ∨ h.fromSpec = true → ∃ w, as k h c = some w ∧ w ≠ .builtIn)

/-- `is<T>()` asks the user's `check_json`, in the class or else in the specialisation. -/
theorem C74_is (k : Kind) (h : Hooks) :
    (h.checkMember = true → is k h = some .member) ∧ (h.checkMember = false → h.checkSpec = true → is k h = some .spec) ∧
    (h.checkMember = false → h.checkSpec = false → is k h = if k = .other then none else some .builtIn) := by
  refine ⟨fun a => by simp [is, a], fun a b => by simp [is, a, b], fun a b => ?_⟩
  cases k <;> simp [is, a, b]

/-- `v.as<T>()` for an lvalue uses the user's `from_json`, in the class or else in the specialisation. -/
theorem C74_as (k : Kind) (h : Hooks) (c : Cat) (hc : c ≠ .rv) :
    (h.fromMember = true → as k h c = some .member) ∧ (h.fromMember = false → h.fromSpec = true → as k h c = some .spec) := by
  constructor
  · intro a; simp [as, a, hc]
  · intro a b; simp [as, a, b, hc]

/-- Writing, for kinds other than `own`, `refused` and `enumeration`: the one `to_json` there is, or `move_to_json` for an rvalue. (A const rvalue does not compile then.) -/
theorem C74_write_partial (k : Kind) (hk : k ≠ .own ∧ k ≠ .refused ∧ k ≠ .enumeration) (h : Hooks) (h1 : h.toMember ≠ h.toSpec) :
    (∀ c, c = .lv ∨ c = .constLv → write k h c = some (if h.toMember then .member else .spec)) ∧
    write k h .rv = some (if h.moveToSpec then .moveSpec else if h.toMember then .member else .spec) ∧
    write k h .constRv = (if h.moveToSpec then none else some (if h.toMember then .member else .spec)) := by
  obtain ⟨tm, ts, mt, cm, cs, fm, fs, mf⟩ := h
  refine ⟨?_, ?_, ?_⟩
  · rintro c (rfl | rfl) <;> cases tm <;> cases ts <;> first | exact absurd rfl h1 | (cases mt <;> cases k <;> first | rfl | simp_all)
  · cases tm <;> cases ts <;> first | exact absurd rfl h1 | (cases mt <;> cases k <;> first | rfl | simp_all)
  · cases tm <;> cases ts <;> first | exact absurd rfl h1 | (cases mt <;> cases k <;> first | rfl | simp_all)

example : write .collection { toSpec := true } .lv = some .spec ∧ write .other { toMember := true, moveToSpec := true } .rv = some .moveSpec ∧
    write .nullable { toSpec := true } .lv = some .spec := ⟨rfl, rfl, rfl⟩

/-- Where this fails: a type the library has a constructor for is written by that, without a word; characters are still refused; and an enum with a `to_json` cannot be written at all. -/
theorem C74_write_fails (h : Hooks) (c : Cat) (hm : h.toMember = false) :
    write .own h c = some .builtIn ∧ write .refused h c = none ∧ (h.toSpec = true → write .enumeration h c = none) := by
  obtain ⟨tm, ts, mt, cm, cs, fm, fs, mf⟩ := h
  simp only at hm
  subst hm
  refine ⟨?_, ?_, ?_⟩
  · cases ts <;> cases mt <;> cases c <;> rfl
  · cases ts <;> cases mt <;> cases c <;> rfl
  · intro a
    simp only at a
    subst a
    cases mt <;> cases c <;> rfl

/-- Then reading and writing disagree: what is written by the library is read by the user's function. -/
theorem C74_asymmetric (h : Hooks) (c : Cat) (hm : h.toMember = false ∧ h.fromMember = false) (hs : h.fromSpec = true) (hc : c ≠ .rv) :
    write .own h c = some .builtIn ∧ as .own h c = some .spec := ⟨(C74_write_fails h c hm.1).1, (C74_as .own h c hc).2 hm.2 hs⟩

example : write .own { toSpec := true, fromSpec := true } .lv = some .builtIn ∧ as .own { toSpec := true, fromSpec := true } .lv = some .spec := ⟨rfl, rfl⟩

/-- The enum of a user who wants other names for it. -/
theorem C74_refuted : ¬ C74Claim := fun h => by
  obtain ⟨w, hw, _⟩ := (h .enumeration { toSpec := true, checkSpec := true, fromSpec := true } .lv (by simp [Fits]) (by decide)).1 (by decide)
  have e : write .enumeration { toSpec := true, checkSpec := true, fromSpec := true } .lv = none := rfl
  rw [e] at hw
  cases hw

/-- `to_json` in the class and in a specialisation: ambiguous, unless an rvalue is moved. -/
theorem C74_both (k : Kind) (h : Hooks) (hk : Fits k h) (h1 : h.toMember = true) (h2 : h.toSpec = true) (c : Cat) :
    write k h c = if c = .rv ∧ h.moveToSpec = true then some .moveSpec else none := by
  have hk' := hk (.inl h1)
  clear hk
  obtain ⟨tm, ts, mt, cm, cs, fm, fs, mf⟩ := h
  simp only at h1 h2
  subst h1 h2
  rcases hk' with rfl | rfl | rfl | rfl | rfl | rfl <;> cases mt <;> cases c <;> rfl

/-- `move_to_json` alone: it takes the rvalues of a type the library knows nothing about. For other types the library's function is used for lvalues, and for rvalues it is used as well, or
neither is. -/
theorem C74_move_only (k : Kind) (h : Hooks) (h1 : h.toMember = false) (h2 : h.toSpec = false) (h3 : h.moveToSpec = true) :
    (∀ c, c = .lv ∨ c = .constLv → write k h c = if k = .other ∨ k = .refused then none else some .builtIn) ∧
    write k h .rv = (match k with
      | .other | .small => some .moveSpec
      | .own | .variant | .fixed | .tupleLike => some .builtIn
      | .refused | .enumeration | .nullable | .wrapper | .collection | .map => none) := by
  obtain ⟨tm, ts, mt, cm, cs, fm, fs, mf⟩ := h
  simp only at h1 h2 h3
  subst h1 h2 h3
  constructor
  · rintro c (rfl | rfl) <;> cases k <;> rfl
  · cases k <;> rfl

/-- `std::move(v).as<T>()`: `from_json` in the class, `move_from_json`; but `from_json` in a specialisation is found only by the cast, and that prefers the library's function for
some types, and is ambiguous for enums. -/
theorem C74_as_rvalue_partial (k : Kind) (h : Hooks) :
    (h.fromMember = true → as k h .rv = some .member) ∧ (h.fromMember = false → h.moveFromSpec = true → as k h .rv = some .moveSpec) ∧
    (h.fromMember = false → h.moveFromSpec = false → h.fromSpec = true → as k h .rv = (match k with
      | .own | .nullable | .variant => some .builtIn
      | .enumeration => none
      | _ => some .spec)) := by
  obtain ⟨tm, ts, mt, cm, cs, fm, fs, mf⟩ := h
  refine ⟨fun a => by simp_all [as], fun a b => by simp_all [as], fun a b d => ?_⟩
  simp only at a b d
  subst a b d
  cases k <;> rfl

example : as .nullable { fromSpec := true } .lv = some .spec ∧ as .nullable { fromSpec := true } .rv = some .builtIn ∧ as .enumeration { fromSpec := true } .lv = some .spec ∧
    as .enumeration { fromSpec := true } .rv = none := ⟨rfl, rfl, rfl, rfl⟩

/-- `static_cast<T>(v)` for an lvalue. -/
theorem C74_cast_partial (k : Kind) (h : Hooks) (hk : Fits k h) (c : Cat) (hc : c ≠ .rv) :
    (h.fromMember ≠ h.fromSpec → cast k h c = (match k with
      | .own | .nullable | .variant => some .builtIn
      | .enumeration => none
      | _ => some (if h.fromMember then .member else .spec))) ∧
    (h.fromMember = true → h.fromSpec = true → cast k h c = none) ∧
    (h.fromMember = false → h.fromSpec = false → cast k h c = (match k with
      | .refused | .small | .wrapper | .other => none
      | _ => some .builtIn)) := by
  obtain ⟨tm, ts, mt, cm, cs, fm, fs, mf⟩ := h
  simp only [Fits] at hk
  refine ⟨fun a => ?_, fun a b => ?_, fun a b => ?_⟩
  · cases fm <;> cases fs <;> first | exact absurd rfl a | (cases mf <;> cases c <;> cases k <;> first | rfl | simp_all)
  · simp only at a b
    subst a b
    cases mf <;> cases c <;> cases k <;> first | rfl | simp_all
  · simp only at a b
    subst a b
    cases mf <;> cases c <;> cases k <;> first | rfl | simp_all

/-- `static_cast<T>(std::move(v))` with a `move_from_json`: it is used, but for `std::optional` and the like and `std::variant`, which have a more special function of the library's; and with no
`from_json` beside it, it makes the conversion to a container ambiguous. -/
theorem C74_cast_move (k : Kind) (h : Hooks) (hm : h.moveFromSpec = true) :
    cast k h .rv = (match k with
      | .nullable | .variant => some .builtIn
      | .fixed | .collection | .tupleLike | .map => if h.fromMember || h.fromSpec then some .moveSpec else none
      | _ => some .moveSpec) := by
  obtain ⟨tm, ts, mt, cm, cs, fm, fs, mf⟩ := h
  simp only at hm
  subst hm
  cases fm <;> cases fs <;> cases k <;> rfl

example : cast .collection { moveFromSpec := true } .rv = none ∧ cast .collection { moveFromSpec := true } .lv = some .builtIn := ⟨rfl, rfl⟩

/-- Without a `move_from_json` it does what it does with a lvalue. -/
theorem C74_cast_plain (k : Kind) (h : Hooks) (hm : h.moveFromSpec = false) : cast k h .rv = cast k h .lv := by
  obtain ⟨tm, ts, mt, cm, cs, fm, fs, mf⟩ := h
  simp only at hm
  subst hm
  cases fm <;> cases fs <;> cases k <;> rfl

/-- Without functions of the user's: the library writes every kind but characters and unknown classes, and reads the same ones but `short` and the like, and wrappers of the user's. -/
theorem C74_without (k : Kind) (c : Cat) :
    write k {} c = (if k = .refused ∨ k = .other then none else some .builtIn) ∧
    as k {} c = (if k = .refused ∨ k = .other ∨ k = .small ∨ k = .wrapper then none else some .builtIn) := by
  constructor <;> cases k <;> cases c <;> rfl

end Meojson.Dispatch
