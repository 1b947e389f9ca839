import Verif.Model.GetText
import Verif.Props.Access

/-!
# C26 for defaults that are texts
-/

set_option autoImplicit false

namespace Meojson
open Spec Value

private theorem getTextPath_eq (d : TextDefault) (path : List PathKey) (v : Value) :
    getTextPath d path v = (getPath (fun x => .ok (TextDefault.is d x)) (fun x => .ok x.asString) (TextDefault.str d) path v).bind id := by
  induction path generalizing v with
  | nil =>
    simp only [getTextPath, getPath, textOrDefault]
    cases h : TextDefault.is d v <;> simp [Out.bind]
  | cons p rest ih =>
    cases p with
    | key k =>
      simp only [getTextPath, getPath]
      split
      · cases v.asObject with
        | ok ms => simp only [Out.bind]; cases h : RawObject.find k ms <;> simp [ih, Out.bind]
        | throw e => rfl
        | ub => rfl
      · rfl
    | pos i =>
      simp only [getTextPath, getPath]
      split
      · cases v.asArray with
        | ok vs => simp only [Out.bind]; cases h : vs[toSizeT i]? <;> simp [ih, Out.bind]
        | throw e => rfl
        | ub => rfl
      · rfl

private theorem getTextPath_cases (d : TextDefault) (v : Value) (hv : v.Sound) (hlen : Storable v) (path : List PathKey)
    (hpath : ∀ i, PathKey.pos i ∈ path → -(2 ^ 63 : Nat) ≤ i ∧ i < (2 ^ 64 : Nat)) :
    (∃ x, Reaches v path x ∧ TextDefault.is d x = true ∧ getTextPath d path v = x.asString) ∨
    ((∀ x, Reaches v path x → TextDefault.is d x = false) ∧ getTextPath d path v = TextDefault.str d) := by
  rw [getTextPath_eq]
  have hT : ∀ x, x.Sound → Reaches v path x →
      (Out.ok (TextDefault.is d x) = .ok false) ∨ (Out.ok (TextDefault.is d x) = .ok true ∧ ∃ y, Out.ok x.asString = .ok y) := by
    intro x _ _
    cases TextDefault.is d x <;> simp
  rcases C26_get (fun x => .ok (TextDefault.is d x)) (fun x => .ok x.asString) v hv hlen path hT hpath (TextDefault.str d) with ⟨x, y, h1, h2, h3, h4⟩ | ⟨h1, h2⟩
  · left
    simp at h2 h3
    exact ⟨x, h1, h2, by rw [h4, h3]; rfl⟩
  · right
    exact ⟨fun x hx => by simpa using h1 x hx, by rw [h2]; rfl⟩

private theorem string_of_type {x : Value} (hx : x.Sound) (h : x.type = .string) : ∃ t, x = .str .string t ∧ x.asString = .ok t := by
  cases sound_shape hx <;> simp [Value.type, ofBool, asString, basicStr] at h ⊢

private theorem reaches_sound {v x : Value} {path : List PathKey} (h : Reaches v path x) (hv : v.Sound) : x.Sound := by
  induction h with
  | here => exact hv
  | step hs _ ih => exact ih (step_sound hv hs)

private theorem text_cases (d : TextDefault) (hd : ∀ x, TextDefault.is d x = decide (x.type = .string)) (v : Value) (hv : v.Sound) (hlen : Storable v) (path : List PathKey)
    (hpath : ∀ i, PathKey.pos i ∈ path → -(2 ^ 63 : Nat) ≤ i ∧ i < (2 ^ 64 : Nat)) :
    (∃ t, Reaches v path (.str .string t) ∧ getTextPath d path v = .ok t) ∨
    ((∀ t, ¬ Reaches v path (.str .string t)) ∧ getTextPath d path v = TextDefault.str d) := by
  rcases getTextPath_cases d v hv hlen path hpath with ⟨x, h1, h2, h3⟩ | ⟨h1, h2⟩
  · rw [hd] at h2
    obtain ⟨t, rfl, ht⟩ := string_of_type (reaches_sound h1 hv) (of_decide_eq_true h2)
    exact .inl ⟨t, h1, by rw [h3, ht]⟩
  · exact .inr ⟨fun t ht => by have := h1 _ ht; rw [hd] at this; simp [Value.type] at this, h2⟩

/-- With a default that is a `std::string`, a literal or a pointer that is not null, `get` returns a `std::string`: the string the path leads to, if it leads to a string, and
a copy of the default otherwise. -/
theorem C26_text (v : Value) (hv : v.Sound) (hlen : Storable v) (path : List PathKey) (hpath : ∀ i, PathKey.pos i ∈ path → -(2 ^ 63 : Nat) ≤ i ∧ i < (2 ^ 64 : Nat))
    (d : TextDefault) (s : Bytes) (hd : d = .string s ∨ d = .cstr (some s)) :
    (∃ t, Reaches v path (.str .string t) ∧ getTextPath d path v = .ok t) ∨
    ((∀ t, ¬ Reaches v path (.str .string t)) ∧ getTextPath d path v = .ok s) := by
  have hi : ∀ x, TextDefault.is d x = decide (x.type = .string) := by rcases hd with rfl | rfl <;> exact fun _ => rfl
  have hs : TextDefault.str d = .ok s := by rcases hd with rfl | rfl <;> rfl
  rw [← hs]
  exact text_cases d hi v hv hlen path hpath

/-- `value::get` with one key gives the same as the path of one key, in a string of its own. -/
theorem C26_text_own (v : Value) (p : PathKey) (d : TextDefault) (hd : ∀ s, d ≠ .view s) : v.getText p d = (getTextPath d [p] v).bind fun t => .ok (.own, t) := by
  have h1 : ∀ t, condFound d t = (.own, t) := by cases d <;> simp_all [condFound]
  have h2 : condDefault d = (TextDefault.str d).bind fun t => .ok (.own, t) := by cases d <;> simp_all [condDefault]
  cases p with
  | key k =>
    simp only [getText, getTextPath, h1, h2]
    split
    · cases v.asObject with
      | ok ms => simp only [Out.bind, objGetText]; cases h : RawObject.find k ms <;> simp [h, Out.bind]
      | throw e => rfl
      | ub => rfl
    · rfl
  | pos i =>
    simp only [getText, getTextPath, h1, h2]
    split
    · cases v.asArray with
      | ok vs => simp only [Out.bind, arrGetText]; cases h : vs[toSizeT i]? <;> simp [h, Out.bind]
      | throw e => rfl
      | ub => rfl
    · rfl

/-- With a `std::string_view` as default, what `get` returns of an object is a view of a string that no longer exists, whether the key is there or not: reading it is undefined.
Only on a value that is no object does the caller get their default back. -/
theorem C26_refuted_view (k s : Bytes) :
    (∀ ms, (Value.obj .object ms).Sound → ∃ r, (Value.obj .object ms).getText (.key k) (.view s) = .ok r ∧ readText r = .ub) ∧
    (∀ v : Value, v.type ≠ .object → ∃ r, v.getText (.key k) (.view s) = .ok r ∧ readText r = .ok s) ∧
    (∀ vs (i : Int), (Value.arr .array vs).Sound → ∃ r, (Value.arr .array vs).getText (.pos i) (.view s) = .ok r ∧ readText r = .ub) := by
  have key : ∀ x : Value, x.Sound → ∃ t, textOrDefault (.view s) x = .ok t := by
    intro x hx
    cases sound_shape hx <;> simp [textOrDefault, TextDefault.is, TextDefault.str, Value.type, ofBool, asString, basicStr]
  refine ⟨fun ms hs => ?_, fun v hv => ?_, fun vs i hs => ?_⟩
  · have : ∃ t, objGetText k (.view s) ms = .ok t := by
      unfold objGetText
      cases h : RawObject.find k ms with
      | none => exact ⟨s, rfl⟩
      | some x => 
        cases sound_shape hs with
        | object _ h1 h2 => exact key x (h2 _ ((RawObject.find_eq_some h1 k x).1 h))
    obtain ⟨t, ht⟩ := this
    exact ⟨(.gone, t), by simp [getText, Value.type, asObject, ht, condFound], rfl⟩
  · exact ⟨(.default, s), by simp [getText, hv, condDefault], rfl⟩
  · have : ∃ t, arrGetText i (.view s) vs = .ok t := by
      unfold arrGetText
      cases h : vs[toSizeT i]? with
      | none => exact ⟨s, rfl⟩
      | some x =>
        cases sound_shape hs with
        | array _ h1 => exact key x (h1 x (List.mem_of_getElem? h))
    obtain ⟨t, ht⟩ := this
    exact ⟨(.gone, t), by simp [getText, Value.type, asArray, ht, condFound], rfl⟩

/-- `object::get` and `array::get` return a string of their own also for a view. -/
theorem C26_text_handle (s : Bytes) :
    (∀ k ms, objGetText k (.view s) ms = objGetText k (.string s) ms) ∧ (∀ i vs, arrGetText i (.view s) vs = arrGetText i (.string s) vs) :=
  ⟨fun _ _ => rfl, fun _ _ => rfl⟩

/-- With `nullptr` as default, `get` never returns: it throws if it finds null, and constructs a string from a null pointer otherwise. -/
theorem C26_refuted_nullptr (v : Value) (hv : v.Sound) (hlen : Storable v) (path : List PathKey) (hpath : ∀ i, PathKey.pos i ∈ path → -(2 ^ 63 : Nat) ≤ i ∧ i < (2 ^ 64 : Nat)) :
    (Reaches v path .null ∧ getTextPath .nullptr path v = .throw .json) ∨ (¬ Reaches v path .null ∧ getTextPath .nullptr path v = .ub) := by
  rcases getTextPath_cases .nullptr v hv hlen path hpath with ⟨x, h1, h2, h3⟩ | ⟨h1, h2⟩
  · have hs := reaches_sound h1 hv
    have ht : x.type = .null := of_decide_eq_true h2
    have hx : x = .null := by cases sound_shape hs <;> simp [Value.type, ofBool, Value.null] at ht ⊢
    exact .inl ⟨hx ▸ h1, by rw [h3]; exact (C45_accessors x hs).2.2.2.1 (by simp [ht])⟩
  · exact .inr ⟨fun h => by have := h1 _ h; simp [TextDefault.is, Value.type, Value.null] at this, h2⟩

/-- With a null `const char*` as default, `get` is undefined wherever it needs the default. -/
theorem C26_refuted_null_pointer (v : Value) (hv : v.Sound) (hlen : Storable v) (path : List PathKey) (hpath : ∀ i, PathKey.pos i ∈ path → -(2 ^ 63 : Nat) ≤ i ∧ i < (2 ^ 64 : Nat)) :
    (∃ t, Reaches v path (.str .string t) ∧ getTextPath (.cstr none) path v = .ok t) ∨
    ((∀ t, ¬ Reaches v path (.str .string t)) ∧ getTextPath (.cstr none) path v = .ub) := by
  exact text_cases (.cstr none) (fun _ => rfl) v hv hlen path hpath

/-- `as_string_view()` and the conversions of a value that lives on give a view of the text in the value. -/
theorem C26_view_of_value (v : Value) (hv : v.Sound) :
    (∀ t, v = .str .string t → v.asView = .ok (.value, t)) ∧ ((∀ t, v ≠ .str .string t) → v.asView = .throw .json) := by
  have h := C45_accessors v hv
  refine ⟨fun t ht => by simp [asView, (h.2.2.1 t).2 ht, Out.bind], fun hn => ?_⟩
  have : v.type ≠ .string := fun ht => let ⟨t, e, _⟩ := string_of_type hv ht; hn t e
  simp [asView, h.2.2.2.1 this, Out.bind]

example : (Value.obj .object [([0x6b], .str .string [0x76])]).getText (.key [0x6b]) (.view [0x64]) = .ok (.gone, [0x76]) ∧
    (Value.obj .object []).getText (.key [0x6b]) (.view [0x64]) = .ok (.gone, [0x64]) ∧
    (Value.obj .object [([0x6b], .str .string [0x76])]).getText (.key [0x6b]) (.cstr (some [0x64])) = .ok (.own, [0x76]) ∧
    getTextPath .nullptr [.key [0x6b]] (.obj .object [([0x6b], .null)]) = .throw .json ∧
    getTextPath (.cstr none) [.key [0x6b], .pos 0] (.obj .object [([0x6b], .arr .array [.str .string [0x76]])]) = .ok [0x76] := by decide +kernel

end Meojson
