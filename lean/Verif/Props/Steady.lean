import Verif.Proofs.Steady
import Verif.Proofs.SteadyFloat
import Verif.Props.Float
import Verif.Props.Typed

/-!
# What was saved is loaded and saved alike (C96)

C28 asks that a value comes back; here it need not, but what comes back is to be written as the value was. So a file that the program writes, reads and writes again does not change.
-/

set_option autoImplicit false

namespace Meojson
open Spec

/-- C96 as stated: the json value made of `x`, converted back to the type and made into a json value once more, is the first one. -/
def C96Claim : Prop := ∀ (keep : Bool) (t : Ty), t.Proper (floats keep [0x2e]) → ∀ x, t.Has x → ∀ (c c' : Cat) v z y w z', t.store (floats keep [0x2e]) c x = .ok (v, z) →
  t.as (floats keep [0x2e]) v = .ok y → t.store (floats keep [0x2e]) c' y = .ok (w, z') → w = v

/-! ## Floating-point numbers -/

/-- Every `float`, `double` and `long double`, infinities and NaNs included, in both builds, in a locale with a decimal point: printed, read and printed again, it gives the first text.
The default build keeps six decimals, so what is read is often another number. -/
theorem C96_float (keep : Bool) (f : FloatFmt) (hf : f.Machine) (x : Fl) (hx : f.Has x) (y : Fl)
    (h : (floats keep [0x2e]).read f ((floats keep [0x2e]).print f x) = some y) : (floats keep [0x2e]).print f y = (floats keep [0x2e]).print f x := by
  cases x with
  | fin n m e =>
    cases keep with
    | false => exact fixed_steady hf.wide hx h
    | true => rw [general_steady hf.wide hf.digits hx h]
  | inf n =>
    have : y = .inf n := by cases n <;> cases keep <;> exact (Option.some.inj h).symm
    rw [this]
  | nan n =>
    have : y = .nan n := by cases n <;> cases keep <;> exact (Option.some.inj h).symm
    rw [this]

/-- With the precision kept, what is read, if anything, is the number itself. -/
theorem C96_float_keep (f : FloatFmt) (hf : f.Machine) (x : Fl) (hx : f.Has x) (y : Fl)
    (h : (floats true [0x2e]).read f ((floats true [0x2e]).print f x) = some y) : y = x := by
  cases x with
  | fin n m e => exact general_steady hf.wide hf.digits hx h
  | inf n => cases n <;> exact (Option.some.inj h).symm
  | nan n => cases n <;> exact (Option.some.inj h).symm

-- 10^-7 comes back as 0 and is printed alike.
example : (floats false [0x2e]).read .double ((floats false [0x2e]).print .double Samples.small) = some (.fin false 0 (-1074)) ∧
    (floats false [0x2e]).print .double (.fin false 0 (-1074)) = (floats false [0x2e]).print .double Samples.small := by decide +kernel
-- 2^-7 is halfway between two millionths and printed as the even one, which is read as another number.
example : (floats false [0x2e]).print .double (.fin false (2 ^ 52) (-59)) = ascii "0.007812" ∧
    (floats false [0x2e]).read .double (ascii "0.007812") = some (.fin false 9006622793988689 (-60)) ∧
    (floats false [0x2e]).print .double (.fin false 9006622793988689 (-60)) = ascii "0.007812" := by decide +kernel

/-! ## Values of any type -/

/-- A value that meets the conditions of `Steady` is written as one and the same json value, whatever the value category; and if that converts back to the type, to `x` or to
something else, the result is written as the same json value again. If every part of it is printable, it can be written as text, inside an array or by itself if it is a container, in either layout, and read in any build. -/
theorem C96_saved_partial (F : Floats) (t : Ty) (x : CVal) (hx : t.Has x) (hs : t.Steady F x) :
    ∃ v, (∀ c, ∃ z, t.store F c x = .ok (v, z)) ∧ v.Sound ∧ (∀ y, t.as F v = .ok y → ∀ c, ∃ z, t.store F c y = .ok (v, z)) ∧
      (t.Printable F x → ∀ (a : Accel) (indent : Option Nat),
        (∃ s, (Value.arr .array [v]).dumps indent = .ok s ∧ parse a.traits s = some (.arr .array [v]) ∧ parsec a.traits s = some (.arr .array [v])) ∧
        (v.IsContainer → ∃ s, v.dumps indent = .ok s ∧ parse a.traits s = some v ∧ parsec a.traits s = some v)) := by
  obtain ⟨v, hv⟩ := settled F t x hx hs
  refine ⟨v, hv.stores, hv.sound, hv.again, fun hp a indent => ?_⟩
  have hj := hv.json hp
  have ha : (Value.arr .array [v]).Json := ⟨hj, trivial⟩
  cases indent with
  | none => exact ⟨C08_roundtrip a _ ha (.inl rfl), fun hc => C08_roundtrip a _ hj hc⟩
  | some n => exact ⟨C09_roundtrip_indented a _ ha (.inl rfl) n, fun hc => C09_roundtrip_indented a _ hj hc n⟩

/-- The claim holds for such values. -/
theorem C96_again_partial (F : Floats) (t : Ty) (x : CVal) (hx : t.Has x) (hs : t.Steady F x) (c c' : Cat) (v w : Value) (y z z' : CVal)
    (h1 : t.store F c x = .ok (v, z)) (h2 : t.as F v = .ok y) (h3 : t.store F c' y = .ok (w, z')) : w = v := by
  obtain ⟨v', k1, _, k2, _⟩ := C96_saved_partial F t x hx hs
  obtain ⟨_, h⟩ := k1 c
  rw [h1] at h
  cases h
  obtain ⟨_, h⟩ := k2 y h2 c'
  rw [h3] at h
  cases h
  rfl

/-- A file that the program has written, read with `parse` and written again, has the same bytes, for the same layout. -/
theorem C96_file_partial (F : Floats) (t : Ty) (x : CVal) (hx : t.Has x) (hs : t.Steady F x) (hp : t.Printable F x) (a : Accel) (indent : Option Nat) (c c' : Cat)
    (v w u : Value) (y z z' : CVal) (s s' : Bytes) (h1 : t.store F c x = .ok (v, z)) (hc : v.IsContainer) (h2 : v.dumps indent = .ok s) (h3 : parse a.traits s = some u)
    (h4 : t.as F u = .ok y) (h5 : t.store F c' y = .ok (w, z')) (h6 : w.dumps indent = .ok s') : s' = s := by
  obtain ⟨v', k1, _, k2, k3⟩ := C96_saved_partial F t x hx hs
  obtain ⟨_, h⟩ := k1 c
  rw [h1] at h
  cases h
  obtain ⟨s₁, e1, e2, _⟩ := (k3 hp a indent).2 hc
  rw [h2] at e1
  cases e1
  rw [h3] at e2
  cases e2
  obtain ⟨_, h⟩ := k2 y h4 c'
  rw [h5] at h
  cases h
  rw [h2] at h6
  cases h6
  rfl

/-- All values of a tidy type meet the conditions. In such a type there are booleans, integers, floating-point numbers, strings, null, the library's own types, smart pointers,
sequences, maps, pairs and tuples other than with one element, and classes with different keys, nested to any depth; and with the conditions on their parts the other types. -/
theorem C96_tidy (F : Floats) (t : Ty) (ht : t.Tidy F) (x : CVal) (hx : t.Has x) : t.Steady F x := tidy_steady F t x ht hx

theorem C96_tidy_float (keep : Bool) (f : FloatFmt) (hf : f.Machine) : (Ty.float f).Tidy (floats keep [0x2e]) :=
  fun x hx y h => C96_float keep f hf x hx y h

/-- Nothing is asked of a value that comes back as it was. -/
theorem C96_lossless (F : Floats) (t : Ty) (x : CVal) (hx : t.Has x) (hl : t.Lossless F x) :
    ∃ v, (∀ c, ∃ z, t.store F c x = .ok (v, z)) ∧ ∀ y, t.as F v = .ok y → ∀ c, ∃ z, t.store F c y = .ok (v, z) := by
  obtain ⟨v, h1, _, _, h2, _⟩ := C28_roundtrip_partial F t x hx hl
  exact ⟨v, h1, fun y hy => by rw [h2] at hy; cases hy; exact h1⟩

/-- Whatever document a value of a tidy type was read from, once saved it does not change any more. -/
theorem C96_loaded (F : Floats) (t : Ty) (ht : t.Tidy F) (hp : t.Proper F) (u : Value) (hu : u.Sound) (x : CVal) (h : t.as F u = .ok x) :
    ∃ v, (∀ c, ∃ z, t.store F c x = .ok (v, z)) ∧ v.Sound ∧ ∀ y, t.as F v = .ok y → ∀ c, ∃ z, t.store F c y = .ok (v, z) := by
  obtain ⟨v, h1, h2, h3, _⟩ := C96_saved_partial F t x (C62_as F t hp u hu x h) (C96_tidy F t ht x (C62_as F t hp u hu x h))
  exact ⟨v, h1, h2, h3⟩

namespace Samples
/-- `struct { std::vector<double> a; std::map<std::string, float> b; std::unique_ptr<std::pair<bool, std::string>> c; }` -/
def sheet : Ty := .struct (.var [0x61] (.list []) (.seq (.float .double)) (.var [0x62] (.map []) (.map (.float .single))
  (.opt (.var [0x63] .nothing (.nullable .pointer (.tuple (.cons .bool (.cons .string .nil)))) .done))))

theorem sheet_tidy (keep : Bool) : sheet.Tidy (floats keep [0x2e]) :=
  ⟨by decide, C96_tidy_float keep .double (.inr (.inl rfl)), C96_tidy_float keep .single (.inl rfl), ⟨by decide, trivial, trivial, trivial⟩, trivial⟩

theorem sheet_proper (keep : Bool) : sheet.Proper (floats keep [0x2e]) :=
  ⟨⟨C62_float keep [0x2e] .double (.inr (.inl rfl)), C62_float keep [0x2e] .single (.inl rfl), ⟨trivial, trivial, trivial⟩, trivial⟩,
    ⟨(fun x hx => by cases hx), ⟨.nil, fun x hx => by cases hx⟩, trivial, trivial⟩⟩
end Samples

/-- A value of the type with numbers that are not kept -/
def Samples.filled : CVal := .list [.list [.flt Samples.tenth, .flt Samples.small], .map [([0x6b], .flt (.fin false (2 ^ 23) (-23)))], .just (.list [.bool true, .str []])]

theorem Samples.filled_has : Samples.sheet.Has Samples.filled := by
  refine ⟨fun x hx => ?_, ⟨List.pairwise_singleton _ _, fun x hx => ?_⟩, ⟨trivial, trivial, trivial⟩, trivial⟩
  · simp only [List.mem_cons, List.not_mem_nil, or_false] at hx
    rcases hx with rfl | rfl
    · show FloatFmt.double.Has Samples.tenth; unfold FloatFmt.Has Samples.tenth; decide
    · show FloatFmt.double.Has Samples.small; unfold FloatFmt.Has Samples.small; decide
  · simp only [List.mem_cons, List.not_mem_nil, or_false] at hx
    subst hx
    show FloatFmt.single.Has _; unfold FloatFmt.Has; decide

theorem Samples.filled_printable (keep : Bool) : Samples.sheet.Printable (floats keep [0x2e]) Samples.filled := by
  have number : ∀ (f : FloatFmt) (_ : f.Machine) (x : Fl) (_ : f.Has x) (_ : x.Finite), Number ((floats keep [0x2e]).print f x) := by
    intro f hf x hx hfin
    cases keep with
    | false =>
      obtain ⟨text, _, _, h1, h2, _⟩ := C43_fixed_partial f hf x hx hfin .rv
      rw [Ty.store] at h1
      cases h1
      exact h2
    | true =>
      obtain ⟨text, _, h1, h2, _⟩ := C43_keep f hf x hx hfin .rv
      rw [Ty.store] at h1
      cases h1
      exact h2
  have h := Samples.filled_has
  refine ⟨fun x hx => ?_, fun x hx => ?_, ⟨trivial, trivial, trivial⟩, trivial⟩
  · have h1 := h.1 x hx
    simp only [List.mem_cons, List.not_mem_nil, or_false] at hx
    rcases hx with rfl | rfl <;> exact number .double (.inr (.inl rfl)) _ h1 trivial
  · have h1 := h.2.1.2 x hx
    simp only [List.mem_cons, List.not_mem_nil, or_false] at hx
    subst hx
    exact number .single (.inl rfl) _ h1 trivial

example (keep : Bool) : Samples.sheet.Steady (floats keep [0x2e]) Samples.filled := C96_tidy _ _ (Samples.sheet_tidy keep) _ Samples.filled_has
example : (Samples.sheet.store (floats false [0x2e]) .rv Samples.filled).bind (fun r => r.1.dumps) =
    .ok (ascii "{\"a\":[0.100000,0.000000],\"b\":{\"k\":1.000000},\"c\":[true,\"\"]}") := by decide +kernel

-- A document in another order, with a member that is not known and more digits than are kept: the first save changes it, the second does not.
example : (Samples.sheet.as (floats false [0x2e]) (.obj .object [([0x61], .arr .array [.str .number (ascii "0.12345678"), .str .number (ascii "1e2")]), ([0x62], .obj .object []), ([0x7a], .null)])).bind
    (fun x => (Samples.sheet.store (floats false [0x2e]) .constLv x).bind fun r => r.1.dumps) = .ok (ascii "{\"a\":[0.123457,100.000000],\"b\":{},\"c\":null}") ∧
  (Samples.sheet.as (floats false [0x2e]) (.obj .object [([0x61], .arr .array [.str .number (ascii "0.123457"), .str .number (ascii "100.000000")]), ([0x62], .obj .object []), ([0x63], .null)])).bind
    (fun x => (Samples.sheet.store (floats false [0x2e]) .constLv x).bind fun r => r.1.dumps) = .ok (ascii "{\"a\":[0.123457,100.000000],\"b\":{},\"c\":null}") := by decide +kernel

/-! ## Where it fails -/

namespace Samples
/-- A finite number as a multiple of the least positive `double` -/
def sortKey : CVal → Int
  | .flt (.fin n m e) => if n then -(m * 2 ^ (e + 1074).toNat : Nat) else (m * 2 ^ (e + 1074).toNat : Nat)
  | _ => 0

/-- The order of the finite numbers -/
def less (a b : CVal) : Bool := sortKey a < sortKey b

theorem less_order (t : Ty) : StrictOrder t less := by
  refine ⟨fun a b _ _ h => ?_, fun a b c _ _ _ h h' => ?_⟩
  · simp only [less, decide_eq_true_eq, decide_eq_false_iff_not] at *; omega
  · simp only [less, decide_eq_true_eq] at *; omega

/-- `2 * 10^-7` -/
def small2 : Fl := .fin false 7555786372591432 (-75)
end Samples

/-- `std::set<double> {1e-7, 2e-7}`, default build: saved as `[0.000000,0.000000]`, which is read as a set with one element and saved as `[0.000000]`. -/
theorem C96_refuted_set : ∃ v z y w z', (Ty.set Samples.less (.float .double)).Has (.list [.flt Samples.small, .flt Samples.small2]) ∧
    (Ty.set Samples.less (.float .double)).store (floats false [0x2e]) .constLv (.list [.flt Samples.small, .flt Samples.small2]) = .ok (v, z) ∧
    v.dumps = .ok (ascii "[0.000000,0.000000]") ∧ (Ty.set Samples.less (.float .double)).as (floats false [0x2e]) v = .ok y ∧
    (Ty.set Samples.less (.float .double)).store (floats false [0x2e]) .constLv y = .ok (w, z') ∧ w.dumps = .ok (ascii "[0.000000]") := by
  refine ⟨.arr .array [.str .number (ascii "0.000000"), .str .number (ascii "0.000000")], .list [.flt Samples.small, .flt Samples.small2], .list [.flt (.fin false 0 (-1074))],
    .arr .array [.str .number (ascii "0.000000")], .list [.flt (.fin false 0 (-1074))], ⟨?_, ?_⟩, ?_, by decide +kernel, ?_, ?_, by decide +kernel⟩
  · intro x hx
    simp only [List.mem_cons, List.not_mem_nil, or_false] at hx
    rcases hx with rfl | rfl
    · show FloatFmt.double.Has Samples.small; unfold FloatFmt.Has Samples.small; decide
    · show FloatFmt.double.Has Samples.small2; unfold FloatFmt.Has Samples.small2; decide
  · simp only [List.pairwise_cons, List.mem_cons, List.not_mem_nil, or_false, forall_eq, List.Pairwise.nil, and_true, false_imp_iff, implies_true]
    decide +kernel
  · simp only [Ty.store, eachBoth, Out.bind_ok, Value.ofArray]
    rw [show (floats false [0x2e]).print .double Samples.small = ascii "0.000000" by decide +kernel, show (floats false [0x2e]).print .double Samples.small2 = ascii "0.000000" by decide +kernel]
  · have h : (floats false [0x2e]).read .double (ascii "0.000000") = some (.fin false 0 (-1074)) := by decide +kernel
    simp only [Ty.as, Value.asArray, Value.type, if_true, Out.bind_ok, eachOf, Value.asFloat, Value.basicStr, h]
    rfl
  · simp only [Ty.store, eachBoth, Out.bind_ok, Value.ofArray]
    rw [show (floats false [0x2e]).print .double (.fin false 0 (-1074)) = ascii "0.000000" by decide +kernel]

/-- `std::variant<double, int> {5}`: saved as 5, read as a `double`, saved as 5.000000. -/
theorem C96_refuted_variant (keep : Bool) : ∃ y, let t : Ty := .variant (.cons (.float .double) (.cons (.int cInt) .nil))
    t.Has (.alt 1 (.int 5)) ∧ t.store (floats keep [0x2e]) .constLv (.alt 1 (.int 5)) = .ok (.ofInt 5, .alt 1 (.int 5)) ∧ t.as (floats keep [0x2e]) (.ofInt 5) = .ok y ∧
    t.store (floats false [0x2e]) .constLv y = .ok (.str .number (ascii "5.000000"), y) := by
  refine ⟨.alt 0 (.flt (.fin false (5 * 2 ^ 50) (-50))), ?_, ?_, ?_, ?_⟩
  · show cInt.Has 5; unfold IntTy.Has; decide
  · simp only [Ty.store, Tys.storeAlt, Out.bind_ok]
  · cases keep <;> rfl
  · simp only [Ty.store, Tys.storeAlt, Out.bind_ok]
    rw [show (floats false [0x2e]).print .double (.fin false (5 * 2 ^ 50) (-50)) = ascii "5.000000" by decide +kernel]

/-- `std::optional<S>` without content, where all members of `S` are `MEO_OPT`: saved as null, read as an `S` with its members as they are by default, saved as `{"a":0}`. -/
theorem C96_refuted_optional (F : Floats) : let t : Ty := .nullable .optional (.struct (.opt (.var [0x61] (.int 0) (.int cInt) .done)))
    t.store F .constLv .nothing = .ok (.null, .nothing) ∧ t.as F .null = .ok (.just (.list [.int 0])) ∧
    t.store F .constLv (.just (.list [.int 0])) = .ok (.obj .object [([0x61], .ofInt 0)], .just (.list [.int 0])) := by
  refine ⟨?_, rfl, ?_⟩
  · rw [Ty.store]
  · simp only [Ty.store, Fields.dump, Out.bind_ok]; rfl

/-- `std::tuple<json::value>`: every load and save puts another pair of brackets around it. -/
theorem C96_refuted_tuple (F : Floats) (v : Value) (hv : v.Sound) : let t : Ty := .tuple (.cons .json .nil)
    t.store F .constLv (.list [.json v]) = .ok (.arr .array [v], .list [.json v]) ∧ t.as F (.arr .array [v]) = .ok (.list [.json (.arr .array [v])]) ∧
    t.store F .constLv (.list [.json (.arr .array [v])]) = .ok (.arr .array [.arr .array [v]], .list [.json (.arr .array [v])]) := by
  have h : (Value.arr .array [v]).Sound := ⟨hv, trivial⟩
  refine ⟨?_, ?_, ?_⟩
  · simp only [Ty.store, Tys.storeAll, Out.bind_ok, sound_copied hv]
    rfl
  · simp [Ty.as, Tys.asNth, Tys.size, sound_copied h]
  · simp only [Ty.store, Tys.storeAll, Out.bind_ok, sound_copied h]
    rfl

/-- C96 as stated is false. -/
theorem C96_refuted : ¬ C96Claim := by
  intro h
  obtain ⟨h1, h2, h3⟩ := C96_refuted_tuple (floats false [0x2e]) .null (by simp [Value.null, Value.Wf])
  have := h false (.tuple (.cons .json .nil)) ⟨trivial, trivial⟩ (.list [.json .null]) ⟨by simp [Ty.Has, Value.null, Value.Wf], trivial⟩ .constLv .constLv _ _ _ _ _ h1 h2 h3
  simp [Value.null] at this

end Meojson
