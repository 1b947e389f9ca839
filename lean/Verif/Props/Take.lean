import Verif.Proofs.Take
import Verif.Props.Convert

/-!
# Conversion from an rvalue, `static_cast<T>(std::move(v))` (C54, C55)

Every theorem holds for every conversion `F` between floating-point numbers and text.
-/

set_option autoImplicit false

namespace Meojson
open Spec Value

private abbrev i32 : IntTy := ⟨true, 32⟩

/-! ## C54: moving a value into a conversion gives the same result as copying -/

/-- What converts from a const value converts from an rvalue, with the same result, for every type. -/
theorem C54_ok (F : Floats) (t : Ty) (v : Value) (hv : v.Sound) (x : CVal) (h : t.as F v = .ok x) : (t.take F v).2 = .ok x := (take_matches F t v hv).ok x h

example : (Ty.tuple (.cons .json (.cons (.int i32) .nil))).as Samples.noFloats (.arr .array [.arr .array [.null], .str .number [0x37]]) =
    .ok (.list [.json (.arr .array [.null]), .int 7]) := by
  simp only [Ty.as, Tys.size]; rfl

/-- The outcomes are the same, errors included, unless the value is null, `""`, `[]` or `{}`. -/
theorem C54_same_partial (F : Floats) (t : Ty) (v : Value) (hv : v.Sound) (hb : ¬ Blank v) : (t.take F v).2 = t.as F v := (take_matches F t v hv).same hb

example : ¬ Blank (.arr .array [.null]) ∧ (Ty.seq (.int i32)).as Samples.noFloats (.arr .array [.null]) = .throw .json := by
  refine ⟨by simp [Blank, Value.type], ?_⟩
  simp only [Ty.as]; rfl

/-- From one of these four the outcome is as from a const value, or as from a const `[]` or `{}`. -/
theorem C54_blank (F : Floats) (t : Ty) (v : Value) (hv : v.Sound) :
    (t.take F v).2 = t.as F v ∨ Blank v ∧ ((t.take F v).2 = t.as F (.arr .array []) ∨ (t.take F v).2 = t.as F (.obj .object [])) := take_instead F t v hv

/-- Moving a value into a conversion returns or throws `json::exception`: never undefined, whatever the type. -/
theorem C54_defined (F : Floats) (t : Ty) (v : Value) (hv : v.Sound) : (∃ x, (t.take F v).2 = .ok x) ∨ (t.take F v).2 = .throw .json :=
  (take_matches F t v hv).tame

/-- A variant none of whose alternatives the converting constructor takes: the rvalue is not touched, and the outcome is that of the const value, for every value
whatever, moved-from and mis-tagged ones included. -/
theorem C54_variant (F : Floats) (ts : Tys) (hc : ts.chosen = none) (v : Value) : (Ty.variant ts).take F v = (v, (Ty.variant ts).as F v) := by
  simp only [Ty.take, Ty.as, hc]
  exact takeAny_as F (chosen_none hc)

example : (Ty.variant (.cons (.int i32) (.cons .string .nil))).take Samples.noFloats (.arr .number []) = (.arr .number [], .ub) := by
  rw [C54_variant _ _ (by decide +kernel)]; simp only [Ty.as]; rfl

/-- On the four empty values they differ: null, `""` and `{}` convert to an empty `std::vector<int>` from an rvalue and throw from a const value; so do null, `""` and
`[]` for `std::map`. The non-const `as_array()` and `as_object()` that the operators with `&&` call (value.hpp:625, 647) turn an empty value into an array or object. -/
theorem C54_refuted (F : Floats) :
    (∀ v, v = Value.null ∨ v = .str .string [] ∨ v = .obj .object [] →
      (Ty.seq (.int i32)).as F v = .throw .json ∧ (Ty.seq (.int i32)).take F v = (.arr .array [], .ok (.list []))) ∧
    (∀ v, v = Value.null ∨ v = .str .string [] ∨ v = .arr .array [] →
      (Ty.map (.int i32)).as F v = .throw .json ∧ (Ty.map (.int i32)).take F v = (.obj .object [], .ok (.map []))) := by
  constructor <;> rintro v (rfl | rfl | rfl) <;> simp only [Ty.as, Ty.take] <;> exact ⟨rfl, rfl⟩

/-- Thus `static_cast<std::optional<std::vector<int>>>` of null throws from a const value, and from an rvalue returns an optional that holds an empty vector. -/
theorem C54_refuted_optional (F : Floats) :
    (Ty.nullable .optional (.seq (.int i32))).as F .null = .throw .json ∧
    (Ty.nullable .optional (.seq (.int i32))).take F .null = (.arr .array [], .ok (.just (.list []))) := by
  simp only [Ty.as, Ty.take]; exact ⟨rfl, rfl⟩

/-! ## C55: what a moved-from value holds after a conversion -/

/-- At most one level of the value is taken apart: each element or member is untouched or moved from, the keys stay, and nothing else appears. -/
theorem C55_left (F : Floats) (t : Ty) (v : Value) (hv : v.Sound) : Remains v (t.take F v).1 := take_left F t v hv

/-- Numbers, booleans, strings, null, enums and structs are read, and the value stays as it was. -/
theorem C55_reads (F : Floats) (t : Ty) (ht : t.Reads) (v : Value) : (t.take F v).1 = v := by
  cases t <;> first | rfl | exact ht.elim

example : (Ty.struct Samples.fields).Reads := trivial

/-- A value from which an array type was made is an empty array. -/
theorem C55_cleared (F : Floats) (t : Ty) (ht : t.OfElements) (v : Value) (hv : v.Sound) (x : CVal) (h : (t.take F v).2 = .ok x) :
    (t.take F v).1 = .arr .array [] := take_clear F ht hv h

example : (Ty.seq .json).take Samples.noFloats (.arr .array [.null]) = (.arr .array [], .ok (.list [.json .null])) := by
  simp only [Ty.take]; rfl

/-- A conversion that throws leaves the value as it was, if no tuple of several elements with a `json::value` among them is involved and the value is none of the four
empty ones. -/
theorem C55_strong_partial (F : Floats) (t : Ty) (ht : t.NoSplit) (v : Value) (hv : v.Sound) (hb : ¬ Blank v) (h : (t.take F v).2 = .throw .json) :
    (t.take F v).1 = v := take_keep F t v hv hb ht (fun x hx => by rw [h] at hx; cases hx)

example : (Ty.seq (.seq .json)).NoSplit ∧ ¬ Blank (.arr .array [.arr .array [.null], .null]) ∧
    ((Ty.seq (.seq .json)).take Samples.noFloats (.arr .array [.arr .array [.null], .null])).2 = .throw .json := by
  refine ⟨trivial, by simp [Blank, Value.type], ?_⟩
  simp only [Ty.take]; rfl

/-- With such a tuple the value loses the elements before the one that does not convert: `static_cast<std::tuple<json::value, int>>(std::move(v))` on `["a", null]`
throws and leaves `["", null]`. -/
theorem C55_refuted (F : Floats) :
    (Ty.tuple (.cons .json (.cons (.int i32) .nil))).take F (.arr .array [.str .string [0x61], .null]) =
      (.arr .array [.str .string [], .null], .throw .json) := by
  simp only [Ty.take, Tys.size]; rfl

/-- On `[[], null]` it leaves a null pointer inside the array; copying or printing the value afterwards is undefined, although the conversion has failed. -/
theorem C55_refuted_pointer (F : Floats) :
    let r := (Ty.tuple (.cons .json (.cons (.int i32) .nil))).take F (.arr .array [.arr .array [], .null])
    r.2 = .throw .json ∧ r.1.copied = .ub ∧ r.1.dumps = .ub := by
  simp only [Ty.take, Tys.size]; exact ⟨rfl, rfl, rfl⟩

/-- What is left is well-formed, if neither `json::value` nor `json::object` nor a map to `json::value` is made of the value itself, and no tuple as above. -/
theorem C55_sound (F : Floats) (t : Ty) (ht : t.Closed) (v : Value) (hv : v.Sound) : (t.take F v).1.Sound := take_closed F t v hv ht

example : (Ty.nullable .optional (.seq .json)).Closed ∧ (Ty.map (.seq .json)).Closed ∧ ¬ (Ty.map .json).Closed := by
  refine ⟨trivial, ?_, ?_⟩ <;> simp [Ty.Closed]

/-- Unlike arrays, objects are not cleared: `std::map<std::string, json::value>` and `json::object` leave their members behind, moved from. Copying or printing what is left
of `{"a": []}` is undefined. -/
theorem C55_object_left (F : Floats) (t : Ty) (ht : t = .jobject ∨ t = .map .json) :
    let r := t.take F (.obj .object [([0x61], .arr .array [])])
    (∃ x, r.2 = .ok x) ∧ r.1 = .obj .object [([0x61], .arrNull .array)] ∧ r.1.copied = .ub ∧ r.1.dumps = .ub := by
  rcases ht with rfl | rfl <;> simp only [Ty.take] <;> exact ⟨⟨_, rfl⟩, rfl, rfl, rfl⟩

end Meojson
