import Verif.Model.Serialize
import Verif.Model.Report
import Verif.Model.Mutate
import Verif.Model.Entry
import Verif.Model.Convert

/-!
# C65: values whose tag does not fit their payload

`value(value_type, args...)` (value.hpp:78-80, value_impl.hpp:1094-1101) takes any tag with any payload, and assignments leave such values behind (C33, C37). What
reading them does.
-/

set_option autoImplicit false

namespace Meojson

/-- The payload is another alternative than the tag says. -/
def Misfit : Value → Prop
  | .str t _ => t = .array ∨ t = .object
  | .arr t _ | .arrNull t => t ≠ .array
  | .obj t _ | .objNull t => t ≠ .object

/-- The claim: no const function answers a misfit with undefined behaviour or termination. -/
def C65Claim : Prop := ∀ v : Value, Misfit v → v.dumps ≠ .ub ∧ v.empty ≠ .ub ∧ ∀ T, v.isInt T ≠ .ub

/-- `json::value(json::value::value_type::array).empty()`: `std::get` throws inside a `noexcept` function, which calls `std::terminate`. -/
theorem C65_refuted : ¬ C65Claim := fun h => (h (.str .array []) (Or.inl rfl)).2.1 rfl

/-- Exactly which answers `empty()` and `is<integer>()` give for a misfit. The program is terminated when the tag is string, array or object (number). -/
theorem C65_terminates (v : Value) (h : Misfit v) :
    v.empty = (if v.type = .null then .ok true else if v.type = .string ∨ v.type = .array ∨ v.type = .object then .ub else .ok false) ∧
    ∀ T, v.isInt T = if v.type = .number then .ub else .ok false := by
  cases v with
  | str t s => rcases h with rfl | rfl <;> exact ⟨rfl, fun _ => rfl⟩
  | arr t _ => cases t <;> first | exact absurd rfl h | exact ⟨rfl, fun _ => rfl⟩
  | arrNull t => cases t <;> first | exact absurd rfl h | exact ⟨rfl, fun _ => rfl⟩
  | obj t _ => cases t <;> first | exact absurd rfl h | exact ⟨rfl, fun _ => rfl⟩
  | objNull t => cases t <;> first | exact absurd rfl h | exact ⟨rfl, fun _ => rfl⟩

/-- Writing a misfit: null is written as null, an invalid tag is a json::exception, and every other tag is a `std::bad_variant_access`. -/
theorem C65_dumps_partial (v : Value) (h : Misfit v) (indent : Option Nat) :
    v.dumps indent = if v.type = .null then .ok (ascii "null") else if v.type = .invalid then .throw .json else .throw .badVariant := by
  cases v with
  | str t s => rcases h with rfl | rfl <;> cases indent <;> rfl
  | arr t _ => cases t <;> first | exact absurd rfl h | (cases indent <;> rfl)
  | arrNull t => cases t <;> first | exact absurd rfl h | (cases indent <;> rfl)
  | obj t _ => cases t <;> first | exact absurd rfl h | (cases indent <;> rfl)
  | objNull t => cases t <;> first | exact absurd rfl h | (cases indent <;> rfl)

/-- The conversion the tag names throws `std::bad_variant_access`, all others throw json::exception; null needs no payload. -/
theorem C65_as_partial (v : Value) (h : Misfit v) :
    (v.asBoolean = .throw (if v.type = .boolean then .badVariant else .json)) ∧
    (∀ T, v.asInt T = .throw (if v.type = .number then .badVariant else .json)) ∧
    (v.asString = .throw (if v.type = .string then .badVariant else .json)) ∧
    (v.asArray = .throw (if v.type = .array then .badVariant else .json)) ∧
    (v.asObject = .throw (if v.type = .object then .badVariant else .json)) ∧
    (v.asNull = if v.type = .null then .ok () else .throw .json) := by
  cases v with
  | str t s => rcases h with rfl | rfl <;> exact ⟨rfl, fun _ => rfl, rfl, rfl, rfl, rfl⟩
  | arr t _ => cases t <;> first | exact absurd rfl h | exact ⟨rfl, fun _ => rfl, rfl, rfl, rfl, rfl⟩
  | arrNull t => cases t <;> first | exact absurd rfl h | exact ⟨rfl, fun _ => rfl, rfl, rfl, rfl, rfl⟩
  | obj t _ => cases t <;> first | exact absurd rfl h | exact ⟨rfl, fun _ => rfl, rfl, rfl, rfl, rfl⟩
  | objNull t => cases t <;> first | exact absurd rfl h | exact ⟨rfl, fun _ => rfl, rfl, rfl, rfl, rfl⟩

/-- Looking for a key or position: `std::bad_variant_access` if the tag says object (array); otherwise nothing is found, and `at` throws json::exception. -/
theorem C65_find_partial (v : Value) (h : Misfit v) (k : Bytes) (i : Nat) :
    (v.containsKey k = if v.type = .object then .throw .badVariant else .ok false) ∧
    (v.containsPos i = if v.type = .array then .throw .badVariant else .ok false) ∧
    (v.findKey k = if v.type = .object then .throw .badVariant else .ok none) ∧
    (v.findPos i = if v.type = .array then .throw .badVariant else .ok none) ∧
    (v.atKey k = .throw (if v.type = .object then .badVariant else .json)) ∧
    (v.atPos i = .throw (if v.type = .array then .badVariant else .json)) ∧
    (v.indexPosC i = .throw (if v.type = .array then .badVariant else .json)) := by
  obtain ⟨_, _, _, ha, ho, _⟩ := C65_as_partial v h
  simp only [Value.containsKey, Value.containsPos, Value.findKey, Value.findPos, Value.atKey, Value.atPos, Value.indexPosC, ha, ho, Out.bind_throw, and_true]
  refine ⟨?_, ?_, ?_, ?_⟩ <;> split <;> rfl

/-- Changing a misfit. The functions ask `empty()` first: a null tag makes a container of the value; the program is terminated when the tag is string, array or object,
and so it is, by way of a null pointer, after a move out of an array or object; any other tag is a json::exception and nothing changes. -/
theorem C65_change_partial (v : Value) (k : Bytes) (i : Nat) (x : Value) (xs : List Value) (ms : List (Bytes × Value)) :
    (Misfit v → v.type = .null →
      v.indexKey k = (.obj .object [(k, .null)], .ok .null) ∧ v.eraseKey k = (.obj .object [], .ok false) ∧ v.emplaceKey k x = (.obj .object [(k, x)], .ok ()) ∧
      v.indexPos i = (.arr .array [], .ub) ∧ v.erasePos i = (.arr .array [], .ok false) ∧ v.emplaceBack x = (.arr .array [x], .ok ()) ∧
      v.plusAssign xs = (.arr .array xs, .ok ())) ∧
    ((Misfit v ∧ (v.type = .string ∨ v.type = .array ∨ v.type = .object)) ∨ v = .arrNull .array ∨ v = .objNull .object →
      v.indexKey k = (v, .ub) ∧ v.eraseKey k = (v, .ub) ∧ v.emplaceKey k x = (v, .ub) ∧ v.orAssign ms = (v, .ub) ∧
      v.indexPos i = (v, .ub) ∧ v.erasePos i = (v, .ub) ∧ v.emplaceBack x = (v, .ub) ∧ v.plusAssign xs = (v, .ub)) ∧
    (Misfit v → v.type = .boolean ∨ v.type = .number ∨ v.type = .invalid →
      v.indexKey k = (v, .throw .json) ∧ v.eraseKey k = (v, .throw .json) ∧ v.emplaceKey k x = (v, .throw .json) ∧ v.orAssign ms = (v, .throw .json) ∧
      v.indexPos i = (v, .throw .json) ∧ v.erasePos i = (v, .throw .json) ∧ v.emplaceBack x = (v, .throw .json) ∧ v.plusAssign xs = (v, .throw .json)) := by
  have hub : v.empty = .ub →
      v.indexKey k = (v, .ub) ∧ v.eraseKey k = (v, .ub) ∧ v.emplaceKey k x = (v, .ub) ∧ v.orAssign ms = (v, .ub) ∧
      v.indexPos i = (v, .ub) ∧ v.erasePos i = (v, .ub) ∧ v.emplaceBack x = (v, .ub) ∧ v.plusAssign xs = (v, .ub) := by
    intro e
    simp only [Value.indexKey, Value.eraseKey, Value.emplaceKey, Value.orAssign, Value.indexPos, Value.erasePos, Value.emplaceBack, Value.plusAssign,
      Value.onObject, Value.onArray, Value.asObjectM, Value.asArrayM, e, and_self]
  refine ⟨fun h ht => ?_, fun h => hub ?_, fun h ht => ?_⟩
  · have e : v.empty = .ok true := by rw [(C65_terminates v h).1, ht]; rfl
    have hf : (RawObject.find k [(k, Value.null)]).getD .null = .null := by
      simp only [RawObject.find]
      repeat' split
      all_goals rfl
    have hk : Value.indexKey k v = (.obj .object [(k, .null)], .ok ((RawObject.find k [(k, Value.null)]).getD .null)) := by
      simp only [Value.indexKey, e]
      rfl
    rw [hk, hf]
    simp only [Value.eraseKey, Value.emplaceKey, Value.indexPos, Value.erasePos, Value.emplaceBack, Value.plusAssign, Value.onObject, Value.onArray, Value.asObjectM,
      Value.asArrayM, e]
    exact ⟨trivial, rfl, rfl, rfl, rfl, rfl, rfl⟩
  · rcases h with ⟨h, ht⟩ | rfl | rfl
    · rw [(C65_terminates v h).1]
      rcases ht with e | e | e <;> rw [e] <;> rfl
    · rfl
    · rfl
  · have e : v.empty = .ok false := by rw [(C65_terminates v h).1]; rcases ht with e | e | e <;> rw [e] <;> rfl
    obtain ⟨_, _, _, ha, ho, _⟩ := C65_as_partial v h
    have ha' : v.asArray = .throw .json := by rw [ha]; rcases ht with e | e | e <;> rw [e] <;> rfl
    have ho' : v.asObject = .throw .json := by rw [ho]; rcases ht with e | e | e <;> rw [e] <;> rfl
    simp only [Value.indexKey, Value.eraseKey, Value.emplaceKey, Value.orAssign, Value.indexPos, Value.erasePos, Value.emplaceBack, Value.plusAssign,
      Value.onObject, Value.onArray, Value.asObjectM, Value.asArrayM, e, ha', ho', and_self]

example : Value.indexKey [0x6b] (.objNull .object) = (.objNull .object, .ub) ∧ Value.emplaceBack (.obj .null []) .null = (.arr .array [.null], .ok ()) := by decide +kernel

/-- Two null pointers of the same kind -/
def bothNull : Value → Value → Bool
  | .arrNull _, .arrNull _ | .objNull _, .objNull _ => true
  | _, _ => false

/-- A moved-from array or object -/
def hollow : Value → Bool
  | .arrNull t => t = .array
  | .objNull t => t = .object
  | _ => false

/-- Comparing a misfit: values with different tags differ; null equals null; two invalid values cannot be compared; scalars are equal only if both payloads are null
pointers of the same kind; containers throw, on whichever side the misfit stands, unless the left operand has been moved from (C38). -/
theorem C65_compare_partial (v w : Value) (h : Misfit v ∨ Misfit w) :
    v.eq w = if v.type ≠ w.type then .ok false else
      match v.type with
      | .null => .ok true
      | .boolean | .number | .string => .ok (bothNull v w)
      | .array | .object => if hollow v then .ub else .throw .badVariant
      | .invalid => .throw .json := by
  by_cases ht : v.type ≠ w.type
  · rw [if_pos ht]
    cases v <;> simp only [Value.eq] <;> exact if_pos ht
  · rw [if_neg ht]
    replace ht : v.type = w.type := Decidable.of_not_not ht
    cases v with
    | str t _ | arr t _ | obj t _ =>
      cases w with
      | str u _ | arr u _ | obj u _ =>
        replace ht : t = u := ht
        subst ht
        cases t <;> simp_all [Misfit, Value.rawEq, Value.eq, Value.type, bothNull, hollow]
      | arrNull u | objNull u =>
        replace ht : t = u := ht
        subst ht
        cases t <;> simp_all [Misfit, Value.rawEq, Value.eq, Value.type, bothNull, hollow]
    | arrNull t | objNull t =>
      cases w with
      | str u _ | arr u _ | obj u _ =>
        replace ht : t = u := ht
        subst ht
        cases t <;> simp_all [Misfit, Value.rawEq, Value.eq, Value.type, bothNull, hollow]
      | arrNull u | objNull u =>
        replace ht : t = u := ht
        subst ht
        cases t <;> simp_all [Misfit, Value.rawEq, Value.eq, Value.type, bothNull, hollow]

/-- `value_info()`, which is `noexcept`, catches what happens inside: it gives the name of the type alone. -/
theorem C65_info_partial (v : Value) (h : Misfit v) (c : Compiler) : v.infoText c = (v.typeName c).bind fun name => .ok (ascii "type=" ++ name) := by
  unfold Value.infoText
  congr 1
  funext name
  cases v with
  | str t s => rcases h with rfl | rfl <;> rfl
  | arr t _ => cases t <;> first | exact absurd rfl h | rfl
  | arrNull t => cases t <;> first | exact absurd rfl h | rfl
  | obj t _ => cases t <;> first | exact absurd rfl h | rfl
  | objNull t => cases t <;> first | exact absurd rfl h | rfl

/-- The non-const `as_array()` and `as_object()` ask `empty()` first: null becomes a container, a string, array or object tag terminates the program, all others throw. -/
theorem C65_containers (v : Value) (h : Misfit v) :
    v.asArrayM = (if v.type = .null then (.arr .array [], .ok []) else if v.type = .string ∨ v.type = .array ∨ v.type = .object then (v, .ub) else (v, .throw .json)) ∧
    v.asObjectM = (if v.type = .null then (.obj .object [], .ok []) else if v.type = .string ∨ v.type = .array ∨ v.type = .object then (v, .ub) else (v, .throw .json)) := by
  obtain ⟨he, _⟩ := C65_terminates v h
  obtain ⟨_, _, _, ha, ho, _⟩ := C65_as_partial v h
  simp only [Value.asArrayM, Value.asObjectM, he, ha, ho]
  cases v.type <;> exact ⟨rfl, rfl⟩

/-- Floating-point numbers and enumerations: `is` terminates the program where the tag promises a text, `as` throws. -/
theorem C65_typed_partial (F : Floats) (f : FloatFmt) (E : EnumTy) (v : Value) (h : Misfit v) :
    v.isFloat F f = (if v.type = .number then .ub else .ok false) ∧
    v.asFloat F f = .throw (if v.type = .number then .badVariant else .json) ∧
    v.isEnum E = (if v.type = .string then .ub else
      match E.under with
      | .bool => .ok (v.type = .boolean)
      | .int _ => if v.type = .number then .ub else .ok false) ∧
    v.asEnum E = .throw (if v.type = .string then .badVariant else
      match E.under with
      | .bool => .json
      | .int _ => if v.type = .number then .badVariant else .json) := by
  obtain ⟨_, hi⟩ := C65_terminates v h
  obtain ⟨hb, ha, hs, _⟩ := C65_as_partial v h
  have h2 : v.isEnum E = (if v.type = .string then .ub else
        match E.under with
        | .bool => .ok (v.type = .boolean)
        | .int _ => if v.type = .number then .ub else .ok false) ∧
      v.asEnum E = .throw (if v.type = .string then .badVariant else
        match E.under with
        | .bool => .json
        | .int _ => if v.type = .number then .badVariant else .json) := by
    have ht : ∀ α, (v.typeError : Out α) = .throw .json := by
      intro α
      cases v with
      | str t _ => rcases h with rfl | rfl <;> rfl
      | arr t _ => cases t <;> first | exact absurd rfl h | rfl
      | arrNull t => cases t <;> first | exact absurd rfl h | rfl
      | obj t _ => cases t <;> first | exact absurd rfl h | rfl
      | objNull t => cases t <;> first | exact absurd rfl h | rfl
    simp only [Value.isEnum, Value.asEnum, hb, ha, hs, hi, ht]
    cases hE : E.under <;> cases v.type <;> simp [Out.noexcept]
  refine ⟨?_, ?_, h2⟩
  all_goals
    cases v with
    | str t _ => rcases h with rfl | rfl <;> rfl
    | arr t _ => cases t <;> first | exact absurd rfl h | rfl
    | arrNull t => cases t <;> first | exact absurd rfl h | rfl
    | obj t _ => cases t <;> first | exact absurd rfl h | rfl
    | objNull t => cases t <;> first | exact absurd rfl h | rfl

-- Not vacuous.
example : Misfit (.str .array []) ∧ Misfit (.arr .number [.null]) ∧ ¬ Misfit (.arr .array []) ∧ ¬ Misfit .null := by simp [Misfit, Value.null]
example : (Value.arr .number [.null]).dumps = .throw .badVariant ∧ (Value.str .object (ascii "x")).asObject = .throw .badVariant ∧
    (Value.arr .null []).dumps = .ok (ascii "null") := ⟨rfl, rfl, rfl⟩

end Meojson
