import Verif.Props.Serialize

/-!
# C44: invalid values cannot be serialised
-/

set_option autoImplicit false

namespace Meojson
open Spec

/-- The call throws `json::exception` if `bad`, otherwise it returns. -/
private def Throws {α : Type} (bad : Prop) (r : Out α) : Prop := (bad → r = .throw .json) ∧ (¬ bad → ∃ a, r = .ok a)

private theorem Throws.of {α : Type} {bad : Prop} {r : Out α} (h : (bad ∧ r = .throw .json) ∨ (¬ bad ∧ ∃ a, r = .ok a)) : Throws bad r := by
  rcases h with ⟨h, e⟩ | ⟨h, e⟩
  · exact ⟨fun _ => e, fun h' => absurd h h'⟩
  · exact ⟨fun h' => absurd h' h, fun _ => e⟩

private theorem Throws.bind {α β : Type} {p q : Prop} {r : Out α} {f : α → Out β} (hr : Throws p r) (hf : ∀ a, Throws q (f a)) : Throws (p ∨ q) (r.bind f) := by
  by_cases hp : p
  · rw [hr.1 hp]; exact .of (.inl ⟨.inl hp, rfl⟩)
  · obtain ⟨a, e⟩ := hr.2 hp
    rw [e]
    exact ⟨fun h => (hf a).1 (h.resolve_left hp), fun h => (hf a).2 fun hq => h (.inr hq)⟩

private theorem Throws.map {α β : Type} {p : Prop} {r : Out α} {f : α → β} (hr : Throws p r) : Throws p (r.bind fun a => .ok (f a)) := by
  have := hr.bind (q := False) (f := fun a => .ok (f a)) fun a => .of (.inr ⟨id, _, rfl⟩)
  simpa using this

mutual
private theorem dumpTo_throws {num : Bytes → Prop} : ∀ v : Value, v.Wf num True → Throws v.HasInvalid v.dumpTo
  | .str ty s, h => by
    cases ty <;> first | exact absurd h id | exact .of (by simp [Value.HasInvalid, Value.dumpTo])
  | .arr ty vs, h => by
    cases ty <;> first | exact absurd h id | skip
    simp only [Value.Wf] at h
    simp only [Value.HasInvalid, Value.dumpTo, reduceCtorEq, false_or]
    exact (dumpElems_throws vs h).map
  | .arrNull ty, h => by cases ty <;> exact absurd h id
  | .obj ty ms, h => by
    cases ty <;> first | exact absurd h id | skip
    simp only [Value.Wf] at h
    simp only [Value.HasInvalid, Value.dumpTo, reduceCtorEq, false_or]
    exact (dumpMembers_throws ms h.2).map
  | .objNull ty, h => by cases ty <;> exact absurd h id
private theorem dumpElems_throws {num : Bytes → Prop} : ∀ vs : List Value, Value.WfAll num True vs → Throws (Value.AnyInvalid vs) (Value.dumpElems vs)
  | [], _ => .of (.inr ⟨by simp [Value.AnyInvalid], by simp [Value.dumpElems]⟩)
  | v :: vs, h => by
    simp only [Value.WfAll] at h
    simp only [Value.AnyInvalid, Value.dumpElems]
    exact (dumpTo_throws v h.1).bind fun t => (dumpElems_throws vs h.2).map
private theorem dumpMembers_throws {num : Bytes → Prop} : ∀ ms : List (Bytes × Value), Value.WfMembers num True ms →
    Throws (Value.MembersInvalid ms) (Value.dumpMembers ms)
  | [], _ => .of (.inr ⟨by simp [Value.MembersInvalid], by simp [Value.dumpMembers]⟩)
  | (k, v) :: ms, h => by
    simp only [Value.WfMembers] at h
    simp only [Value.MembersInvalid, Value.dumpMembers]
    exact (dumpTo_throws v h.1).bind fun t => (dumpMembers_throws ms h.2).map
end

mutual
private theorem formatTo_throws {num : Bytes → Prop} (n : Nat) : ∀ (v : Value) (i : Nat), v.Wf num True → Throws v.HasInvalid (v.formatTo n i)
  | .str ty s, i, h => by
    cases ty <;> first | exact absurd h id | exact .of (by simp [Value.HasInvalid, Value.formatTo, Value.dumpTo])
  | .arr ty vs, i, h => by
    cases ty <;> first | exact absurd h id | skip
    simp only [Value.Wf] at h
    simp only [Value.HasInvalid, Value.formatTo, reduceCtorEq, false_or]
    exact (formatElems_throws n vs i h).map
  | .arrNull ty, _, h => by cases ty <;> exact absurd h id
  | .obj ty ms, i, h => by
    cases ty <;> first | exact absurd h id | skip
    simp only [Value.Wf] at h
    simp only [Value.HasInvalid, Value.formatTo, reduceCtorEq, false_or]
    exact (formatMembers_throws n ms i h.2).map
  | .objNull ty, _, h => by cases ty <;> exact absurd h id
private theorem formatElems_throws {num : Bytes → Prop} (n : Nat) : ∀ (vs : List Value) (i : Nat), Value.WfAll num True vs →
    Throws (Value.AnyInvalid vs) (Value.formatElems n i vs)
  | [], _, _ => .of (.inr ⟨by simp [Value.AnyInvalid], by simp [Value.formatElems]⟩)
  | v :: vs, i, h => by
    simp only [Value.WfAll] at h
    simp only [Value.AnyInvalid, Value.formatElems]
    exact (formatTo_throws n v (i + 1) h.1).bind fun t => (formatElems_throws n vs i h.2).map
private theorem formatMembers_throws {num : Bytes → Prop} (n : Nat) : ∀ (ms : List (Bytes × Value)) (i : Nat), Value.WfMembers num True ms →
    Throws (Value.MembersInvalid ms) (Value.formatMembers n i ms)
  | [], _, _ => .of (.inr ⟨by simp [Value.MembersInvalid], by simp [Value.formatMembers]⟩)
  | (k, v) :: ms, i, h => by
    simp only [Value.WfMembers] at h
    simp only [Value.MembersInvalid, Value.formatMembers]
    exact (formatTo_throws n v (i + 1) h.1).bind fun t => (formatMembers_throws n ms i h.2).map
end

/-- On a value whose tags agree with its payloads (numbers of any text, invalid values allowed anywhere), `dumps` in every form throws
`json::exception` if an invalid value occurs inside, and otherwise returns a text. -/
theorem C44_invalid (num : Bytes → Prop) (v : Value) (hv : v.Wf num True) (indent : Option Nat) :
    (v.HasInvalid → v.dumps indent = .throw .json) ∧ (¬ v.HasInvalid → ∃ t, v.dumps indent = .ok t) := by
  cases indent with
  | none => exact dumpTo_throws v hv
  | some n => exact formatTo_throws n v 0 hv

example : (Value.arr .array [.str .null [], .str .invalid []]).Wf Number True ∧ (Value.arr .array [.str .null [], .str .invalid []]).HasInvalid := by
  simp [Value.Wf, Value.WfAll, Value.HasInvalid, Value.AnyInvalid]

/-- `valid()` says whether a value is itself the invalid value. It does not look inside arrays and objects, so it does not foretell whether `dumps` throws. -/
theorem C44_valid (num : Bytes → Prop) (v : Value) (hv : v.Wf num True) (indent : Option Nat) :
    (v.valid = false ↔ v = .str .invalid []) ∧ (v.valid = false → v.dumps indent = .throw .json) := by
  have h : v.valid = false ↔ v = .str .invalid [] := by
    cases v with
    | str ty s => cases ty <;> simp_all [Value.valid, Value.type, Value.Wf]
    | arr ty vs => cases ty <;> simp_all [Value.valid, Value.type, Value.Wf]
    | arrNull ty => cases ty <;> simp_all [Value.Wf]
    | obj ty ms => cases ty <;> simp_all [Value.valid, Value.type, Value.Wf]
    | objNull ty => cases ty <;> simp_all [Value.Wf]
  refine ⟨h, fun e => (C44_invalid num v hv indent).1 ?_⟩
  rw [h.1 e]
  simp [Value.HasInvalid]

example : (Value.arr .array [.str .invalid []]).valid = true ∧ (Value.arr .array [.str .invalid []]).HasInvalid := by
  simp [Value.valid, Value.type, Value.HasInvalid, Value.AnyInvalid]

end Meojson
