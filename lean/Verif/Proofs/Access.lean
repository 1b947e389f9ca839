import Verif.Spec.Access
import Verif.Proofs.MapOps
import Verif.Proofs.Values

/-! Shapes of well-formed values. -/

set_option autoImplicit false

namespace Meojson
open Spec RawObject

/-- The shapes of a well-formed value. -/
inductive Shape : Value → Prop
  | invalid : Shape (.str .invalid [])
  | null : Shape (.str .null [])
  | true : Shape (.ofBool true)
  | false : Shape (.ofBool false)
  | number (s) : Shape (.str .number s)
  | string (s) : Shape (.str .string s)
  | array (vs) : (∀ v ∈ vs, v.Sound) → Shape (.arr .array vs)
  | object (ms) : Sorted ms → (∀ e ∈ ms, e.2.Sound) → Shape (.obj .object ms)

theorem sound_shape {v : Value} (h : v.Sound) : Shape v := by
  unfold Value.Sound at h
  cases v with
  | str ty s =>
    cases ty <;> simp only [Value.Wf] at h
    · rw [h.2]; exact .invalid
    · rw [h]; exact .null
    · rcases h with rfl | rfl
      · exact .true
      · exact .false
    · exact .string s
    · exact .number s
  | arr ty vs =>
    cases ty <;> simp only [Value.Wf] at h
    exact .array vs (wfAll_iff.1 h)
  | arrNull ty => cases ty <;> simp only [Value.Wf] at h
  | obj ty ms =>
    cases ty <;> simp only [Value.Wf] at h
    exact .object ms h.1 (fun e he => wfMembers_iff.1 h.2 e he)
  | objNull ty => cases ty <;> simp only [Value.Wf] at h

theorem Shape.sound {v : Value} (h : Shape v) : v.Sound := by
  unfold Value.Sound
  cases h with
  | array vs h => exact wfAll_iff.2 h
  | object ms h1 h2 => exact ⟨h1, wfMembers_iff.2 h2⟩
  | _ => simp [Value.ofBool, Value.Wf]

end Meojson
