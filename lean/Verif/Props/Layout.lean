import Verif.Proofs.Layout
import Verif.Props.Samples

/-!
# C71: indented output is the compact output, laid out
-/

set_option autoImplicit false

namespace Meojson
open Spec

/-- The indented text is the compact text with lines broken at brackets and commas, a space after each colon, and each line indented by `n` spaces for each bracket that is open.
Empty arrays and objects take two lines. The bound is the code's: the number of spaces is computed modulo 2^64. -/
theorem C71_layout (v : Value) (hv : v.Json) (n : Nat) (hn : n * v.nesting < 2 ^ 64) :
    ∃ t, v.dumps = .ok t ∧ v.dumps (some n) = .ok (layout n 0 (.code false) t) := by
  obtain ⟨t, f, h1, h2, h3⟩ := layout_value n v 0 hv (by simpa using hn)
  refine ⟨t, h1, ?_⟩
  have := h3 false []
  simp [layout] at this
  rw [this]
  exact h2

/-- Without the white space outside strings the indented text is the compact text, for every width; the compact text has none. -/
theorem C71_squeeze (v : Value) (hv : v.Json) (indent : Option Nat) :
    ∃ t f, v.dumps = .ok t ∧ v.dumps indent = .ok f ∧ squeeze (.code false) f = t := by
  obtain ⟨t, f, h1, h2, h3⟩ := squeeze_value (indent.getD 0) v 0 hv
  have := h3 []
  simp [squeeze] at this
  cases indent with
  | none => exact ⟨t, t, h1, h1, this.1⟩
  | some n => exact ⟨t, f, h1, h2, this.2⟩

-- Not vacuous: brackets, commas and colons inside a string, an empty array, nesting.
example : Value.Json (.obj .object [(ascii "a", .arr .array []), (ascii "b]", .arr .array [.str .string (ascii "\"[,\n"), .str .null []])]) := by
  simp only [Value.Json, Value.Wf, Value.WfMembers, Value.WfAll]
  exact ⟨by decide +kernel, by simp⟩
example : layout 2 0 (.code false) (ascii "{\"a\":[],\"b]\":[\"\\\"[,\\n\",null]}") =
    ascii "{\n  \"a\": [\n  ],\n  \"b]\": [\n    \"\\\"[,\\n\",\n    null\n  ]\n}" := by decide +kernel
example : squeeze (.code false) (ascii "{\n  \"a\": [\n  ],\n  \"b ]\": [\n    \"\\\" [\", null\n  ]\n}") = ascii "{\"a\":[],\"b ]\":[\"\\\" [\",null]}" := by decide +kernel

end Meojson
