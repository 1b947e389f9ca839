import Verif.Proofs.Work

/-!
# C68: serialising and comparing take linear work

`Value.dumpsW` and `Value.eqW` (Model/Work.lean) are `dumps` and `operator==` with a count; `weight` and `nesting` (Spec/Work.lean) say how large and how deep a value is.
-/

set_option autoImplicit false

namespace Meojson
open Value

/-- Serialising, compact or indented: at most five steps for each byte of the text and five more, and `dump_to` or `format_to` is active exactly as often at once as arrays and objects are nested. -/
theorem C68_text (v : Value) (indent : Option Nat) (t : Bytes) (h : v.dumps indent = .ok t) :
    (v.dumpsW indent).res = .ok t ∧ (v.dumpsW indent).ticks ≤ 5 * t.length + 5 ∧ (v.dumpsW indent).depth = v.nesting := by
  cases indent with
  | none =>
    have e : v.dumpW.res = .ok t := (dumpW_res v).trans h
    have := fine_dump v t e
    exact ⟨e, by simp only [dumpsW, Work.tick]; omega, this.2⟩
  | some n =>
    have e : (v.formatW n 0).res = .ok t := (formatW_res n 0 v).trans h
    have := fine_format n 0 v t e
    exact ⟨e, by simp only [dumpsW, Work.tick]; omega, this.2⟩

/-- And no less: a step for each byte of the text and two for each value in it, and two more. So the bound above is met up to a factor. -/
theorem C68_no_less (v : Value) (indent : Option Nat) (t : Bytes) (h : v.dumps indent = .ok t) : t.length + 2 * v.count + 2 ≤ (v.dumpsW indent).ticks := by
  cases indent with
  | none =>
    have := least_dump v t ((dumpW_res v).trans h)
    simp only [dumpsW, Work.tick]; omega
  | some n =>
    have := least_format n 0 v t ((formatW_res n 0 v).trans h)
    simp only [dumpsW, Work.tick]; omega

/-- The same in terms of the value, and however it ends: values inside that cannot be serialised do not make it worse. Indentation costs what it adds. -/
theorem C68_value (v : Value) (n : Nat) :
    ((v.dumpsW none).res = v.dumps none ∧ (v.dumpsW none).ticks ≤ 20 * v.weight ∧ (v.dumpsW none).depth ≤ v.nesting) ∧
    (v.dumpsW (some n)).res = v.dumps (some n) ∧ (v.dumpsW (some n)).ticks ≤ (25 + 2 * n * v.nesting) * v.weight ∧ (v.dumpsW (some n)).depth ≤ v.nesting := by
  have h1 := dump_ticks v
  have h2 := format_ticks (n := n) (D := v.nesting) (M := 25 + 2 * n * v.nesting) (by rw [Nat.mul_assoc]; omega) 0 v (by omega)
  refine ⟨⟨dumpW_res v, ?_, dump_depth v⟩, formatW_res n 0 v, ?_, format_depth n 0 v⟩ <;> simp only [dumpsW, Work.tick] <;> omega

/-- Comparing: at most five steps for each value and byte on either side, whichever has fewer, and no deeper than either side. -/
theorem C68_compare (v w : Value) :
    (v.eqW w).res = v.eq w ∧ (v.eqW w).ticks ≤ 5 * min v.weight w.weight ∧ (v.eqW w).depth ≤ min v.nesting w.nesting := by
  obtain ⟨h1, h2, h3, h4, h5⟩ := eqW_all v w
  exact ⟨h1, by omega, by omega⟩

-- Not vacuous: `[[], {"k": "a"}]` in compact and in indented form.
example : (Value.dumpsW (.arr .array [.arr .array [], .obj .object [([0x6b], .str .string [0x61])]])).ticks = 45 ∧
    (Value.dumpsW (.arr .array [.arr .array [], .obj .object [([0x6b], .str .string [0x61])]])).depth = 2 ∧
    (Value.dumps (.arr .array [.arr .array [], .obj .object [([0x6b], .str .string [0x61])]])) = .ok (ascii "[[],{\"k\":\"a\"}]") := by decide +kernel
example : (Value.dumpsW (.arr .array [.arr .array []]) (some 4)).ticks = 34 := by decide +kernel
example : (Value.eqW (.arr .array [.str .number [0x31], .arr .array []]) (.arr .array [.str .number [0x31], .arr .array []])).ticks = 11 ∧
    Value.weight (.arr .array [.str .number [0x31], .arr .array []]) = 4 := by decide +kernel

end Meojson
