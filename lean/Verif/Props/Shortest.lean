import Verif.Proofs.Shortest
import Verif.Props.Serialize

/-!
# C89: the compact form is the shortest text of a value
-/

set_option autoImplicit false

namespace Meojson
open Spec

private theorem compact_len {a : Accel} {k : Bool} {s : Text} {v : Value} (h : parser ⟨k, a.traits⟩ s = some v) :
    v.Json ∧ v.IsContainer ∧ v.len ≤ s.length := by
  obtain ⟨j, ⟨t, r, ⟨hj, w₁, x, w₂, -, hx, -, rfl⟩, -, rfl⟩, rfl⟩ := parser_sound (cfg := ⟨k, a.traits⟩) (accelOk a) h
  have := val_len hx
  refine ⟨val_json rfl hx, (toValue_container j).1 hj, ?_⟩
  simp only [List.length_append]
  omega

/-- Whatever was parsed, the compact form of the result is no longer, and every build reads it as the same value in both dialects. -/
theorem C89_no_longer (a b : Accel) (k : Bool) (s : Text) (v : Value) (h : parser ⟨k, a.traits⟩ s = some v) :
    ∃ t, v.dumps = .ok t ∧ t.length ≤ s.length ∧ parse b.traits t = some v ∧ parsec b.traits t = some v := by
  obtain ⟨hv, hc, hl⟩ := compact_len h
  obtain ⟨t, h1, h2, h3⟩ := C08_roundtrip b v hv hc
  exact ⟨t, h1, by rw [Value.dump_len v t hv h1]; exact hl, h2, h3⟩

/-- The same from the value: its compact form is read as the value, and no text that is read as the value is shorter. -/
theorem C89_shortest (v : Value) (hv : v.Json) (hc : v.IsContainer) :
    ∃ t, v.dumps = .ok t ∧ (∀ b : Accel, parse b.traits t = some v ∧ parsec b.traits t = some v) ∧
      ∀ (a : Accel) (s : Text), parse a.traits s = some v ∨ parsec a.traits s = some v → t.length ≤ s.length := by
  obtain ⟨t, h1, -⟩ := C08_roundtrip .none v hv hc
  refine ⟨t, h1, fun b => ?_, fun a s h => ?_⟩
  · obtain ⟨u, h2, h3⟩ := C08_roundtrip b v hv hc
    rw [h1] at h2
    cases h2
    exact h3
  · rw [Value.dump_len v t hv h1]
    rcases h with h | h
    · exact (compact_len (k := false) h).2.2
    · exact (compact_len (k := true) h).2.2

/-- No spelling of the grammar itself is shorter, a lone number, string or literal included. -/
theorem C89_grammar (v : Value) (t : Bytes) (h : v.dumps = .ok t) (s : Text) (j : Doc) (hs : Val rfc8259 s j) (e : j.toValue = v) :
    t.length ≤ s.length := by
  subst e
  rw [Value.dump_len _ t (val_json rfl hs) h]
  exact val_len (k := false) (l := false)
    (val_mono (D := rfc8259) (D' := lenient false false) (fun _ h => ws_wsOf false h) (by simp [rfc8259]) (fun h => h) hs fun _ _ _ h => str_lenient h)

/-- In particular the indented form is not shorter. -/
theorem C89_indented (v : Value) (hv : v.Json) (n : Nat) : ∃ t u, v.dumps = .ok t ∧ v.dumps (some n) = .ok u ∧ t.length ≤ u.length := by
  obtain ⟨t, h1, -⟩ := dumps_spells hv none
  obtain ⟨u, h2, j, h3, h4⟩ := dumps_spells hv (some n)
  exact ⟨t, u, h1, h2, C89_grammar v t h1 u j h3 h4⟩

/-- What parsing stores is no larger than the text: one for each value, one for each byte of texts and keys. -/
theorem C89_no_larger (a : Accel) (k : Bool) (s : Text) (v : Value) (h : parser ⟨k, a.traits⟩ s = some v) : v.weight ≤ s.length := by
  obtain ⟨hv, hc, hl⟩ := compact_len h
  exact Nat.le_trans ((Value.weight_len v hv).2 hc) hl

-- Not vacuous: spaces, an escape, a comment and a trailing comma go; nothing goes from a compact text.
example : (parsec Accel.none.traits (ascii "[ \"\\u0041\", /* x */ {}, ]")).map Value.dumps = some (.ok (ascii "[\"A\",{}]")) := by decide +kernel
example : (parse Accel.none.traits (ascii "[[1,2],{\"a\":\"\"}]")).map Value.dumps = some (.ok (ascii "[[1,2],{\"a\":\"\"}]")) := by decide +kernel
-- The bound on the size is reached, and the shortest text is not the only one of its length.
example : (parse Accel.none.traits (ascii "[1,2]")).map Value.weight = some 5 := by decide +kernel
example : (parse Accel.none.traits (ascii "{\"b\":1,\"a\":2}")).map Value.dumps = some (.ok (ascii "{\"a\":2,\"b\":1}")) := by decide +kernel

end Meojson
