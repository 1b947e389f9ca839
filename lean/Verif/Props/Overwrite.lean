import Verif.Props.Serialize
import Verif.Props.Parse

/-!
# C110: a document written over an older one
-/

set_option autoImplicit false

namespace Meojson
open Spec

/-- What is in a file while a new document is written over an older one from its beginning, when `n` bytes have been written. -/
def overwritten (old new : Text) (n : Nat) : Text := new.take n ++ old.drop n

/-- At every moment the reader gets the old document, the new one, or an error. -/
def C110Claim : Prop := ∀ (a : Accel) (v w : Value) (t u : Text), v.Json → w.Json → v.IsContainer → w.IsContainer → v.dumps = .ok t → w.dumps = .ok u →
  ∀ n ≤ u.length, ∀ x, parse a.traits (overwritten t u n) = some x → x = v ∨ x = w

/-- `["c","d"]` written over `["a","b"]`, stopped after three bytes, is `["c","b"]`. -/
theorem C110_refuted : ¬ C110Claim := fun h => by
  have := h .none (.arr .array [.str .string (ascii "a"), .str .string (ascii "b")]) (.arr .array [.str .string (ascii "c"), .str .string (ascii "d")]) (ascii "[\"a\",\"b\"]") (ascii "[\"c\",\"d\"]")
    (by simp [Value.Json, Value.Wf, Value.WfAll]) (by simp [Value.Json, Value.Wf, Value.WfAll]) (.inl rfl) (.inl rfl) (by decide +kernel) (by decide +kernel) 3 (by decide)
    (.arr .array [.str .string (ascii "c"), .str .string (ascii "b")]) (by decide +kernel)
  revert this
  decide +kernel

private theorem run_only {cfg : Cfg} {D : LDialect} (hD : Admits cfg D) {w₁ t x : Text} {j : Doc} (hj : j.isContainer = true) (hw₁ : D.ws w₁) (ht : LVal D x t j) {n : Nat} (hn : 3 * t.length ≤ n + 1)
    {v : Value} {rest : Text} (h : parseRun cfg n (w₁ ++ t ++ x) = .ok v rest) : v = j.toValue ∧ ∃ w r, x = w ++ r ∧ wsOf cfg.jsonc w ∧ Stop cfg.jsonc r := by
  obtain ⟨c, t', rfl, hc⟩ := container_head ht hj
  have hsig : Sig c := by rcases hc with rfl | rfl <;> (unfold Sig WsChar; decide)
  have h1 := skipWhitespace_complete cfg.jsonc (t' ++ x) (hD.ws _ hw₁) hsig
  have e : w₁ ++ c :: t' ++ x = w₁ ++ c :: (t' ++ x) := by simp
  have h2 := parseValue_complete hD ht (n + 1) hn (.inl hj)
  rw [e] at h
  simp only [List.cons_append] at h2
  have key : ((skipWhitespace cfg.jsonc x).bind fun more cur => if more then .fail else .ok j.toValue cur) = .ok v rest := by
    rcases hc with rfl | rfl
    · rw [parseValue_bracket] at h2
      simpa [parseRun, h1, h2] using h
    · rw [parseValue_brace] at h2
      simpa [parseRun, h1, h2] using h
  obtain ⟨more, cur, h3, h4⟩ := Res.bind_eq_ok.1 key
  cases more with
  | true => simp at h4
  | false =>
    simp at h4
    exact ⟨h4.1.symm, skipWhitespace_false h3⟩

/-- Whatever follows a JSON text, it is parsed to the value of that text or rejected; and it is accepted exactly if white space follows (with parsec, also comments) and then the end of the text
or something that the reader does not look at (C03). -/
theorem C110_followed (a : Accel) (k : Bool) (s : Text) (j : Doc) (hs : JsonText rfc8259 s j) (x : Text) :
    (parser ⟨k, a.traits⟩ (s ++ x) = none ∨ parser ⟨k, a.traits⟩ (s ++ x) = some j.toValue) ∧
    ((parser ⟨k, a.traits⟩ (s ++ x)).isSome ↔ ∃ w r, x = w ++ r ∧ wsOf k w ∧ Stop k r) := by
  have only : ∀ v, parser ⟨k, a.traits⟩ (s ++ x) = some v → v = j.toValue ∧ ∃ w r, x = w ++ r ∧ wsOf k w ∧ Stop k r := by
    intro v h
    obtain ⟨hj, w₁, t, w₂, h1, h2, h3, rfl⟩ := hs
    obtain ⟨rest, h⟩ := parser_eq_some.1 h
    have hD : Admits ⟨k, a.traits⟩ ⟨wsOf k, fun _ => LenientStr false, k, true⟩ :=
      ⟨fun _ h => h, fun h => lenientStr_head h, fun h => parseStdstring_complete' (accelOk a) (by simp) h _, fun h => h, rfl⟩
    have ht : LVal ⟨wsOf k, fun _ => LenientStr false, k, true⟩ (w₂ ++ x) t j :=
      val_locate (fun _ h => ws_wsOf k h) (fun h => by cases h) (fun _ => rfl) (fun _ _ _ h => str_lenient h) h2 _
    rw [show w₁ ++ t ++ w₂ ++ x = w₁ ++ t ++ (w₂ ++ x) by simp] at h
    obtain ⟨rfl, w, r, e, hw, hr⟩ := run_only hD hj (ws_wsOf k h1) ht (by simp only [parseFuel, List.length_append]; omega) h
    refine ⟨rfl, ?_⟩
    have h4 := skipWhitespace_append k x (ws_wsOf k h3)
    rcases skipWhitespace_sound k x with ⟨w', c, r', e1, e2, e3, e4⟩ | ⟨w', r', rest', e1, e2, e3, e4⟩
    · exfalso
      obtain ⟨rest'', h5⟩ := hr.skip
      rw [← skipWhitespace_append k r hw, ← e, h4, e4] at h5
      cases h5
    · exact ⟨w', r', e1, e2, e3⟩
  refine ⟨?_, fun h => ?_, ?_⟩
  · cases h : parser ⟨k, a.traits⟩ (s ++ x) with
    | none => exact .inl rfl
    | some v => exact .inr (by rw [(only v h).1])
  · obtain ⟨v, h⟩ := Option.isSome_iff_exists.1 h
    exact (only v h).2
  · rintro ⟨w, r, rfl, hw, hr⟩
    obtain ⟨hj, w₁, t, w₂, h1, h2, h3, rfl⟩ := hs
    have hr' : Reads k false (w₁ ++ t ++ w₂ ++ (w ++ r)) j := by
      refine ⟨w₁ ++ t ++ (w₂ ++ w), r, ⟨hj, w₁, t, w₂ ++ w, ws_wsOf k h1, ?_, wsOf_append (ws_wsOf k h3) hw, by simp⟩, hr, by simp⟩
      exact val_mono (D := rfc8259) (D' := lenient k false) (fun _ h => ws_wsOf k h) (fun h => by cases h) (fun _ => rfl) h2 fun _ _ _ h => str_lenient h
    rw [parser_complete (cfg := ⟨k, a.traits⟩) (accelOk a) hr']
    rfl

/-- When the new document is complete, the reader gets it or an error, whatever is left of the old one. -/
theorem C110_partial (a : Accel) (k : Bool) (w : Value) (hw : w.Json) (hc : w.IsContainer) (indent : Option Nat) (u : Text) (hu : w.dumps indent = .ok u) (old : Text) (n : Nat) (hn : u.length ≤ n) (x : Value)
    (hx : parser ⟨k, a.traits⟩ (overwritten old u n) = some x) : x = w := by
  obtain ⟨u', h1, j, h2, rfl⟩ := dumps_spells hw indent
  rw [hu] at h1
  cases h1
  rw [overwritten, List.take_of_length_le hn] at hx
  rcases (C110_followed a k u j ⟨(toValue_container j).2 hc, [], u, [], ws_nil, h2, ws_nil, by simp⟩ (old.drop n)).1 with h | h
  · rw [h] at hx; cases hx
  · rw [h] at hx; cases hx; rfl

/-- If the file is emptied first, the reader gets the new document or an error at every moment. -/
theorem C110_emptied (a : Accel) (k : Bool) (w : Value) (hw : w.Json) (hc : w.IsContainer) (indent : Option Nat) (u : Text) (hu : w.dumps indent = .ok u) (n : Nat) :
    parser ⟨k, a.traits⟩ (overwritten [] u n) = if u.length ≤ n then some w else none := by
  rw [overwritten, List.drop_nil, List.append_nil]
  split
  · rename_i h
    rw [List.take_of_length_le h]
    obtain ⟨u', h1, h2, h3⟩ : ∃ t, w.dumps indent = .ok t ∧ parse a.traits t = some w ∧ parsec a.traits t = some w := by
      cases indent with
      | none => exact C08_roundtrip a w hw hc
      | some n => exact C09_roundtrip_indented a w hw hc n
    rw [hu] at h1
    cases h1
    cases k
    · exact h2
    · exact h3
  · rename_i h
    refine C17_truncated a k w hw hc indent u _ hu (List.take_prefix _ _) fun e => h ?_
    have := congrArg List.length e
    rw [List.length_take] at this
    omega

private theorem elems_longer : ∀ (vs ws : List Value) (x y : Text), Value.dumpElems vs = .ok x → Value.dumpElems (vs ++ ws) = .ok y → x <+: y
  | [], _, x, _, hx, _ => by cases hx; exact List.nil_prefix
  | v :: vs, ws, x, y, hx, hy => by
    rw [List.cons_append] at hy
    simp only [Value.dumpElems, Out.bind_eq_ok] at hx hy
    obtain ⟨t, h1, r, h2, h3⟩ := hx
    obtain ⟨t', h1', r', h2', h3'⟩ := hy
    rw [h1] at h1'
    cases h1'; cases h3; cases h3'
    cases vs with
    | nil => cases h2; simp
    | cons a vs => simpa using elems_longer (a :: vs) ws r r' h2 h2'

private theorem members_longer : ∀ (ms ns : List (Bytes × Value)) (x y : Text), Value.dumpMembers ms = .ok x → Value.dumpMembers (ms ++ ns) = .ok y → x <+: y
  | [], _, x, _, hx, _ => by cases hx; exact List.nil_prefix
  | (k, v) :: ms, ns, x, y, hx, hy => by
    rw [List.cons_append] at hy
    simp only [Value.dumpMembers, Out.bind_eq_ok] at hx hy
    obtain ⟨t, h1, r, h2, h3⟩ := hx
    obtain ⟨t', h1', r', h2', h3'⟩ := hy
    rw [h1] at h1'
    cases h1'; cases h3; cases h3'
    cases ms with
    | nil => cases h2; simp
    | cons a ms => simpa using members_longer (a :: ms) ns r r' h2 h2'

/-- If the old text but for its last byte begins the new one, there is no mixture: at every moment the reader gets the old document, then an error, then the new one. -/
theorem C110_extended (a : Accel) (k : Bool) (v w : Value) (hv : v.Json) (hw : w.Json) (hv' : v.IsContainer) (hw' : w.IsContainer) (i i' : Option Nat) (p u : Text) (c : UInt8)
    (ht : v.dumps i = .ok (p ++ [c])) (hu : w.dumps i' = .ok u) (hp : p <+: u) (n : Nat) :
    parser ⟨k, a.traits⟩ (overwritten (p ++ [c]) u n) = if n ≤ p.length then some v else if n < u.length then none else some w := by
  have round : ∀ (v : Value) (i : Option Nat) (t : Text), v.Json → v.IsContainer → v.dumps i = .ok t → parser ⟨k, a.traits⟩ t = some v := by
    intro v i t h1 h2 h3
    obtain ⟨t', h4, h5, h6⟩ : ∃ t, v.dumps i = .ok t ∧ parse a.traits t = some v ∧ parsec a.traits t = some v := by
      cases i with
      | none => exact C08_roundtrip a v h1 h2
      | some n => exact C09_roundtrip_indented a v h1 h2 n
    rw [h3] at h4
    cases h4
    cases k
    · exact h5
    · exact h6
  obtain ⟨q, rfl⟩ := hp
  rw [overwritten]
  split
  · rename_i hn
    rw [show (p ++ q).take n ++ (p ++ [c]).drop n = p ++ [c] by
      rw [List.take_append_of_le_length hn, List.drop_append_of_le_length hn, ← List.append_assoc, List.take_append_drop]]
    exact round v i _ hv hv' ht
  · rename_i hn
    rw [List.drop_of_length_le (by simp; omega), List.append_nil]
    split
    · rename_i hl
      refine C17_truncated a k w hw hw' i' _ _ hu (List.take_prefix _ _) fun e => ?_
      have := congrArg List.length e
      rw [List.length_take] at this
      omega
    · rename_i hl
      rw [List.take_of_length_le (by omega)]
      exact round w i' _ hw hw' hu

/-- Elements added at the end of an array, in place: the reader gets the old array until the closing bracket is overwritten, then an error until the new text is complete, then the new array. -/
theorem C110_array_grows (a : Accel) (k : Bool) (vs ws : List Value) (hw : (Value.arr .array (vs ++ ws)).Json) :
    ∃ t u, (Value.arr .array vs).dumps = .ok t ∧ (Value.arr .array (vs ++ ws)).dumps = .ok u ∧
      ∀ n, parser ⟨k, a.traits⟩ (overwritten t u n) = if n < t.length then some (.arr .array vs) else if n < u.length then none else some (.arr .array (vs ++ ws)) := by
  have hv : (Value.arr .array vs).Json := by
    simp only [Value.Json, Value.Wf, wfAll_iff] at hw ⊢
    exact fun x hx => hw x (List.mem_append_left _ hx)
  obtain ⟨t, ht, -⟩ := dumps_spells hv none
  obtain ⟨u, hu, -⟩ := dumps_spells hw none
  refine ⟨t, u, ht, hu, fun n => ?_⟩
  obtain ⟨x, hx, ex⟩ := Out.bind_eq_ok.1 (show (Value.dumpElems vs).bind _ = _ from by simpa only [Value.dumps, Value.dumpTo] using ht)
  obtain ⟨y, hy, ey⟩ := Out.bind_eq_ok.1 (show (Value.dumpElems (vs ++ ws)).bind _ = _ from by simpa only [Value.dumps, Value.dumpTo] using hu)
  cases ex; cases ey
  have := C110_extended a k _ _ hv hw (.inl rfl) (.inl rfl) none none (0x5b :: x) (0x5b :: (y ++ [0x5d])) 0x5d (by simpa using ht) (by simpa using hu)
    (by rw [List.cons_prefix_cons]; exact ⟨rfl, (elems_longer vs ws x y hx hy).trans (List.prefix_append _ _)⟩) n
  simpa [Nat.lt_succ_iff] using this

/-- Members added to an object whose keys all come after those that are there. -/
theorem C110_object_grows (a : Accel) (k : Bool) (ms ns : List (Bytes × Value)) (hv : (Value.obj .object ms).Json) (hw : (Value.obj .object (ms ++ ns)).Json) :
    ∃ t u, (Value.obj .object ms).dumps = .ok t ∧ (Value.obj .object (ms ++ ns)).dumps = .ok u ∧
      ∀ n, parser ⟨k, a.traits⟩ (overwritten t u n) = if n < t.length then some (.obj .object ms) else if n < u.length then none else some (.obj .object (ms ++ ns)) := by
  obtain ⟨t, ht, -⟩ := dumps_spells hv none
  obtain ⟨u, hu, -⟩ := dumps_spells hw none
  refine ⟨t, u, ht, hu, fun n => ?_⟩
  obtain ⟨x, hx, ex⟩ := Out.bind_eq_ok.1 (show (Value.dumpMembers ms).bind _ = _ from by simpa only [Value.dumps, Value.dumpTo] using ht)
  obtain ⟨y, hy, ey⟩ := Out.bind_eq_ok.1 (show (Value.dumpMembers (ms ++ ns)).bind _ = _ from by simpa only [Value.dumps, Value.dumpTo] using hu)
  cases ex; cases ey
  have := C110_extended a k _ _ hv hw (.inr rfl) (.inr rfl) none none (0x7b :: x) (0x7b :: (y ++ [0x7d])) 0x7d (by simpa using ht) (by simpa using hu)
    (by rw [List.cons_prefix_cons]; exact ⟨rfl, (members_longer ms ns x y hx hy).trans (List.prefix_append _ _)⟩) n
  simpa [Nat.lt_succ_iff] using this

example : (Value.arr .array [.null, .null]).Json ∧ overwritten (ascii "[null]") (ascii "[null,null]") 8 = ascii "[null,nu" := by
  refine ⟨by simp [Value.Json, Value.Wf, Value.WfAll, Value.null], by decide⟩

example : (Value.obj .object [(ascii "a", .arr .array []), (ascii "b", .arr .array [])]).Json := by
  simp [Value.Json, Value.Wf, Value.WfAll, Value.WfMembers]
  decide

example : overwritten (ascii "{\"key\":1}") (ascii "[]") 2 = ascii "[]key\":1}" ∧ parse none (ascii "[]key\":1}") = none ∧
    parse none (overwritten (ascii "[0/1]") (ascii "[]") 2) = some (.arr .array []) := by decide +kernel

example : JsonText rfc8259 (ascii "[null]") (.arr [.null]) := ⟨rfl, [], _, [], ws_nil, .arr (.last (w₁ := []) (w₂ := []) ws_nil .null ws_nil), ws_nil, rfl⟩

end Meojson
