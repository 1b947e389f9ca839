import Verif.Proofs.Values
import Verif.Props.Strings

/-!
# Serialisation: C08 to C13, C17, C19 (second half), C38, C44, C48
-/

set_option autoImplicit false

namespace Meojson
open Spec

namespace Samples

/-- A value with nesting, all scalar kinds and awkward strings. -/
def value : Value :=
  .obj .object [([], .arr .array [.str .null [], .str .boolean [0x74, 0x72, 0x75, 0x65], .arr .array [], .obj .object []]),
    ([0x00, 0x22], .str .number [0x31, 0x2e, 0x35, 0x65, 0x33]), ([0xff], .str .string [0x5c, 0x0a, 0x1f, 0x80, 0xc3])]

theorem value_json : value.Json := by
  refine ⟨by simp; decide, ?_⟩
  simp only [Value.WfMembers, Value.Wf, Value.WfAll]
  refine ⟨⟨?_, ?_, ?_, ⟨.nil, ?_⟩, ?_⟩, number, ?_, ?_⟩ <;> simp

end Samples

private theorem json_text {t : Text} {v : Value} (h : Spells t v) (hc : v.IsContainer) : ∃ j, JsonText rfc8259 t j ∧ j.toValue = v := by
  obtain ⟨j, h1, rfl⟩ := h
  exact ⟨j, ⟨(toValue_container j).2 hc, [], t, [], ws_nil, h1, ws_nil, by simp⟩, rfl⟩

/-! ## C12: output is standard JSON -/

/-- Every form of output is a JSON text (RFC 8259) denoting the value; by `C01_reading_is_unique` it denotes nothing else. For a scalar the
text is a JSON value without surrounding white space. -/
theorem C12_standard (v : Value) (hv : v.Json) (indent : Option Nat) :
    ∃ t j, v.dumps indent = .ok t ∧ Val rfc8259 t j ∧ j.toValue = v ∧ (v.IsContainer → JsonText rfc8259 t j) := by
  obtain ⟨t, h1, j, h2, h3⟩ := dumps_spells hv indent
  exact ⟨t, j, h1, h2, h3, fun hc => ⟨(toValue_container j).2 (h3 ▸ hc), [], t, [], ws_nil, h2, ws_nil, by simp⟩⟩

example : Samples.value.Json ∧ Samples.value.IsContainer := ⟨Samples.value_json, .inr rfl⟩

/-! ## C08, C09: round trips -/

private theorem roundtrip (a : Accel) (v : Value) (hv : v.Json) (hc : v.IsContainer) (indent : Option Nat) :
    ∃ t, v.dumps indent = .ok t ∧ parse a.traits t = some v ∧ parsec a.traits t = some v := by
  obtain ⟨t, h1, h2⟩ := dumps_spells hv indent
  obtain ⟨j, h3, rfl⟩ := json_text h2 hc
  exact ⟨t, h1, C01_parse_accepts_json a t j h3, C15_json_partial a t j h3⟩

/-- `parse(v.dumps())` gives back `v`, in every build. -/
theorem C08_roundtrip (a : Accel) (v : Value) (hv : v.Json) (hc : v.IsContainer) :
    ∃ t, v.dumps = .ok t ∧ parse a.traits t = some v ∧ parsec a.traits t = some v := roundtrip a v hv hc none

/-- `parse(v.dumps(n))` gives back `v`, for every indent width. -/
theorem C09_roundtrip_indented (a : Accel) (v : Value) (hv : v.Json) (hc : v.IsContainer) (n : Nat) :
    ∃ t, v.dumps (some n) = .ok t ∧ parse a.traits t = some v ∧ parsec a.traits t = some v := roundtrip a v hv hc (some n)

/-- Bytes that are neither UTF-8 nor printable, on a value the theorems apply to. -/
example : Samples.value.dumps = .ok (ascii "{\"\":[null,true,[],{}],\"\\u0000\\\"\":1.5e3,\"" ++ [0xff] ++ ascii "\":\"\\\\\\n\\u001f" ++ [0x80, 0xc3, 0x22, 0x7d]) := by
  decide +kernel

/-! ## C10: what was parsed can be written and read again -/

/-- Whatever text was accepted, in whatever mode and build, the result can be written in every form and read back in every build. -/
theorem C10_reparse (a b : Accel) (k : Bool) (s : Text) (v : Value) (h : parser ⟨k, a.traits⟩ s = some v) (indent : Option Nat) :
    ∃ t, v.dumps indent = .ok t ∧ parse b.traits t = some v ∧ parsec b.traits t = some v := by
  obtain ⟨j, ⟨t, r, ⟨hj, w₁, x, w₂, -, hx, -, -⟩, -⟩, rfl⟩ := parser_sound (cfg := ⟨k, a.traits⟩) (accelOk a) h
  exact roundtrip b _ (val_json rfl hx) ((toValue_container j).1 hj) indent

/-- Also when the input is not JSON (`C02_refuted`). -/
example : (parse Accel.none.traits (ascii "[\"\\ud83d\\u0041\\udca9\"]/x")).isSome = true := by decide +kernel

/-! ## C11: compact output is one line -/

mutual
private theorem dumpTo_printable : ∀ (v : Value) (t : Bytes), v.Json → v.dumpTo = .ok t → ∀ c ∈ t, 0x20 ≤ c ∧ (0x80 ≤ c → ∃ s ∈ v.texts, c ∈ s)
  | .str ty s, t, h, e => by
    cases ty with
    | invalid => exact absurd h.1 id
    | null => simp only [Value.dumpTo] at e; cases e; simp
    | boolean => simp only [Value.dumpTo] at e; cases e; rcases h with rfl | rfl <;> decide
    | string =>
      simp only [Value.dumpTo] at e; cases e
      intro c hc
      simp only [List.mem_append, List.mem_cons, List.not_mem_nil, or_false] at hc
      rcases hc with (rfl | hc) | rfl
      · exact ⟨by decide, fun h => absurd h (by decide)⟩
      · obtain ⟨h1, h2⟩ := escapeString_printable s c hc
        exact ⟨h1, fun h => ⟨s, by simp [Value.texts], h2 h⟩⟩
      · exact ⟨by decide, fun h => absurd h (by decide)⟩
    | number =>
      simp only [Value.dumpTo] at e; cases e
      intro c hc
      obtain ⟨h1, h2⟩ := number_ascii h c hc
      exact ⟨h1, fun h => absurd h2 (UInt8.not_lt.2 h)⟩
    | array => exact absurd h id
    | object => exact absurd h id
  | .arr ty vs, t, h, e => by
    cases ty <;> first | exact absurd h id | skip
    simp only [Value.Json, Value.Wf] at h
    simp only [Value.dumpTo] at e
    obtain ⟨x, h1, h2⟩ := Out.bind_eq_ok.1 e
    cases h2
    intro c hc
    simp only [List.mem_append, List.mem_cons, List.not_mem_nil, or_false] at hc
    rcases hc with (rfl | hc) | rfl
    · exact ⟨by decide, fun h => absurd h (by decide)⟩
    · exact dumpElems_printable vs x h h1 c hc
    · exact ⟨by decide, fun h => absurd h (by decide)⟩
  | .arrNull ty, _, h, _ => by cases ty <;> exact absurd h id
  | .obj ty ms, t, h, e => by
    cases ty <;> first | exact absurd h id | skip
    simp only [Value.Json, Value.Wf] at h
    simp only [Value.dumpTo] at e
    obtain ⟨x, h1, h2⟩ := Out.bind_eq_ok.1 e
    cases h2
    intro c hc
    simp only [List.mem_append, List.mem_cons, List.not_mem_nil, or_false] at hc
    rcases hc with (rfl | hc) | rfl
    · exact ⟨by decide, fun h => absurd h (by decide)⟩
    · exact dumpMembers_printable ms x h.2 h1 c hc
    · exact ⟨by decide, fun h => absurd h (by decide)⟩
  | .objNull ty, _, h, _ => by cases ty <;> exact absurd h id
private theorem dumpElems_printable : ∀ (vs : List Value) (t : Bytes), Value.WfAll Number False vs → Value.dumpElems vs = .ok t →
    ∀ c ∈ t, 0x20 ≤ c ∧ (0x80 ≤ c → ∃ s ∈ Value.textsAll vs, c ∈ s)
  | [], t, _, e => by simp only [Value.dumpElems] at e; cases e; simp
  | v :: vs, t, h, e => by
    simp only [Value.WfAll] at h
    simp only [Value.dumpElems] at e
    obtain ⟨x, h1, e⟩ := Out.bind_eq_ok.1 e
    obtain ⟨y, h2, e⟩ := Out.bind_eq_ok.1 e
    cases e
    intro c hc
    simp only [List.mem_append] at hc
    simp only [Value.textsAll]
    rcases hc with (hc | hc) | hc
    · obtain ⟨g1, g2⟩ := dumpTo_printable v x h.1 h1 c hc
      exact ⟨g1, fun g => let ⟨s, g3, g4⟩ := g2 g; ⟨s, List.mem_append_left _ g3, g4⟩⟩
    · split at hc
      · simp at hc
      · simp at hc; subst hc; exact ⟨by decide, fun h => absurd h (by decide)⟩
    · obtain ⟨g1, g2⟩ := dumpElems_printable vs y h.2 h2 c hc
      exact ⟨g1, fun g => let ⟨s, g3, g4⟩ := g2 g; ⟨s, List.mem_append_right _ g3, g4⟩⟩
private theorem dumpMembers_printable : ∀ (ms : List (Bytes × Value)) (t : Bytes), Value.WfMembers Number False ms → Value.dumpMembers ms = .ok t →
    ∀ c ∈ t, 0x20 ≤ c ∧ (0x80 ≤ c → ∃ s ∈ Value.textsMembers ms, c ∈ s)
  | [], t, _, e => by simp only [Value.dumpMembers] at e; cases e; simp
  | (k, v) :: ms, t, h, e => by
    simp only [Value.WfMembers] at h
    simp only [Value.dumpMembers] at e
    obtain ⟨x, h1, e⟩ := Out.bind_eq_ok.1 e
    obtain ⟨y, h2, e⟩ := Out.bind_eq_ok.1 e
    cases e
    intro c hc
    simp only [List.mem_append, List.mem_cons, List.not_mem_nil, or_false] at hc
    simp only [Value.textsMembers]
    rcases hc with ((((rfl | hc) | rfl | rfl) | hc) | hc) | hc
    · exact ⟨by decide, fun h => absurd h (by decide)⟩
    · obtain ⟨h1, h2⟩ := escapeString_printable k c hc
      exact ⟨h1, fun h => ⟨k, by simp, h2 h⟩⟩
    · exact ⟨by decide, fun h => absurd h (by decide)⟩
    · exact ⟨by decide, fun h => absurd h (by decide)⟩
    · obtain ⟨g1, g2⟩ := dumpTo_printable v x h.1 h1 c hc
      exact ⟨g1, fun g => let ⟨s, g3, g4⟩ := g2 g; ⟨s, List.mem_cons_of_mem _ (List.mem_append_left _ g3), g4⟩⟩
    · split at hc
      · simp at hc
      · simp at hc; subst hc; exact ⟨by decide, fun h => absurd h (by decide)⟩
    · obtain ⟨g1, g2⟩ := dumpMembers_printable ms y h.2 h2 c hc
      exact ⟨g1, fun g => let ⟨s, g3, g4⟩ := g2 g; ⟨s, List.mem_cons_of_mem _ (List.mem_append_right _ g3), g4⟩⟩
end

/-- `dumps()` writes no control character, and every byte from 0x80 up comes from a string or a key. -/
theorem C11_one_line (v : Value) (t : Bytes) (hv : v.Json) (h : v.dumps = .ok t) :
    ∀ c ∈ t, 0x20 ≤ c ∧ (0x80 ≤ c → ∃ s ∈ v.texts, c ∈ s) := dumpTo_printable v t hv h

example : ∃ t, Samples.value.dumps = .ok t := (dumps_spells Samples.value_json none).imp fun _ h => h.1

/-! ## C38: equality -/

/-- On well-formed values (numbers of any text) `==` never throws and decides sameness of representation: same tag, same text, same elements
in order, same members. -/
theorem C38_eq (num : Bytes → Prop) (v w : Value) (hv : v.Wf num False) (hw : w.Wf num False) : v.eq w = .ok (decide (v = w)) := eq_wf v w hv hw

/-- So `==` is an equivalence and `!=` its negation. -/
theorem C38_equivalence (num : Bytes → Prop) (u v w : Value) (hu : u.Wf num False) (hv : v.Wf num False) (hw : w.Wf num False) :
    u.eq u = .ok true ∧ u.eq v = v.eq u ∧ (u.eq v = .ok true → v.eq w = .ok true → u.eq w = .ok true) ∧
    (∀ b, u.eq v = .ok b → u.ne v = .ok (!b)) := by
  simp only [Value.ne, eq_wf u u hu hu, eq_wf u v hu hv, eq_wf v u hv hu, eq_wf v w hv hw, eq_wf u w hu hw, Out.bind_ok, Out.ok.injEq,
    decide_eq_true_eq, decide_eq_decide]
  refine ⟨trivial, ⟨Eq.symm, Eq.symm⟩, fun h1 h2 => h1.trans h2, ?_⟩
  rintro b rfl; rfl

/-- What sameness means, kind by kind. -/
theorem C38_kinds (num : Bytes → Prop) (v w : Value) (hv : v.Wf num False) (hw : w.Wf num False) :
    v.eq w = .ok true ↔ v.type = w.type ∧
      (∀ t s, v = .str t s → ∃ t', w = .str t' s) ∧
      (∀ t vs, v = .arr t vs → ∃ t' ws, w = .arr t' ws ∧ vs.length = ws.length ∧ ∀ (i : Nat) (x y : Value), vs[i]? = some x → ws[i]? = some y → x.eq y = .ok true) ∧
      (∀ t ms, v = .obj t ms → ∃ t' ns, w = .obj t' ns ∧ ms.map Prod.fst = ns.map Prod.fst ∧
        ∀ (i : Nat) (x y : Bytes × Value), ms[i]? = some x → ns[i]? = some y → x.2.eq y.2 = .ok true) := by
  rw [eq_wf v w hv hw]
  constructor
  · intro h
    have h : v = w := by simpa using h
    subst h
    refine ⟨rfl, fun t s e => ⟨t, e⟩, ?_, ?_⟩
    · rintro t vs rfl
      cases t <;> first | exact absurd hv id | skip
      simp only [Value.Wf, wfAll_iff] at hv
      refine ⟨_, vs, rfl, rfl, fun i x y h1 h2 => ?_⟩
      rw [h1] at h2; cases h2
      rw [eq_wf x x (hv x (List.mem_of_getElem? h1)) (hv x (List.mem_of_getElem? h1))]; simp
    · rintro t ms rfl
      cases t <;> first | exact absurd hv id | skip
      simp only [Value.Wf, wfMembers_iff] at hv
      refine ⟨_, ms, rfl, rfl, fun i x y h1 h2 => ?_⟩
      rw [h1] at h2; cases h2
      rw [eq_wf _ _ (hv.2 x (List.mem_of_getElem? h1)) (hv.2 x (List.mem_of_getElem? h1))]; simp
  · rintro ⟨h1, h2, h3, h4⟩
    suffices v = w by simp [this]
    cases v with
    | str t s => obtain ⟨t', rfl⟩ := h2 t s rfl; simp only [Value.type] at h1; rw [h1]
    | arr t vs =>
      obtain ⟨t', ws, rfl, hl, h5⟩ := h3 t vs rfl
      simp only [Value.type] at h1; subst h1
      cases t <;> first | exact absurd hv id | skip
      simp only [Value.Wf, wfAll_iff] at hv hw
      congr 1
      refine List.ext_getElem hl fun i hi hi' => ?_
      have := h5 i _ _ (List.getElem?_eq_getElem hi) (List.getElem?_eq_getElem hi')
      rw [eq_wf _ _ (hv _ (List.getElem_mem hi)) (hw _ (List.getElem_mem hi'))] at this
      simpa using this
    | obj t ms =>
      obtain ⟨t', ns, rfl, hl, h5⟩ := h4 t ms rfl
      simp only [Value.type] at h1; subst h1
      cases t <;> first | exact absurd hv id | skip
      simp only [Value.Wf, wfMembers_iff] at hv hw
      congr 1
      have hl' : ms.length = ns.length := by simpa using congrArg List.length hl
      refine List.ext_getElem hl' fun i hi hi' => ?_
      have h6 := h5 i _ _ (List.getElem?_eq_getElem hi) (List.getElem?_eq_getElem hi')
      rw [eq_wf _ _ (hv.2 _ (List.getElem_mem hi)) (hw.2 _ (List.getElem_mem hi'))] at h6
      have h7 : (ms.map Prod.fst)[i]? = (ns.map Prod.fst)[i]? := by rw [hl]
      simp [hi, hi'] at h7 h6
      exact Prod.ext h7 h6
    | arrNull t => cases t <;> exact absurd hv id
    | objNull t => cases t <;> exact absurd hv id

/-- The hypotheses are needed: an invalid value cannot be compared with itself. -/
example : Samples.value.Wf Number False ∧ (Value.str .invalid []).eq (.str .invalid []) = .throw .json := ⟨Samples.value_json, by simp [Value.eq, Value.type]⟩

/-! ## C13: serialisation is canonical -/

/-- Two values are equal by `==` exactly when they are written the same (with the same indent). -/
theorem C13_canonical (v w : Value) (hv : v.Json) (hw : w.Json) (indent : Option Nat) :
    v.eq w = .ok true ↔ v.dumps indent = w.dumps indent := by
  rw [eq_wf v w hv hw]
  simp only [Out.ok.injEq, decide_eq_true_eq]
  constructor
  · rintro rfl; rfl
  · intro h
    obtain ⟨t, h1, j, h2, rfl⟩ := dumps_spells hv indent
    obtain ⟨t', h1', j', h2', rfl⟩ := dumps_spells hw indent
    rw [h1, h1'] at h
    cases h
    have := val_det (lexical_rfc false) h2 _ _ [0x2c] [0x2c] h2' rfl (.inr ⟨_, _, rfl, by unfold NumStop Digit; decide⟩)
      (.inr ⟨_, _, rfl, by unfold NumStop Digit; decide⟩)
    rw [this.2]

/-- A moved-from array or object (C34) cannot be compared with a value of the same type; with one of another type it can. -/
theorem C34_compare (v w : Value) (hv : v = .arrNull .array ∨ v = .objNull .object) :
    (v.type = w.type → v.eq w = .ub) ∧ (v.type ≠ w.type → v.eq w = .ok false ∧ w.eq v = .ok false) ∧
    ((∃ vs, v = .arrNull .array ∧ w = .arr .array vs) ∨ (∃ ms, v = .objNull .object ∧ w = .obj .object ms) → w.eq v = .ub) := by
  refine ⟨fun h => ?_, fun h => ⟨?_, ?_⟩, ?_⟩
  · rcases hv with rfl | rfl <;> simp only [Value.eq] <;> rw [if_neg (fun hn => hn h)]
  · rcases hv with rfl | rfl <;> simp only [Value.eq] <;> exact if_pos h
  · rcases hv with rfl | rfl <;> simp only [Value.type] at h <;> cases w <;> simp only at h <;> simp [Value.eq, Value.type, Ne.symm h]
  · rintro (⟨vs, rfl, rfl⟩ | ⟨ms, rfl, rfl⟩) <;> simp [Value.eq, Value.type]

example : (Value.arrNull .array).eq (.arr .array []) = .ub ∧ (Value.objNull .object).eq .null = .ok false := by decide +kernel

/-- An object built by inserting members with distinct keys does not depend on the order of insertion, and neither does its text. -/
theorem C13_order (ms ns : List (Bytes × Value)) (hp : ms.Perm ns) (hd : (ms.map Prod.fst).Nodup) (indent : Option Nat) :
    (Value.obj .object (ms.foldl (fun m x => (RawObject.emplace x.1 x.2 m).1) [])).dumps indent =
      (Value.obj .object (ns.foldl (fun m x => (RawObject.emplace x.1 x.2 m).1) [])).dumps indent := by
  have key : ∀ (xs : List (Bytes × Value)), (xs.map Prod.fst).Nodup →
      xs.foldl (fun m x => (RawObject.emplace x.1 x.2 m).1) [] = sortMembers xs := by
    intro xs h
    have gen : ∀ (ys zs : List (Bytes × Value)), ((zs ++ ys).map Prod.fst).Nodup →
        ys.foldl (fun m x => (RawObject.emplace x.1 x.2 m).1) (sortMembers zs) = sortMembers (zs ++ ys) := by
      intro ys
      induction ys with
      | nil => intro zs _; simp
      | cons y ys ih =>
        intro zs h
        obtain ⟨k, x⟩ := y
        have h' : ((zs ++ [(k, x)]).map Prod.fst).Nodup := by
          refine List.Nodup.sublist ?_ h
          simp
        simp only [List.foldl_cons, emplace_sortMembers h']
        rw [ih (zs ++ [(k, x)]) (by simpa using h)]
        simp
    have := gen xs [] (by simpa using h)
    simpa [sortMembers] using this
  rw [key ms hd, key ns ((hp.map Prod.fst).nodup_iff.1 hd)]
  congr 2
  exact sorted_unique (sortMembers_sorted hd) (sortMembers_sorted ((hp.map Prod.fst).nodup_iff.1 hd))
    ((sortMembers_perm ms).trans (hp.trans (sortMembers_perm ns).symm))

example : [(ascii "b", Value.null), (ascii "a", Value.null)].Perm [(ascii "a", Value.null), (ascii "b", Value.null)] ∧
    ([(ascii "b", Value.null), (ascii "a", Value.null)].map Prod.fst).Nodup := ⟨.swap _ _ _, by decide⟩

/-! ## C17: a truncated document is rejected -/

/-- Any proper prefix of any form of output is rejected, in both modes and every build. -/
theorem C17_truncated (a : Accel) (k : Bool) (v : Value) (hv : v.Json) (hc : v.IsContainer) (indent : Option Nat) (t p : Bytes)
    (h : v.dumps indent = .ok t) (hp : p <+: t) (hne : p ≠ t) : parser ⟨k, a.traits⟩ p = none := by
  obtain ⟨t', h1, j, h2, rfl⟩ := dumps_spells hv indent
  rw [h] at h1; cases h1
  obtain ⟨x, rfl⟩ := hp
  cases he : parser ⟨k, a.traits⟩ p with
  | none => rfl
  | some w =>
    obtain ⟨j', h3, -⟩ := parser_sound (cfg := ⟨k, a.traits⟩) (accelOk a) he
    exact absurd h3 (truncated_not_read h2 ((toValue_container j).2 hc) rfl (by rintro rfl; exact hne (by simp)))

example : ∃ t, Samples.value.dumps = .ok t ∧ [0x7b] <+: t ∧ [0x7b] ≠ t := by
  refine ⟨_, rfl, ?_, ?_⟩ <;> decide +kernel

/-! ## C19: number texts are preserved -/

/-- A JSON number inside an array is read and written back byte for byte. -/
theorem C19_number_roundtrip (a : Accel) (t : Text) (h : Number t) :
    parse a.traits (0x5b :: (t ++ [0x5d])) = some (.arr .array [.str .number t]) ∧
      (Value.arr .array [.str .number t]).dumps = .ok (0x5b :: (t ++ [0x5d])) := by
  constructor
  · have := C01_parse_accepts_json a _ _ (⟨rfl, [], _, [], ws_nil, .arr (.last (w₁ := []) (w₂ := []) ws_nil (.num h) ws_nil), ws_nil, rfl⟩ :
      JsonText rfc8259 _ (.arr [.num t]))
    simpa [Doc.toValue, Doc.toValues] using this
  · simp [Value.dumps, Value.dumpTo, Value.dumpElems]

/-! ## C48: escaping -/

/-- The escaped form of any byte string is a string literal spelling it, so by `C01` it is read back wherever a string may stand. -/
theorem C48_escape (s : Bytes) : Str (0x22 :: (escapeString s ++ [0x22])) s := escape_str s

/-- As an array element and as a key. -/
theorem C48_read_back (a : Accel) (s : Bytes) :
    parse a.traits (0x5b :: (0x22 :: (escapeString s ++ [0x22]) ++ [0x5d])) = some (.arr .array [.str .string s]) ∧
    parse a.traits (0x7b :: (0x22 :: (escapeString s ++ [0x22]) ++ 0x3a :: ([0x6e, 0x75, 0x6c, 0x6c] ++ [0x7d]))) =
      some (.obj .object [(s, .str .null [])]) := by
  constructor
  · have := C01_parse_accepts_json a _ _ (⟨rfl, [], _, [], ws_nil, .arr (.last (w₁ := []) (w₂ := []) ws_nil (.str (escape_str s)) ws_nil), ws_nil, rfl⟩ :
      JsonText rfc8259 _ (.arr [.str s]))
    simpa [Doc.toValue, Doc.toValues] using this
  · have := C01_parse_accepts_json a _ _ (⟨rfl, [], _, [], ws_nil,
      .obj (.last (w₁ := []) (w₂ := []) (w₃ := []) (w₄ := []) ws_nil (escape_str s) ws_nil ws_nil .null ws_nil) (by simp), ws_nil, rfl⟩ :
      JsonText rfc8259 _ (.obj [(s, .null)]))
    simpa [Doc.toValue, Doc.toMembers, sortMembers] using this

example : escapeString [0x22, 0x5c, 0x00, 0x7f, 0x2f, 0xff] = ascii "\\\"\\\\\\u0000" ++ [0x7f, 0x2f, 0xff] := by decide +kernel

end Meojson
