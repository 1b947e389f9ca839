import Verif.Proofs.Access
import Verif.Proofs.Integer

/-!
# C25, C26, C45: const access
-/

set_option autoImplicit false

namespace Meojson
open Spec RawObject

/-- Each `as_X() const` returns the payload of a value of type X, and throws `json::exception` on every other well-formed value. -/
theorem C45_accessors (v : Value) (hv : v.Sound) :
    (∀ b, v.asBoolean = .ok b ↔ v = .ofBool b) ∧ (v.type ≠ .boolean → v.asBoolean = .throw .json) ∧
    (∀ s, v.asString = .ok s ↔ v = .str .string s) ∧ (v.type ≠ .string → v.asString = .throw .json) ∧
    (∀ vs, v.asArray = .ok vs ↔ v = .arr .array vs) ∧ (v.type ≠ .array → v.asArray = .throw .json) ∧
    (∀ ms, v.asObject = .ok ms ↔ v = .obj .object ms) ∧ (v.type ≠ .object → v.asObject = .throw .json) ∧
    (v.asNull = .ok () ↔ v = .null) ∧ (v.type ≠ .null → v.asNull = .throw .json) ∧
    (∀ T n, v.asInt T = .ok n → ∃ s, v = .str .number s) ∧ (∀ T, v.type ≠ .number → v.asInt T = .throw .json) ∧
    (v.type = .boolean → ∃ b, v.asBoolean = .ok b) ∧ (v.type = .string → ∃ s, v.asString = .ok s) ∧
    (v.type = .array → ∃ vs, v.asArray = .ok vs) ∧ (v.type = .object → ∃ ms, v.asObject = .ok ms) ∧
    (v.type = .number → ∀ T, (∃ n, v.asInt T = .ok n) ∨ v.asInt T = .throw .json) := by
  have eb : ∀ b, Value.ofBool b = .str .boolean (if b then [0x74, 0x72, 0x75, 0x65] else [0x66, 0x61, 0x6c, 0x73, 0x65]) := fun _ => rfl
  cases sound_shape hv with
  | number s =>
    refine ⟨?_, ?_, ?_, ?_, ?_, ?_, ?_, ?_, ?_, ?_, ?_, ?_, ?_, ?_, ?_, ?_, ?_⟩ <;>
      simp [Value.asBoolean, Value.asString, Value.asArray, Value.asObject, Value.asNull, Value.asInt, Value.type, Value.typeError, Value.valueInfo, Value.basicStr,
        Value.null, eb]
    intro T
    cases tryParseInteger T s <;> simp
  | true =>
    refine ⟨?_, ?_, ?_, ?_, ?_, ?_, ?_, ?_, ?_, ?_, ?_, ?_, ?_, ?_, ?_, ?_, ?_⟩ <;>
      simp [Value.asBoolean, Value.asString, Value.asArray, Value.asObject, Value.asNull, Value.asInt, Value.type, Value.typeError, Value.valueInfo, Value.basicStr,
        Value.null, eb]
  | false =>
    refine ⟨?_, ?_, ?_, ?_, ?_, ?_, ?_, ?_, ?_, ?_, ?_, ?_, ?_, ?_, ?_, ?_, ?_⟩ <;>
      simp [Value.asBoolean, Value.asString, Value.asArray, Value.asObject, Value.asNull, Value.asInt, Value.type, Value.typeError, Value.valueInfo, Value.basicStr,
        Value.null, eb]
  | _ =>
    refine ⟨?_, ?_, ?_, ?_, ?_, ?_, ?_, ?_, ?_, ?_, ?_, ?_, ?_, ?_, ?_, ?_, ?_⟩ <;>
      simp [Value.asBoolean, Value.asString, Value.asArray, Value.asObject, Value.asNull, Value.asInt, Value.type, Value.typeError, Value.valueInfo, Value.basicStr,
        Value.null, eb]

example : (Value.arr .array [.ofInt 1, .obj .object [([0x6b], .null)]]).Sound := by simp [Value.Sound, Value.Wf, Value.WfAll, Value.WfMembers, Value.ofInt, Value.null]
/-- Without well-formedness the claim fails: reading a moved-from array is undefined, even for the error message. -/
example : (Value.arrNull .array).asArray = .ub ∧ (Value.arrNull .array).asString = .ub ∧ (Value.str .array []).asArray = .throw .badVariant := by decide

/-- Lookup by key. `contains` (and `exists`, which calls it) says whether the value is an object with that key; `at` and `find_value` give the element; `at` throws
`json::exception` on a value that is no object and `std::out_of_range` on an absent key; `find<T>` converts the element if it is a `T`. -/
theorem C25_lookup_key (v : Value) (hv : v.Sound) (k : Bytes) :
    (∃ b, v.containsKey k = .ok b ∧ (b = true ↔ ∃ x, Step v (.key k) x)) ∧
    (∀ x, v.atKey k = .ok x ↔ Step v (.key k) x) ∧
    (∃ o, v.findKey k = .ok o ∧ ∀ x, o = some x ↔ Step v (.key k) x) ∧
    (v.type ≠ .object → v.atKey k = .throw .json) ∧
    (v.type = .object → (¬ ∃ x, Step v (.key k) x) → v.atKey k = .throw .outOfRange) ∧
    (∀ x y, Step v (.key k) x → Step v (.key k) y → x = y) ∧
    ∀ (α : Type) (is : Value → Out Bool) (as : Value → Out α),
      (∀ x b y, Step v (.key k) x → is x = .ok b → as x = .ok y → v.findKeyAs is as k = .ok (if b then some y else none)) ∧
      ((¬ ∃ x, Step v (.key k) x) → v.findKeyAs is as k = .ok none) := by
  have no : v.type ≠ .object → ∀ x, ¬ Step v (.key k) x := by rintro h x ⟨⟩; exact h rfl
  by_cases ht : v.type = .object
  · cases sound_shape hv with
    | object ms hs _ =>
      have step : ∀ x, Step (.obj .object ms) (.key k) x ↔ find k ms = some x := by
        intro x
        rw [find_eq_some hs]
        exact ⟨fun h => by cases h; assumption, fun h => .key h⟩
      have e1 : (Value.obj .object ms).containsKey k = .ok (find k ms).isSome := rfl
      have e2 : (Value.obj .object ms).findKey k = .ok (find k ms) := rfl
      have e3 : (Value.obj .object ms).atKey k = match find k ms with | some x => .ok x | none => .throw .outOfRange := rfl
      simp only [step, e1, e2, e3, Value.findKeyAs]
      cases find k ms with
      | none => refine ⟨⟨_, rfl, by simp⟩, by simp, ⟨_, rfl, by simp⟩, fun h => absurd ht h, by simp, by simp, fun α is as => ⟨by simp, by simp⟩⟩
      | some w =>
        refine ⟨⟨_, rfl, by simp⟩, by simp, ⟨_, rfl, by simp⟩, fun h => absurd ht h, by simp, by simp, fun α is as => ⟨?_, by simp⟩⟩
        intro x b y hx hb hy
        simp at hx
        subst hx
        cases b <;> simp [hb, hy]
    | _ => simp [Value.type, Value.ofBool] at ht
  · have h1 : v.containsKey k = .ok false := by simp [Value.containsKey, ht]
    have h2 : v.findKey k = .ok none := by simp [Value.findKey, ht]
    have h3 : v.atKey k = .throw .json := by
      unfold Value.atKey
      rw [(C45_accessors v hv).2.2.2.2.2.2.2.1 ht]; rfl
    have no := no ht
    refine ⟨⟨_, h1, by simp [no]⟩, by simp [h3, no], ⟨_, h2, by simp [no]⟩, fun _ => h3, fun h => absurd h ht, fun x y h => absurd h (no x), fun α is as => ⟨?_, ?_⟩⟩
    · intro x b y hx; exact absurd hx (no x)
    · intro _; simp [Value.findKeyAs, h2]

/-- Lookup by position; as for keys. -/
theorem C25_lookup_pos (v : Value) (hv : v.Sound) (i : Nat) :
    (∃ b, v.containsPos i = .ok b ∧ (b = true ↔ ∃ x, Step v (.pos i) x)) ∧
    (∀ x, v.atPos i = .ok x ↔ Step v (.pos i) x) ∧
    (∃ o, v.findPos i = .ok o ∧ ∀ x, o = some x ↔ Step v (.pos i) x) ∧
    (v.type ≠ .array → v.atPos i = .throw .json) ∧
    (v.type = .array → (¬ ∃ x, Step v (.pos i) x) → v.atPos i = .throw .outOfRange) ∧
    (∀ x y, Step v (.pos i) x → Step v (.pos i) y → x = y) ∧
    ∀ (α : Type) (is : Value → Out Bool) (as : Value → Out α),
      (∀ x b y, Step v (.pos i) x → is x = .ok b → as x = .ok y → v.findPosAs is as i = .ok (if b then some y else none)) ∧
      ((¬ ∃ x, Step v (.pos i) x) → v.findPosAs is as i = .ok none) := by
  have no : v.type ≠ .array → ∀ x, ¬ Step v (.pos i) x := by rintro h x ⟨⟩; exact h rfl
  by_cases ht : v.type = .array
  · cases sound_shape hv with
    | array vs _ =>
      have step : ∀ x, Step (.arr .array vs) (.pos i) x ↔ vs[i]? = some x := by
        intro x
        exact ⟨fun h => by cases h; simpa using ‹vs[Int.toNat i]? = some x›, fun h => .pos (by omega) (by simpa using h)⟩
      have e1 : (Value.arr .array vs).containsPos i = .ok (decide (i < vs.length)) := rfl
      have e2 : (Value.arr .array vs).findPos i = .ok vs[i]? := by
        show Out.ok (if i < vs.length then vs[i]? else none) = _
        split
        · rfl
        · rw [List.getElem?_eq_none (by omega)]
      have e3 : (Value.arr .array vs).atPos i = match vs[i]? with | some x => .ok x | none => .throw .outOfRange := rfl
      have e4 : decide (i < vs.length) = vs[i]?.isSome := by
        by_cases h : i < vs.length
        · simp [h]
        · simp [h]
      simp only [step, e1, e2, e3, e4, Value.findPosAs]
      cases vs[i]? with
      | none => refine ⟨⟨_, rfl, by simp⟩, by simp, ⟨_, rfl, by simp⟩, fun h => absurd ht h, by simp, by simp, fun α is as => ⟨by simp, by simp⟩⟩
      | some w =>
        refine ⟨⟨_, rfl, by simp⟩, by simp, ⟨_, rfl, by simp⟩, fun h => absurd ht h, by simp, by simp, fun α is as => ⟨?_, by simp⟩⟩
        intro x b y hx hb hy
        simp at hx
        subst hx
        cases b <;> simp [hb, hy]
    | _ => simp [Value.type, Value.ofBool] at ht
  · have h1 : v.containsPos i = .ok false := by simp [Value.containsPos, ht]
    have h2 : v.findPos i = .ok none := by simp [Value.findPos, ht]
    have h3 : v.atPos i = .throw .json := by
      unfold Value.atPos
      rw [(C45_accessors v hv).2.2.2.2.2.1 ht]; rfl
    have no := no ht
    refine ⟨⟨_, h1, by simp [no]⟩, by simp [h3, no], ⟨_, h2, by simp [no]⟩, fun _ => h3, fun h => absurd h ht, fun x y h => absurd h (no x), fun α is as => ⟨?_, ?_⟩⟩
    · intro x b y hx; exact absurd hx (no x)
    · intro _; simp [Value.findPosAs, h2]

example : Step (.obj .object [([0x6b], .null)]) (.key [0x6b]) .null ∧ Step (.arr .array [.ofInt 1]) (.pos 0) (.ofInt 1) :=
  ⟨.key (by simp), .pos (by omega) rfl⟩

theorem step_sound {v x : Value} {p : Value.PathKey} (hv : v.Sound) (h : Step v p x) : x.Sound := by
  cases h with
  | key h => cases sound_shape hv with | object _ _ h2 => exact h2 _ h
  | pos _ h => cases sound_shape hv with | array _ h2 => exact h2 _ (List.mem_of_getElem? h)

/-- `v.get(k1, ..., kn, dflt)`: keys are strings or integers of any type up to 64 bits. `is`/`as` are those of the type of the default; C27 tells which supported types
meet the condition on them. The result is the converted element where the path leads to one of that type, and the default otherwise. -/
theorem C26_get {α : Type} (is : Value → Out Bool) (as : Value → Out α)
    (v : Value) (hv : v.Sound) (hlen : Storable v) (path : List Value.PathKey)
    (hT : ∀ x, x.Sound → Reaches v path x → is x = .ok false ∨ (is x = .ok true ∧ ∃ y, as x = .ok y))
    (hpath : ∀ i, Value.PathKey.pos i ∈ path → -(2 ^ 63 : Nat) ≤ i ∧ i < (2 ^ 64 : Nat)) (dflt : α) :
    (∃ x y, Reaches v path x ∧ is x = .ok true ∧ as x = .ok y ∧ v.getPath is as dflt path = .ok y) ∨
    ((∀ x, Reaches v path x → is x = .ok false) ∧ v.getPath is as dflt path = .ok dflt) := by
  induction path generalizing v with
  | nil =>
    rcases hT v hv .here with h | ⟨h, y, hy⟩
    · exact .inr ⟨fun x hx => by cases hx; exact h, by simp [Value.getPath, h]⟩
    · exact .inl ⟨v, y, .here, h, hy, by simp [Value.getPath, h, hy]⟩
  | cons p rest ih =>
    have hpath' : ∀ i, Value.PathKey.pos i ∈ rest → -(2 ^ 63 : Nat) ≤ i ∧ i < (2 ^ 64 : Nat) := fun i hi => hpath i (List.mem_cons_of_mem _ hi)
    have next : ∀ x, Step v p x → v.getPath is as dflt (p :: rest) = x.getPath is as dflt rest → (∀ y, Step v p y → y = x) →
        (∃ x y, Reaches v (p :: rest) x ∧ is x = .ok true ∧ as x = .ok y ∧ v.getPath is as dflt (p :: rest) = .ok y) ∨
        ((∀ x, Reaches v (p :: rest) x → is x = .ok false) ∧ v.getPath is as dflt (p :: rest) = .ok dflt) := by
      intro x hx he hu
      rw [he]
      rcases ih x (step_sound hv hx) (fun path vs h => hlen (p :: path) vs (.step hx h)) (fun y hy hr => hT y hy (.step hx hr)) hpath' with ⟨z, y, h1, h2, h3, h4⟩ | ⟨h1, h2⟩
      · exact .inl ⟨z, y, .step hx h1, h2, h3, h4⟩
      · refine .inr ⟨fun z hz => ?_, h2⟩
        cases hz with
        | step hs hr => rw [hu _ hs] at hr; exact h1 z hr
    have stop : (∀ x, ¬ Step v p x) → v.getPath is as dflt (p :: rest) = .ok dflt →
        (∃ x y, Reaches v (p :: rest) x ∧ is x = .ok true ∧ as x = .ok y ∧ v.getPath is as dflt (p :: rest) = .ok y) ∨
        ((∀ x, Reaches v (p :: rest) x → is x = .ok false) ∧ v.getPath is as dflt (p :: rest) = .ok dflt) := by
      intro h1 h2
      refine .inr ⟨fun z hz => ?_, h2⟩
      cases hz with
      | step hs _ => exact absurd hs (h1 _)
    cases p with
    | key k =>
      by_cases ht : v.type = .object
      · cases sound_shape hv with
        | object ms hs _ =>
          have e : (Value.obj .object ms).getPath is as dflt (.key k :: rest) =
              match find k ms with | some x => x.getPath is as dflt rest | none => .ok dflt := rfl
          cases hf : find k ms with
          | none =>
            refine stop (fun x hx => ?_) (by rw [e, hf])
            cases hx with
            | key hm => rw [(find_eq_some hs k x).2 hm] at hf; simp at hf
          | some x =>
            refine next x (.key ((find_eq_some hs k x).1 hf)) (by rw [e, hf]) (fun y hy => ?_)
            cases hy with
            | key hm => rw [(find_eq_some hs k y).2 hm] at hf; simpa using hf
        | _ => simp [Value.type, Value.ofBool] at ht
      · exact stop (fun x hx => by cases hx; exact ht rfl) (by simp [Value.getPath, ht])
    | pos i =>
      by_cases ht : v.type = .array
      · cases sound_shape hv with
        | array vs _ =>
          have e : (Value.arr .array vs).getPath is as dflt (.pos i :: rest) =
              match vs[Value.toSizeT i]? with | some x => x.getPath is as dflt rest | none => .ok dflt := rfl
          have hl := hlen [] vs .here
          have hi := hpath i (by simp)
          have conv : (0 ≤ i ∧ Value.toSizeT i = i.toNat) ∨ (i < 0 ∧ vs.length ≤ Value.toSizeT i) := by
            unfold Value.toSizeT
            by_cases h : 0 ≤ i
            · left; refine ⟨h, ?_⟩; rw [Int.emod_eq_of_lt h hi.2]
            · right
              refine ⟨by omega, ?_⟩
              have : i % (2 ^ 64 : Nat) = i + (2 ^ 64 : Nat) := by
                rw [← Int.add_emod_right, Int.emod_eq_of_lt (by omega) (by omega)]
              rw [this]
              omega
          rcases conv with ⟨h0, hc⟩ | ⟨h0, hc⟩
          · rw [hc] at e
            cases hf : vs[i.toNat]? with
            | none =>
              refine stop (fun x hx => ?_) (by rw [e, hf])
              cases hx with
              | pos _ hm => rw [hf] at hm; simp at hm
            | some x =>
              refine next x (.pos h0 hf) (by rw [e, hf]) (fun y hy => ?_)
              cases hy with
              | pos _ hm => rw [hf] at hm; simpa using hm.symm
          · refine stop (fun x hx => ?_) (by rw [e, List.getElem?_eq_none hc])
            cases hx with
            | pos h _ => omega
        | _ => simp [Value.type, Value.ofBool] at ht
      · exact stop (fun x hx => by cases hx; exact ht rfl) (by simp [Value.getPath, ht])

/-- An integer type, a string and `json::value` meet the condition of `C26_get`. -/
example (T : IntTy) : ∀ x : Value, x.Sound → x.isInt T = .ok false ∨ (x.isInt T = .ok true ∧ ∃ y, x.asInt T = .ok y) := by
  intro x hx
  cases sound_shape hx with
  | number s => cases h : tryParseInteger T s <;> simp [Value.isInt, Value.asInt, Value.type, Value.basicStr, h]
  | _ => simp [Value.isInt, Value.type, Value.ofBool]
example : (Value.obj .object [([0x6b], .arr .array [.ofInt 7])]).getPath (Value.isInt ⟨true, 32⟩) (Value.asInt ⟨true, 32⟩) 5 [.key [0x6b], .pos 0] = .ok 7 := by decide +kernel
example : (Value.obj .object [([0x6b], .arr .array [.ofInt 7])]).getPath (Value.isInt ⟨true, 32⟩) (Value.asInt ⟨true, 32⟩) 5 [.key [0x6b], .pos (-1)] = .ok 5 := by decide +kernel

end Meojson
