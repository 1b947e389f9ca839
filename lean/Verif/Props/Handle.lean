import Verif.Model.Handle
import Verif.Props.Access
import Verif.Props.Serialize
import Verif.Props.Entry

/-!
# C58: arrays and objects by themselves answer as the values that hold them; `all<T>`; streams
-/

set_option autoImplicit false

namespace Meojson
open Spec Value

/-- A `json::array` answers every question as the `json::value` that holds it. -/
theorem C58_array (vs ws : List Value) (i : Nat) (j : Int) (rest : List PathKey) (indent : Option Nat) (α : Type) (is : Value → Out Bool) (as : Value → Out α) (d : α) :
    (Value.arr .array vs).containsPos i = .ok (arrContains i vs) ∧ (Value.arr .array vs).atPos i = arrAt i vs ∧
    (Value.arr .array vs).indexPosC i = arrIndex i vs ∧
    (Value.arr .array vs).findPos i = arrFind i vs ∧ (Value.arr .array vs).findPosAs is as i = arrFindAs is as i vs ∧
    (Value.arr .array vs).getPath is as d (.pos j :: rest) = arrGet is as d j rest vs ∧
    (Value.arr .array vs).all is = arrAll is vs ∧
    (Value.arr .array vs).dumps indent = arrDumps vs indent ∧ (Value.arr .array vs).stream = arrStream vs ∧
    (Value.arr .array vs).eq (.arr .array ws) = arrEq vs ws ∧ (Value.arr .array vs).ne (.arr .array ws) = arrNe vs ws := by
  have hf : (Value.arr .array vs).findPos i = arrFind i vs := by
    simp only [findPos, arrFind, arrContains, arrIndex, Value.type, asArray]
    by_cases h : i < vs.length <;> simp [h]
  have he : (Value.arr .array vs).eq (.arr .array ws) = arrEq vs ws := by simp [Value.eq, arrEq, Value.type]
  refine ⟨rfl, rfl, rfl, hf, ?_, ?_, rfl, ?_, ?_, he, ?_⟩
  · unfold findPosAs arrFindAs; rw [hf]; rfl
  · simp only [getPath, arrGet, arrContains, arrIndex, Value.type, asArray]
    by_cases h : toSizeT j < vs.length <;> simp [h]
  · cases indent <;> simp [dumps, arrDumps, dumpTo, formatTo, arrToString, arrFormat]
  · simp [stream, arrStream, formatTo, arrFormat]
  · simp only [ne, arrNe, he]

/-- A `json::object` answers every question as the `json::value` that holds it. -/
theorem C58_object (ms ns : List (Bytes × Value)) (k : Bytes) (rest : List PathKey) (indent : Option Nat) (α : Type) (is : Value → Out Bool) (as : Value → Out α) (d : α) :
    (Value.obj .object ms).containsKey k = .ok (objContains k ms) ∧ (Value.obj .object ms).atKey k = objAt k ms ∧
    (Value.obj .object ms).findKey k = .ok (objFind k ms) ∧ (Value.obj .object ms).findKeyAs is as k = objFindAs is as k ms ∧
    (Value.obj .object ms).getPath is as d (.key k :: rest) = objGet is as d k rest ms ∧
    (Value.obj .object ms).all is = objAll is ms ∧
    (Value.obj .object ms).dumps indent = objDumps ms indent ∧ (Value.obj .object ms).stream = objStream ms ∧
    (Value.obj .object ms).eq (.obj .object ns) = objEq ms ns ∧ (Value.obj .object ms).ne (.obj .object ns) = objNe ms ns := by
  have he : (Value.obj .object ms).eq (.obj .object ns) = objEq ms ns := by simp [Value.eq, objEq, Value.type]
  refine ⟨rfl, rfl, rfl, ?_, ?_, rfl, ?_, ?_, he, ?_⟩
  · simp only [findKeyAs, objFindAs, objFind, findKey, Value.type, asObject]
    cases h : RawObject.find k ms <;> simp [h]
  · simp only [getPath, objGet, Value.type, asObject]
    cases h : RawObject.find k ms <;> simp [h]
  · cases indent <;> simp [dumps, objDumps, dumpTo, formatTo, objToString, objFormat]
  · simp [stream, objStream, formatTo, objFormat]
  · simp only [ne, objNe, he]

example : arrGet (fun v => .ok (decide (v.type = .string))) asString [] 0 [.key [0x6b]] [.obj .object [([0x6b], .str .string [0x78])]] = .ok [0x78] ∧
    arrFind 3 [.null] = .ok none ∧ arrAt 3 [.null] = .throw .outOfRange ∧ objContains [0x6b] [([0x6b], .null)] = true := by decide

private theorem arrAll_iff (is : Value → Out Bool) (vs : List Value) (h : ∀ x ∈ vs, ∃ b, is x = .ok b) :
    ∃ b, arrAll is vs = .ok b ∧ (b = true ↔ ∀ x ∈ vs, is x = .ok true) := by
  induction vs with
  | nil => exact ⟨true, rfl, by simp⟩
  | cons v vs ih =>
    obtain ⟨b, hb⟩ := h v (by simp)
    obtain ⟨b', h1, h2⟩ := ih fun x hx => h x (by simp [hx])
    cases b with
    | false => exact ⟨false, by simp [arrAll, hb], by simp [hb]⟩
    | true => exact ⟨b', by simp [arrAll, hb, h1], by simp [hb, h2]⟩

private theorem objAll_eq (is : Value → Out Bool) (ms : List (Bytes × Value)) : objAll is ms = arrAll is (ms.map Prod.snd) := by
  induction ms with
  | nil => rfl
  | cons m ms ih => obtain ⟨k, v⟩ := m; simp [objAll, arrAll, ih]

/-- `all<T>()` says whether the value is an array or object with nothing but `T` in it; it is true of an empty one and false of a scalar. -/
theorem C58_all (is : Value → Out Bool) (v : Value) (hv : v.Sound) (h : ∀ p x, Step v p x → ∃ b, is x = .ok b) :
    ∃ b, v.all is = .ok b ∧ (b = true ↔ v.IsContainer ∧ ∀ p x, Step v p x → is x = .ok true) := by
  cases sound_shape hv with
  | array vs _ =>
    have step : ∀ x, x ∈ vs ↔ ∃ p, Step (.arr .array vs) p x := by
      intro x
      constructor
      · intro hx
        obtain ⟨i, hi⟩ := List.mem_iff_getElem?.1 hx
        exact ⟨.pos i, .pos (by omega) (by simpa using hi)⟩
      · rintro ⟨p, hp⟩
        cases hp with
        | pos _ hp => exact List.mem_of_getElem? hp
    obtain ⟨b, h1, h2⟩ := arrAll_iff is vs fun x hx => by obtain ⟨p, hp⟩ := (step x).1 hx; exact h p x hp
    refine ⟨b, h1, h2.trans ⟨fun h => ⟨.inl rfl, fun p x hp => h x ((step x).2 ⟨p, hp⟩)⟩, fun h x hx => ?_⟩⟩
    obtain ⟨p, hp⟩ := (step x).1 hx
    exact h.2 p x hp
  | object ms _ _ =>
    have step : ∀ x, x ∈ ms.map Prod.snd ↔ ∃ p, Step (.obj .object ms) p x := by
      intro x
      constructor
      · intro hx
        obtain ⟨⟨k, y⟩, hk, rfl⟩ := List.mem_map.1 hx
        exact ⟨.key k, .key hk⟩
      · rintro ⟨p, hp⟩
        cases hp with
        | key hp => exact List.mem_map.2 ⟨_, hp, rfl⟩
    obtain ⟨b, h1, h2⟩ := arrAll_iff is (ms.map Prod.snd) fun x hx => by obtain ⟨p, hp⟩ := (step x).1 hx; exact h p x hp
    rw [← objAll_eq] at h1
    refine ⟨b, h1, h2.trans ⟨fun h => ⟨.inr rfl, fun p x hp => h x ((step x).2 ⟨p, hp⟩)⟩, fun h x hx => ?_⟩⟩
    obtain ⟨p, hp⟩ := (step x).1 hx
    exact h.2 p x hp
  | _ => exact ⟨false, rfl, by simp [IsContainer, Value.type, ofBool]⟩

example : (Value.arr .array [.ofBool true, .null]).all (fun v => .ok (decide (v.type = .boolean))) = .ok false ∧
    (Value.arr .array []).all (fun v => .ok (decide (v.type = .boolean))) = .ok true ∧ (Value.ofBool true).all (fun v => .ok (decide (v.type = .boolean))) = .ok false := by
  decide

/-- What `operator<<` writes to a stream `parse(stream)` reads back: the same value, with or without comments, with or without the check for a byte order mark. -/
theorem C58_stream (a : Accel) (v : Value) (hv : v.Json) (hc : v.IsContainer) (bom comments : Bool) :
    ∃ t, v.stream = .ok t ∧ (t.length < 2 ^ 62 → parseStream a.traits (.ofBytes t) bom comments = .ok (some v)) := by
  obtain ⟨t, h1, h2, h3⟩ := C09_roundtrip_indented a v hv hc 4
  refine ⟨t, h1, fun hl => ?_⟩
  have hb : ¬ [0xEF, 0xBB, 0xBF] <+: t := by
    rintro ⟨r, rfl⟩
    have := (C40_bom_rejected a r).1
    rw [show (0xEF :: 0xBB :: 0xBF :: r) = [0xEF, 0xBB, 0xBF] ++ r from rfl, h2] at this
    exact absurd this (by simp)
  rw [(C40_bom a t hl).2.2 bom comments hb]
  cases comments <;> simp [h2, h3]

example : Samples.value.Json ∧ Samples.value.IsContainer := ⟨Samples.value_json, .inr rfl⟩

end Meojson
