import Verif.Proofs.Escape
import Verif.Proofs.Map
import Verif.Proofs.Num

/-!
# Lemmas: what `dumps` and `format` write
-/

set_option autoImplicit false

namespace Meojson
open Spec

/-- A text and the document it spells, whose value is `v`. -/
def Spells (t : Text) (v : Value) : Prop := ∃ j, Val rfc8259 t j ∧ j.toValue = v

theorem ws_nil : Ws [] := by intro c h; simp at h

theorem ws_spaces (n k : Nat) : Ws (spaces n k) := by
  intro c h
  simp only [spaces, List.mem_replicate] at h
  exact .inl h.2

theorem ws_append {a b : Text} (ha : Ws a) (hb : Ws b) : Ws (a ++ b) := by
  intro c h
  rcases List.mem_append.1 h with h | h
  · exact ha c h
  · exact hb c h

theorem ws_lf : Ws [0x0a] := by
  intro c h; simp at h; subst h; exact .inr (.inr (.inl rfl))

theorem toMembers_length (ms : List (Text × Doc)) : (Doc.toMembers ms).map Prod.fst = ms.map Prod.fst := by
  induction ms with
  | nil => rfl
  | cons m ms ih => obtain ⟨k, j⟩ := m; simp [Doc.toMembers, ih]

/-- An object is written as its members in ascending order. -/
theorem spells_obj {t : Text} {ms : List (Text × Doc)} {vs : List (Bytes × Value)} (h : Members rfc8259 t ms) (e : Doc.toMembers ms = vs)
    (hs : vs.Pairwise fun a b => a.1 < b.1) : Spells (0x7b :: (t ++ [0x7d])) (.obj .object vs) := by
  have hs' : RawObject.Sorted (Doc.toMembers ms) := e ▸ hs
  refine ⟨.obj ms, .obj h fun _ => ?_, ?_⟩
  · rw [← toMembers_length]; exact hs'.nodup
  · simp only [Doc.toValue]; rw [sortMembers_of_sorted hs', e]

mutual
theorem dumpTo_spells : ∀ v : Value, v.Json → ∃ t, v.dumpTo = .ok t ∧ Spells t v
  | .str ty s, h => by
    cases ty with
    | invalid => exact absurd h.1 id
    | null => cases h; exact ⟨_, by simp only [Value.dumpTo], .null, .null, by simp only [Doc.toValue]⟩
    | boolean =>
      rcases h with rfl | rfl
      · exact ⟨_, by simp only [Value.dumpTo], .bool true, .true, by simp only [Doc.toValue]⟩
      · exact ⟨_, by simp only [Value.dumpTo], .bool false, .false, by simp only [Doc.toValue]⟩
    | string => exact ⟨_, by simp only [Value.dumpTo]; rfl, .str s, .str (escape_str s), by simp only [Doc.toValue]⟩
    | number => exact ⟨_, by simp only [Value.dumpTo], .num s, .num h, by simp only [Doc.toValue]⟩
    | array => exact absurd h id
    | object => exact absurd h id
  | .arr ty vs, h => by
    cases ty with
    | array =>
      simp only [Value.Json, Value.Wf] at h
      cases vs with
      | nil => exact ⟨_, by simp only [Value.dumpTo, Value.dumpElems, Out.bind_ok]; rfl, .arr [], .arrEmpty ws_nil, by simp only [Doc.toValue, Doc.toValues]⟩
      | cons v vs =>
        obtain ⟨t, js, h1, h2, h3⟩ := dumpElems_spells (v :: vs) h (by simp)
        exact ⟨_, by simp only [Value.dumpTo, h1, Out.bind_ok]; rfl, .arr js, .arr h2, by simp only [Doc.toValue, h3]⟩
    | _ => exact absurd h id
  | .arrNull ty, h => by cases ty <;> exact absurd h id
  | .obj ty ms, h => by
    cases ty with
    | object =>
      simp only [Value.Json, Value.Wf] at h
      obtain ⟨hs, h⟩ := h
      cases ms with
      | nil =>
        exact ⟨_, by simp only [Value.dumpTo, Value.dumpMembers, Out.bind_ok]; rfl, .obj [], .objEmpty ws_nil, by
          simp only [Doc.toValue, Doc.toMembers, sortMembers_of_sorted RawObject.Sorted.nil]⟩
      | cons m ms =>
        obtain ⟨t, js, h1, h2, h3⟩ := dumpMembers_spells (m :: ms) h (by simp)
        exact ⟨_, by simp only [Value.dumpTo, h1, Out.bind_ok]; rfl, spells_obj h2 h3 hs⟩
    | _ => exact absurd h id
  | .objNull ty, h => by cases ty <;> exact absurd h id
theorem dumpElems_spells : ∀ vs : List Value, Value.WfAll Number False vs → vs ≠ [] →
    ∃ t js, Value.dumpElems vs = .ok t ∧ Elems rfc8259 t js ∧ Doc.toValues js = vs
  | [], _, h => absurd rfl h
  | v :: vs, h, _ => by
    simp only [Value.WfAll] at h
    obtain ⟨t, h1, j, h2, h3⟩ := dumpTo_spells v h.1
    cases vs with
    | nil =>
      refine ⟨t, [j], by simp [Value.dumpElems, h1], ?_, by simp only [Doc.toValues, h3]⟩
      simpa using Elems.last (D := rfc8259) ws_nil h2 ws_nil
    | cons w vs =>
      obtain ⟨ts, js, h4, h5, h6⟩ := dumpElems_spells (w :: vs) h.2 (by simp)
      refine ⟨t ++ 0x2c :: ts, j :: js, by rw [Value.dumpElems, h1, h4]; simp, ?_, by simp only [Doc.toValues, h3, h6]⟩
      simpa using Elems.cons (D := rfc8259) ws_nil h2 ws_nil h5
theorem dumpMembers_spells : ∀ ms : List (Bytes × Value), Value.WfMembers Number False ms → ms ≠ [] →
    ∃ t js, Value.dumpMembers ms = .ok t ∧ Members rfc8259 t js ∧ Doc.toMembers js = ms
  | [], _, h => absurd rfl h
  | (k, v) :: ms, h, _ => by
    simp only [Value.WfMembers] at h
    obtain ⟨t, h1, j, h2, h3⟩ := dumpTo_spells v h.1
    cases ms with
    | nil =>
      refine ⟨_, [(k, j)], by simp only [Value.dumpMembers, h1, Out.bind_ok]; rfl, ?_, by simp only [Doc.toMembers, h3]⟩
      simpa using Members.last (D := rfc8259) ws_nil (escape_str k) ws_nil ws_nil h2 ws_nil
    | cons w ms =>
      obtain ⟨ts, js, h4, h5, h6⟩ := dumpMembers_spells (w :: ms) h.2 (by simp)
      refine ⟨_, (k, j) :: js, by rw [Value.dumpMembers, h1, h4, Out.bind_ok, Out.bind_ok], ?_, by simp only [Doc.toMembers, h3, h6]⟩
      simpa using Members.cons (D := rfc8259) ws_nil (escape_str k) ws_nil ws_nil h2 ws_nil h5
end

theorem spells_pad {n : Nat} {ty : VType} {s : Bytes} (i : Nat) (h : (Value.str ty s).Json) :
    ∃ t, (Value.str ty s).formatTo n i = .ok t ∧ Spells t (.str ty s) := by
  obtain ⟨t, h1, h2⟩ := dumpTo_spells _ h
  refine ⟨t, ?_, h2⟩
  cases ty <;> first | exact absurd h id | (simpa only [Value.formatTo] using h1)

mutual
theorem formatTo_spells (n : Nat) : ∀ (v : Value) (i : Nat), v.Json → ∃ t, v.formatTo n i = .ok t ∧ Spells t v
  | .str ty s, i, h => spells_pad i h
  | .arr ty vs, i, h => by
    cases ty with
    | array =>
      simp only [Value.Json, Value.Wf] at h
      cases vs with
      | nil =>
        refine ⟨_, by simp only [Value.formatTo, Value.formatElems, Out.bind_ok]; rfl, .arr [], ?_, by simp only [Doc.toValue, Doc.toValues]⟩
        simpa using Val.arrEmpty (D := rfc8259) (ws_append ws_lf (ws_spaces n i))
      | cons v vs =>
        obtain ⟨t, js, h1, h2, h3⟩ := formatElems_spells n (v :: vs) i h (by simp)
        refine ⟨_, by simp only [Value.formatTo, h1, Out.bind_ok]; rfl, .arr js, ?_, by simp only [Doc.toValue, h3]⟩
        simpa using Val.arr (D := rfc8259) (h2 [0x0a] (spaces n i) ws_lf (ws_spaces n i))
    | _ => exact absurd h id
  | .arrNull ty, _, h => by cases ty <;> exact absurd h id
  | .obj ty ms, i, h => by
    cases ty with
    | object =>
      simp only [Value.Json, Value.Wf] at h
      obtain ⟨hs, h⟩ := h
      cases ms with
      | nil =>
        refine ⟨_, by simp only [Value.formatTo, Value.formatMembers, Out.bind_ok]; rfl, .obj [], ?_, by
          simp only [Doc.toValue, Doc.toMembers, sortMembers_of_sorted RawObject.Sorted.nil]⟩
        simpa using Val.objEmpty (D := rfc8259) (ws_append ws_lf (ws_spaces n i))
      | cons m ms =>
        obtain ⟨t, js, h1, h2, h3⟩ := formatMembers_spells n (m :: ms) i h (by simp)
        refine ⟨_, by simp only [Value.formatTo, h1, Out.bind_ok]; rfl, ?_⟩
        simpa using spells_obj (h2 [0x0a] (spaces n i) ws_lf (ws_spaces n i)) h3 hs
    | _ => exact absurd h id
  | .objNull ty, _, h => by cases ty <;> exact absurd h id
theorem formatElems_spells (n : Nat) : ∀ (vs : List Value) (i : Nat), Value.WfAll Number False vs → vs ≠ [] →
    ∃ t js, Value.formatElems n i vs = .ok t ∧ (∀ w w', Ws w → Ws w' → Elems rfc8259 (w ++ t ++ w') js) ∧ Doc.toValues js = vs
  | [], _, _, h => absurd rfl h
  | v :: vs, i, h, _ => by
    simp only [Value.WfAll] at h
    obtain ⟨t, h1, j, h2, h3⟩ := formatTo_spells n v (i + 1) h.1
    cases vs with
    | nil =>
      refine ⟨_, [j], by simp only [Value.formatElems, h1, Out.bind_ok]; rfl, fun w w' hw hw' => ?_, by simp only [Doc.toValues, h3]⟩
      simpa using Elems.last (D := rfc8259) (ws_append hw (ws_spaces n (i + 1))) h2 (ws_append ws_lf hw')
    | cons v' vs =>
      obtain ⟨ts, js, h4, h5, h6⟩ := formatElems_spells n (v' :: vs) i h.2 (by simp)
      refine ⟨_, j :: js, by rw [Value.formatElems, h1, h4, Out.bind_ok, Out.bind_ok], fun w w' hw hw' => ?_, by simp only [Doc.toValues, h3, h6]⟩
      simpa using Elems.cons (D := rfc8259) (ws_append hw (ws_spaces n (i + 1))) h2 ws_nil (h5 [0x0a] w' ws_lf hw')
theorem formatMembers_spells (n : Nat) : ∀ (ms : List (Bytes × Value)) (i : Nat), Value.WfMembers Number False ms → ms ≠ [] →
    ∃ t js, Value.formatMembers n i ms = .ok t ∧ (∀ w w', Ws w → Ws w' → Members rfc8259 (w ++ t ++ w') js) ∧ Doc.toMembers js = ms
  | [], _, _, h => absurd rfl h
  | (k, v) :: ms, i, h, _ => by
    simp only [Value.WfMembers] at h
    obtain ⟨t, h1, j, h2, h3⟩ := formatTo_spells n v (i + 1) h.1
    have hsp : Ws [0x20] := by intro c h; simp at h; exact .inl h
    cases ms with
    | nil =>
      refine ⟨_, [(k, j)], by simp only [Value.formatMembers, h1, Out.bind_ok]; rfl, fun w w' hw hw' => ?_, by simp only [Doc.toMembers, h3]⟩
      simpa using Members.last (D := rfc8259) (ws_append hw (ws_spaces n (i + 1))) (escape_str k) ws_nil hsp h2 (ws_append ws_lf hw')
    | cons m' ms =>
      obtain ⟨ts, js, h4, h5, h6⟩ := formatMembers_spells n (m' :: ms) i h.2 (by simp)
      refine ⟨_, (k, j) :: js, by rw [Value.formatMembers, h1, h4, Out.bind_ok, Out.bind_ok], fun w w' hw hw' => ?_, by simp only [Doc.toMembers, h3, h6]⟩
      simpa using Members.cons (D := rfc8259) (ws_append hw (ws_spaces n (i + 1))) (escape_str k) ws_nil hsp h2 ws_nil (h5 [0x0a] w' ws_lf hw')
end

theorem dumps_spells {v : Value} (h : v.Json) (indent : Option Nat) : ∃ t, v.dumps indent = .ok t ∧ Spells t v := by
  cases indent with
  | none => exact dumpTo_spells v h
  | some n => exact formatTo_spells n v 0 h

end Meojson
