import Verif.Spec.Layout
import Verif.Spec.Work
import Verif.Proofs.Dump

/-!
# Lemmas: layout of serialised values
-/

set_option autoImplicit false

namespace Meojson
open Spec

/-- Not a bracket, comma, colon, quote or white space. -/
def PlainByte (c : UInt8) : Prop :=
  ¬ (c = 0x5d ∨ c = 0x7d) ∧ ¬ (c = 0x5b ∨ c = 0x7b) ∧ c ≠ 0x2c ∧ c ≠ 0x3a ∧ c ≠ 0x22 ∧ ¬ (c = 0x20 ∨ c = 0x09 ∨ c = 0x0a ∨ c = 0x0d)

instance (c : UInt8) : Decidable (PlainByte c) := by unfold PlainByte; infer_instance

theorem number_plain {t : Text} (h : Number t) : t ≠ [] ∧ ∀ c ∈ t, PlainByte c := by
  have hd : ∀ c : UInt8, Digit c → PlainByte c := by
    apply uint8_forall
    unfold Digit
    decide +kernel
  obtain ⟨sign, i, f, e, hs, hi, hf, he, rfl⟩ := h
  constructor
  · rcases hi with rfl | ⟨⟨h, -⟩, -⟩ <;> simp_all
  intro c hc
  simp only [List.mem_append] at hc
  rcases hc with ((hc | hc) | hc) | hc
  · rcases hs with rfl | rfl
    · simp at hc
    · simp at hc; subst hc; decide
  · rcases hi with rfl | ⟨⟨-, hi⟩, -⟩
    · simp at hc; subst hc; decide
    · exact hd c (hi c hc)
  · rcases hf with rfl | ⟨ds, ⟨-, hds⟩, rfl⟩
    · simp at hc
    · rcases List.mem_cons.1 hc with rfl | hc
      · decide
      · exact hd c (hds c hc)
  · rcases he with rfl | ⟨x, sg, ds, hx, hsg, ⟨-, hds⟩, rfl⟩
    · simp at hc
    · rcases List.mem_cons.1 hc with rfl | hc
      · rcases hx with rfl | rfl <;> decide
      · rcases List.mem_append.1 hc with hc | hc
        · rcases hsg with rfl | rfl | rfl <;> simp at hc <;> subst hc <;> decide
        · exact hd c (hds c hc)

section Layout
variable (n : Nat)

theorem layout_tail (d : Nat) : ∀ (t rest : Bytes), (∀ c ∈ t, PlainByte c) → layout n d (.code false) (t ++ rest) = t ++ layout n d (.code false) rest
  | [], rest, _ => rfl
  | c :: t, rest, h => by
    have hc := h c (by simp)
    have ih := layout_tail d t rest fun x hx => h x (by simp [hx])
    simp [layout, hc.1, hc.2.1, hc.2.2.1, hc.2.2.2.1, hc.2.2.2.2.1, ih]

theorem layout_plain (d : Nat) (b : Bool) (t rest : Bytes) (h0 : t ≠ []) (h : ∀ c ∈ t, PlainByte c) :
    layout n d (.code b) (t ++ rest) = (if b then margin n d else []) ++ t ++ layout n d (.code false) rest := by
  cases t with
  | nil => exact absurd rfl h0
  | cons c t =>
    have hc := h c (by simp)
    have ih := layout_tail n d t rest fun x hx => h x (by simp [hx])
    simp [layout, hc.1, hc.2.1, hc.2.2.1, hc.2.2.2.1, hc.2.2.2.2.1, ih]

theorem layout_close (d : Nat) (c : UInt8) (rest : Bytes) (hc : c = 0x5d ∨ c = 0x7d) :
    layout n (d + 1) (.code false) (c :: rest) = 0x0a :: (margin n d ++ c :: layout n d (.code false) rest) := by
  simp [layout, hc]

theorem layout_comma (d : Nat) (rest : Bytes) : layout n d (.code false) (0x2c :: rest) = 0x2c :: 0x0a :: layout n d (.code true) rest := by simp [layout]

theorem layout_colon (d : Nat) (rest : Bytes) : layout n d (.code false) (0x3a :: rest) = 0x3a :: 0x20 :: layout n d (.code false) rest := by simp [layout]

end Layout

theorem escByte_shape : ∀ c : UInt8, (escByte c = [c] ∧ c ≠ 0x22 ∧ c ≠ 0x5c) ∨
    (∃ e ∈ [0x22, 0x5c, 0x62, 0x66, 0x6e, 0x72, 0x74], escByte c = [0x5c, e]) ∨
    ∃ a ∈ escByte c, ∃ b ∈ escByte c, escByte c = [0x5c, 0x75, 0x30, 0x30, a, b] ∧ a ≠ 0x22 ∧ a ≠ 0x5c ∧ b ≠ 0x22 ∧ b ≠ 0x5c := by
  apply uint8_forall
  decide +kernel

theorem layout_escape (n d : Nat) (s rest : Bytes) : layout n d .text (escapeString s ++ rest) = escapeString s ++ layout n d .text rest := by
  rw [escapeString_eq]
  induction s with
  | nil => rfl
  | cons c s ih =>
    rw [List.flatMap_cons, List.append_assoc, List.append_assoc, ← ih]
    rcases escByte_shape c with ⟨h, h1, h2⟩ | ⟨e, -, h⟩ | ⟨a, -, b, -, h, h1, h2, h3, h4⟩
    · simp [h, layout, h1, h2]
    · simp [h, layout]
    · simp [h, layout, h1, h2, h3, h4]

theorem layout_string (n d : Nat) (b : Bool) (s rest : Bytes) :
    layout n d (.code b) (0x22 :: (escapeString s ++ 0x22 :: rest)) =
      (if b then margin n d else []) ++ 0x22 :: (escapeString s ++ 0x22 :: layout n d (.code false) rest) := by
  simp [layout, layout_escape]

theorem spaces_margin {n i : Nat} (h : n * i < 2 ^ 64) : spaces n i = margin n i := by
  simp [spaces, margin, Nat.mod_eq_of_lt h]

open Value in
mutual
theorem layout_value (n : Nat) : ∀ (v : Value) (d : Nat), v.Json → n * (d + v.nesting) < 2 ^ 64 →
    ∃ t f, v.dumpTo = .ok t ∧ v.formatTo n d = .ok f ∧
      ∀ b rest, layout n d (.code b) (t ++ rest) = (if b then margin n d else []) ++ f ++ layout n d (.code false) rest
  | .str ty s, d, h, _ => by
    cases ty with
    | invalid => exact absurd h.1 id
    | null => exact ⟨_, _, by simp only [dumpTo] <;> rfl, by simp only [formatTo, dumpTo] <;> rfl, fun b rest => layout_plain n d b _ rest (by simp) (by decide)⟩
    | boolean =>
      refine ⟨_, _, by simp only [dumpTo] <;> rfl, by simp only [formatTo, dumpTo] <;> rfl, fun b rest => layout_plain n d b _ rest ?_ ?_⟩
      · rcases h with rfl | rfl <;> simp
      · rcases h with rfl | rfl <;> decide
    | string =>
      refine ⟨_, _, by simp only [dumpTo] <;> rfl, by simp only [formatTo, dumpTo] <;> rfl, fun b rest => ?_⟩
      have := layout_string n d b s rest
      simpa using this
    | number =>
      obtain ⟨h1, h2⟩ := number_plain h
      exact ⟨_, _, by simp only [dumpTo] <;> rfl, by simp only [formatTo, dumpTo] <;> rfl, fun b rest => layout_plain n d b _ rest h1 h2⟩
    | array => exact absurd h id
    | object => exact absurd h id
  | .arr ty vs, d, h, hn => by
    cases ty with
    | array =>
      simp only [Value.Json, Value.Wf] at h
      simp only [nesting] at hn
      obtain ⟨t, f, h1, h2, h3⟩ := layout_elems n vs d h (by rw [← Nat.add_assoc, Nat.add_right_comm] at hn; exact hn)
      refine ⟨_, _, by simp only [dumpTo, h1, Out.bind_ok]; rfl, by simp only [formatTo, h2, Out.bind_ok]; rfl, fun b rest => ?_⟩
      have := h3 0x5d rest (by decide)
      rw [spaces_margin (Nat.lt_of_le_of_lt (Nat.mul_le_mul_left n (by omega)) hn)]
      simp [layout, this]
    | _ => exact absurd h id
  | .arrNull ty, _, h, _ => by cases ty <;> exact absurd h id
  | .obj ty ms, d, h, hn => by
    cases ty with
    | object =>
      simp only [Value.Json, Value.Wf] at h
      simp only [nesting] at hn
      obtain ⟨t, f, h1, h2, h3⟩ := layout_members n ms d h.2 (by rw [← Nat.add_assoc, Nat.add_right_comm] at hn; exact hn)
      refine ⟨_, _, by simp only [dumpTo, h1, Out.bind_ok]; rfl, by simp only [formatTo, h2, Out.bind_ok]; rfl, fun b rest => ?_⟩
      have := h3 0x7d rest (by decide)
      rw [spaces_margin (Nat.lt_of_le_of_lt (Nat.mul_le_mul_left n (by omega)) hn)]
      simp [layout, this]
    | _ => exact absurd h id
  | .objNull ty, _, h, _ => by cases ty <;> exact absurd h id
theorem layout_elems (n : Nat) : ∀ (vs : List Value) (d : Nat), WfAll Number False vs → n * (d + 1 + nestingAll vs) < 2 ^ 64 →
    ∃ t f, dumpElems vs = .ok t ∧ formatElems n d vs = .ok f ∧
      ∀ c rest, c = 0x5d ∨ c = 0x7d → layout n (d + 1) (.code true) (t ++ c :: rest) = f ++ margin n d ++ c :: layout n d (.code false) rest
  | [], d, _, _ => ⟨[], [], by simp only [dumpElems], by simp only [formatElems], fun c rest hc => by rcases hc with rfl | rfl <;> simp [layout]⟩
  | v :: vs, d, h, hn => by
    simp only [WfAll] at h
    simp only [nestingAll] at hn
    obtain ⟨t, f, h1, h2, h3⟩ := layout_value n v (d + 1) h.1 (Nat.lt_of_le_of_lt (Nat.mul_le_mul_left n (by omega)) hn)
    obtain ⟨ts, fs, h4, h5, h6⟩ := layout_elems n vs d h.2 (Nat.lt_of_le_of_lt (Nat.mul_le_mul_left n (by omega)) hn)
    have hs := spaces_margin (n := n) (i := d + 1) (Nat.lt_of_le_of_lt (Nat.mul_le_mul_left n (by omega)) hn)
    refine ⟨_, _, by simp only [dumpElems, h1, h4, Out.bind_ok]; rfl, by simp only [formatElems, h2, h5, Out.bind_ok]; rfl, fun c rest hc => ?_⟩
    cases vs with
    | nil =>
      simp only [dumpElems] at h4
      simp only [formatElems] at h5
      cases h4; cases h5
      have := h3 true (c :: rest)
      rw [hs]
      rcases hc with rfl | rfl <;> simp [layout, this]
    | cons w vs =>
      have e := h6 c rest hc
      have := h3 true (0x2c :: (ts ++ c :: rest))
      rw [hs]
      simp [layout, e] at this
      simp [this]
theorem layout_members (n : Nat) : ∀ (ms : List (Bytes × Value)) (d : Nat), WfMembers Number False ms → n * (d + 1 + nestingMembers ms) < 2 ^ 64 →
    ∃ t f, dumpMembers ms = .ok t ∧ formatMembers n d ms = .ok f ∧
      ∀ c rest, c = 0x5d ∨ c = 0x7d → layout n (d + 1) (.code true) (t ++ c :: rest) = f ++ margin n d ++ c :: layout n d (.code false) rest
  | [], d, _, _ => ⟨[], [], by simp only [dumpMembers], by simp only [formatMembers], fun c rest hc => by rcases hc with rfl | rfl <;> simp [layout]⟩
  | (k, v) :: ms, d, h, hn => by
    simp only [WfMembers] at h
    simp only [nestingMembers] at hn
    obtain ⟨t, f, h1, h2, h3⟩ := layout_value n v (d + 1) h.1 (Nat.lt_of_le_of_lt (Nat.mul_le_mul_left n (by omega)) hn)
    obtain ⟨ts, fs, h4, h5, h6⟩ := layout_members n ms d h.2 (Nat.lt_of_le_of_lt (Nat.mul_le_mul_left n (by omega)) hn)
    have hs := spaces_margin (n := n) (i := d + 1) (Nat.lt_of_le_of_lt (Nat.mul_le_mul_left n (by omega)) hn)
    refine ⟨_, _, by simp only [dumpMembers, h1, h4, Out.bind_ok]; rfl, by simp only [formatMembers, h2, h5, Out.bind_ok]; rfl, fun c rest hc => ?_⟩
    have hk := fun rest => layout_string n (d + 1) true k rest
    cases ms with
    | nil =>
      simp only [dumpMembers] at h4
      simp only [formatMembers] at h5
      cases h4; cases h5
      have e := h3 false (c :: rest)
      rw [layout_close n d c rest hc] at e
      have hk := hk (0x3a :: (t ++ c :: rest))
      rw [layout_colon, e] at hk
      simpa [hs] using hk
    | cons w ms =>
      have e := h3 false (0x2c :: (ts ++ c :: rest))
      rw [layout_comma, h6 c rest hc] at e
      have hk := hk (0x3a :: (t ++ 0x2c :: (ts ++ c :: rest)))
      rw [layout_colon, e] at hk
      simpa [hs] using hk
end


theorem squeeze_plain (b : Bool) : ∀ (t rest : Bytes), (∀ c ∈ t, c ≠ 0x22 ∧ ¬ (c = 0x20 ∨ c = 0x09 ∨ c = 0x0a ∨ c = 0x0d)) → squeeze (.code b) (t ++ rest) = t ++ squeeze (.code b) rest
  | [], rest, _ => rfl
  | c :: t, rest, h => by
    have hc := h c (by simp)
    have ih := squeeze_plain b t rest fun x hx => h x (by simp [hx])
    simp [squeeze, hc.1, hc.2, ih]

theorem squeeze_white (b : Bool) : ∀ (t rest : Bytes), (∀ c ∈ t, c = 0x20 ∨ c = 0x09 ∨ c = 0x0a ∨ c = 0x0d) → squeeze (.code b) (t ++ rest) = squeeze (.code b) rest
  | [], rest, _ => rfl
  | c :: t, rest, h => by
    have hc := h c (by simp)
    have ih := squeeze_white b t rest fun x hx => h x (by simp [hx])
    simp [squeeze, hc, ih]

theorem squeeze_spaces (b : Bool) (n i : Nat) (rest : Bytes) : squeeze (.code b) (spaces n i ++ rest) = squeeze (.code b) rest :=
  squeeze_white b _ rest fun c hc => by
    simp only [spaces, List.mem_replicate] at hc
    exact .inl hc.2

theorem squeeze_escape (s rest : Bytes) : squeeze .text (escapeString s ++ rest) = escapeString s ++ squeeze .text rest := by
  rw [escapeString_eq]
  induction s with
  | nil => rfl
  | cons c s ih =>
    rw [List.flatMap_cons, List.append_assoc, List.append_assoc, ← ih]
    rcases escByte_shape c with ⟨h, h1, h2⟩ | ⟨e, -, h⟩ | ⟨a, -, b, -, h, h1, h2, h3, h4⟩
    · simp [h, squeeze, h1, h2]
    · simp [h, squeeze]
    · simp [h, squeeze, h1, h2, h3, h4]

theorem squeeze_string (s rest : Bytes) :
    squeeze (.code false) (0x22 :: (escapeString s ++ 0x22 :: rest)) = 0x22 :: (escapeString s ++ 0x22 :: squeeze (.code false) rest) := by
  simp [squeeze, squeeze_escape]

theorem squeeze_mark (c : UInt8) (rest : Bytes) (hc : c = 0x5b ∨ c = 0x5d ∨ c = 0x7b ∨ c = 0x7d ∨ c = 0x2c ∨ c = 0x3a) :
    squeeze (.code false) (c :: rest) = c :: squeeze (.code false) rest := by
  rcases hc with rfl | rfl | rfl | rfl | rfl | rfl <;> simp [squeeze]

theorem squeeze_lf (rest : Bytes) : squeeze (.code false) (0x0a :: rest) = squeeze (.code false) rest := by simp [squeeze]
theorem squeeze_sp (rest : Bytes) : squeeze (.code false) (0x20 :: rest) = squeeze (.code false) rest := by simp [squeeze]

open Value in
mutual
theorem squeeze_value (n : Nat) : ∀ (v : Value) (d : Nat), v.Json →
    ∃ t f, v.dumpTo = .ok t ∧ v.formatTo n d = .ok f ∧
      ∀ rest, squeeze (.code false) (t ++ rest) = t ++ squeeze (.code false) rest ∧ squeeze (.code false) (f ++ rest) = t ++ squeeze (.code false) rest
  | .str ty s, d, h => by
    cases ty with
    | invalid => exact absurd h.1 id
    | null =>
      refine ⟨_, _, by simp only [dumpTo] <;> rfl, by simp only [formatTo, dumpTo] <;> rfl, fun rest => ?_⟩
      have := squeeze_plain false [0x6e, 0x75, 0x6c, 0x6c] rest (by decide)
      exact ⟨this, this⟩
    | boolean =>
      refine ⟨_, _, by simp only [dumpTo] <;> rfl, by simp only [formatTo, dumpTo] <;> rfl, fun rest => ?_⟩
      have := squeeze_plain false s rest (by rcases h with rfl | rfl <;> decide)
      exact ⟨this, this⟩
    | string =>
      refine ⟨_, _, by simp only [dumpTo] <;> rfl, by simp only [formatTo, dumpTo] <;> rfl, fun rest => ?_⟩
      have := squeeze_string s rest
      constructor <;> simpa using this
    | number =>
      obtain ⟨-, h2⟩ := number_plain h
      refine ⟨_, _, by simp only [dumpTo] <;> rfl, by simp only [formatTo, dumpTo] <;> rfl, fun rest => ?_⟩
      have := squeeze_plain false s rest fun c hc => ⟨(h2 c hc).2.2.2.2.1, (h2 c hc).2.2.2.2.2⟩
      exact ⟨this, this⟩
    | array => exact absurd h id
    | object => exact absurd h id
  | .arr ty vs, d, h => by
    cases ty with
    | array =>
      simp only [Value.Json, Value.Wf] at h
      obtain ⟨t, f, h1, h2, h3⟩ := squeeze_elems n vs d h
      refine ⟨_, _, by simp only [dumpTo, h1, Out.bind_ok]; rfl, by simp only [formatTo, h2, Out.bind_ok]; rfl, fun rest => ⟨?_, ?_⟩⟩
      · have := (h3 (0x5d :: rest)).1
        simp [squeeze_mark, this]
      · have := (h3 (spaces n d ++ 0x5d :: rest)).2
        simp [squeeze_mark, squeeze_lf, squeeze_spaces, this]
    | _ => exact absurd h id
  | .arrNull ty, _, h => by cases ty <;> exact absurd h id
  | .obj ty ms, d, h => by
    cases ty with
    | object =>
      simp only [Value.Json, Value.Wf] at h
      obtain ⟨t, f, h1, h2, h3⟩ := squeeze_members n ms d h.2
      refine ⟨_, _, by simp only [dumpTo, h1, Out.bind_ok]; rfl, by simp only [formatTo, h2, Out.bind_ok]; rfl, fun rest => ⟨?_, ?_⟩⟩
      · have := (h3 (0x7d :: rest)).1
        simp [squeeze_mark, this]
      · have := (h3 (spaces n d ++ 0x7d :: rest)).2
        simp [squeeze_mark, squeeze_lf, squeeze_spaces, this]
    | _ => exact absurd h id
  | .objNull ty, _, h => by cases ty <;> exact absurd h id
theorem squeeze_elems (n : Nat) : ∀ (vs : List Value) (d : Nat), WfAll Number False vs →
    ∃ t f, dumpElems vs = .ok t ∧ formatElems n d vs = .ok f ∧
      ∀ rest, squeeze (.code false) (t ++ rest) = t ++ squeeze (.code false) rest ∧ squeeze (.code false) (f ++ rest) = t ++ squeeze (.code false) rest
  | [], d, _ => ⟨[], [], by simp only [dumpElems], by simp only [formatElems], fun rest => by simp⟩
  | v :: vs, d, h => by
    simp only [WfAll] at h
    obtain ⟨t, f, h1, h2, h3⟩ := squeeze_value n v (d + 1) h.1
    obtain ⟨ts, fs, h4, h5, h6⟩ := squeeze_elems n vs d h.2
    refine ⟨_, _, by simp only [dumpElems, h1, h4, Out.bind_ok]; rfl, by simp only [formatElems, h2, h5, Out.bind_ok]; rfl, fun rest => ?_⟩
    cases vs with
    | nil =>
      simp only [dumpElems] at h4
      simp only [formatElems] at h5
      cases h4; cases h5
      simp [(h3 rest).1, (h3 (0x0a :: rest)).2, squeeze_lf, squeeze_spaces]
    | cons w vs =>
      simp [(h3 (0x2c :: (ts ++ rest))).1, (h3 (0x2c :: 0x0a :: (fs ++ rest))).2, (h6 rest).1, (h6 rest).2, squeeze_lf, squeeze_spaces, squeeze_mark]
theorem squeeze_members (n : Nat) : ∀ (ms : List (Bytes × Value)) (d : Nat), WfMembers Number False ms →
    ∃ t f, dumpMembers ms = .ok t ∧ formatMembers n d ms = .ok f ∧
      ∀ rest, squeeze (.code false) (t ++ rest) = t ++ squeeze (.code false) rest ∧ squeeze (.code false) (f ++ rest) = t ++ squeeze (.code false) rest
  | [], d, _ => ⟨[], [], by simp only [dumpMembers], by simp only [formatMembers], fun rest => by simp⟩
  | (k, v) :: ms, d, h => by
    simp only [WfMembers] at h
    obtain ⟨t, f, h1, h2, h3⟩ := squeeze_value n v (d + 1) h.1
    obtain ⟨ts, fs, h4, h5, h6⟩ := squeeze_members n ms d h.2
    refine ⟨_, _, by simp only [dumpMembers, h1, h4, Out.bind_ok]; rfl, by simp only [formatMembers, h2, h5, Out.bind_ok]; rfl, fun rest => ?_⟩
    cases ms with
    | nil =>
      simp only [dumpMembers] at h4
      simp only [formatMembers] at h5
      cases h4; cases h5
      simp [(h3 rest).1, (h3 (0x0a :: rest)).2, squeeze_lf, squeeze_sp, squeeze_spaces, squeeze_string, squeeze_mark]
    | cons w ms =>
      simp [(h3 (0x2c :: (ts ++ rest))).1, (h3 (0x2c :: 0x0a :: (fs ++ rest))).2, (h6 rest).1, (h6 rest).2, squeeze_lf, squeeze_sp, squeeze_spaces, squeeze_string, squeeze_mark]
end

end Meojson
