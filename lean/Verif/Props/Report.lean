import Verif.Model.Report
import Verif.Props.Utf8Text
import Verif.Proofs.Access
import Verif.Proofs.Integer

/-!
# C59: what an exception says about a value
-/

set_option autoImplicit false

namespace Meojson
open Spec Value

/-- The word for a type. -/
def VType.word : VType → Bytes
  | .invalid => ascii "invalid"
  | .null => ascii "null"
  | .boolean => ascii "boolean"
  | .string => ascii "string"
  | .number => ascii "number"
  | .array => ascii "array"
  | .object => ascii "object"

/-- `type_name()` is the word for the type, with every compiler. -/
theorem C59_type_name (c : Compiler) (v : Value) : v.typeName c = .ok v.type.word := by
  have key : ∀ t : VType, (((valueTypeDecl.toEnum c).toString t.num).bind fun name => Out.ok (if name.isEmpty then ascii "unknown" else name)) = .ok t.word := by
    intro t
    cases c <;> cases t <;> decide +kernel
  exact key v.type

/-- `value_info()` is `type=`, the word, and: for a boolean, number or string `, value=` and what `dumps()` writes, cut after 100 bytes; for an array or object `, size=` and
the number of elements in decimal. -/
theorem C59_info (c : Compiler) (v : Value) (hv : v.Sound) :
    (v.type = .null ∨ v.type = .invalid → v.infoText c = .ok (ascii "type=" ++ v.type.word)) ∧
    (v.type = .boolean ∨ v.type = .number ∨ v.type = .string → ∃ t, v.dumps = .ok t ∧
      (t.length ≤ 100 → v.infoText c = .ok (ascii "type=" ++ v.type.word ++ ascii ", value=" ++ t)) ∧
      (100 < t.length → v.infoText c = .ok (ascii "type=" ++ v.type.word ++ ascii ", value=" ++ t.take 100 ++ ascii "..."))) ∧
    (∀ vs, v = .arr .array vs → v.infoText c = .ok (ascii "type=array, size=" ++ natText vs.length)) ∧
    (∀ ms, v = .obj .object ms → v.infoText c = .ok (ascii "type=object, size=" ++ natText ms.length)) := by
  have e := C59_type_name c v
  have scalar : ∀ t, v.dumps = .ok t → v.type = .boolean ∨ v.type = .number ∨ v.type = .string →
      (t.length ≤ 100 → v.infoText c = .ok (ascii "type=" ++ v.type.word ++ ascii ", value=" ++ t)) ∧
      (100 < t.length → v.infoText c = .ok (ascii "type=" ++ v.type.word ++ ascii ", value=" ++ t.take 100 ++ ascii "...")) := by
    intro t ht hs
    have ht : v.dumpTo = .ok t := ht
    constructor
    · intro hl
      rcases hs with hs | hs | hs <;> simp [infoText, e, infoBody, hs, ht, Nat.not_lt.2 hl]
    · intro hl
      rcases hs with hs | hs | hs <;> simp [infoText, e, infoBody, hs, ht, hl]
  refine ⟨?_, ?_, ?_, ?_⟩
  · rintro (h | h) <;> simp [infoText, e, infoBody, h]
  · intro hs
    have : ∃ t, v.dumps = .ok t := by
      cases sound_shape hv with
      | array => simp [Value.type] at hs
      | object => simp [Value.type] at hs
      | _ => first | exact ⟨_, rfl⟩ | simp [Value.type] at hs
    obtain ⟨t, ht⟩ := this
    exact ⟨t, ht, scalar t ht hs⟩
  · rintro vs rfl
    have : ascii "type=array, size=" = ascii "type=" ++ VType.array.word ++ ascii ", size=" := by decide +kernel
    rw [this]
    simp [infoText, e, infoBody, Value.type, asArray]
  · rintro ms rfl
    have : ascii "type=object, size=" = ascii "type=" ++ VType.object.word ++ ascii ", size=" := by decide +kernel
    rw [this]
    simp [infoText, e, infoBody, Value.type, asObject]

/-- It is undefined for the two values in which a move leaves a null pointer, and for nothing else; it never throws. -/
theorem C59_defined (c : Compiler) (v : Value) :
    ((∃ t, v.infoText c = .ok t) ∨ v.infoText c = .ub) ∧ (v.infoText c = .ub ↔ v = .arrNull .array ∨ v = .objNull .object) ∧
    (v.infoText c = .ub ↔ v.valueInfo = .ub) := by
  have e := C59_type_name c v
  cases v with
  | str ty s =>
    have hb : ∀ info, (∃ t, (str ty s).infoBody info = .ok t) ∨ ∃ x, (str ty s).infoBody info = .throw x := by
      intro info
      cases ty <;> simp [infoBody, Value.type, dumpTo, asArray, asObject]
      all_goals (split <;> simp)
    have hv : (str ty s).valueInfo = .ok () := by cases ty <;> rfl
    rw [hv]
    unfold infoText
    rw [e]
    rcases hb (ascii "type=" ++ (str ty s).type.word) with ⟨t, h⟩ | ⟨x, h⟩ <;> simp [h]
  | arr ty vs => cases ty <;> simp [infoText, e, infoBody, Value.type, valueInfo, dumpTo, asArray, asObject]
  | arrNull ty => cases ty <;> simp [infoText, e, infoBody, Value.type, valueInfo, dumpTo, asArray, asObject]
  | obj ty ms => cases ty <;> simp [infoText, e, infoBody, Value.type, valueInfo, dumpTo, asArray, asObject]
  | objNull ty => cases ty <;> simp [infoText, e, infoBody, Value.type, valueInfo, dumpTo, asArray, asObject]

private theorem word_ascii (t : VType) : ∀ x ∈ ascii "type=" ++ t.word, 0x20 ≤ x ∧ x < 0x80 := by cases t <;> decide +kernel

private theorem natText_ascii (n : Nat) : ∀ x ∈ natText n, 0x20 ≤ x ∧ x < 0x80 := by
  have key : ∀ x : UInt8, 0x30 ≤ x → x ≤ 0x39 → 0x20 ≤ x ∧ x < 0x80 := by apply uint8_forall; decide +kernel
  have h := (natTextF_spec (fuel := n + 1) (n := n) (by omega)).1.2
  intro x hx
  exact key x (h x hx).1 (h x hx).2

mutual
private theorem wf_sound {num : Bytes → Prop} {inv : Prop} : ∀ v : Value, v.Wf num inv → v.Sound
  | .str ty s, h => by
    cases ty <;> simp only [Wf, Value.Sound] at h ⊢ <;> first | exact ⟨trivial, h.2⟩ | exact h | trivial
  | .arr ty vs, h => by
    cases ty <;> simp only [Wf, Value.Sound] at h ⊢
    exact wfAll_sound vs h
  | .obj ty ms, h => by
    cases ty <;> simp only [Wf, Value.Sound] at h ⊢
    exact ⟨h.1, wfMembers_sound ms h.2⟩
  | .arrNull ty, h => by cases ty <;> simp only [Wf] at h
  | .objNull ty, h => by cases ty <;> simp only [Wf] at h
private theorem wfAll_sound {num : Bytes → Prop} {inv : Prop} : ∀ vs : List Value, WfAll num inv vs → WfAll (fun _ => True) True vs
  | [], _ => trivial
  | v :: vs, h => ⟨wf_sound v h.1, wfAll_sound vs h.2⟩
private theorem wfMembers_sound {num : Bytes → Prop} {inv : Prop} : ∀ ms : List (Bytes × Value), WfMembers num inv ms → WfMembers (fun _ => True) True ms
  | [], _ => trivial
  | (_, v) :: ms, h => ⟨wf_sound v h.1, wfMembers_sound ms h.2⟩
end

private theorem json_sound {v : Value} (h : v.Json) : v.Sound := wf_sound v h

private theorem info_shape (c : Compiler) (v : Value) (hv : v.Json) (t : Bytes) (ht : v.dumps = .ok t) :
    ∃ m, v.infoText c = .ok m ∧ ((∀ x ∈ m, 0x20 ≤ x ∧ x < 0x80) ∧ (v.type = .null ∨ v.IsContainer) ∧ m ≠ [] ∨
      ∃ a b, ¬ v.IsContainer ∧ a ≠ [] ∧ (∀ x ∈ a ++ b, 0x20 ≤ x ∧ x < 0x80) ∧ m = a ++ (t.take 100 ++ b)) := by
  have hs := json_sound hv
  have comma : ∀ x ∈ ascii ", value=" ++ ascii "...", 0x20 ≤ x ∧ x < 0x80 := by decide +kernel
  have size : ∀ x ∈ ascii "type=array, size=" ++ ascii "type=object, size=", 0x20 ≤ x ∧ x < 0x80 := by decide +kernel
  obtain ⟨h1, h2, h3, h4⟩ := C59_info c v hs
  have ne : ∀ x y : Bytes, ascii "type=" ++ x ++ y ≠ [] := by intro x y; simp; intro h; exact absurd h (by decide +kernel)
  have hw := word_ascii v.type
  cases hty : v.type with
  | null => exact ⟨_, h1 (.inl hty), .inl ⟨hw, .inl rfl, by simpa using ne v.type.word []⟩⟩
  | invalid => exact ⟨_, h1 (.inr hty), by cases sound_shape hs <;> simp_all [Value.Json, Wf, Value.type, ofBool]⟩
  | array =>
    obtain ⟨vs, rfl⟩ : ∃ vs, v = .arr .array vs := by cases sound_shape hs <;> simp_all [Value.type, ofBool]
    refine ⟨_, h3 vs rfl, .inl ⟨?_, .inr (.inl rfl), fun h => absurd (List.append_eq_nil_iff.1 h).1 (by decide +kernel)⟩⟩
    intro x hx
    rcases List.mem_append.1 hx with hx | hx
    · exact size x (List.mem_append_left _ hx)
    · exact natText_ascii _ x hx
  | object =>
    obtain ⟨vs, rfl⟩ : ∃ vs, v = .obj .object vs := by cases sound_shape hs <;> simp_all [Value.type, ofBool]
    refine ⟨_, h4 vs rfl, .inl ⟨?_, .inr (.inr rfl), fun h => absurd (List.append_eq_nil_iff.1 h).1 (by decide +kernel)⟩⟩
    intro x hx
    rcases List.mem_append.1 hx with hx | hx
    · exact size x (List.mem_append_right _ hx)
    · exact natText_ascii _ x hx
  | _ =>
    obtain ⟨t', e, g1, g2⟩ := h2 (by simp [hty])
    obtain rfl : t = t' := by rw [ht] at e; exact Out.ok.inj e
    rcases Nat.lt_or_ge 100 t.length with hl | hl
    · refine ⟨_, g2 hl, .inr ⟨ascii "type=" ++ v.type.word ++ ascii ", value=", ascii "...", by simp [IsContainer, hty], ne _ _, ?_, by simp⟩⟩
      intro x hx
      rw [List.append_assoc] at hx
      exact (List.mem_append.1 hx).elim (hw x) (comma x)
    · refine ⟨_, g1 hl, .inr ⟨ascii "type=" ++ v.type.word ++ ascii ", value=", [], by simp [IsContainer, hty], ne _ _, ?_, by simp [List.take_of_length_le hl]⟩⟩
      intro x hx
      rw [List.append_nil] at hx
      exact (List.mem_append.1 hx).elim (hw x) (fun h => comma x (List.mem_append_left _ h))

/-- The message about a value whose strings are UTF-8 need not be UTF-8: the cut after 100 bytes can go through a character. -/
theorem C59_refuted (c : Compiler) : ∃ v : Value, v.Json ∧ v.Utf8 ∧ ∃ t, v.infoText c = .ok t ∧ ¬ Utf8 t := by
  refine ⟨.str .string (List.replicate 98 0x61 ++ [0xc3, 0xa9]), by simp [Value.Json, Value.Wf], ?_, ?_⟩
  · simp only [Value.Utf8, texts, if_pos, List.mem_cons, List.not_mem_nil, or_false, forall_eq]
    exact utf8_append (utf8_ascii (by decide)) ⟨['é'], by decide +kernel⟩
  · obtain ⟨t, h1, -, h2⟩ := (C59_info c (.str .string (List.replicate 98 0x61 ++ [0xc3, 0xa9])) (by simp [Sound, Wf])).2.1 (.inr (.inr rfl))
    have ht : t = (0x22 :: List.replicate 98 0x61) ++ [0xc3, 0xa9, 0x22] := by
      have : (Value.str .string (List.replicate 98 0x61 ++ [0xc3, 0xa9])).dumps = .ok ((0x22 :: List.replicate 98 0x61) ++ [0xc3, 0xa9, 0x22]) := by decide +kernel
      rw [this] at h1
      exact (Out.ok.inj h1).symm
    subst ht
    refine ⟨_, h2 (by decide), fun h => ?_⟩
    have h3 := (utf8_cut h (cut_cons (by decide))).1
    have h4 : (((0x22 : UInt8) :: List.replicate 98 0x61) ++ [0xc3, 0xa9, 0x22]).take 100 = (0x22 :: List.replicate 98 (0x61 : UInt8)) ++ [0xc3] := by decide
    rw [h4, ← List.append_assoc] at h3
    obtain ⟨cs, h5⟩ := (utf8_split h3 (.inr (by decide))).2
    cases cs with
    | nil => simp at h5
    | cons d cs =>
      obtain ⟨x, r, he, -, -, hl⟩ := encode_form d
      rw [List.flatMap_cons, he] at h5
      obtain ⟨rfl, h6⟩ := List.cons.inj h5
      have : r = [] := List.append_eq_nil_iff.1 h6.symm |>.1
      subst this
      revert hl; decide

/-- It is UTF-8 for every array, object, null and invalid value, and for a boolean, number or string exactly when the cut goes through no character: in particular if there
is none. -/
theorem C59_utf8_partial (c : Compiler) (v : Value) (hv : v.Json) (hu : v.Utf8) (t : Bytes) (ht : v.dumps = .ok t) :
    ∃ m, v.infoText c = .ok m ∧ (v.IsContainer ∨ t.length ≤ 100 → Utf8 m) ∧ (¬ v.IsContainer → (Utf8 m ↔ Utf8 (t.take 100))) := by
  obtain ⟨m, h1, h2⟩ := info_shape c v hv t ht
  have hu' : Utf8 t := by
    obtain ⟨t', h3, h4⟩ := C60_written v hv none
    obtain rfl : t = t' := by rw [ht] at h3; exact Out.ok.inj h3
    exact h4.2 hu
  refine ⟨m, h1, ?_⟩
  rcases h2 with ⟨h2, h3, -⟩ | ⟨a, b, hn, -, h2, rfl⟩
  · have hm : Utf8 m := utf8_ascii fun x hx => (h2 x hx).2
    refine ⟨fun _ => hm, fun hn => ⟨fun _ => ?_, fun _ => hm⟩⟩
    have h3 := h3.resolve_right hn
    have : t = ascii "null" := by
      have hv := sound_shape (json_sound hv)
      cases hv with
      | null => exact Out.ok.inj ht.symm
      | _ => simp [Value.type, ofBool] at h3
    subst this
    exact utf8_ascii (by decide +kernel)
  · have ha : Utf8 a := utf8_ascii fun x hx => (h2 x (List.mem_append_left _ hx)).2
    have hb : Utf8 b := utf8_ascii fun x hx => (h2 x (List.mem_append_right _ hx)).2
    have key : Utf8 (a ++ (t.take 100 ++ b)) ↔ Utf8 (t.take 100) :=
      ⟨fun h => (utf8_cut (utf8_rest ha h) (cut_of_utf8 hb)).1, fun h => utf8_append ha (utf8_append h hb)⟩
    refine ⟨fun h => key.2 ?_, fun _ => key⟩
    rw [List.take_of_length_le (h.resolve_left hn)]
    exact hu'

/-- An exception shows all of it: there is no NUL in what is said about a value with proper number texts. -/
theorem C59_what (c : Compiler) (v : Value) (hv : v.Json) (p : Bytes) (h0 : 0 ∉ p) : ∃ m, v.infoText c = .ok m ∧ whatText (p ++ m) = p ++ m := by
  obtain ⟨t, ht, -⟩ := C60_written v hv none
  have h11 := C11_one_line v t hv ht
  obtain ⟨m, h1, h2⟩ := info_shape c v hv t ht
  have hm : ∀ x ∈ p ++ m, x ≠ 0 := by
    have key : ∀ x : UInt8, 0x20 ≤ x → x ≠ 0 := by apply uint8_forall; decide +kernel
    intro x hx
    rcases List.mem_append.1 hx with hx | hx
    · rintro rfl; exact h0 hx
    · rcases h2 with ⟨h2, -⟩ | ⟨a, b, -, -, h2, rfl⟩
      · exact key x (h2 x hx).1
      · rcases List.mem_append.1 hx with hx | hx
        · exact key x (h2 x (List.mem_append_left _ hx)).1
        · rcases List.mem_append.1 hx with hx | hx
          · exact key x (h11 x (List.mem_of_mem_take hx)).1
          · exact key x (h2 x (List.mem_append_right _ hx)).1
  have hne : p ++ m ≠ [] := by
    intro h
    have := (List.append_eq_nil_iff.1 h).2
    rcases h2 with ⟨-, -, h2⟩ | ⟨a, b, -, h2, -, rfl⟩
    · exact h2 this
    · exact h2 (List.append_eq_nil_iff.1 this).1
  refine ⟨m, h1, ?_⟩
  unfold whatText
  rw [if_neg (by simpa using hne)]
  have all : ∀ l : Bytes, (∀ x ∈ l, x ≠ 0) → l.takeWhile (· ≠ 0) = l := by
    intro l hl
    induction l with
    | nil => rfl
    | cons x l ih => rw [List.takeWhile_cons_of_pos (by simpa using hl x (by simp)), ih fun y hy => hl y (by simp [hy])]
  exact all _ hm

/-- A default-constructed exception, or one made of an empty text, says "Unknown exception". -/
theorem C59_unknown : whatText [] = [85, 110, 107, 110, 111, 119, 110, 32, 101, 120, 99, 101, 112, 116, 105, 111, 110] := by decide +kernel

example : infoText .gcc (.str .string (ascii "a\"b")) = .ok (ascii "type=string, value=\"a\\\"b\"") ∧
    infoText .gcc (.arr .array [.null, .null]) = .ok (ascii "type=array, size=2") ∧ infoText .msvc .null = .ok (ascii "type=null") := by decide +kernel

end Meojson
