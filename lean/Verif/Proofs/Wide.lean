import Verif.Model.Wide
import Verif.Proofs.ParseSound

/-! # Wide characters: units below 256 are bytes -/

set_option autoImplicit false

namespace Meojson.Wide

/-! ### Units that are bytes -/

theorem ch_inj (a b : UInt8) : ch a = ch b ↔ a = b := UInt8.toUInt32_inj
theorem ch_le (a b : UInt8) : ch a ≤ ch b ↔ a ≤ b := by
  simp only [ch, UInt32.le_iff_toNat_le, UInt8.le_iff_toNat_le, UInt8.toNat_toUInt32]
theorem low_ch (b : UInt8) : low (ch b) = b := by simp [low, ch]

/-- A text of bytes as a wide text. -/
def up (s : Bytes) : Units := s.map ch

theorem up_nil : up [] = [] := rfl
theorem up_cons (c : UInt8) (s : Bytes) : up (c :: s) = ch c :: up s := rfl
theorem up_length (s : Bytes) : (up s).length = s.length := by simp [up]
theorem low_up (s : Bytes) : (up s).map low = s := by
  induction s with
  | nil => rfl
  | cons c s ih => rw [up_cons, List.map_cons, low_ch, ih]

def lift {α : Type} : Res α → WRes α
  | .ok a rest => .ok a (up rest)
  | .fail => .fail
  | .ub => .ub
  | .timeout => .timeout

theorem lift_bind {α β : Type} {r : Res α} {f : α → Bytes → Res β} {g : α → Units → WRes β} (h : ∀ a s, g a (up s) = lift (f a s)) :
    (lift r).bind g = lift (r.bind f) := by
  cases r with
  | ok a s => exact h a s
  | fail => rfl
  | ub => rfl
  | timeout => rfl

theorem between_up (s t : Bytes) : between (up s) (up t) = Meojson.between s t := by
  rw [between, Meojson.between, up_length, up_length, up, ← List.map_take]
  exact low_up _

theorem commentLoop_up (line : Bool) (s : Bytes) : commentLoop line (up s) = ((Meojson.commentLoop line s).1, up (Meojson.commentLoop line s).2) := by
  induction s with
  | nil => rfl
  | cons c s ih =>
    have hh : (up s).head? = some (ch 0x2f) ↔ s.head? = some 0x2f := by cases s <;> simp [up, ch_inj]
    have ht : (up s).tail = up s.tail := by cases s <;> rfl
    simp only [up_cons, commentLoop, Meojson.commentLoop, ch_inj, hh, ih, ht]
    split
    · split <;> rfl
    · split
      · split <;> rfl
      · rfl

theorem skipComment_up (s : Bytes) : skipComment (up s) = ((Meojson.skipComment s).1, up (Meojson.skipComment s).2) := by
  cases s with
  | nil => rfl
  | cons c s =>
    simp only [up_cons, skipComment, Meojson.skipComment, ch_inj, ne_eq]
    split
    · rfl
    · cases s with
      | nil => rfl
      | cons d s =>
        simp only [up_cons, ch_inj, commentLoop_up]
        split
        · rfl
        · split <;> rfl

theorem skipWhitespaceF_up (j : Bool) (n : Nat) (s : Bytes) : skipWhitespaceF j n (up s) = lift (Meojson.skipWhitespaceF j n s) := by
  induction n generalizing s with
  | zero => rfl
  | succ n ih =>
    cases s with
    | nil => rfl
    | cons c s =>
      simp only [up_cons, skipWhitespaceF, Meojson.skipWhitespaceF, ch_inj, ih]
      split
      · rfl
      · split
        · split
          · rw [← up_cons, skipComment_up, ih]
            simp only
            split <;> rfl
          · rfl
        · split <;> rfl

theorem skipWhitespace_up (j : Bool) (s : Bytes) : skipWhitespace j (up s) = lift (Meojson.skipWhitespace j s) := by
  rw [skipWhitespace, Meojson.skipWhitespace, up_length, skipWhitespaceF_up]

theorem digitLoop_up (s : Bytes) : digitLoop (up s) = up (Meojson.digitLoop s) := by
  induction s with
  | nil => rfl
  | cons c s ih =>
    simp only [up_cons, digitLoop, Meojson.digitLoop, low_ch, ih]
    split <;> rfl

theorem skipDigit_up (s : Bytes) : skipDigit (up s) = lift (Meojson.skipDigit s) := by
  cases s with
  | nil => rfl
  | cons c s =>
    simp only [up_cons, skipDigit, Meojson.skipDigit, low_ch, digitLoop_up]
    split
    · cases Meojson.digitLoop s <;> rfl
    · rfl

theorem matchLiteral_up (l s : Bytes) : matchLiteral l (up s) = lift (Meojson.matchLiteral l s) := by
  induction l generalizing s with
  | nil => rfl
  | cons a l ih =>
    cases s with
    | nil => rfl
    | cons c s =>
      simp only [up_cons, matchLiteral, Meojson.matchLiteral, ch_inj, ih]
      split <;> rfl

theorem parseNull_up (s : Bytes) : parseNull (up s) = lift (Meojson.parseNull s) := by
  rw [parseNull, matchLiteral_up]
  exact lift_bind fun _ _ => rfl

theorem parseBoolean_up (s : Bytes) : parseBoolean (up s) = lift (Meojson.parseBoolean s) := by
  cases s with
  | nil => rfl
  | cons c s =>
    simp only [up_cons, parseBoolean, Meojson.parseBoolean, ch_inj]
    rw [← up_cons, matchLiteral_up, matchLiteral_up]
    split
    · exact lift_bind fun _ _ => rfl
    · split
      · exact lift_bind fun _ _ => rfl
      · rfl

theorem leadingZero_up (s : Bytes) : leadingZero (up s) = Meojson.leadingZero s := by
  match s with
  | [] => rfl
  | [_] => rfl
  | c :: d :: s => simp only [up_cons, leadingZero, Meojson.leadingZero, low_ch, ch_inj]

theorem numberFrac_up (s : Bytes) : numberFrac (up s) = lift (Meojson.numberFrac s) := by
  cases s with
  | nil => rfl
  | cons c s =>
    simp only [up_cons, numberFrac, Meojson.numberFrac, ch_inj, skipDigit_up]
    split <;> rfl

theorem numberExp_up (s : Bytes) : numberExp (up s) = lift (Meojson.numberExp s) := by
  cases s with
  | nil => rfl
  | cons c s =>
    simp only [up_cons, numberExp, Meojson.numberExp, ch_inj]
    split
    · cases s with
      | nil => rfl
      | cons d s =>
        simp only [up_cons, ch_inj]
        rw [← up_cons, skipDigit_up, skipDigit_up]
        split <;> rfl
    · rfl

theorem parseNumber_up (s : Bytes) : parseNumber (up s) = lift (Meojson.parseNumber s) := by
  cases s with
  | nil => rfl
  | cons c s =>
    simp only [up_cons, parseNumber, Meojson.parseNumber, ch_inj]
    have e : (if c = 0x2d then up s else ch c :: up s) = up (if c = 0x2d then s else c :: s) := by split <;> rfl
    rw [e]
    generalize (if c = 0x2d then s else c :: s) = s1
    rw [leadingZero_up]
    split
    · rfl
    · rw [skipDigit_up]
      refine lift_bind fun _ s2 => ?_
      rw [numberFrac_up]
      refine lift_bind fun _ s3 => ?_
      rw [numberExp_up]
      refine lift_bind fun _ s4 => ?_
      rw [← up_cons, between_up]
      rfl

theorem hexDigit_up (c : UInt8) : (0x30 ≤ c → (ch c - ch 0x30).toUInt16 = (c - 0x30).toUInt16) ∧ (0x61 ≤ c → c ≤ 0x66 → (ch c - ch 0x61 + 10).toUInt16 = (c - 0x61 + 10).toUInt16) ∧
    (0x41 ≤ c → c ≤ 0x46 → (ch c - ch 0x41 + 10).toUInt16 = (c - 0x41 + 10).toUInt16) := by
  have key : ∀ n : Fin 256, (0x30 ≤ UInt8.ofNat n.val → (ch (UInt8.ofNat n.val) - ch 0x30).toUInt16 = (UInt8.ofNat n.val - 0x30).toUInt16) ∧
      (0x61 ≤ UInt8.ofNat n.val → UInt8.ofNat n.val ≤ 0x66 → (ch (UInt8.ofNat n.val) - ch 0x61 + 10).toUInt16 = (UInt8.ofNat n.val - 0x61 + 10).toUInt16) ∧
      (0x41 ≤ UInt8.ofNat n.val → UInt8.ofNat n.val ≤ 0x46 → (ch (UInt8.ofNat n.val) - ch 0x41 + 10).toUInt16 = (UInt8.ofNat n.val - 0x41 + 10).toUInt16) := by
    decide +kernel
  simpa using key ⟨c.toNat, c.toNat_lt⟩

theorem hexStep_up (cp : UInt16) (c : UInt8) : hexStep cp (ch c) = Meojson.hexStep cp c := by
  obtain ⟨h1, h2, h3⟩ := hexDigit_up c
  simp only [hexStep, Meojson.hexStep, low_ch, ch_le]
  split
  · rfl
  split
  · rename_i h; rw [h1 h.1]
  split
  · rename_i h; rw [h2 h.1 h.2]
  split
  · rename_i h; rw [h3 h.1 h.2]
  · rfl

theorem hexLoop_up (n : Nat) (cp : UInt16) (s : Bytes) : hexLoop n cp (up s) = lift (Meojson.hexLoop n cp s) := by
  induction n generalizing cp s with
  | zero => rfl
  | succ n ih =>
    cases s with
    | nil => rfl
    | cons c s =>
      simp only [up_cons, hexLoop, Meojson.hexLoop, hexStep_up]
      cases Meojson.hexStep cp c with
      | none => rfl
      | some cp' => exact ih cp' s

theorem skipUnicodeEscape_up (ph : UInt16) (s : Bytes) : skipUnicodeEscape ph (up s) = lift (Meojson.skipUnicodeEscape ph s) := by
  rw [skipUnicodeEscape, hexLoop_up]
  refine lift_bind fun cp s' => ?_
  cases unicodeUnit ph cp <;> rfl

theorem simpleEscape_up (c : UInt8) : simpleEscape (ch c) = Meojson.simpleEscape c := by
  simp only [simpleEscape, Meojson.simpleEscape, ch_inj]

theorem stringLoop_up (n : Nat) (result beg : Bytes) (ph : UInt16) (s : Bytes) :
    stringLoop n result (up beg) ph (up s) = lift (Meojson.stringLoop none n result beg ph s) := by
  induction n generalizing result beg ph s with
  | zero => rfl
  | succ n ih =>
    cases s with
    | nil => rfl
    | cons c s =>
      simp only [up_cons, stringLoop, Meojson.stringLoop, accelStep, Res.bind_ok, Bool.true_eq_false, if_false, ch_inj, low_ch, ne_eq]
      split
      · rfl
      split
      · cases s with
        | nil => rfl
        | cons d s =>
          simp only [up_cons, ch_inj, simpleEscape_up]
          split
          · rfl
          split
          · rw [skipUnicodeEscape_up]
            refine lift_bind fun r s'' => ?_
            rw [← up_cons, ← up_cons, between_up]
            exact ih _ _ _ _
          · cases Meojson.simpleEscape d with
            | none => rfl
            | some e =>
              simp only
              rw [← up_cons, ← up_cons, between_up]
              exact ih _ _ _ _
      split
      · split
        · rfl
        · rw [← up_cons, between_up]; rfl
      split
      · rfl
      split
      · rfl
      · exact ih _ _ _ _

theorem parseStdstring_up (s : Bytes) : parseStdstring (up s) = lift (Meojson.parseStdstring none s) := by
  cases s with
  | nil => rfl
  | cons c s =>
    simp only [up_cons, parseStdstring, Meojson.parseStdstring, ch_inj, up_length, stringLoop_up]
    split <;> rfl

theorem parseString_up (s : Bytes) : parseString (up s) = lift (Meojson.parseString none s) := by
  rw [parseString, parseStdstring_up]
  exact lift_bind fun _ _ => rfl

structure UpAt (j : Bool) (n : Nat) : Prop where
  value : ∀ s, parseValue j n (up s) = lift (Meojson.parseValue ⟨j, none⟩ n s)
  array : ∀ s, parseArray j n (up s) = lift (Meojson.parseArray ⟨j, none⟩ n s)
  arrayLoop : ∀ acc s, arrayLoop j n acc (up s) = lift (Meojson.arrayLoop ⟨j, none⟩ n acc s)
  object : ∀ s, parseObject j n (up s) = lift (Meojson.parseObject ⟨j, none⟩ n s)
  objectLoop : ∀ acc s, objectLoop j n acc (up s) = lift (Meojson.objectLoop ⟨j, none⟩ n acc s)

/-- The pattern in which `skip_whitespace` is used. -/
theorem skip_up {α : Type} {j : Bool} {s : Bytes} {f : UInt32 → Units → WRes α} {g : UInt8 → Bytes → Res α} (h : ∀ c r, f (ch c) (up r) = lift (g c r)) :
    ((skipWhitespace j (up s)).bind fun more cur => if more = false then .fail else match cur with | [] => .ub | c :: r => f c r) =
      lift ((Meojson.skipWhitespace j s).bind fun more cur => if more = false then .fail else match cur with | [] => .ub | c :: r => g c r) := by
  rw [skipWhitespace_up]
  refine lift_bind fun more cur => ?_
  split
  · rfl
  · cases cur with
    | nil => rfl
    | cons c r => exact h c r

theorem isDigit_up (c : UInt8) : (ch 0x30 ≤ ch c ∧ ch c ≤ ch 0x39) ↔ isDigit c = true := by
  simp [ch_le, isDigit]

theorem upAt (j : Bool) (n : Nat) : UpAt j n := by
  induction n with
  | zero => exact ⟨fun _ => by simp [parseValue, Meojson.parseValue, lift], fun _ => by simp [parseArray, Meojson.parseArray, lift],
      fun _ _ => by simp [Wide.arrayLoop, Meojson.arrayLoop, lift], fun _ => by simp [parseObject, Meojson.parseObject, lift],
      fun _ _ => by simp [Wide.objectLoop, Meojson.objectLoop, lift]⟩
  | succ n ih =>
    constructor
    · intro s
      cases s with
      | nil => simp [parseValue, Meojson.parseValue, lift, up_nil]
      | cons c s =>
        simp only [up_cons, parseValue, Meojson.parseValue, ch_inj, isDigit_up]
        rw [← up_cons, parseNull_up, parseBoolean_up, parseNumber_up, parseString_up, ih.array, ih.object]
        split
        · rfl
        split
        · rfl
        split
        · rfl
        split
        · rfl
        split
        · rfl
        split <;> rfl
    · intro s
      cases s with
      | nil => simp [parseArray, Meojson.parseArray, lift, up_nil]
      | cons c s =>
        simp only [up_cons, parseArray, Meojson.parseArray, ch_inj, ne_eq]
        split
        · rfl
        refine skip_up fun d r => ?_
        simp only [ch_inj]
        split
        · rfl
        rw [← up_cons, ih.arrayLoop]
        refine lift_bind fun res cur => ?_
        refine skip_up fun d r => ?_
        simp only [ch_inj]
        split <;> rfl
    · intro acc s
      simp only [Wide.arrayLoop, Meojson.arrayLoop]
      refine skip_up fun c r => ?_
      simp only [ch_inj]
      split
      · rfl
      rw [← up_cons, ih.value]
      refine lift_bind fun val cur => ?_
      refine skip_up fun c r => ?_
      simp only [ch_inj]
      split
      · exact ih.arrayLoop _ _
      · rfl
    · intro s
      cases s with
      | nil => simp [parseObject, Meojson.parseObject, lift, up_nil]
      | cons c s =>
        simp only [up_cons, parseObject, Meojson.parseObject, ch_inj, ne_eq]
        split
        · rfl
        refine skip_up fun d r => ?_
        simp only [ch_inj]
        split
        · rfl
        rw [← up_cons, ih.objectLoop]
        refine lift_bind fun res cur => ?_
        refine skip_up fun d r => ?_
        simp only [ch_inj]
        split <;> rfl
    · intro acc s
      simp only [Wide.objectLoop, Meojson.objectLoop]
      refine skip_up fun c r => ?_
      simp only [ch_inj]
      split
      · rfl
      rw [← up_cons, parseStdstring_up]
      refine lift_bind fun key cur => ?_
      refine skip_up fun c r => ?_
      simp only [ch_inj, ne_eq]
      split
      · rfl
      rw [skipWhitespace_up]
      refine lift_bind fun more cur => ?_
      split
      · rfl
      rw [ih.value]
      refine lift_bind fun val cur => ?_
      rw [skipWhitespace_up]
      refine lift_bind fun more cur => ?_
      split
      · rfl
      split
      · rfl
      cases cur with
      | nil => rfl
      | cons c s =>
        simp only [up_cons, ch_inj]
        split
        · exact ih.objectLoop _ _
        · rfl

theorem parseRun_up (j : Bool) (n : Nat) (s : Bytes) : parseRun j n (up s) = lift (Meojson.parseRun ⟨j, none⟩ n s) := by
  unfold parseRun Meojson.parseRun
  refine skip_up fun c r => ?_
  have e : (if ch c = ch 0x5b then parseArray j n (ch c :: up r) else if ch c = ch 0x7b then parseObject j n (ch c :: up r) else .fail) =
      lift (if c = 0x5b then Meojson.parseArray ⟨j, none⟩ n (c :: r) else if c = 0x7b then Meojson.parseObject ⟨j, none⟩ n (c :: r) else .fail) := by
    simp only [ch_inj]
    rw [← up_cons, (upAt j n).array, (upAt j n).object]
    split
    · rfl
    split <;> rfl
  rw [e]
  refine lift_bind fun v cur => ?_
  rw [skipWhitespace_up]
  refine lift_bind fun more cur => ?_
  split <;> rfl

theorem parser_up (j : Bool) (s : Bytes) : parser j (up s) = Meojson.parser ⟨j, none⟩ s := by
  rw [parser, Meojson.parser, parseRun_up, parseFuel, Meojson.parseFuel, up_length]
  cases Meojson.parseRun ⟨j, none⟩ (3 * s.length + 3) s <;> rfl

/-! ### Every wide text: the parser returns -/

/-- The call returned, and at most `n` units are left. -/
def Leaves {α : Type} (n : Nat) (r : WRes α) : Prop := r = .fail ∨ ∃ a rest, r = .ok a rest ∧ rest.length ≤ n

theorem leaves_fail {α : Type} {n : Nat} : Leaves n (.fail : WRes α) := .inl rfl
theorem leaves_ok {α : Type} {n : Nat} {a : α} {rest : Units} (h : rest.length ≤ n) : Leaves n (.ok a rest) := .inr ⟨a, rest, rfl, h⟩
theorem Leaves.mono {α : Type} {m n : Nat} {r : WRes α} (h : Leaves m r) (hmn : m ≤ n) : Leaves n r := by
  rcases h with h | ⟨a, rest, h, hl⟩
  · exact .inl h
  · exact .inr ⟨a, rest, h, by omega⟩

theorem Leaves.bind {α β : Type} {m n : Nat} {r : WRes α} {f : α → Units → WRes β} (h : Leaves m r) (hf : ∀ a s, r = .ok a s → s.length ≤ m → Leaves n (f a s)) :
    Leaves n (r.bind f) := by
  rcases h with rfl | ⟨a, s, rfl, hl⟩
  · exact .inl rfl
  · exact hf a s rfl hl

theorem commentLoop_length (line : Bool) (s : Units) : (commentLoop line s).2.length ≤ s.length := by
  induction s with
  | nil => simp [commentLoop]
  | cons c s ih =>
    simp only [commentLoop]
    split
    · split
      · simp
      · simp; omega
    · split
      · split
        · simp; omega
        · simp; omega
      · simp; omega

theorem skipComment_length (c : UInt32) (s : Units) : (skipComment (c :: s)).1 = true → (skipComment (c :: s)).2.length ≤ s.length := by
  intro h
  by_cases hc : c = ch 0x2f
  · subst hc
    cases s with
    | nil => simp [skipComment] at h
    | cons d s' =>
      have h1 := commentLoop_length true s'
      have h2 := commentLoop_length false s'
      simp only [skipComment, ne_eq, not_true_eq_false, if_false] at h ⊢
      split
      · simp; omega
      · split
        · simp; omega
        · simp
  · simp [skipComment, hc] at h

theorem skipComment_le (s : Units) : (skipComment s).2.length ≤ s.length := by
  cases s with
  | nil => simp [skipComment]
  | cons c s =>
    simp only [skipComment]
    split
    · simp
    · cases s with
      | nil => simp
      | cons d s' =>
        have h1 := commentLoop_length true s'
        have h2 := commentLoop_length false s'
        simp only
        split
        · simp; omega
        · split
          · simp; omega
          · simp; omega

theorem skipWhitespaceF_leaves (j : Bool) (n : Nat) (s : Units) (hn : s.length < n) :
    (∃ c r, skipWhitespaceF j n s = .ok true (c :: r) ∧ r.length < s.length) ∨ ∃ r, skipWhitespaceF j n s = .ok false r ∧ r.length ≤ s.length := by
  induction n generalizing s with
  | zero => omega
  | succ n ih =>
    cases s with
    | nil => exact .inr ⟨[], rfl, by simp⟩
    | cons c s =>
      simp only [List.length_cons] at hn ⊢
      have key : ∀ t : Units, t.length ≤ s.length → (∃ c r, skipWhitespaceF j n t = .ok true (c :: r) ∧ r.length < s.length + 1) ∨ ∃ r, skipWhitespaceF j n t = .ok false r ∧ r.length ≤ s.length + 1 := by
        intro t ht
        rcases ih t (by omega) with ⟨c, r, h, hl⟩ | ⟨r, h, hl⟩
        · exact .inl ⟨c, r, h, by omega⟩
        · exact .inr ⟨r, h, by omega⟩
      simp only [skipWhitespaceF]
      split
      · exact key s (by omega)
      split
      · split
        · split
          · rename_i h
            exact key _ (skipComment_length c s h)
          · exact .inr ⟨_, rfl, skipComment_le (c :: s)⟩
        · exact .inr ⟨_, rfl, by simp⟩
      split
      · exact .inr ⟨_, rfl, by simp⟩
      · exact .inl ⟨c, s, rfl, by omega⟩

/-- The pattern in which `skip_whitespace` is used. -/
theorem skip_leaves {α : Type} {j : Bool} {n : Nat} {s : Units} {f : UInt32 → Units → WRes α} (h : ∀ c r, r.length < s.length → Leaves n (f c r)) :
    Leaves n ((skipWhitespace j s).bind fun more cur => if more = false then .fail else match cur with | [] => .ub | c :: r => f c r) := by
  rcases skipWhitespaceF_leaves j (s.length + 1) s (by omega) with ⟨c, r, e, hl⟩ | ⟨r, e, _⟩
  · rw [skipWhitespace, e]; exact h c r hl
  · rw [skipWhitespace, e]; exact leaves_fail

theorem digitLoop_length (s : Units) : (digitLoop s).length ≤ s.length := by
  induction s with
  | nil => simp [digitLoop]
  | cons c s ih =>
    simp only [digitLoop]
    split
    · simp; omega
    · simp

/-- `skip_digit` stops before a unit. -/
theorem skipDigit_leaves (s : Units) : skipDigit s = .fail ∨ ∃ c r, skipDigit s = .ok () (c :: r) ∧ r.length + 1 < s.length := by
  cases s with
  | nil => exact .inl rfl
  | cons c s =>
    have := digitLoop_length s
    simp only [skipDigit]
    split
    · cases h : digitLoop s with
      | nil => exact .inl rfl
      | cons d r => rw [h] at this; exact .inr ⟨d, r, rfl, by simp at this ⊢; omega⟩
    · exact .inl rfl

theorem matchLiteral_leaves (l : Bytes) (s : Units) : Leaves (s.length - l.length) (matchLiteral l s) := by
  induction l generalizing s with
  | nil => exact leaves_ok (by simp)
  | cons a l ih =>
    cases s with
    | nil => exact leaves_fail
    | cons c s =>
      simp only [matchLiteral]
      split
      · exact (ih s).mono (by simp)
      · exact leaves_fail

theorem parseNumber_leaves (c : UInt32) (s : Units) : Leaves s.length (parseNumber (c :: s)) := by
  simp only [parseNumber]
  have h1 : (if c = ch 0x2d then s else c :: s).length ≤ s.length + 1 := by split <;> simp
  generalize (if c = ch 0x2d then s else c :: s) = s1 at h1
  split
  · exact leaves_fail
  rcases skipDigit_leaves s1 with h | ⟨c2, r2, h, hl⟩
  · rw [h]; exact leaves_fail
  rw [h]
  simp only [WRes.bind]
  have h3 : numberFrac (c2 :: r2) = .fail ∨ ∃ c r, numberFrac (c2 :: r2) = .ok () (c :: r) ∧ r.length ≤ r2.length := by
    simp only [numberFrac]
    split
    · rcases skipDigit_leaves r2 with h | ⟨c, r, h, hl⟩
      · exact .inl h
      · exact .inr ⟨c, r, h, by omega⟩
    · exact .inr ⟨_, _, rfl, by omega⟩
  rcases h3 with h3 | ⟨c3, r3, h3, hl3⟩
  · rw [h3]; exact leaves_fail
  rw [h3]
  simp only
  have h4 : numberExp (c3 :: r3) = .fail ∨ ∃ c r, numberExp (c3 :: r3) = .ok () (c :: r) ∧ r.length ≤ r3.length := by
    simp only [numberExp]
    split
    · cases r3 with
      | nil => exact .inl rfl
      | cons d r =>
        simp only
        split
        · rcases skipDigit_leaves r with h | ⟨c, r', h, hl⟩
          · exact .inl h
          · exact .inr ⟨c, r', h, by simp; omega⟩
        · rcases skipDigit_leaves (d :: r) with h | ⟨c, r', h, hl⟩
          · exact .inl h
          · exact .inr ⟨c, r', h, by simp at hl ⊢; omega⟩
    · exact .inr ⟨_, _, rfl, by omega⟩
  rcases h4 with h4 | ⟨c4, r4, h4, hl4⟩
  · rw [h4]; exact leaves_fail
  rw [h4]
  refine leaves_ok ?_
  simp only [List.length_cons]
  omega

theorem hexLoop_leaves (n : Nat) (cp : UInt16) (s : Units) : Leaves s.length (hexLoop n cp s) := by
  induction n generalizing cp s with
  | zero => exact leaves_ok (by simp)
  | succ n ih =>
    cases s with
    | nil => exact leaves_fail
    | cons c s =>
      simp only [hexLoop]
      cases hexStep cp c with
      | none => exact leaves_fail
      | some cp' => exact (ih cp' s).mono (by simp)

theorem stringLoop_leaves (n : Nat) (result : Bytes) (beg : Units) (ph : UInt16) (s : Units) (hn : s.length < n) :
    Leaves s.length (stringLoop n result beg ph s) := by
  induction n generalizing result beg ph s with
  | zero => omega
  | succ n ih =>
    cases s with
    | nil => exact leaves_fail
    | cons c s =>
      simp only [List.length_cons] at hn ⊢
      simp only [stringLoop]
      split
      · exact leaves_fail
      split
      · cases s with
        | nil => exact leaves_fail
        | cons d s =>
          simp only [List.length_cons] at hn ⊢
          split
          · exact leaves_fail
          split
          · refine Leaves.bind (m := s.length) ?_ ?_
            · refine (hexLoop_leaves 4 0 s).bind fun cp s' _ hl => ?_
              cases unicodeUnit ph cp with
              | none => exact leaves_fail
              | some r => exact leaves_ok hl
            · intro r s'' _ hl
              exact (ih _ _ _ _ (by omega)).mono (by omega)
          · cases simpleEscape d with
            | none => exact leaves_fail
            | some e => exact (ih _ _ _ _ (by omega)).mono (by omega)
      split
      · split
        · exact leaves_fail
        · exact leaves_ok (by omega)
      split
      · exact leaves_fail
      split
      · exact leaves_fail
      · exact (ih _ _ _ _ (by omega)).mono (by omega)

theorem parseStdstring_leaves (c : UInt32) (s : Units) : Leaves s.length (parseStdstring (c :: s)) := by
  simp only [parseStdstring]
  split
  · exact stringLoop_leaves _ _ _ _ _ (by omega)
  · exact leaves_fail

structure LeavesAt (j : Bool) (n : Nat) : Prop where
  value : ∀ c s, 3 * (s.length + 1) ≤ n → Leaves s.length (parseValue j n (c :: s))
  array : ∀ c s, 3 * (s.length + 1) ≤ n + 1 → Leaves s.length (parseArray j n (c :: s))
  arrayLoop : ∀ acc s, 3 * s.length + 1 ≤ n → Leaves s.length (arrayLoop j n acc s)
  object : ∀ c s, 3 * (s.length + 1) ≤ n + 1 → Leaves s.length (parseObject j n (c :: s))
  objectLoop : ∀ acc s, 3 * s.length + 1 ≤ n → Leaves s.length (objectLoop j n acc s)

theorem leavesAt (j : Bool) (n : Nat) : LeavesAt j n := by
  induction n with
  | zero => exact ⟨fun _ _ h => by omega, fun _ _ h => by omega, fun _ _ h => by omega, fun _ _ h => by omega, fun _ _ h => by omega⟩
  | succ n ih =>
    constructor
    · intro c s hn
      simp only [parseValue]
      split
      · exact Leaves.bind ((matchLiteral_leaves _ _).mono (n := s.length) (by simp)) fun _ _ _ h => leaves_ok h
      split
      · simp only [parseBoolean]
        split
        · exact Leaves.bind ((matchLiteral_leaves _ _).mono (n := s.length) (by simp)) fun _ _ _ h => leaves_ok h
        split
        · exact Leaves.bind ((matchLiteral_leaves _ _).mono (n := s.length) (by simp)) fun _ _ _ h => leaves_ok h
        · exact leaves_fail
      split
      · exact parseNumber_leaves c s
      split
      · exact Leaves.bind (parseStdstring_leaves c s) fun _ _ _ h => leaves_ok h
      split
      · exact ih.array c s hn
      split
      · exact ih.object c s hn
      · exact leaves_fail
    · intro c s hn
      simp only [parseArray]
      split
      · exact leaves_fail
      refine skip_leaves fun d r hl => ?_
      split
      · exact leaves_ok (by omega)
      refine Leaves.bind (ih.arrayLoop _ _ (by simp only [List.length_cons]; omega)) fun res cur _ h => ?_
      simp only [List.length_cons] at h
      refine skip_leaves fun d r hl => ?_
      split
      · exact leaves_ok (by omega)
      · exact leaves_fail
    · intro acc s hn
      simp only [Wide.arrayLoop]
      refine skip_leaves fun c r hl => ?_
      split
      · exact leaves_ok (by simp only [List.length_cons]; omega)
      refine Leaves.bind (ih.value c r (by omega)) fun val cur _ h => ?_
      refine skip_leaves fun c' r' hl' => ?_
      split
      · exact (ih.arrayLoop _ _ (by omega)).mono (by omega)
      · exact leaves_ok (by simp only [List.length_cons]; omega)
    · intro c s hn
      simp only [parseObject]
      split
      · exact leaves_fail
      refine skip_leaves fun d r hl => ?_
      split
      · exact leaves_ok (by omega)
      refine Leaves.bind (ih.objectLoop _ _ (by simp only [List.length_cons]; omega)) fun res cur _ h => ?_
      simp only [List.length_cons] at h
      refine skip_leaves fun d r hl => ?_
      split
      · exact leaves_ok (by omega)
      · exact leaves_fail
    · intro acc s hn
      simp only [Wide.objectLoop]
      refine skip_leaves fun c r hl => ?_
      split
      · exact leaves_ok (by simp only [List.length_cons]; omega)
      refine Leaves.bind (parseStdstring_leaves c r) fun key cur _ h => ?_
      refine skip_leaves fun c' r' hl' => ?_
      split
      · exact leaves_fail
      rcases skipWhitespaceF_leaves j (r'.length + 1) r' (by omega) with ⟨d, t, e, hl2⟩ | ⟨t, e, _⟩
      · rw [skipWhitespace, e]
        simp only [WRes.bind, Bool.true_eq_false, if_false]
        refine Leaves.bind (ih.value d t (by omega)) fun val cur₂ _ h₂ => ?_
        rcases skipWhitespaceF_leaves j (cur₂.length + 1) cur₂ (by omega) with ⟨d', t', e', hl3⟩ | ⟨t', e', _⟩
        · rw [skipWhitespace, e']
          simp only [Bool.true_eq_false, if_false]
          split
          · exact leaves_fail
          split
          · exact (ih.objectLoop _ _ (by omega)).mono (by omega)
          · exact leaves_ok (by simp only [List.length_cons]; omega)
        · rw [skipWhitespace, e']; exact leaves_fail
      · rw [skipWhitespace, e]; exact leaves_fail

theorem parseRun_leaves (j : Bool) (n : Nat) (s : Units) (hn : 3 * s.length ≤ n + 1) : Leaves s.length (parseRun j n s) := by
  unfold parseRun
  refine skip_leaves fun c r hl => ?_
  refine Leaves.bind (m := r.length) ?_ fun v cur _ h => ?_
  · split
    · exact (leavesAt j n).array c r (by omega)
    split
    · exact (leavesAt j n).object c r (by omega)
    · exact leaves_fail
  · rcases skipWhitespaceF_leaves j (cur.length + 1) cur (by omega) with ⟨d, t, e, hl2⟩ | ⟨t, e, hl2⟩
    · rw [skipWhitespace, e]; exact leaves_fail
    · rw [skipWhitespace, e]; exact leaves_ok (by omega)

/-! ### Truncation -/

/-- A unit that the string loop steps over. -/
def Passed (c : UInt32) : Prop := 0x20 ≤ low c ∧ c ≠ ch 0x22 ∧ c ≠ ch 0x5c

theorem stringLoop_passed (n : Nat) (result : Bytes) (p body s : Units) (hb : ∀ c ∈ body, Passed c) (hn : body.length + 1 ≤ n) :
    stringLoop n result (p ++ body ++ ch 0x22 :: s) 0 (body ++ ch 0x22 :: s) = .ok (result ++ (p ++ body).map low) s := by
  induction body generalizing n p with
  | nil =>
    obtain ⟨n, rfl⟩ : ∃ m, n = m + 1 := ⟨n - 1, by simp at hn; omega⟩
    have : ∀ k : UInt8, ch 0x22 = ch k ↔ 0x22 = k := ch_inj 0x22
    simp [stringLoop, ch_inj, between]
  | cons c body ih =>
    obtain ⟨n, rfl⟩ : ∃ m, n = m + 1 := ⟨n - 1, by simp at hn; omega⟩
    obtain ⟨h1, h2, h3⟩ := hb c (by simp)
    have h4 : ¬ (c = ch 0x09 ∨ c = ch 0x0d ∨ c = ch 0x0a) := by
      rintro (rfl | rfl | rfl) <;> exact absurd h1 (by decide)
    have h5 : ¬ low c < 0x20 := UInt8.not_lt.2 h1
    have := ih n (p ++ [c]) (fun d hd => hb d (by simp [hd])) (by simp at hn; omega)
    simp only [List.cons_append, stringLoop, h4, h2, h3, h5, if_false, ne_eq, not_true_eq_false]
    simpa using this

end Meojson.Wide
