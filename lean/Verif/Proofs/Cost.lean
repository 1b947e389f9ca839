import Verif.Model.Cost
import Verif.Proofs.ParseSound

/-!
# Lemmas: the counting parser
-/

set_option autoImplicit false

namespace Meojson

/-! ### It computes the same -/

namespace Run
variable {α β : Type}
@[simp] theorem res_ret (a : α) (s : Bytes) : (ret a s).res = .ok a s := rfl
@[simp] theorem res_fail : (fail : Run α).res = .fail := rfl
@[simp] theorem res_ub : (ub : Run α).res = .ub := rfl
@[simp] theorem res_timeout : (timeout : Run α).res = .timeout := rfl
@[simp] theorem res_tick (r : Run α) : r.tick.res = r.res := rfl
@[simp] theorem res_nest (r : Run α) : r.nest.res = r.res := rfl
@[simp] theorem res_bind (r : Run α) (f : α → Bytes → Run β) : (r.bind f).res = r.res.bind fun a s => (f a s).res := by
  unfold bind Res.bind; cases r.res <;> rfl
end Run

theorem commentLoopT_res (line : Bool) (s : Bytes) : (commentLoopT line s).1 = commentLoop line s := by
  induction s with
  | nil => rfl
  | cons c s ih => simp only [commentLoopT, commentLoop]; (repeat' split) <;> simp_all

theorem skipCommentT_res (s : Bytes) : (skipCommentT s).1 = skipComment s := by
  cases s with
  | nil => rfl
  | cons c s =>
    simp only [skipCommentT, skipComment]
    split
    · rfl
    · cases s with
      | nil => rfl
      | cons d s => simp only; (repeat' split) <;> simp [commentLoopT_res]

theorem skipWhitespaceFT_res (j : Bool) (n : Nat) (s : Bytes) : (skipWhitespaceFT j n s).res = skipWhitespaceF j n s := by
  induction n generalizing s with
  | zero => rfl
  | succ n ih =>
    cases s with
    | nil => rfl
    | cons c s => simp only [skipWhitespaceFT, skipWhitespaceF, skipCommentT_res]; (repeat' split) <;> simp [ih]

@[simp] theorem skipWhitespaceT_res (j : Bool) (s : Bytes) : (skipWhitespaceT j s).res = skipWhitespace j s := by
  simp [skipWhitespaceT, skipWhitespace, skipWhitespaceFT_res]

theorem digitLoopT_res (s : Bytes) : (digitLoopT s).1 = digitLoop s := by
  induction s with
  | nil => rfl
  | cons c s ih => simp only [digitLoopT, digitLoop]; split <;> simp [ih]

@[simp] theorem skipDigitT_res (s : Bytes) : (skipDigitT s).res = skipDigit s := by
  cases s with
  | nil => rfl
  | cons c s =>
    simp only [skipDigitT, skipDigit, digitLoopT_res]
    split
    · cases digitLoop s <;> rfl
    · rfl

@[simp] theorem matchLiteralT_res (l s : Bytes) : (matchLiteralT l s).res = matchLiteral l s := by
  induction l generalizing s with
  | nil => rfl
  | cons c l ih =>
    cases s with
    | nil => rfl
    | cons d s => simp only [matchLiteralT, matchLiteral]; split <;> simp [ih]

@[simp] theorem numberFracT_res (s : Bytes) : (numberFracT s).res = numberFrac s := by
  cases s with
  | nil => rfl
  | cons c s => simp only [numberFracT, numberFrac]; split <;> simp

@[simp] theorem numberExpT_res (s : Bytes) : (numberExpT s).res = numberExp s := by
  cases s with
  | nil => rfl
  | cons c s =>
    simp only [numberExpT, numberExp]
    split
    · cases s with
      | nil => rfl
      | cons d s => simp only; split <;> simp
    · rfl

@[simp] theorem parseNumberT_res (s : Bytes) : (parseNumberT s).res = parseNumber s := by
  cases s with
  | nil => rfl
  | cons c s =>
    simp only [parseNumberT, parseNumber]
    generalize (if c = 0x2d then s else c :: s) = s1
    split <;> simp

@[simp] theorem parseNullT_res (s : Bytes) : (parseNullT s).res = parseNull s := by simp [parseNullT, parseNull]

@[simp] theorem parseBooleanT_res (s : Bytes) : (parseBooleanT s).res = parseBoolean s := by
  cases s with
  | nil => rfl
  | cons c s => simp only [parseBooleanT, parseBoolean]; (repeat' split) <;> simp

theorem hexLoopT_res (n : Nat) (cp : UInt16) (s : Bytes) : (hexLoopT n cp s).res = hexLoop n cp s := by
  induction n generalizing cp s with
  | zero => rfl
  | succ n ih =>
    cases s with
    | nil => rfl
    | cons c s => simp only [hexLoopT, hexLoop]; cases hexStep cp c <;> simp [ih]

@[simp] theorem skipUnicodeEscapeT_res (p : UInt16) (s : Bytes) : (skipUnicodeEscapeT p s).res = skipUnicodeEscape p s := by
  simp only [skipUnicodeEscapeT, skipUnicodeEscape, Run.res_tick, Run.res_bind, hexLoopT_res]
  congr 1; funext cp s'
  cases unicodeUnit p cp <;> rfl

theorem accelLoopT_res (T : Traits) (n : Nat) (s : Bytes) : (accelLoopT T n s).res = accelLoop T n s := by
  induction n generalizing s with
  | zero => rfl
  | succ n ih =>
    simp only [accelLoopT, accelLoop]
    split
    · cases scanBlock T s with
      | none => rfl
      | some r => simp only; (repeat' split) <;> simp [ih]
    · rfl

@[simp] theorem accelStepT_res (accel : Option Traits) (s : Bytes) : (accelStepT accel s).res = accelStep accel s := by
  cases accel <;> simp [accelStepT, accelStep, skipStringLiteralWithAccelT, skipStringLiteralWithAccel, accelLoopT_res]

theorem stringLoopT_res (accel : Option Traits) (n : Nat) (result beg : Bytes) (p : UInt16) (s : Bytes) :
    (stringLoopT accel n result beg p s).res = stringLoop accel n result beg p s := by
  induction n generalizing result beg p s with
  | zero => rfl
  | succ n ih =>
    cases s with
    | nil => rfl
    | cons c₀ s₀ =>
      simp only [stringLoopT, stringLoop, Run.res_tick, Run.res_bind, accelStepT_res]
      congr 1; funext more cur
      cases more with
      | false => rfl
      | true =>
        cases cur with
        | nil => rfl
        | cons c s =>
          simp only [Bool.true_eq_false, if_false]
          split
          · rfl
          · split
            · cases s with
              | nil => rfl
              | cons d s =>
                simp only
                split
                · rfl
                · split
                  · simp [ih]
                  · cases simpleEscape d <;> simp [ih]
            · (repeat' split) <;> simp [ih]

@[simp] theorem parseStdstringT_res (accel : Option Traits) (s : Bytes) : (parseStdstringT accel s).res = parseStdstring accel s := by
  cases s with
  | nil => rfl
  | cons c s => simp only [parseStdstringT, parseStdstring]; split <;> simp [stringLoopT_res]

@[simp] theorem parseStringT_res (accel : Option Traits) (s : Bytes) : (parseStringT accel s).res = parseString accel s := by
  simp [parseStringT, parseString]

structure SameAt (cfg : Cfg) (n : Nat) : Prop where
  value : ∀ s, (parseValueT cfg n s).res = parseValue cfg n s
  array : ∀ s, (parseArrayT cfg n s).res = parseArray cfg n s
  arrayLoop : ∀ acc s, (arrayLoopT cfg n acc s).res = arrayLoop cfg n acc s
  object : ∀ s, (parseObjectT cfg n s).res = parseObject cfg n s
  objectLoop : ∀ acc s, (objectLoopT cfg n acc s).res = objectLoop cfg n acc s

/-- Matches on the position commute with `res`. -/
private theorem res_match {α : Type} (cur : Bytes) (f : UInt8 → Bytes → Run α) (g : UInt8 → Bytes → Res α) (h : ∀ c s, (f c s).res = g c s) :
    (match cur with | [] => Run.ub | c :: s => f c s).res = match cur with | [] => .ub | c :: s => g c s := by
  cases cur <;> simp [h]

theorem sameAt (cfg : Cfg) (n : Nat) : SameAt cfg n := by
  induction n with
  | zero => constructor <;> intros <;> simp [parseValueT, parseArrayT, arrayLoopT, parseObjectT, objectLoopT, parseValue, parseArray, arrayLoop, parseObject, objectLoop]
  | succ n ih =>
    constructor
    · intro s
      cases s with
      | nil => simp [parseValueT, parseValue]
      | cons c s =>
        simp only [parseValueT, parseValue, Run.res_tick]
        (repeat' split) <;> simp [ih.array, ih.object]
    · intro s
      cases s with
      | nil => simp [parseArrayT, parseArray]
      | cons c s =>
        simp only [parseArrayT, parseArray, Run.res_tick, Run.res_nest]
        split
        · rfl
        · rw [Run.res_bind, skipWhitespaceT_res]
          congr 1; funext more cur
          cases more <;> simp only [if_true, Bool.true_eq_false, if_false, Run.res_fail]
          refine res_match _ _ _ fun d cur' => ?_
          split
          · rfl
          · rw [Run.res_bind, ih.arrayLoop]
            congr 1; funext r cur
            rw [Run.res_bind, skipWhitespaceT_res]
            congr 1; funext more cur
            cases more <;> simp only [if_true, Bool.true_eq_false, if_false, Run.res_fail]
            refine res_match _ _ _ fun d cur' => ?_
            split <;> rfl
    · intro acc s
      simp only [arrayLoopT, arrayLoop, Run.res_tick]
      rw [Run.res_bind, skipWhitespaceT_res]
      congr 1; funext more cur
      cases more <;> simp only [if_true, Bool.true_eq_false, if_false, Run.res_fail]
      refine res_match _ _ _ fun d cur' => ?_
      split
      · rfl
      · rw [Run.res_bind, ih.value]
        congr 1; funext r cur
        rw [Run.res_bind, skipWhitespaceT_res]
        congr 1; funext more cur
        cases more <;> simp only [if_true, Bool.true_eq_false, if_false, Run.res_fail]
        refine res_match _ _ _ fun d cur' => ?_
        split
        · exact ih.arrayLoop _ _
        · rfl
    · intro s
      cases s with
      | nil => simp [parseObjectT, parseObject]
      | cons c s =>
        simp only [parseObjectT, parseObject, Run.res_tick, Run.res_nest]
        split
        · rfl
        · rw [Run.res_bind, skipWhitespaceT_res]
          congr 1; funext more cur
          cases more <;> simp only [if_true, Bool.true_eq_false, if_false, Run.res_fail]
          refine res_match _ _ _ fun d cur' => ?_
          split
          · rfl
          · rw [Run.res_bind, ih.objectLoop]
            congr 1; funext r cur
            rw [Run.res_bind, skipWhitespaceT_res]
            congr 1; funext more cur
            cases more <;> simp only [if_true, Bool.true_eq_false, if_false, Run.res_fail]
            refine res_match _ _ _ fun d cur' => ?_
            split <;> rfl
    · intro acc s
      simp only [objectLoopT, objectLoop, Run.res_tick]
      rw [Run.res_bind, skipWhitespaceT_res]
      congr 1; funext more cur
      cases more <;> simp only [if_true, Bool.true_eq_false, if_false, Run.res_fail]
      refine res_match _ _ _ fun d cur' => ?_
      split
      · rfl
      · rw [Run.res_bind, parseStdstringT_res]
        congr 1; funext key cur
        rw [Run.res_bind, skipWhitespaceT_res]
        congr 1; funext more cur
        cases more <;> simp only [if_true, Bool.true_eq_false, if_false, Run.res_fail]
        refine res_match _ _ _ fun d cur' => ?_
        split
        · rfl
        · rw [Run.res_bind, skipWhitespaceT_res]
          congr 1; funext more cur
          cases more <;> simp only [if_true, Bool.true_eq_false, if_false, Run.res_fail]
          rw [Run.res_bind, ih.value]
          congr 1; funext r cur
          rw [Run.res_bind, skipWhitespaceT_res]
          congr 1; funext more cur
          cases more <;> simp only [if_true, Bool.true_eq_false, if_false, Run.res_fail]
          split
          · rfl
          · refine res_match _ _ _ fun d cur' => ?_
            split
            · exact ih.objectLoop _ _
            · rfl

theorem parseRunT_res (cfg : Cfg) (n : Nat) (s : Bytes) : (parseRunT cfg n s).res = parseRun cfg n s := by
  simp only [parseRunT, parseRun, Run.res_tick]
  rw [Run.res_bind, skipWhitespaceT_res]
  congr 1; funext more cur
  cases more <;> simp only [if_true, Bool.true_eq_false, if_false, Run.res_fail]
  refine res_match _ _ _ fun d cur' => ?_
  rw [Run.res_bind]
  congr 1
  · (repeat' split) <;> simp [(sameAt cfg n).array, (sameAt cfg n).object]
  · funext r cur
    rw [Run.res_bind, skipWhitespaceT_res]
    congr 1; funext more cur
    cases more <;> rfl

/-! ### Its cost -/

/-- The opening brackets in a text. -/
def opens : Bytes → Nat
  | [] => 0
  | c :: s => (if c = 0x5b ∨ c = 0x7b then 1 else 0) + opens s

theorem opens_append (s t : Bytes) : opens (s ++ t) = opens s + opens t := by
  induction s with
  | nil => simp [opens]
  | cons c s ih => simp only [List.cons_append, opens, ih]; omega

theorem opens_suffix {s t : Bytes} (h : s <:+ t) : opens s ≤ opens t := by
  obtain ⟨u, rfl⟩ := h; rw [opens_append]; omega

/-- At most `A` ticks and 64 for every byte read; depth at most the opening brackets ahead. -/
structure Within {α : Type} (A : Nat) (s : Bytes) (r : Run α) : Prop where
  depth : r.depth ≤ opens s
  ticks : r.ticks ≤ A + 64 * s.length
  ok : ∀ a rest, r.res = .ok a rest → rest <:+ s ∧ r.ticks + 64 * rest.length ≤ A + 64 * s.length

namespace Within
variable {α β : Type}

theorem ret {s : Bytes} (a : α) : Within 0 s (Run.ret a s) :=
  ⟨Nat.zero_le _, by simp [Run.ret], fun b rest h => by simp [Run.ret] at h; obtain ⟨_, rfl⟩ := h; simp [Run.ret]⟩
theorem fail {s : Bytes} : Within 0 s (Run.fail : Run α) := ⟨Nat.zero_le _, Nat.zero_le _, fun b rest h => by simp at h⟩
theorem ub {s : Bytes} : Within 0 s (Run.ub : Run α) := ⟨Nat.zero_le _, Nat.zero_le _, fun b rest h => by simp at h⟩
theorem timeout {s : Bytes} : Within 0 s (Run.timeout : Run α) := ⟨Nat.zero_le _, Nat.zero_le _, fun b rest h => by simp at h⟩

theorem tick {A : Nat} {s : Bytes} {r : Run α} (h : Within A s r) : Within (A + 1) s r.tick :=
  ⟨h.depth, by have := h.ticks; simp only [Run.tick]; omega,
   fun a rest e => by have := h.ok a rest e; simp only [Run.tick]; exact ⟨this.1, by omega⟩⟩

theorem mono {A A' : Nat} {s t : Bytes} {r : Run α} (h : Within A s r) (hs : s <:+ t) (hA : A + 64 * s.length ≤ A' + 64 * t.length) : Within A' t r :=
  ⟨Nat.le_trans h.depth (opens_suffix hs), Nat.le_trans h.ticks hA, fun a rest e => ⟨(h.ok a rest e).1.trans hs, Nat.le_trans (h.ok a rest e).2 hA⟩⟩

theorem up {A A' : Nat} {s : Bytes} {r : Run α} (h : Within A s r) (hA : A ≤ A') : Within A' s r := h.mono (List.suffix_refl s) (by omega)

/-- One byte read pays 64. -/
theorem cons {A A' : Nat} {c : UInt8} {s : Bytes} {r : Run α} (h : Within A s r) (hA : A ≤ A' + 64) : Within A' (c :: s) r :=
  h.mono (List.suffix_cons c s) (by simp only [List.length_cons]; omega)

theorem bind {A A' : Nat} {s : Bytes} {r : Run α} {f : α → Bytes → Run β} (h : Within A s r) (hf : ∀ a rest, rest <:+ s → Within A' rest (f a rest)) :
    Within (A + A') s (r.bind f) := by
  have h1 := h.depth
  have h2 := h.ticks
  cases hr : r.res with
  | ok a rest =>
    obtain ⟨h3, h4⟩ := h.ok a rest hr
    have h5 := hf a rest h3
    have h6 := h5.depth
    have h7 := h5.ticks
    have h8 := opens_suffix h3
    refine ⟨?_, ?_, ?_⟩
    · simp only [Run.bind, hr]; omega
    · simp only [Run.bind, hr]; omega
    · intro b rest' e
      simp only [Run.bind, hr] at e ⊢
      have h9 := h5.ok b rest' e
      exact ⟨h9.1.trans h3, by omega⟩
  | fail => exact ⟨by simpa only [Run.bind, hr] using h1, by simp only [Run.bind, hr]; omega, fun b rest e => by simp [Run.bind, hr] at e⟩
  | ub => exact ⟨by simpa only [Run.bind, hr] using h1, by simp only [Run.bind, hr]; omega, fun b rest e => by simp [Run.bind, hr] at e⟩
  | timeout => exact ⟨by simpa only [Run.bind, hr] using h1, by simp only [Run.bind, hr]; omega, fun b rest e => by simp [Run.bind, hr] at e⟩

theorem fail' {A : Nat} {s : Bytes} : Within A s (Run.fail : Run α) := fail.up (Nat.zero_le _)
theorem ub' {A : Nat} {s : Bytes} : Within A s (Run.ub : Run α) := ub.up (Nat.zero_le _)
theorem ret' {A : Nat} {s : Bytes} (a : α) : Within A s (Run.ret a s) := (ret a).up (Nat.zero_le _)

/-- The shape after every `skip_whitespace`. -/
theorem look {A : Nat} {more : Bool} {cur : Bytes} {f : UInt8 → Bytes → Run β} (h : ∀ c s, cur = c :: s → Within A (c :: s) (f c s)) :
    Within A cur (if more = false then Run.fail else match cur with | [] => Run.ub | c :: s => f c s) := by
  split
  · exact fail'
  · cases cur with
    | nil => exact ub'
    | cons c s => exact h c s rfl
end Within

theorem commentLoopT_cost (line : Bool) (s : Bytes) :
    (commentLoopT line s).1.2 <:+ s ∧ (commentLoopT line s).2 + (commentLoopT line s).1.2.length ≤ 1 + s.length := by
  induction s with
  | nil => simp [commentLoopT]
  | cons c s ih =>
    have hc : (commentLoopT line s).1.2 <:+ c :: s := ih.1.trans (List.suffix_cons c s)
    simp only [commentLoopT]
    split
    · split
      · exact ⟨List.suffix_cons c s, by simp only [List.length_cons]; omega⟩
      · exact ⟨hc, by simp only [List.length_cons]; omega⟩
    · split
      · split
        · exact ⟨(List.tail_suffix s).trans (List.suffix_cons c s), by simp only [List.length_cons, List.length_tail]; omega⟩
        · exact ⟨hc, by simp only [List.length_cons]; omega⟩
      · exact ⟨hc, by simp only [List.length_cons]; omega⟩

theorem skipCommentT_cost (s : Bytes) : (skipCommentT s).1.2 <:+ s ∧ (skipCommentT s).2 + (skipCommentT s).1.2.length ≤ 2 + s.length ∧
    ((skipCommentT s).1.1 = true → (skipCommentT s).1.2.length < s.length) := by
  cases s with
  | nil => simp [skipCommentT]
  | cons c s =>
    simp only [skipCommentT]
    split
    · simp only [List.length_cons]; exact ⟨List.suffix_refl _, by omega, by simp⟩
    · cases s with
      | nil => simp
      | cons d s =>
        have h2 : s <:+ c :: d :: s := (List.suffix_cons d s).trans (List.suffix_cons c _)
        simp only
        split
        · have := commentLoopT_cost true s
          have := this.1.length_le
          exact ⟨(commentLoopT_cost true s).1.trans h2, by simp only [List.length_cons]; omega, fun _ => by simp only [List.length_cons]; omega⟩
        · split
          · have := commentLoopT_cost false s
            have := this.1.length_le
            exact ⟨(commentLoopT_cost false s).1.trans h2, by simp only [List.length_cons]; omega, fun _ => by simp only [List.length_cons]; omega⟩
          · exact ⟨h2, by simp only [List.length_cons]; omega, by simp⟩

theorem skipWhitespaceFT_cost (j : Bool) (n : Nat) (s : Bytes) : Within 3 s (skipWhitespaceFT j n s) := by
  induction n generalizing s with
  | zero => exact Within.timeout.up (by omega)
  | succ n ih =>
    cases s with
    | nil => exact (Within.ret false).tick.up (by omega)
    | cons c s =>
      simp only [skipWhitespaceFT]
      split
      · exact (ih s).tick.cons (by omega)
      · split
        · split
          · obtain ⟨h1, h2, h3⟩ := skipCommentT_cost (c :: s)
            have h4 := h1.length_le
            split
            · next hb =>
              have h3 := h3 hb
              have h5 := ih (skipCommentT (c :: s)).1.2
              have h6 := h5.depth
              have h7 := h5.ticks
              have h8 := opens_suffix h1
              refine ⟨?_, ?_, ?_⟩
              · simp only; omega
              · simp only; omega
              · intro a rest e
                simp only at e ⊢
                have h9 := h5.ok a rest e
                exact ⟨h9.1.trans h1, by omega⟩
            · refine ⟨?_, ?_, ?_⟩
              · simp
              · simp only [List.length_cons] at *; omega
              · intro a rest e
                simp only [Res.ok.injEq] at e
                obtain ⟨_, rfl⟩ := e
                exact ⟨h1, by simp only [List.length_cons] at *; omega⟩
          · exact (Within.ret false).tick.up (by omega)
        · split
          · exact (Within.ret false).tick.up (by omega)
          · exact (Within.ret true).tick.up (by omega)

theorem skipWhitespaceT_cost (j : Bool) (s : Bytes) : Within 4 s (skipWhitespaceT j s) := (skipWhitespaceFT_cost j _ s).tick

theorem digitLoopT_cost (s : Bytes) : (digitLoopT s).1 <:+ s ∧ (digitLoopT s).2 + (digitLoopT s).1.length ≤ 1 + s.length := by
  induction s with
  | nil => simp [digitLoopT]
  | cons c s ih =>
    simp only [digitLoopT]
    split
    · exact ⟨ih.1.trans (List.suffix_cons c s), by simp only [List.length_cons]; omega⟩
    · exact ⟨List.suffix_refl _, by simp only [List.length_cons]; omega⟩

theorem skipDigitT_cost (s : Bytes) : Within 2 s (skipDigitT s) := by
  cases s with
  | nil => exact Within.fail.tick.up (by omega)
  | cons c s =>
    have ⟨h1, h2⟩ := digitLoopT_cost s
    have h3 := h1.length_le
    simp only [skipDigitT]
    split
    · split
      · exact ⟨Nat.zero_le _, by simp only [List.length_cons]; omega, fun a r e => by simp at e⟩
      · next c' s' he =>
        rw [he] at h1 h2 h3
        refine ⟨Nat.zero_le _, by simp only [List.length_cons]; omega, fun a r e => ?_⟩
        simp only [Res.ok.injEq] at e
        obtain ⟨_, rfl⟩ := e
        exact ⟨h1.trans (List.suffix_cons c s), by simp only [List.length_cons] at *; omega⟩
    · exact Within.fail.tick.up (by omega)

theorem matchLiteralT_cost (l s : Bytes) : Within 1 s (matchLiteralT l s) := by
  induction l generalizing s with
  | nil => exact (Within.ret ()).tick
  | cons c l ih =>
    cases s with
    | nil => exact Within.fail.tick
    | cons d s =>
      simp only [matchLiteralT]
      split
      · exact (ih s).tick.cons (by omega)
      · exact Within.fail.tick

theorem parseNullT_cost (s : Bytes) : Within 2 s (parseNullT s) := ((matchLiteralT_cost _ s).bind fun _ _ _ => Within.ret _).tick

theorem parseBooleanT_cost (s : Bytes) : Within 2 s (parseBooleanT s) := by
  cases s with
  | nil => exact Within.ub.tick.up (by omega)
  | cons c s =>
    simp only [parseBooleanT]
    split
    · exact ((matchLiteralT_cost _ _).bind fun _ _ _ => Within.ret _).tick
    · split
      · exact ((matchLiteralT_cost _ _).bind fun _ _ _ => Within.ret _).tick
      · exact Within.fail.tick.up (by omega)

theorem numberFracT_cost (s : Bytes) : Within 2 s (numberFracT s) := by
  cases s with
  | nil => exact Within.ub'
  | cons c s =>
    simp only [numberFracT]
    split
    · exact (skipDigitT_cost s).cons (by omega)
    · exact Within.ret' _

theorem numberExpT_cost (s : Bytes) : Within 2 s (numberExpT s) := by
  cases s with
  | nil => exact Within.ub'
  | cons c s =>
    simp only [numberExpT]
    split
    · cases s with
      | nil => exact Within.fail'
      | cons d s =>
        simp only
        split
        · exact ((skipDigitT_cost s).cons (A' := 2) (by omega)).cons (by omega)
        · exact (skipDigitT_cost (d :: s)).cons (by omega)
    · exact Within.ret' _

theorem parseNumberT_cost (s : Bytes) : Within 7 s (parseNumberT s) := by
  cases s with
  | nil => exact Within.ub.tick.up (by omega)
  | cons c s =>
    simp only [parseNumberT]
    have key : Within 2 (c :: s) (skipDigitT (if c = 0x2d then s else c :: s)) := by
      split
      · exact (skipDigitT_cost s).cons (by omega)
      · exact skipDigitT_cost _
    generalize (if c = 0x2d then s else c :: s) = s1 at key
    split
    · exact Within.fail.tick.up (by omega)
    · exact (key.bind fun _ r _ => (numberFracT_cost r).bind fun _ r _ => (numberExpT_cost r).bind fun _ r _ => Within.ret _).tick

theorem hexLoopT_cost (n : Nat) (cp : UInt16) (s : Bytes) : Within 1 s (hexLoopT n cp s) := by
  induction n generalizing cp s with
  | zero => exact (Within.ret _).tick
  | succ n ih =>
    cases s with
    | nil => exact Within.fail.tick
    | cons c s =>
      simp only [hexLoopT]
      cases hexStep cp c with
      | none => exact Within.fail.tick
      | some cp' => exact (ih cp' s).tick.cons (by omega)

theorem skipUnicodeEscapeT_cost (p : UInt16) (s : Bytes) : Within 2 s (skipUnicodeEscapeT p s) := by
  refine ((hexLoopT_cost 4 0 s).bind (A' := 0) fun cp r _ => ?_).tick
  cases unicodeUnit p cp with
  | none => exact Within.fail
  | some x => exact Within.ret _

theorem accelLoopT_cost (T : Traits) (hT : 1 ≤ T.step) (n : Nat) (s : Bytes) : Within 1 s (accelLoopT T n s) := by
  induction n generalizing s with
  | zero => exact Within.timeout.up (by omega)
  | succ n ih =>
    simp only [accelLoopT]
    split
    · next hl =>
      split
      · exact Within.ub.tick
      · split
        · exact (ih _).tick.mono (List.drop_suffix _ s) (by simp only [List.length_drop]; omega)
        · split
          · exact (Within.ret ()).tick.mono (List.drop_suffix _ s) (by simp only [List.length_drop]; omega)
          · exact Within.ub.tick
    · exact (Within.ret ()).tick

/-- Blocks are not empty. -/
def StepPos (accel : Option Traits) : Prop := ∀ T, accel = some T → 1 ≤ T.step

theorem accelStepT_cost {accel : Option Traits} (hT : StepPos accel) (s : Bytes) : Within 2 s (accelStepT accel s) := by
  cases accel with
  | none => exact Within.ret' _
  | some T => exact ((accelLoopT_cost T (hT T rfl) _ s).bind fun _ _ _ => Within.ret _).tick

theorem stringLoopT_cost {accel : Option Traits} (hT : StepPos accel) (n : Nat) (result beg : Bytes) (p : UInt16) (s : Bytes) :
    Within 3 s (stringLoopT accel n result beg p s) := by
  induction n generalizing result beg p s with
  | zero => exact Within.timeout.up (by omega)
  | succ n ih =>
    cases s with
    | nil => exact Within.fail.tick.up (by omega)
    | cons c₀ s₀ =>
      simp only [stringLoopT]
      refine ((accelStepT_cost hT (c₀ :: s₀)).bind (A' := 0) fun more cur _ => Within.look fun c s hc => ?_).tick
      split
      · exact Within.fail
      · split
        · cases s with
          | nil => exact Within.fail
          | cons d s =>
            simp only
            split
            · exact Within.fail
            · split
              · exact (((skipUnicodeEscapeT_cost p s).bind fun r s'' _ => ih _ _ _ _).cons (A' := 0) (by omega)).cons (by omega)
              · cases simpleEscape d with
                | none => exact Within.fail
                | some e => exact ((ih _ _ _ _).cons (A' := 0) (by omega)).cons (by omega)
        · split
          · split
            · exact Within.fail
            · exact (Within.ret _).cons (by omega)
          · split
            · exact Within.fail
            · split
              · exact Within.fail
              · exact (ih _ _ _ _).cons (by omega)

theorem parseStdstringT_cost {accel : Option Traits} (hT : StepPos accel) (s : Bytes) : Within 4 s (parseStdstringT accel s) := by
  cases s with
  | nil => exact Within.ub.tick.up (by omega)
  | cons c s =>
    simp only [parseStdstringT]
    split
    · exact (stringLoopT_cost hT _ _ _ _ s).tick.cons (by omega)
    · exact Within.fail.tick.up (by omega)

theorem parseStringT_cost {accel : Option Traits} (hT : StepPos accel) (s : Bytes) : Within 5 s (parseStringT accel s) :=
  ((parseStdstringT_cost hT s).bind fun _ _ _ => Within.ret _).tick

/-- An activation of `parse_array`/`parse_object` is paid by its bracket. -/
theorem Within.bracket {α : Type} {A A' : Nat} {c : UInt8} {s : Bytes} {r : Run α} (hc : c = 0x5b ∨ c = 0x7b) (h : Within A s r) (hA : A ≤ A' + 64) :
    Within A' (c :: s) r.nest := by
  have h' := h.cons (c := c) hA
  refine ⟨?_, h'.ticks, h'.ok⟩
  have := h.depth
  simp only [Run.nest, opens, hc, if_true]
  omega

structure CostAt (cfg : Cfg) (n : Nat) : Prop where
  value : ∀ s, Within 8 s (parseValueT cfg n s)
  array : ∀ s, Within 0 (0x5b :: s) (parseArrayT cfg n (0x5b :: s))
  arrayLoop : ∀ acc s, Within 17 s (arrayLoopT cfg n acc s)
  object : ∀ s, Within 0 (0x7b :: s) (parseObjectT cfg n (0x7b :: s))
  objectLoop : ∀ acc s, Within 13 s (objectLoopT cfg n acc s)

theorem costAt {cfg : Cfg} (hT : StepPos cfg.accel) (n : Nat) : CostAt cfg n := by
  induction n with
  | zero =>
    constructor <;> intros <;> simp only [parseValueT, parseArrayT, arrayLoopT, parseObjectT, objectLoopT] <;> exact Within.timeout.up (by omega)
  | succ n ih =>
    constructor
    · intro s
      cases s with
      | nil => simp only [parseValueT]; exact Within.ub.tick.up (by omega)
      | cons c s =>
        simp only [parseValueT]
        refine Within.tick (A := 7) ?_
        split
        · exact (parseNullT_cost _).up (by omega)
        · split
          · exact (parseBooleanT_cost _).up (by omega)
          · split
            · exact parseNumberT_cost _
            · split
              · exact (parseStringT_cost hT _).up (by omega)
              · split
                · next hc => subst hc; exact (ih.array s).up (by omega)
                · split
                  · next hc => subst hc; exact (ih.object s).up (by omega)
                  · exact Within.fail'
    · intro s
      simp only [parseArrayT, ne_eq, not_true_eq_false, if_false]
      refine Within.bracket (Or.inl rfl) (A := 26) ?_ (by omega)
      refine Within.up (A := 4 + (17 + (4 + 0)) + 1) ?_ (by omega)
      refine ((skipWhitespaceT_cost _ s).bind fun more cur _ => Within.look fun c s hc => ?_).tick
      split
      · exact (Within.ret' _).cons (A := 0) (by omega)
      · refine (ih.arrayLoop _ _).bind (A' := 4 + 0) fun result cur _ => (skipWhitespaceT_cost _ _).bind (A' := 0) fun more cur _ => Within.look fun c s hc => ?_
        split
        · exact (Within.ret _).cons (by omega)
        · exact Within.fail
    · intro acc s
      simp only [arrayLoopT]
      refine Within.up (A := 4 + (8 + (4 + 0)) + 1) ?_ (by omega)
      refine ((skipWhitespaceT_cost _ s).bind fun more cur _ => Within.look fun c s hc => ?_).tick
      split
      · exact Within.ret' _
      · refine (ih.value _).bind (A' := 4 + 0) fun val cur _ => (skipWhitespaceT_cost _ _).bind (A' := 0) fun more cur _ => Within.look fun c s hc => ?_
        split
        · exact (ih.arrayLoop _ _).cons (by omega)
        · exact Within.ret _
    · intro s
      simp only [parseObjectT, ne_eq, not_true_eq_false, if_false]
      refine Within.bracket (Or.inr rfl) (A := 22) ?_ (by omega)
      refine Within.up (A := 4 + (13 + (4 + 0)) + 1) ?_ (by omega)
      refine ((skipWhitespaceT_cost _ s).bind fun more cur _ => Within.look fun c s hc => ?_).tick
      split
      · exact (Within.ret' _).cons (A := 0) (by omega)
      · refine (ih.objectLoop _ _).bind (A' := 4 + 0) fun result cur _ => (skipWhitespaceT_cost _ _).bind (A' := 0) fun more cur _ => Within.look fun c s hc => ?_
        split
        · exact (Within.ret _).cons (by omega)
        · exact Within.fail
    · intro acc s
      simp only [objectLoopT]
      refine Within.up (A := 4 + (4 + (4 + 0)) + 1) ?_ (by omega)
      refine ((skipWhitespaceT_cost _ s).bind fun more cur _ => Within.look fun c s hc => ?_).tick
      split
      · exact Within.ret' _
      · refine (parseStdstringT_cost hT _).bind (A' := 4 + 0) fun key cur _ => (skipWhitespaceT_cost _ _).bind (A' := 0) fun more cur _ => Within.look fun c s hc => ?_
        split
        · exact Within.fail
        · refine Within.cons (A := 4 + (8 + (4 + 0))) ?_ (by omega)
          refine (skipWhitespaceT_cost _ s).bind fun more cur _ => ?_
          split
          · exact Within.fail'
          · refine (ih.value _).bind (A' := 4 + 0) fun val cur _ => (skipWhitespaceT_cost _ _).bind (A' := 0) fun more cur _ => ?_
            split
            · exact Within.fail
            · split
              · exact Within.fail
              · cases cur with
                | nil => exact Within.ub
                | cons c s =>
                  simp only
                  split
                  · exact (ih.objectLoop _ _).cons (by omega)
                  · exact Within.ret _

theorem parseRunT_cost {cfg : Cfg} (hT : StepPos cfg.accel) (n : Nat) (s : Bytes) : Within 9 s (parseRunT cfg n s) := by
  simp only [parseRunT]
  refine ((skipWhitespaceT_cost _ s).bind (A' := 0 + (4 + 0)) fun more cur _ => Within.look fun c s hc => ?_).tick
  refine Within.bind ?_ fun v cur _ => (skipWhitespaceT_cost _ cur).bind fun more cur _ => ?_
  · split
    · next hc => subst hc; exact (costAt hT n).array s
    · split
      · next hc => subst hc; exact (costAt hT n).object s
      · exact Within.fail
  · split
    · exact Within.fail
    · exact Within.ret _

/-! ### Deep texts -/

/-- `n` arrays inside one another, the innermost empty. -/
def deepArray : Nat → Value
  | 0 => .ofArray []
  | n + 1 => .ofArray [deepArray n]

theorem skipWhitespaceT_open (j : Bool) (s : Bytes) : skipWhitespaceT j (0x5b :: s) = ⟨.ok true (0x5b :: s), 2, 0⟩ := by
  simp [skipWhitespaceT, skipWhitespaceFT, Run.ret, Run.tick]

theorem skipWhitespaceT_close (j : Bool) (s : Bytes) : skipWhitespaceT j (0x5d :: s) = ⟨.ok true (0x5d :: s), 2, 0⟩ := by
  simp [skipWhitespaceT, skipWhitespaceFT, Run.ret, Run.tick]

theorem parseArrayT_deep (cfg : Cfg) (d n : Nat) (tail : Bytes) (hn : 3 * d + 1 ≤ n) :
    ∃ t, parseArrayT cfg n (List.replicate (d + 1) 0x5b ++ (List.replicate (d + 1) 0x5d ++ tail)) = ⟨.ok (deepArray d) tail, t, d + 1⟩ := by
  induction d generalizing n tail with
  | zero =>
    obtain ⟨n, rfl⟩ : ∃ m, n = m + 1 := ⟨n - 1, by omega⟩
    refine ⟨2 + 0 + 1, ?_⟩
    simp only [Nat.zero_add, List.replicate_one, List.cons_append, List.nil_append, parseArrayT, ne_eq, not_true_eq_false, if_false, skipWhitespaceT_close,
      Run.bind, Bool.true_eq_false, if_true, Run.ret, Run.tick, Run.nest, deepArray, Nat.max_self]
  | succ d ih =>
    obtain ⟨n, rfl⟩ : ∃ m, n = m + 3 := ⟨n - 3, by omega⟩
    obtain ⟨t, ht⟩ := ih n (0x5d :: tail) (by omega)
    have e : List.replicate (d + 1 + 1) (0x5d : UInt8) ++ tail = List.replicate (d + 1) 0x5d ++ 0x5d :: tail := by
      rw [List.replicate_succ' (n := d + 1)]; simp
    rw [e, List.replicate_succ (n := d + 1), List.cons_append]
    rw [List.replicate_succ (n := d), List.cons_append] at ht ⊢
    refine ⟨2 + (2 + (t + 1 + (2 + 0)) + 1 + (2 + 0)) + 1, ?_⟩
    simp only [parseArrayT, ne_eq, not_true_eq_false, if_false, skipWhitespaceT_open,
      Run.bind, Bool.true_eq_false, if_true, show ¬((0x5b : UInt8) = 0x5d) by decide, arrayLoopT, parseValueT]
    simp only [show ¬((0x5b : UInt8) = 0x6e) by decide, show ¬((0x5b : UInt8) = 0x74 ∨ (0x5b : UInt8) = 0x66) by decide,
      show ¬((0x5b : UInt8) = 0x2d ∨ isDigit 0x5b = true) by decide, show ¬((0x5b : UInt8) = 0x22) by decide, if_true, if_false, ht, skipWhitespaceT_close,
      show ¬((0x5d : UInt8) = 0x2c) by decide, and_false, Bool.true_eq_false, Run.ret, Run.tick, Run.nest, List.nil_append, deepArray,
      Nat.max_zero, Nat.zero_max]

end Meojson
