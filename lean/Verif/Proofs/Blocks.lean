import Verif.Proofs.Simd
import Verif.Proofs.Dialects
import Verif.Proofs.Padding

/-! Which runs of plain bytes a block scan passes over. -/

set_option autoImplicit false

namespace Meojson
open Spec

/-! ### The first flag of a block -/

theorem takeWhile_flag (x : Bytes) (y : Bytes) {c : UInt8} (hc : c ≠ 0) :
    ((x ++ c :: y).takeWhile (· == 0)).length ≤ x.length ∧
      (((x ++ c :: y).takeWhile (· == 0)).length = x.length ↔ ∀ f ∈ x, f = 0) := by
  have hbeq : (c == 0) = false := by simpa using hc
  induction x with
  | nil => simp [hbeq]
  | cons a x ih =>
    by_cases ha : a = 0
    · subst ha
      simp only [List.cons_append, List.takeWhile_cons, beq_self_eq_true, if_true, List.length_cons, List.mem_cons, forall_eq_or_imp, true_and]
      exact ⟨by omega, by rw [← ih.2]; omega⟩
    · have h1 : (a == 0) = false := by simpa using ha
      simp [h1, ha]

theorem comb_prefix {p : Bytes} (hp : ∀ c ∈ p, Unescaped c) (q : Bytes) :
    comb false false false (p ++ q) = comb false false false p ++ comb false false false q := by
  induction p with
  | nil => rfl
  | cons b p ih =>
    obtain ⟨h1, h2, h3, h4⟩ := combByte_plain b (hp b (by simp))
    simp only [List.cons_append, comb, h2, h3, h4]
    rw [ih fun x hx => hp x (by simp [hx])]

theorem comb_append (c₁ c₂ c₃ : Bool) (x y : Bytes) : ∃ d₁ d₂ d₃, comb c₁ c₂ c₃ (x ++ y) = comb c₁ c₂ c₃ x ++ comb d₁ d₂ d₃ y := by
  induction x generalizing c₁ c₂ c₃ with
  | nil => exact ⟨_, _, _, rfl⟩
  | cons b x ih =>
    obtain ⟨d₁, d₂, d₃, h⟩ := ih (borrow 32 c₁ b) (borrow 1 c₂ (b ^^^ 0x22)) (borrow 1 c₃ (b ^^^ 0x5c))
    exact ⟨d₁, d₂, d₃, by simp [comb, h]⟩

/-- What a backslash carries into the next byte. -/
theorem borrow_backslash : ∀ c₁ c₂ c₃ : Bool, borrow 32 c₁ 0x5c = false ∧ borrow 1 c₂ (0x5c ^^^ 0x22) = false ∧ borrow 1 c₃ (0x5c ^^^ 0x5c) = true := by
  decide +kernel

theorem combByte_carry (b : UInt8) (hb : Unescaped b) :
    (combByte false false true b = 0 ↔ b ≠ 0x5d) ∧ (b ≠ 0x5d → borrow 32 false b = false ∧ borrow 1 false (b ^^^ 0x22) = false ∧
      borrow 1 true (b ^^^ 0x5c) = false) := by
  revert b
  apply uint8_forall
  decide +kernel

theorem comb_carry {p : Bytes} (hp : ∀ c ∈ p, Unescaped c) : (∀ f ∈ comb false false true p, f = 0) ↔ p.head? ≠ some 0x5d := by
  cases p with
  | nil => simp [comb]
  | cons b p =>
    obtain ⟨h1, h2⟩ := combByte_carry b (hp b (by simp))
    by_cases hb : b = 0x5d
    · subst hb
      simp only [comb, List.mem_cons, forall_eq_or_imp, List.head?_cons, ne_eq, not_true_eq_false, iff_false, not_and]
      intro h; simp [h] at h1
    · obtain ⟨h3, h4, h5⟩ := h2 hb
      simp only [comb, h3, h4, h5, List.mem_cons, forall_eq_or_imp, List.head?_cons, ne_eq, Option.some.injEq, hb, not_false_eq_true, iff_true]
      exact ⟨h1.2 hb, comb_plain p fun x hx => hp x (by simp [hx])⟩

/-- The first flag of a block is that of the backslash, unless a big-endian word holds a `]` before it. -/
theorem first_flag (a : Accel) (B : Blocks) (hB : a.blocks = some B) {p : Bytes} (hp : ∀ c ∈ p, Unescaped c) (q : Bytes) :
    ((a.flags (p ++ 0x5c :: q)).takeWhile (· == 0)).length ≤ p.length ∧
      (((a.flags (p ++ 0x5c :: q)).takeWhile (· == 0)).length = p.length ↔ (B.bigEndian = true → p.getLast? ≠ some 0x5d)) := by
  have hl : B.bigEndian = false → ((List.map lane (p ++ 0x5c :: q)).takeWhile (· == 0)).length ≤ p.length ∧
      (((List.map lane (p ++ 0x5c :: q)).takeWhile (· == 0)).length = p.length ↔ (B.bigEndian = true → p.getLast? ≠ some 0x5d)) := by
    intro hb
    have := takeWhile_flag (p.map lane) (q.map lane) (c := lane 0x5c) (by decide)
    simp only [List.map_append, List.map_cons, List.length_map] at this ⊢
    refine ⟨this.1, this.2.trans ?_⟩
    simp only [hb, Bool.false_eq_true, false_imp_iff, iff_true]
    intro f hf
    obtain ⟨b, hb, rfl⟩ := List.mem_map.1 hf
    simp [lane, hp b hb]
  have hw : ∀ le, B.bigEndian = !le → ((wordFlags le (p ++ 0x5c :: q)).takeWhile (· == 0)).length ≤ p.length ∧
      (((wordFlags le (p ++ 0x5c :: q)).takeWhile (· == 0)).length = p.length ↔ (B.bigEndian = true → p.getLast? ≠ some 0x5d)) := by
    intro le hb
    cases le with
    | true =>
      simp only [wordFlags, if_true]
      rw [comb_prefix hp, comb]
      have := takeWhile_flag (comb false false false p) (comb (borrow 32 false 0x5c) (borrow 1 false (0x5c ^^^ 0x22)) (borrow 1 false (0x5c ^^^ 0x5c)) q)
        (combByte_special 0x5c not_unescaped_backslash false false false)
      rw [comb_length] at this
      refine ⟨this.1, this.2.trans ?_⟩
      simp only [hb, Bool.not_true, Bool.false_eq_true, false_imp_iff, iff_true]
      exact comb_plain p hp
    | false =>
      simp only [wordFlags, Bool.false_eq_true, if_false]
      obtain ⟨d₁, d₂, d₃, h⟩ := comb_append false false false q.reverse (0x5c :: p.reverse)
      obtain ⟨b1, b2, b3⟩ := borrow_backslash d₁ d₂ d₃
      rw [comb, b1, b2, b3] at h
      have e : (p ++ 0x5c :: q).reverse = q.reverse ++ 0x5c :: p.reverse := by simp
      rw [e, h]
      have := takeWhile_flag (comb false false true p.reverse).reverse (comb false false false q.reverse).reverse
        (combByte_special 0x5c not_unescaped_backslash d₁ d₂ d₃)
      rw [List.length_reverse, comb_length, List.length_reverse] at this
      simp only [List.reverse_append, List.reverse_cons, List.append_assoc, List.cons_append, List.nil_append]
      refine ⟨this.1, this.2.trans ?_⟩
      simp only [hb, Bool.not_false, true_imp_iff, List.mem_reverse]
      rw [comb_carry (by simpa using hp), List.head?_reverse]
  cases a <;> simp only [Accel.blocks, Option.some.injEq, reduceCtorEq] at hB <;> subst hB
  · exact hw _ rfl
  · exact hw _ rfl
  · exact hl rfl
  · exact hl rfl
  · exact hl rfl

/-- The byte that a big-endian word takes for a special one when it stands before `c`. -/
def shadow (c : UInt8) : UInt8 := if c < 0x20 then 0x20 else if c = 0x22 then 0x23 else 0x5d

theorem borrow_special (c : UInt8) (hc : ¬ Unescaped c) : ∀ c₁ c₂ c₃ : Bool, borrow 32 c₁ c = decide (c < 0x20) ∧
    borrow 1 c₂ (c ^^^ 0x22) = decide (c = 0x22) ∧ borrow 1 c₃ (c ^^^ 0x5c) = decide (c = 0x5c) := by
  revert c
  apply uint8_forall
  decide +kernel

theorem carry_shadow (c : UInt8) (hc : ¬ Unescaped c) : ∀ n : Fin 256, Unescaped (UInt8.ofNat n) →
    if UInt8.ofNat n = shadow c then
      combByte (c < 0x20) (c = 0x22) (c = 0x5c) (UInt8.ofNat n) ≠ 0 ∧ borrow 32 (c < 0x20) (UInt8.ofNat n) = decide (c < 0x20) ∧
      borrow 1 (c = 0x22) (UInt8.ofNat n ^^^ 0x22) = decide (c = 0x22) ∧ borrow 1 (c = 0x5c) (UInt8.ofNat n ^^^ 0x5c) = decide (c = 0x5c)
    else
      combByte (c < 0x20) (c = 0x22) (c = 0x5c) (UInt8.ofNat n) = 0 ∧ borrow 32 (c < 0x20) (UInt8.ofNat n) = false ∧
      borrow 1 (c = 0x22) (UInt8.ofNat n ^^^ 0x22) = false ∧ borrow 1 (c = 0x5c) (UInt8.ofNat n ^^^ 0x5c) = false := by
  revert c
  apply uint8_forall
  decide +kernel

theorem takeWhile_zeros {x y : Bytes} (hx : ∀ f ∈ x, f = 0) {c : UInt8} (hc : c ≠ 0) : ((x ++ c :: y).takeWhile (· == 0)).length = x.length :=
  (takeWhile_flag x y hc).2.2 hx

theorem comb_shadow {c : UInt8} (hc : ¬ Unescaped c) {p : Bytes} (hp : ∀ b ∈ p, Unescaped b) {d : UInt8} (hd : d ≠ 0) (y : Bytes) :
    (((comb (c < 0x20) (c = 0x22) (c = 0x5c) p).reverse ++ d :: y).takeWhile (· == 0)).length = (p.dropWhile (· == shadow c)).length := by
  induction p generalizing d y with
  | nil => simp [comb, hd]
  | cons b p ih =>
    have h := carry_shadow c hc ⟨b.toNat, b.toNat_lt⟩ (by simpa using hp b (by simp))
    simp only [UInt8.ofNat_toNat] at h
    by_cases hb : b = shadow c
    · simp only [hb, if_true] at h
      subst hb
      simp only [comb, List.reverse_cons, List.append_assoc, List.cons_append, List.nil_append]
      rw [h.2.1, h.2.2.1, h.2.2.2, ih (fun x hx => hp x (by simp [hx])) h.1]
      simp
    · simp only [hb, if_false] at h
      have hbeq : (b == shadow c) = false := by simpa using hb
      simp only [comb, h.1, h.2.1, h.2.2.1, h.2.2.2, List.dropWhile_cons, hbeq, Bool.false_eq_true, if_false]
      have h0 : ∀ f ∈ comb false false false p, f = 0 := comb_plain p fun x hx => hp x (by simp [hx])
      rw [takeWhile_zeros (fun f hf => by simp at hf; exact hf.elim (h0 f) id) hd]
      simp [comb_length]

/-- The first flag of a block. -/
theorem first_flag_special (a : Accel) (B : Blocks) (hB : a.blocks = some B) {p : Bytes} (hp : ∀ c ∈ p, Unescaped c) {c : UInt8} (hc : ¬ Unescaped c)
    (q : Bytes) : ((a.flags (p ++ c :: q)).takeWhile (· == 0)).length =
      if B.bigEndian = true then (p.reverse.dropWhile (· == shadow c)).length else p.length := by
  have hl : B.bigEndian = false → ((List.map lane (p ++ c :: q)).takeWhile (· == 0)).length =
      if B.bigEndian = true then (p.reverse.dropWhile (· == shadow c)).length else p.length := by
    intro hb
    simp only [hb, Bool.false_eq_true, if_false, List.map_append, List.map_cons]
    rw [takeWhile_zeros ?_ (by simp [lane, hc])]
    · simp
    · intro f hf
      obtain ⟨b, hb, rfl⟩ := List.mem_map.1 hf
      simp [lane, hp b hb]
  have hw : ∀ le, B.bigEndian = !le → ((wordFlags le (p ++ c :: q)).takeWhile (· == 0)).length =
      if B.bigEndian = true then (p.reverse.dropWhile (· == shadow c)).length else p.length := by
    intro le hb
    cases le with
    | true =>
      simp only [hb, Bool.not_true, Bool.false_eq_true, if_false, wordFlags, if_true]
      rw [comb_prefix hp, comb, takeWhile_zeros (comb_plain p hp) (combByte_special c hc false false false), comb_length]
    | false =>
      simp only [wordFlags, Bool.false_eq_true, if_false, hb, Bool.not_false, if_true]
      obtain ⟨d₁, d₂, d₃, h⟩ := comb_append false false false q.reverse (c :: p.reverse)
      obtain ⟨b1, b2, b3⟩ := borrow_special c hc d₁ d₂ d₃
      rw [comb, b1, b2, b3] at h
      have e : (p ++ c :: q).reverse = q.reverse ++ c :: p.reverse := by simp
      rw [e, h]
      simp only [List.reverse_append, List.reverse_cons, List.append_assoc, List.cons_append, List.nil_append]
      exact comb_shadow hc (by simpa using hp) (combByte_special c hc d₁ d₂ d₃) _
  cases a <;> simp only [Accel.blocks, Option.some.injEq, reduceCtorEq] at hB <;> subst hB
  · exact hw _ rfl
  · exact hw _ rfl
  · exact hl rfl
  · exact hl rfl
  · exact hl rfl

/-! ### Runs -/

theorem blocks_step {a : Accel} {T : Traits} (hT : a.traits = some T) : ∃ B, a.blocks = some B ∧ B.step = T.step := by
  cases a <;> simp only [Accel.traits, Option.some.injEq, reduceCtorEq] at hT <;> subst hT <;> exact ⟨_, rfl, rfl⟩

theorem passes_some {B : Blocks} {p r : Text} (hp : ∀ c ∈ p, Unescaped c) : Passes (some B) p r ↔
    p = [] ∨ B.step ∣ p.length ∨ ((p.length / B.step + 1) * B.step ≤ p.length + r.length ∧ (B.bigEndian = true → p.getLast? ≠ some 0x5d)) := by
  unfold Passes
  rw [List.length_append]
  constructor
  · rintro (h | ⟨B', e, -, h⟩)
    · exact .inl h
    · cases e; exact .inr h
  · rintro (h | h)
    · exact .inl h
    · exact .inr ⟨B, rfl, hp, h⟩

/-- A whole block of plain bytes at the beginning makes no difference. -/
theorem passes_drop {B : Blocks} (h0 : 0 < B.step) {p r : Text} (hp : ∀ c ∈ p, Unescaped c) (h : B.step ≤ p.length) :
    Passes (some B) (p.drop B.step) r ↔ Passes (some B) p r := by
  rw [passes_some hp, passes_some (fun c hc => hp c (List.mem_of_mem_drop hc))]
  obtain ⟨m, hm⟩ : ∃ m, p.length = m + B.step := ⟨p.length - B.step, by omega⟩
  have hl : (p.drop B.step).length = m := by simp; omega
  have hne : p ≠ [] := by rintro rfl; simp at hm; omega
  have hdvd : B.step ∣ m + B.step ↔ B.step ∣ m := (Nat.dvd_add_iff_left (Nat.dvd_refl _)).symm
  have hdiv : (m + B.step) / B.step = m / B.step + 1 := Nat.add_div_right _ h0
  rw [hl, hm, hdvd, hdiv]
  by_cases hd : B.step ∣ m
  · simp [hd]
  · have hm0 : m ≠ 0 := by rintro rfl; simp at hd
    have hne' : p.drop B.step ≠ [] := by intro e; rw [e] at hl; exact hm0 hl.symm
    have hlast : (p.drop B.step).getLast? = p.getLast? := by
      rw [List.getLast?_drop, if_neg]; omega
    rw [hlast]
    simp only [hne, hne', hd, false_or]
    have : (m / B.step + 1 + 1) * B.step ≤ m + B.step + r.length ↔ (m / B.step + 1) * B.step ≤ m + r.length := by
      simp only [Nat.add_mul, Nat.one_mul]; omega
    rw [this]

theorem passes_short {B : Blocks} {p r : Text} (hp : ∀ c ∈ p, Unescaped c) (h : p.length < B.step) :
    Passes (some B) p r ↔ p = [] ∨ (B.step ≤ (p ++ r).length ∧ (B.bigEndian = true → p.getLast? ≠ some 0x5d)) := by
  rw [passes_some hp, Nat.div_eq_of_lt h, List.length_append, Nat.zero_add, Nat.one_mul]
  constructor
  · rintro (h1 | h1 | h1)
    · exact .inl h1
    · exact .inl (by simpa using Nat.eq_zero_of_dvd_of_lt h1 h)
    · exact .inr h1
  · rintro (h1 | h1)
    · exact .inl h1
    · exact .inr (.inr h1)

theorem accelLoop_run {a : Accel} {T : Traits} (hT : a.traits = some T) {B : Blocks} (hB : a.blocks = some B) (hs : B.step = T.step) :
    ∀ (n : Nat) (p q : Bytes), (∀ c ∈ p, Unescaped c) → (p ++ 0x5c :: q).length < n →
      ∃ k, k ≤ p.length ∧ accelLoop T n (p ++ 0x5c :: q) = .ok () (p.drop k ++ 0x5c :: q) ∧
        (k = p.length ↔ Passes (some B) p (0x5c :: q)) := by
  have h0 := (accel_sound a T hT).pos
  intro n
  induction n with
  | zero => intro p q _ h; omega
  | succ n ih =>
    intro p q hp hn
    unfold accelLoop
    by_cases hlen : T.step ≤ (p ++ 0x5c :: q).length
    · simp only [ge_iff_le, hlen, if_true, scanBlock_eq (accel_sound a T hT).whole hlen]
      by_cases hps : T.step ≤ p.length
      · -- a block of plain bytes
        have hb : (p.take T.step).length = T.step := by simp; omega
        rw [List.take_append_of_le_length hps, List.drop_append_of_le_length hps]
        obtain ⟨fs, -, hf, hz, -⟩ := accel_flags a T hT _ hb
        rw [hz.2 (hf.2.2 fun c hc => hp c (List.mem_of_mem_take hc)), if_pos rfl]
        obtain ⟨k, h1, h2, h3⟩ := ih (p.drop T.step) q (fun c hc => hp c (List.mem_of_mem_drop hc)) (by simp at hn ⊢; omega)
        simp only [List.length_drop] at h1 h3
        refine ⟨T.step + k, by omega, by rw [h2, List.drop_drop], ?_⟩
        rw [← passes_drop (by omega) hp (by omega), hs, ← h3]
        omega
      · -- the block in which the run ends
        have hb : ((p ++ 0x5c :: q).take T.step).length = T.step := by simp at hlen ⊢; omega
        have hblock : (p ++ 0x5c :: q).take T.step = p ++ 0x5c :: q.take (T.step - p.length - 1) := by
          rw [List.take_append, List.take_of_length_le (by omega)]
          congr 1
          obtain ⟨m, hm⟩ : ∃ m, T.step - p.length = m + 1 := ⟨T.step - p.length - 1, by omega⟩
          rw [hm]; simp
        obtain ⟨fs, rfl, hf, hz, hi⟩ := accel_flags a T hT _ hb
        rw [hblock] at hf hz hi hb ⊢
        have hnz : ¬ ∀ f ∈ a.flags (p ++ 0x5c :: q.take (T.step - p.length - 1)), f = 0 := by
          intro h
          exact absurd (hf.clean h 0x5c (by simp)) not_unescaped_backslash
        have hz' : T.isAllZero (T.scan (p ++ 0x5c :: q.take (T.step - p.length - 1))) = false := by
          cases hh : T.isAllZero (T.scan (p ++ 0x5c :: q.take (T.step - p.length - 1))) with
          | false => rfl
          | true => exact absurd (hz.1 hh) hnz
        obtain ⟨f1, f2⟩ := first_flag a B hB hp (q.take (T.step - p.length - 1))
        rw [hz', if_neg (by simp), hi (exists_ne_zero hnz), if_pos (by simp at hlen ⊢; omega)]
        refine ⟨_, f1, by rw [List.drop_append_of_le_length f1], ?_⟩
        rw [f2, passes_short hp (by omega), hs]
        constructor
        · intro h; exact .inr ⟨hlen, h⟩
        · rintro (rfl | h)
          · simp
          · exact h.2
    · rw [if_neg (by simpa using hlen)]
      refine ⟨0, by omega, rfl, ?_⟩
      rw [passes_short hp (by simp at hlen; omega), hs]
      constructor
      · intro h; exact .inl (by simpa using h.symm)
      · rintro (rfl | h)
        · rfl
        · exact absurd h.1 hlen

/-- The runs a build passes over. -/
theorem skips_iff (a : Accel) (p q : Text) : Skips a.traits p (0x5c :: q) ↔ Passes a.blocks p (0x5c :: q) := by
  cases hT : a.traits with
  | none =>
    have hB : a.blocks = none := by cases a <;> simp [Accel.traits] at hT ⊢; rfl
    rw [hB]
    simp only [Skips, accelStep, Passes, reduceCtorEq, false_and, exists_false, or_false, Res.ok.injEq, true_and]
    constructor
    · rintro ⟨-, h⟩
      have := congrArg List.length h
      simp at this
      exact this
    · rintro rfl; simp
  | some T =>
    obtain ⟨B, hB, hs⟩ := blocks_step hT
    rw [hB]
    by_cases hp : ∀ c ∈ p, Unescaped c
    · obtain ⟨k, h1, h2, h3⟩ := accelLoop_run hT hB hs ((p ++ 0x5c :: q).length + 1) p q hp (by omega)
      rw [← h3]
      unfold Skips
      simp only [accelStep, skipStringLiteralWithAccel, h2, Res.bind_ok, Res.ok.injEq]
      constructor
      · rintro ⟨-, -, h⟩
        have := congrArg List.length h
        simp at this
        omega
      · intro hk
        refine ⟨hp, by simp, ?_⟩
        rw [hk, List.drop_length, List.nil_append]
    · constructor
      · intro h; exact absurd h.1 hp
      · rintro (rfl | ⟨_, -, h, -⟩)
        · simp at hp
        · exact absurd h hp

theorem strAt_rel {pass pass' : Text → Text → Prop} {R : Text → Text → Prop} (hR : Prefixed R)
    (h : ∀ p q q', R q q' → pass p (0x5c :: q) → pass' p (0x5c :: q')) {r r' t s : Text} (hr : R r r') (hs : StrAt pass r t s) : StrAt pass' r' t s := by
  obtain ⟨b, hb, rfl⟩ := hs
  refine ⟨b, ?_, rfl⟩
  replace hr : R (0x22 :: r) (0x22 :: r') := hR.cons hr
  revert hb hr
  generalize 0x22 :: r = r
  generalize 0x22 :: r' = r'
  intro hb hr
  induction hb with
  | nil => exact .nil
  | @cons t s ts ss hc _ ih =>
    refine .cons ?_ ih
    cases hc with
    | plain h => exact .plain h
    | simple h => exact .simple h
    | unicode h1 h2 h3 => exact .unicode h1 h2 h3
    | @pair h₁ u₁ m ms h₂ u₂ cp h1 h2 h3 h4 h5 h6 =>
      refine .pair h1 h2 h3 h4 ?_ h6
      replace hr : R (0x75 :: (h₂ ++ (ts ++ r))) (0x75 :: (h₂ ++ (ts ++ r'))) := hR.cons (hR _ _ _ (hR _ _ _ hr))
      revert h5 hr
      generalize (0x75 :: (h₂ ++ (ts ++ r)) : Text) = x
      generalize (0x75 :: (h₂ ++ (ts ++ r')) : Text) = x'
      intro h5 hr
      induction h5 with
      | last hp => exact .last (h _ _ _ hr hp)
      | unicode hp hx h1 h2 _ ih => exact .unicode (h _ _ _ (hR.cons (hR _ _ _ (hR _ _ _ (hR.cons hr)))) hp) hx h1 h2 ih

/-- What follows a gap in a literal holds the second half, the closing quote and what follows the literal. -/
theorem strAt_long {pass : Text → Text → Prop} {r t s : Text} (hs : StrAt pass r t s) : StrAt (fun p x => pass p x ∧ r.length + 7 ≤ x.length) r t s := by
  obtain ⟨b, hb, rfl⟩ := hs
  refine ⟨b, ?_, rfl⟩
  have hx : r.length + 1 ≤ (0x22 :: r : Text).length := by simp
  revert hb hx
  generalize r.length = n
  generalize 0x22 :: r = r
  intro hb hx
  induction hb with
  | nil => exact .nil
  | @cons t s ts ss hc _ ih =>
    refine .cons ?_ ih
    cases hc with
    | plain h => exact .plain h
    | simple h => exact .simple h
    | unicode h1 h2 h3 => exact .unicode h1 h2 h3
    | @pair h₁ u₁ m ms h₂ u₂ cp h1 h2 h3 h4 h5 h6 =>
      refine .pair h1 h2 h3 h4 ?_ h6
      have hx' : n + 7 ≤ (0x5c :: 0x75 :: (h₂ ++ (ts ++ r)) : Text).length := by
        have : h₂.length = 4 := by obtain ⟨_, _, _, _, _, _, _, _, rfl, -⟩ := h2; rfl
        simp only [List.length_cons, List.length_append]; omega
      revert h5 hx'
      generalize (0x5c :: 0x75 :: (h₂ ++ (ts ++ r)) : Text) = x
      intro h5 hx'
      induction h5 with
      | last hp => exact .last ⟨hp, hx'⟩
      | unicode hp hh h1 h2 _ ih => exact .unicode ⟨hp, by simp only [List.length_cons, List.length_append]; omega⟩ hh h1 h2 ih

theorem prefixed_eq : Prefixed (fun r r' => r = r') := by rintro a r _ rfl; rfl

/-- The literals a build reads. -/
theorem parseStdstring_iff (a : Accel) (t s rest : Text) :
    parseStdstring a.traits (t ++ rest) = .ok s rest ↔ StrAt (Passes a.blocks) rest t s := by
  constructor
  · intro h
    obtain ⟨t', e, h'⟩ := parseStdstring_sound_at (accelOk a) h
    rw [List.append_cancel_right e]
    exact strAt_rel prefixed_eq (fun p q _ e h => e ▸ (skips_iff a p q).1 h) rfl h'
  · intro h
    exact parseStdstring_complete_at (accelOk a) (strAt_rel prefixed_eq (fun p q _ e h => e ▸ (skips_iff a p q).2 h) rfl h)

/-- The texts a build reads, and the values. -/
theorem parser_iff (a : Accel) (k : Bool) (s : Text) (v : Value) :
    parser ⟨k, a.traits⟩ s = some v ↔ ∃ j, ReadsAt k a.blocks s j ∧ v = j.toValue := by
  constructor
  · intro h
    obtain ⟨rest, h⟩ := parser_eq_some.1 h
    obtain ⟨w₁, t, w₂, r, j, rfl, h1, h2, h3, h4, h5, rfl⟩ := parseRun_sound (accelOk a) h
    refine ⟨j, ⟨w₁, t, w₂, r, h1, ?_, h3, h4, h5, rfl⟩, rfl⟩
    exact lval_imp prefixed_eq (D := dialectOf ⟨k, a.traits⟩) (D' := located k a.blocks) (fun _ h => h) (fun h => h) (fun h => h)
      (fun r _ t s e h => e ▸ (parseStdstring_iff a t s r).1 h) h2 _ rfl
  · rintro ⟨j, ⟨w₁, t, w₂, r, h1, h2, h3, h4, h5, rfl⟩, rfl⟩
    have hD : Admits ⟨k, a.traits⟩ (located k a.blocks) := by
      refine ⟨fun _ h => h, ?_, fun h => (parseStdstring_iff a _ _ _).2 h, fun h => h, rfl⟩
      rintro r t s ⟨b, -, rfl⟩
      exact ⟨_, rfl⟩
    exact parser_eq_some.2 (parseRun_complete hD h5 h1 h2 h3 h4 (by simp only [parseFuel, List.length_append]; omega))

/-! ### Comparing builds -/

theorem passes_zero {b : Option Blocks} (r : Text) : Passes b [] r := .inl rfl

/-- A reading by a build is a reading by another build, if that one passes over the same runs. -/
theorem readsAt_imp {k : Bool} {b b' : Option Blocks} (h : ∀ p r, Passes b p r → Passes b' p r) {s : Text} {j : Doc} (hs : ReadsAt k b s j) :
    ReadsAt k b' s j := by
  obtain ⟨w₁, t, w₂, r, h1, h2, h3, h4, h5, rfl⟩ := hs
  refine ⟨w₁, t, w₂, r, h1, ?_, h3, h4, h5, rfl⟩
  exact lval_imp prefixed_eq (D := located k b) (D' := located k b') (fun _ h => h) (fun h => h) (fun h => h)
    (fun r _ t s e hs => e ▸ strAt_rel prefixed_eq (fun p q _ e hp => e ▸ h p _ hp) rfl hs) h2 _ rfl

/-- Blocks that are a multiple pass over less. -/
theorem passes_dvd {m n : Nat} (hn : 0 < n) (hm : 0 < m) (hmn : n ∣ m) {be be' : Bool} (hb : be' = true → be = true) {p r : Text}
    (h : Passes (some ⟨m, be⟩) p r) : Passes (some ⟨n, be'⟩) p r := by
  rcases h with h | ⟨_, e, hp, h⟩
  · exact .inl h
  · cases e
    refine .inr ⟨_, rfl, hp, ?_⟩
    rcases h with h | ⟨h, h'⟩
    · exact .inl (Nat.dvd_trans hmn h)
    · refine .inr ⟨Nat.le_trans ?_ h, fun e => h' (hb e)⟩
      -- the next multiple of `m` is a multiple of `n` past the end of `p`
      obtain ⟨c, rfl⟩ := hmn
      show (p.length / n + 1) * n ≤ (p.length / (n * c) + 1) * (n * c)
      have h1 : p.length < (p.length / (n * c) + 1) * (n * c) := by
        rw [Nat.mul_comm]; exact Nat.lt_mul_div_succ _ hm
      have h2 : p.length / n < (p.length / (n * c) + 1) * c := by
        rw [Nat.div_lt_iff_lt_mul hn, Nat.mul_assoc, Nat.mul_comm c n]; exact h1
      calc (p.length / n + 1) * n ≤ ((p.length / (n * c) + 1) * c) * n := Nat.mul_le_mul_right _ h2
        _ = _ := by rw [Nat.mul_assoc, Nat.mul_comm c n]

theorem passes_plain {b : Option Blocks} {p r : Text} (h : Passes b p r) : (∀ c ∈ p, Unescaped c) ∧ (b.isSome = false → p = []) := by
  rcases h with rfl | ⟨B, rfl, h, -⟩
  · simp
  · exact ⟨h, by simp⟩

theorem lval_located {k : Bool} {b : Option Blocks} {r t : Text} {j : Doc} (h : LVal (located k b) r t j) : Val (lenient k b.isSome) t j :=
  lval_forget (D := located k b) (D' := lenient k b.isSome) (fun _ h => h) (fun h => h) (fun h => h) (fun _ _ _ h => strAt_lenient (fun _ _ => passes_plain) h) h

theorem readsAt_reads {k : Bool} {b : Option Blocks} {s : Text} {j : Doc} (h : ReadsAt k b s j) : Reads k b.isSome s j := by
  obtain ⟨w₁, t, w₂, r, h1, h2, h3, h4, h5, rfl⟩ := h
  exact ⟨w₁ ++ t ++ w₂, r, ⟨h5, w₁, t, w₂, h1, lval_located h2, h3, rfl⟩, h4, rfl⟩

/-- In little-endian words of 4 or 8 bytes every gap fits: the second half, the quote and a bracket are eight bytes. -/
theorem readsAt_words {k : Bool} {B : Blocks} (hB : B.bigEndian = false) (h0 : 0 < B.step) (h8 : B.step ≤ 8) {s : Text} {j : Doc} :
    ReadsAt k (some B) s j ↔ Reads k true s j := by
  constructor
  · exact readsAt_reads
  · rintro ⟨_, r, ⟨hj, w₁, t, w₂, h1, h2, h3, rfl⟩, h4, rfl⟩
    refine ⟨w₁, t, w₂, r, h1, ?_, h3, h4, hj, by simp⟩
    let D : LDialect := ⟨wsOf k, StrAt fun p _ => ∀ c ∈ p, Unescaped c, k, true⟩
    have h5 : LVal D (w₂ ++ r) t j := by
      refine val_locate (D := lenient k true) (D' := D) (fun _ h => h) (fun h => h) (fun h => h) (fun r t s h => ?_) h2 _
      exact lenientStr_pass (by simp) (fun _ hc hp => by simpa using ⟨hc, hp⟩) h r
    refine lval_imp_root (R := fun r r' => r = r' ∧ 1 ≤ r.length) ?_ (D := D) (D' := located k (some B)) (fun _ h => h) (fun h => h) (fun h => h) ?_
      h5 _ (.inr ⟨hj, by simp⟩)
    · rintro a r _ ⟨rfl, h⟩
      exact ⟨rfl, by simp only [List.length_append]; omega⟩
    · rintro r _ t s ⟨rfl, hr⟩ hs
      refine strAt_rel prefixed_eq ?_ rfl (strAt_long hs)
      rintro p q _ rfl ⟨hp, hl⟩
      refine .inr ⟨B, rfl, hp, ?_⟩
      have h9 := Nat.div_mul_le_self p.length B.step
      rcases Nat.eq_zero_or_pos (p.length % B.step) with h | h
      · exact .inl (Nat.dvd_of_mod_eq_zero h)
      · refine .inr ⟨?_, by simp [hB]⟩
        simp only [List.length_append]
        rw [Nat.add_mul]; omega

/-! ### NUL bytes after the text -/

/-- The text goes on to the same NULs. -/
def Padded (m n : Nat) (r r' : Text) : Prop := ∃ a, r = a ++ List.replicate m 0x00 ∧ r' = a ++ List.replicate n 0x00

theorem prefixed_padded (m n : Nat) : Prefixed (Padded m n) := by
  rintro a _ _ ⟨b, rfl, rfl⟩
  exact ⟨a ++ b, by simp, by simp⟩

/-- Padding in front of which a block always fits. -/
def Roomy (b : Option Blocks) (n : Nat) : Prop := ∀ B, b = some B → B.step ≤ n

theorem passes_longer {b : Option Blocks} {p r r' : Text} (h : r.length ≤ r'.length) (hp : Passes b p r) : Passes b p r' := by
  rcases hp with rfl | ⟨B, rfl, h1, h2⟩
  · exact .inl rfl
  · refine .inr ⟨B, rfl, h1, h2.imp_right fun h2 => ⟨Nat.le_trans h2.1 ?_, h2.2⟩⟩
    simp only [List.length_append]; omega

theorem fits_roomy {l s x n : Nat} (h : s ≤ n) : (l / s + 1) * s ≤ l + (1 + (x + n)) := by
  have := Nat.div_mul_le_self l s
  rw [Nat.add_mul]; omega

theorem passes_padded {b : Option Blocks} {m n : Nat} (h : m ≤ n ∨ Roomy b n) {p q q' : Text} (hq : Padded m n q q') (hp : Passes b p (0x5c :: q)) :
    Passes b p (0x5c :: q') := by
  obtain ⟨a, rfl, rfl⟩ := hq
  rcases h with h | h
  · exact passes_longer (by simp; omega) hp
  · rcases hp with rfl | ⟨B, rfl, h1, h2⟩
    · exact .inl rfl
    · refine .inr ⟨B, rfl, h1, h2.imp_right fun h2 => ⟨?_, h2.2⟩⟩
      have := fits_roomy (l := p.length) (x := a.length) (h B rfl)
      simp only [List.length_append, List.length_cons, List.length_replicate]
      omega

theorem split_zeros {k l : Bool} {w₁ t w₂ r s : Text} {j : Doc} {m : Nat} (h1 : wsOf k w₁) (h2 : Val (lenient k l) t j) (h3 : wsOf k w₂) (hj : j.isContainer = true)
    (e : s ++ List.replicate m 0x00 = w₁ ++ t ++ w₂ ++ r) : ∃ a, s = w₁ ++ t ++ w₂ ++ a ∧ r = a ++ List.replicate m 0x00 := by
  have ht : JsonText (lenient k l) (w₁ ++ t ++ w₂) j := ⟨hj, w₁, t, w₂, h1, h2, h3, rfl⟩
  rcases List.append_eq_append_iff.1 e with ⟨a, e1, e2⟩ | ⟨a, e1, e2⟩
  · obtain ⟨t', c, ht', hc⟩ := jsonText_last_ne ht
    rw [ht'] at e1
    rcases List.eq_nil_or_concat a with rfl | ⟨a, d, rfl⟩
    · simp at e1 e2
      exact ⟨[], by rw [ht']; simp [e1], by simp [e2]⟩
    · exfalso
      rw [List.concat_eq_append, ← List.append_assoc] at e1
      have := (List.append_inj' e1 rfl).2
      simp at this
      subst this
      have : c ∈ List.replicate m (0 : UInt8) := by rw [e2]; simp
      exact hc (List.eq_of_mem_replicate this)
  · exact ⟨a, e1, e2⟩

/-- More padding keeps what was read, and so does any padding in which a block fits. -/
theorem readsAt_padded {k : Bool} {b : Option Blocks} {m n : Nat} (h : m ≤ n ∨ Roomy b n) {s : Text} {j : Doc}
    (hs : ReadsAt k b (s ++ List.replicate m 0x00) j) : ReadsAt k b (s ++ List.replicate n 0x00) j := by
  obtain ⟨w₁, t, w₂, r, h1, h2, h3, h4, h5, e⟩ := hs
  obtain ⟨a, rfl, rfl⟩ := split_zeros h1 (lval_located h2) h3 h5 e
  refine ⟨w₁, t, w₂, a ++ List.replicate n 0x00, h1, ?_, h3, (stop_zeros n).2 ((stop_zeros m).1 h4), h5, by simp⟩
  refine lval_imp (prefixed_padded m n) (D := located k b) (D' := located k b) (fun _ h => h) (fun h => h) (fun h => h) ?_ h2 _ ⟨w₂ ++ a, by simp, by simp⟩
  intro r r' t s hr hs
  exact strAt_rel (prefixed_padded m n) (fun p q q' hq hp => passes_padded h hq hp) hr hs

/-- With enough padding a little-endian build lets any plain bytes stand between the halves of a pair. -/
theorem readsAt_roomy {k : Bool} {B : Blocks} (hB : B.bigEndian = false) {n : Nat} (hn : B.step ≤ n) {s : Text} {j : Doc} :
    ReadsAt k (some B) (s ++ List.replicate n 0x00) j ↔ Reads k true s j := by
  constructor
  · intro h
    exact (reads_zeros n).1 (readsAt_reads h)
  · rintro ⟨_, r, ⟨hj, w₁, t, w₂, h1, h2, h3, rfl⟩, h4, rfl⟩
    refine ⟨w₁, t, w₂, r ++ List.replicate n 0x00, h1, ?_, h3, (stop_zeros n).2 h4, hj, by simp⟩
    let D : LDialect := ⟨wsOf k, StrAt fun p _ => ∀ c ∈ p, Unescaped c, k, true⟩
    have h5 : LVal D (w₂ ++ (r ++ List.replicate n 0x00)) t j := by
      refine val_locate (D := lenient k true) (D' := D) (fun _ h => h) (fun h => h) (fun h => h) (fun r t s h => ?_) h2 _
      exact lenientStr_pass (by simp) (fun _ hc hp => by simpa using ⟨hc, hp⟩) h r
    refine lval_imp (R := fun _ r' => ∃ a, r' = a ++ List.replicate n 0x00) ?_ (D := D) (D' := located k (some B)) (fun _ h => h) (fun h => h) (fun h => h) ?_
      h5 _ ⟨w₂ ++ r, by simp⟩
    · rintro a _ _ ⟨b, rfl⟩
      exact ⟨a ++ b, by simp⟩
    · intro r r' t s hr hs
      refine strAt_rel (R := fun _ r' => ∃ a, r' = a ++ List.replicate n 0x00) ?_ ?_ hr hs
      · rintro a _ _ ⟨b, rfl⟩
        exact ⟨a ++ b, by simp⟩
      · rintro p q _ ⟨a, rfl⟩ hp
        refine .inr ⟨B, rfl, hp, .inr ⟨?_, by simp [hB]⟩⟩
        have := fits_roomy (l := p.length) (x := a.length) hn
        simp only [List.length_append, List.length_cons, List.length_replicate]
        omega

end Meojson
