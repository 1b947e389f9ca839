import Verif.Model.PackedBytes
import Verif.Spec.Accel

/-! The word tricks of the 32- and 64-bit packed-bytes traits, byte by byte. -/

namespace Meojson
open Spec

/-! ### Bytes of a number -/

theorem nat_step_testBit {a : Nat} (ha : a < 256) (A j : Nat) :
    (a + 256 * A).testBit j = if j < 8 then a.testBit j else A.testBit (j - 8) := by
  have := Nat.testBit_two_pow_mul_add A (b := a) (i := 8) (by omega) j
  rw [← this]; congr 1; omega

theorem and_step {a b : Nat} (ha : a < 256) (hb : b < 256) (A B : Nat) :
    (a + 256 * A) &&& (b + 256 * B) = (a &&& b) + 256 * (A &&& B) := by
  apply Nat.eq_of_testBit_eq
  intro j
  have hab : a &&& b < 256 := Nat.lt_of_le_of_lt Nat.and_le_left ha
  rw [Nat.testBit_and, nat_step_testBit ha, nat_step_testBit hb, nat_step_testBit hab]
  split <;> simp [Nat.testBit_and]

theorem or_step {a b : Nat} (ha : a < 256) (hb : b < 256) (A B : Nat) :
    (a + 256 * A) ||| (b + 256 * B) = (a ||| b) + 256 * (A ||| B) := by
  apply Nat.eq_of_testBit_eq
  intro j
  have hab : a ||| b < 256 := Nat.or_lt_two_pow (n := 8) ha hb
  rw [Nat.testBit_or, nat_step_testBit ha, nat_step_testBit hb, nat_step_testBit hab]
  split <;> simp [Nat.testBit_or]

theorem xor_step {a b : Nat} (ha : a < 256) (hb : b < 256) (A B : Nat) :
    (a + 256 * A) ^^^ (b + 256 * B) = (a ^^^ b) + 256 * (A ^^^ B) := by
  apply Nat.eq_of_testBit_eq
  intro j
  have hab : a ^^^ b < 256 := Nat.xor_lt_two_pow (n := 8) ha hb
  rw [Nat.testBit_xor, nat_step_testBit ha, nat_step_testBit hb, nat_step_testBit hab]
  split <;> simp [Nat.testBit_xor]

theorem leVal_lt (bs : Bytes) : leVal bs < 256 ^ bs.length := by
  induction bs with
  | nil => simp [leVal]
  | cons b bs ih =>
    have := b.toNat_lt
    simp only [leVal, List.length_cons, Nat.pow_succ]
    omega

theorem leVal_eq_zero (bs : Bytes) : leVal bs = 0 ↔ ∀ b ∈ bs, b = 0 := by
  induction bs with
  | nil => simp [leVal]
  | cons b bs ih =>
    have e : b = 0 ↔ b.toNat = 0 := by rw [← UInt8.toNat_inj]; rfl
    constructor
    · intro h x hx
      simp only [leVal] at h
      rcases List.mem_cons.1 hx with rfl | hx
      · exact e.2 (by omega)
      · exact ih.1 (by omega) x hx
    · intro h
      have h1 := e.1 (h b (by simp))
      have h2 := ih.2 fun x hx => h x (by simp [hx])
      simp [leVal, h1, h2]

theorem leVal_append (as bs : Bytes) : leVal (as ++ bs) = leVal as + 256 ^ as.length * leVal bs := by
  induction as with
  | nil => simp [leVal]
  | cons a as ih =>
    simp only [List.cons_append, leVal, ih, List.length_cons, Nat.pow_succ, Nat.mul_add, Nat.add_assoc]
    rw [Nat.mul_comm (256 ^ as.length) 256, Nat.mul_assoc]

/-- The number with `k` bytes equal to one. -/
def onesVal : Nat → Nat
  | 0 => 0
  | k + 1 => 1 + 256 * onesVal k

/-! ### Borrow propagation -/

/-- One byte of `(x - n * ones) & ~x & 0x80…` with incoming borrow `c`. -/
def flagByte (n : UInt8) (c : Bool) (b : UInt8) : UInt8 :=
  UInt8.ofNat (b.toNat + 256 - n.toNat - c.toNat) &&& ~~~b &&& 0x80

/-- The borrow out of that byte. -/
def borrow (n : UInt8) (c : Bool) (b : UInt8) : Bool := decide (b.toNat < n.toNat + c.toNat)

def flags (n : UInt8) (c : Bool) : Bytes → Bytes
  | [] => []
  | b :: bs => flagByte n c b :: flags n (borrow n c b) bs

theorem flags_length (n : UInt8) (c : Bool) (bs : Bytes) : (flags n c bs).length = bs.length := by
  induction bs generalizing c with
  | nil => rfl
  | cons b bs ih => simp [flags, ih]

theorem onesVal_bound (n : UInt8) (hn : n.toNat ≤ 127) (c : Bool) (k : Nat) :
    n.toNat * onesVal k + c.toNat ≤ 256 ^ k := by
  have hc : c.toNat ≤ 1 := Bool.toNat_le c
  induction k generalizing c with
  | zero => simp [onesVal]; omega
  | succ k ih =>
    have := ih true (by decide)
    simp only [Bool.toNat_true] at this
    simp only [onesVal, Nat.mul_add, Nat.pow_succ, Nat.mul_one]
    rw [Nat.mul_left_comm]
    generalize n.toNat * onesVal k = p at *
    generalize 256 ^ k = q at *
    omega

theorem sub_step (b n c X p P : Nat) (hb : b < 256) (hn : n ≤ 127) (hc : c ≤ 1)
    (hp : p + 1 ≤ P) :
    (b + 256 * X + (256 * P - (n + 256 * p + c))) % (256 * P) =
      (b + 256 - n - c) % 256 + 256 * ((X + (P - (p + if b < n + c then 1 else 0))) % P) := by
  rw [Nat.mod_mul]
  split
  · rename_i h
    have h1 : b + 256 * X + (256 * P - (n + 256 * p + c)) = (b + 256 - n - c) + 256 * (X + (P - (p + 1))) := by omega
    rw [h1]
    have h2 : (b + 256 - n - c) < 256 := by omega
    rw [Nat.add_mul_mod_self_left, Nat.mod_eq_of_lt h2, Nat.add_mul_div_left _ _ (by omega), Nat.div_eq_of_lt h2,
      Nat.zero_add]
  · rename_i h
    have h1 : b + 256 * X + (256 * P - (n + 256 * p + c)) = (b - n - c) + 256 * (X + (P - (p + 0))) := by omega
    rw [h1]
    have h2 : (b - n - c) < 256 := by omega
    have h3 : (b + 256 - n - c) % 256 = b - n - c := by omega
    rw [Nat.add_mul_mod_self_left, Nat.mod_eq_of_lt h2, Nat.add_mul_div_left _ _ (by omega), Nat.div_eq_of_lt h2,
      Nat.zero_add, h3]

theorem flags_val (n : UInt8) (hn : n.toNat ≤ 127) (c : Bool) (bs : Bytes) :
    ((leVal bs + (256 ^ bs.length - (n.toNat * onesVal bs.length + c.toNat))) % 256 ^ bs.length)
      &&& (256 ^ bs.length - 1 - leVal bs) &&& (128 * onesVal bs.length) = leVal (flags n c bs) := by
  induction bs generalizing c with
  | nil => simp [leVal, flags, onesVal, Nat.mod_one]
  | cons b bs ih =>
    have hb := b.toNat_lt
    have hv := leVal_lt bs
    have hbound := onesVal_bound n hn true bs.length
    have ih := ih (borrow n c b)
    simp only [List.length_cons, leVal, flags, onesVal, Nat.pow_succ, Nat.mul_add, Nat.mul_one]
    rw [Nat.mul_comm (256 ^ bs.length) 256, Nat.mul_left_comm n.toNat 256, Nat.mul_left_comm 128 256]
    rw [sub_step _ _ _ _ _ _ hb hn (Bool.toNat_le c) (by simpa using hbound)]
    have e : (if b.toNat < n.toNat + c.toNat then 1 else 0) = (borrow n c b).toNat := by
      unfold borrow; split <;> simp [*]
    rw [e]
    have hcompl : 256 * 256 ^ bs.length - 1 - (b.toNat + 256 * leVal bs) =
        (255 - b.toNat) + 256 * (256 ^ bs.length - 1 - leVal bs) := by omega
    rw [hcompl, and_step (Nat.mod_lt _ (by omega)) (by omega), and_step (Nat.lt_of_le_of_lt Nat.and_le_left (Nat.mod_lt _ (by omega))) (by omega), ih]
    congr 1
    unfold flagByte
    rw [UInt8.toNat_and, UInt8.toNat_and, UInt8.toNat_not, UInt8.toNat_ofNat']
    rfl

theorem xor_val (n : UInt8) (bs : Bytes) :
    leVal bs ^^^ (onesVal bs.length * n.toNat) = leVal (bs.map (· ^^^ n)) := by
  induction bs with
  | nil => simp [leVal, onesVal]
  | cons b bs ih =>
    simp only [List.length_cons, leVal, onesVal, List.map_cons, Nat.add_mul, Nat.one_mul, Nat.mul_assoc]
    rw [xor_step b.toNat_lt n.toNat_lt, ih, UInt8.toNat_xor]

theorem or_val : ∀ as bs : Bytes, as.length = bs.length →
    leVal as ||| leVal bs = leVal (List.zipWith (· ||| ·) as bs)
  | [], [], _ => by simp [leVal]
  | a :: as, b :: bs, h => by
    simp only [leVal, List.zipWith_cons_cons]
    rw [or_step a.toNat_lt b.toNat_lt, or_val as bs (by simpa using h), UInt8.toNat_or]

/-! ### The scan word -/

/-- Byte of the scan word, given the three incoming borrows. -/
def combByte (c₁ c₂ c₃ : Bool) (b : UInt8) : UInt8 :=
  (flagByte 32 c₁ b ||| flagByte 1 c₂ (b ^^^ 0x22)) ||| flagByte 1 c₃ (b ^^^ 0x5c)

def comb (c₁ c₂ c₃ : Bool) : Bytes → Bytes
  | [] => []
  | b :: bs => combByte c₁ c₂ c₃ b :: comb (borrow 32 c₁ b) (borrow 1 c₂ (b ^^^ 0x22)) (borrow 1 c₃ (b ^^^ 0x5c)) bs

theorem comb_eq (c₁ c₂ c₃ : Bool) (bs : Bytes) :
    List.zipWith (· ||| ·) (List.zipWith (· ||| ·) (flags 32 c₁ bs) (flags 1 c₂ (bs.map (· ^^^ 0x22))))
      (flags 1 c₃ (bs.map (· ^^^ 0x5c))) = comb c₁ c₂ c₃ bs := by
  induction bs generalizing c₁ c₂ c₃ with
  | nil => rfl
  | cons b bs ih => simp only [flags, List.map_cons, List.zipWith_cons_cons, comb, combByte, ih]

theorem comb_length (c₁ c₂ c₃ : Bool) (bs : Bytes) : (comb c₁ c₂ c₃ bs).length = bs.length := by
  induction bs generalizing c₁ c₂ c₃ with
  | nil => rfl
  | cons b bs ih => simp [comb, ih]

instance (c : UInt8) : Decidable (Unescaped c) := inferInstanceAs (Decidable (_ ∧ _ ∧ _))

theorem uint8_forall {P : UInt8 → Prop} (h : ∀ n : Fin 256, P (UInt8.ofNat n.val)) (b : UInt8) : P b := by
  have := h ⟨b.toNat, b.toNat_lt⟩
  simpa using this

theorem combByte_special (b : UInt8) (hb : ¬ Unescaped b) : ∀ c₁ c₂ c₃ : Bool, combByte c₁ c₂ c₃ b ≠ 0 := by
  revert b
  apply uint8_forall
  decide +kernel

theorem combByte_plain (b : UInt8) (hb : Unescaped b) :
    combByte false false false b = 0 ∧ borrow 32 false b = false ∧ borrow 1 false (b ^^^ 0x22) = false ∧
      borrow 1 false (b ^^^ 0x5c) = false := by
  revert b
  apply uint8_forall
  decide +kernel

theorem comb_special (c₁ c₂ c₃ : Bool) (bs : Bytes) (i : Nat) (b : UInt8) (hi : bs[i]? = some b) (hb : ¬ Unescaped b) :
    ∃ f, (comb c₁ c₂ c₃ bs)[i]? = some f ∧ f ≠ 0 := by
  induction bs generalizing c₁ c₂ c₃ i with
  | nil => simp at hi
  | cons x bs ih =>
    cases i with
    | zero => simp at hi; subst hi; exact ⟨_, by simp [comb]; rfl, combByte_special x hb _ _ _⟩
    | succ i => simp at hi; simpa [comb] using ih _ _ _ i hi

theorem comb_plain (bs : Bytes) (h : ∀ b ∈ bs, Unescaped b) : ∀ f ∈ comb false false false bs, f = 0 := by
  induction bs with
  | nil => simp [comb]
  | cons b bs ih =>
    obtain ⟨h1, h2, h3, h4⟩ := combByte_plain b (h b (by simp))
    simp only [comb, h1, h2, h3, h4, List.mem_cons, forall_eq_or_imp, true_and]
    exact ih fun x hx => h x (by simp [hx])

/-! ### Counting zero bits -/

theorem countrZero_double (w x : Nat) : countrZero (w + 1) (2 * x) = 1 + countrZero w x := by
  simp [countrZero]

theorem countrZero_256 (w x : Nat) : countrZero (w + 8) (256 * x) = 8 + countrZero w x := by
  have h : 256 * x = 2 * (2 * (2 * (2 * (2 * (2 * (2 * (2 * x))))))) := by omega
  rw [h]
  simp only [countrZero_double w, countrZero_double (w + 1), countrZero_double (w + 2), countrZero_double (w + 3),
    countrZero_double (w + 4), countrZero_double (w + 5), countrZero_double (w + 6), countrZero_double (w + 7)]
  omega

theorem countrZero_le (w x i : Nat) (hi : i < w) (h : x.testBit i = true) : countrZero w x ≤ i := by
  induction w generalizing x i with
  | zero => omega
  | succ w ih =>
    unfold countrZero
    split
    · omega
    · rename_i h0
      cases i with
      | zero => exact absurd h h0
      | succ i =>
        have := ih (x / 2) i (by omega) (by rw [Nat.testBit_succ] at h; exact h)
        omega

theorem byte_testBit (b : UInt8) (hb : b ≠ 0) : ∃ i, i < 8 ∧ b.toNat.testBit i = true := by
  have h : b.toNat ≠ 0 := by simpa [← UInt8.toNat_inj] using hb
  obtain ⟨i, hi⟩ := Nat.exists_testBit_of_ne_zero h
  refine ⟨i, ?_, hi⟩
  by_cases h8 : i < 8
  · exact h8
  · have := Nat.testBit_lt_two_pow (x := b.toNat) (i := i)
      (Nat.lt_of_lt_of_le b.toNat_lt (show 2 ^ 8 ≤ 2 ^ i from Nat.pow_le_pow_right (by omega) (by omega)))
    simp [this] at hi

theorem countrZero_leVal (fs : Bytes) (h : ∃ f ∈ fs, f ≠ 0) :
    countrZero (8 * fs.length) (leVal fs) / 8 = (fs.takeWhile (· == 0)).length := by
  induction fs with
  | nil => simp at h
  | cons b fs ih =>
    by_cases hb : b = 0
    · subst hb
      have h' : ∃ f ∈ fs, f ≠ 0 := by simpa using h
      have e : 8 * (0 :: fs : Bytes).length = 8 * fs.length + 8 := by simp; omega
      have e2 : leVal (0 :: fs) = 256 * leVal fs := by simp [leVal]
      rw [e, e2, countrZero_256]
      simp only [List.takeWhile_cons, BEq.rfl, if_true, List.length_cons, ← ih h']
      omega
    · obtain ⟨i, hi, ht⟩ := byte_testBit b hb
      have h1 : countrZero (8 * (b :: fs).length) (leVal (b :: fs)) ≤ i := by
        apply countrZero_le _ _ _ (by simp; omega)
        simp only [leVal]
        rw [nat_step_testBit b.toNat_lt, if_pos hi]; exact ht
      have hbeq : (b == 0) = false := by simpa using hb
      have e : (List.takeWhile (· == 0) (b :: fs)).length = 0 := by simp [hbeq]
      rw [e]
      omega

theorem countlZero_le (w x i : Nat) (hi : i < w) (h : x.testBit i = true) : countlZero w x ≤ w - 1 - i := by
  induction w with
  | zero => omega
  | succ w ih =>
    unfold countlZero
    split
    · omega
    · rename_i h0
      have : i ≠ w := by rintro rfl; exact h0 h
      have := ih (by omega)
      omega

theorem countlZero_small (m j x : Nat) (hx : x < 2 ^ m) : countlZero (m + j) x = j + countlZero m x := by
  induction j with
  | zero => simp
  | succ j ih =>
    have : x.testBit (m + j) = false :=
      Nat.testBit_lt_two_pow (Nat.lt_of_lt_of_le hx (Nat.pow_le_pow_right (by omega) (by omega)))
    rw [← Nat.add_assoc, countlZero]
    simp only [this, Bool.false_eq_true, if_false, ih]
    omega

theorem leVal_lt_two_pow (fs : Bytes) : leVal fs < 2 ^ (8 * fs.length) := by
  have := leVal_lt fs
  rwa [Nat.pow_mul]

theorem countlZero_leVal (fs : Bytes) (h : ∃ f ∈ fs, f ≠ 0) :
    countlZero (8 * fs.length) (leVal fs.reverse) / 8 = (fs.takeWhile (· == 0)).length := by
  induction fs with
  | nil => simp at h
  | cons b fs ih =>
    have hlt := leVal_lt_two_pow fs.reverse
    rw [List.length_reverse] at hlt
    by_cases hb : b = 0
    · subst hb
      have h' : ∃ f ∈ fs, f ≠ 0 := by simpa using h
      have e : 8 * (0 :: fs : Bytes).length = 8 * fs.length + 8 := by simp; omega
      have e2 : leVal (0 :: fs).reverse = leVal fs.reverse := by simp [leVal_append, leVal]
      rw [e, e2, countlZero_small _ _ _ hlt]
      simp only [List.takeWhile_cons, BEq.rfl, if_true, List.length_cons, ← ih h']
      omega
    · obtain ⟨i, hi, ht⟩ := byte_testBit b hb
      have h1 : countlZero (8 * (b :: fs).length) (leVal (b :: fs).reverse) ≤ 8 * (b :: fs).length - 1 - (8 * fs.length + i) := by
        apply countlZero_le _ _ _ (by simp; omega)
        simp only [List.reverse_cons, leVal_append, leVal, List.length_reverse, Nat.mul_zero, Nat.add_zero]
        have e : leVal fs.reverse + 256 ^ fs.length * b.toNat = 2 ^ (8 * fs.length) * b.toNat + leVal fs.reverse := by
          rw [Nat.pow_mul, Nat.add_comm]
        rw [e, Nat.testBit_two_pow_mul_add _ hlt, if_neg (by omega)]
        simpa using ht
      have hbeq : (b == 0) = false := by simpa using hb
      have e : (List.takeWhile (· == 0) (b :: fs)).length = 0 := by simp [hbeq]
      have e2 : (b :: fs).length = fs.length + 1 := rfl
      rw [e]
      rw [e2] at h1 ⊢
      omega

/-! ### From flags to the trait's contract -/

/-- A list of flags in memory order finds every special byte. -/
def Flags (fs bs : Bytes) : Prop :=
  fs.length = bs.length ∧ (∀ (i : Nat) (b : UInt8), bs[i]? = some b → ¬ Unescaped b → ∃ f, fs[i]? = some f ∧ f ≠ 0) ∧
    ((∀ b ∈ bs, Unescaped b) → ∀ f ∈ fs, f = 0)

theorem Flags.clean {fs bs : Bytes} (h : Flags fs bs) (h0 : ∀ f ∈ fs, f = 0) : ∀ b ∈ bs, Unescaped b := by
  intro b hb
  obtain ⟨i, hi⟩ := List.mem_iff_getElem?.1 hb
  by_cases hu : Unescaped b
  · exact hu
  · obtain ⟨f, hf, hne⟩ := h.2.1 i b hi hu
    exact absurd (h0 f (List.mem_of_getElem? hf)) hne

theorem takeWhile_length_lt {fs : Bytes} (h : ∃ f ∈ fs, f ≠ 0) : (fs.takeWhile (· == 0)).length < fs.length := by
  induction fs with
  | nil => simp at h
  | cons a fs ih =>
    by_cases ha : a = 0
    · subst ha
      have h' : ∃ f ∈ fs, f ≠ 0 := by simpa using h
      simpa using ih h'
    · have hbeq : (a == 0) = false := by simpa using ha
      simp [hbeq]

theorem takeWhile_getElem? {fs : Bytes} {i : Nat} (h : i < (fs.takeWhile (· == 0)).length) : fs[i]? = some 0 := by
  induction fs generalizing i with
  | nil => simp at h
  | cons a fs ih =>
    by_cases ha : a = 0
    · subst ha
      cases i with
      | zero => rfl
      | succ i => simp at h ⊢; exact ih h
    · have hbeq : (a == 0) = false := by simpa using ha
      simp [hbeq] at h

theorem Flags.index {fs bs : Bytes} (h : Flags fs bs) (h0 : ∃ f ∈ fs, f ≠ 0) :
    (fs.takeWhile (· == 0)).length < bs.length ∧ ∀ b ∈ bs.take (fs.takeWhile (· == 0)).length, Unescaped b := by
  refine ⟨by rw [← h.1]; exact takeWhile_length_lt h0, ?_⟩
  intro b hb
  obtain ⟨i, hi⟩ := List.mem_iff_getElem?.1 hb
  rw [List.getElem?_take] at hi
  split at hi
  · rename_i hlt
    by_cases hu : Unescaped b
    · exact hu
    · obtain ⟨f, hf, hne⟩ := h.2.1 i b hi hu
      rw [takeWhile_getElem? hlt] at hf
      cases hf; exact absurd rfl hne
  · simp at hi

theorem comb_flags (bs : Bytes) : Flags (comb false false false bs) bs :=
  ⟨comb_length _ _ _ bs, comb_special _ _ _ bs, comb_plain bs⟩

theorem comb_flags_reverse (bs : Bytes) : Flags (comb false false false bs.reverse).reverse bs := by
  refine ⟨by simp [comb_length], ?_, ?_⟩
  · intro i b hi hb
    have hlt : i < bs.length := (List.getElem?_eq_some_iff.1 hi).1
    have h1 : bs.reverse[bs.length - 1 - i]? = some b := by
      rw [List.getElem?_reverse (by omega)]
      rw [← hi]; congr 1; omega
    obtain ⟨f, hf, hne⟩ := comb_special false false false bs.reverse _ b h1 hb
    refine ⟨f, ?_, hne⟩
    rw [List.getElem?_reverse (by simp [comb_length]; exact hlt)]
    simpa [comb_length] using hf
  · intro h f hf
    exact comb_plain bs.reverse (by simpa using h) f (by simpa using hf)

/-! ### The 64-bit trait -/

theorem u64_less (bs : Bytes) (hbs : bs.length = 8) (n : UInt8) (hn : n.toNat ≤ 127) :
    (U64.less (UInt64.ofNat (leVal bs)) n).toNat = leVal (flags n false bs) := by
  have hlt := leVal_lt bs
  have h := flags_val n hn false bs
  have hn' := n.toNat_lt
  rw [hbs] at hlt h
  unfold U64.less
  rw [UInt64.toNat_and, UInt64.toNat_and, UInt64.toNat_not, UInt64.toNat_sub, UInt64.toNat_mul, UInt8.toNat_toUInt64,
    UInt64.toNat_ofNat_of_lt' (by simpa [UInt64.size] using hlt), ← h]
  have e1 : (0x0101010101010101 : UInt64).toNat = onesVal 8 := rfl
  have e2 : (0x8080808080808080 : UInt64).toNat = 128 * onesVal 8 := rfl
  have e3 : onesVal 8 = 72340172838076673 := rfl
  have e4 : UInt64.size = 256 ^ 8 := rfl
  have e5 : 2 ^ 64 = 256 ^ 8 := rfl
  rw [e1, e2, e4, e5, Nat.mod_eq_of_lt (a := onesVal 8 * n.toNat) (by rw [e3]; omega), Nat.mul_comm (onesVal 8),
    Nat.add_comm (256 ^ 8 - n.toNat * onesVal 8)]
  simp only [Bool.toNat_false, Nat.add_zero]

theorem u64_isZero (bs : Bytes) :
    U64.isZeroMemberwise (UInt64.ofNat (leVal bs)) = U64.less (UInt64.ofNat (leVal bs)) 1 := rfl

theorem u64_equal (bs : Bytes) (hbs : bs.length = 8) (n : UInt8) :
    (U64.equal (UInt64.ofNat (leVal bs)) n).toNat = leVal (flags 1 false (bs.map (· ^^^ n))) := by
  have hlt := leVal_lt bs
  have hn' := n.toNat_lt
  rw [hbs] at hlt
  have e1 : (0x0101010101010101 : UInt64).toNat = onesVal 8 := rfl
  have e3 : onesVal 8 = 72340172838076673 := rfl
  have h : UInt64.ofNat (leVal bs) ^^^ (0x0101010101010101 * n.toUInt64) = UInt64.ofNat (leVal (bs.map (· ^^^ n))) := by
    apply UInt64.toNat_inj.1
    have hlt2 := leVal_lt (bs.map (· ^^^ n))
    rw [List.length_map, hbs] at hlt2
    have hx := xor_val n bs
    rw [hbs] at hx
    rw [UInt64.toNat_xor, UInt64.toNat_mul, UInt8.toNat_toUInt64, UInt64.toNat_ofNat_of_lt' (by simpa [UInt64.size] using hlt),
      UInt64.toNat_ofNat_of_lt' (by simpa [UInt64.size] using hlt2), e1, Nat.mod_eq_of_lt (by rw [e3]; omega), hx]
  unfold U64.equal
  rw [h, u64_isZero, u64_less _ (by simpa using hbs) 1 (by decide)]

theorem u64_scan (le : Bool) (bs : Bytes) (hbs : bs.length = 8) :
    ((traitU64 le).scan bs : UInt64).toNat = leVal (comb false false false (if le then bs else bs.reverse)) := by
  have hlen : (if le then bs else bs.reverse).length = 8 := by cases le <;> simp [hbs]
  show ((U64.less (UInt64.ofNat (loadVal le bs)) 32 ||| U64.equal (UInt64.ofNat (loadVal le bs)) 0x22)
    ||| U64.equal (UInt64.ofNat (loadVal le bs)) 0x5c).toNat = _
  unfold loadVal
  generalize (if le then bs else bs.reverse) = l at hlen
  rw [UInt64.toNat_or, UInt64.toNat_or, u64_less l hlen 32 (by decide), u64_equal l hlen, u64_equal l hlen,
    or_val _ _ (by simp [flags_length]), or_val _ _ (by simp [flags_length]), comb_eq]

theorem exists_ne_zero {fs : Bytes} (h : ¬ ∀ f ∈ fs, f = 0) : ∃ f ∈ fs, f ≠ 0 := by simpa using h

/-- Flags of the word traits in memory order. -/
def wordFlags (le : Bool) (bs : Bytes) : Bytes :=
  if le then comb false false false bs else (comb false false false bs.reverse).reverse

theorem wordFlags_flags (le : Bool) (bs : Bytes) : Flags (wordFlags le bs) bs := by
  cases le
  · exact comb_flags_reverse bs
  · exact comb_flags bs

theorem wordFlags_zero (le : Bool) (bs : Bytes) :
    leVal (comb false false false (if le then bs else bs.reverse)) = 0 ↔ ∀ f ∈ wordFlags le bs, f = 0 := by
  rw [leVal_eq_zero]; cases le <;> simp [wordFlags]

theorem wordFlags_index (le : Bool) (bs : Bytes) (h : ∃ f ∈ wordFlags le bs, f ≠ 0) :
    (if le then countrZero (8 * bs.length) (leVal (comb false false false (if le then bs else bs.reverse))) / 8
     else countlZero (8 * bs.length) (leVal (comb false false false (if le then bs else bs.reverse))) / 8) =
      ((wordFlags le bs).takeWhile (· == 0)).length := by
  cases le
  · have := countlZero_leVal (wordFlags false bs) h
    simpa [wordFlags, comb_length] using this
  · have := countrZero_leVal (wordFlags true bs) h
    simpa [wordFlags, comb_length] using this

theorem u64_zero (le : Bool) (bs : Bytes) (hbs : bs.length = 8) :
    (traitU64 le).isAllZero ((traitU64 le).scan bs) = true ↔ ∀ f ∈ wordFlags le bs, f = 0 := by
  rw [← wordFlags_zero, ← u64_scan le bs hbs]
  have key : ∀ w : UInt64, (w == 0) = true ↔ w.toNat = 0 := by
    intro w; rw [beq_iff_eq, ← UInt64.toNat_inj]; rfl
  exact key _

theorem u64_index (le : Bool) (bs : Bytes) (hbs : bs.length = 8) (h : ∃ f ∈ wordFlags le bs, f ≠ 0) :
    (traitU64 le).firstNonzeroByte ((traitU64 le).scan bs) = ((wordFlags le bs).takeWhile (· == 0)).length := by
  rw [← wordFlags_index le bs h, ← u64_scan le bs hbs, hbs]
  rfl

/-! ### The 32-bit trait -/

theorem u32_less (bs : Bytes) (hbs : bs.length = 4) (n : UInt8) (hn : n.toNat ≤ 127) :
    (U32.less (UInt32.ofNat (leVal bs)) n).toNat = leVal (flags n false bs) := by
  have hlt := leVal_lt bs
  have h := flags_val n hn false bs
  have hn' := n.toNat_lt
  rw [hbs] at hlt h
  unfold U32.less
  rw [UInt32.toNat_and, UInt32.toNat_and, UInt32.toNat_not, UInt32.toNat_sub, UInt32.toNat_mul, UInt8.toNat_toUInt32,
    UInt32.toNat_ofNat_of_lt' (by simpa [UInt32.size] using hlt), ← h]
  have e1 : (~~~0 / 255 : UInt32).toNat = onesVal 4 := rfl
  have e2 : (~~~0 / 255 * 128 : UInt32).toNat = 128 * onesVal 4 := rfl
  have e3 : onesVal 4 = 16843009 := rfl
  have e4 : UInt32.size = 256 ^ 4 := rfl
  have e5 : 2 ^ 32 = 256 ^ 4 := rfl
  rw [e1, e2, e4, e5, Nat.mod_eq_of_lt (a := onesVal 4 * n.toNat) (by rw [e3]; omega), Nat.mul_comm (onesVal 4),
    Nat.add_comm (256 ^ 4 - n.toNat * onesVal 4)]
  simp only [Bool.toNat_false, Nat.add_zero]

theorem u32_isZero (v : UInt32) : U32.isZeroMemberwise v = U32.less v 1 := rfl

theorem u32_equal (bs : Bytes) (hbs : bs.length = 4) (n : UInt8) :
    (U32.equal (UInt32.ofNat (leVal bs)) n).toNat = leVal (flags 1 false (bs.map (· ^^^ n))) := by
  have hlt := leVal_lt bs
  have hn' := n.toNat_lt
  rw [hbs] at hlt
  have e1 : (~~~0 / 255 : UInt32).toNat = onesVal 4 := rfl
  have e3 : onesVal 4 = 16843009 := rfl
  have h : UInt32.ofNat (leVal bs) ^^^ (~~~0 / 255 * n.toUInt32) = UInt32.ofNat (leVal (bs.map (· ^^^ n))) := by
    apply UInt32.toNat_inj.1
    have hlt2 := leVal_lt (bs.map (· ^^^ n))
    rw [List.length_map, hbs] at hlt2
    have hx := xor_val n bs
    rw [hbs] at hx
    rw [UInt32.toNat_xor, UInt32.toNat_mul, UInt8.toNat_toUInt32, UInt32.toNat_ofNat_of_lt' (by simpa [UInt32.size] using hlt),
      UInt32.toNat_ofNat_of_lt' (by simpa [UInt32.size] using hlt2), e1, Nat.mod_eq_of_lt (by rw [e3]; omega), hx]
  unfold U32.equal
  rw [h, u32_isZero, u32_less _ (by simpa using hbs) 1 (by decide)]

theorem u32_scan (le : Bool) (bs : Bytes) (hbs : bs.length = 4) :
    ((traitU32 le).scan bs : UInt32).toNat = leVal (comb false false false (if le then bs else bs.reverse)) := by
  have hlen : (if le then bs else bs.reverse).length = 4 := by cases le <;> simp [hbs]
  show ((U32.less (UInt32.ofNat (loadVal le bs)) 32 ||| U32.equal (UInt32.ofNat (loadVal le bs)) 0x22)
    ||| U32.equal (UInt32.ofNat (loadVal le bs)) 0x5c).toNat = _
  unfold loadVal
  generalize (if le then bs else bs.reverse) = l at hlen
  rw [UInt32.toNat_or, UInt32.toNat_or, u32_less l hlen 32 (by decide), u32_equal l hlen, u32_equal l hlen,
    or_val _ _ (by simp [flags_length]), or_val _ _ (by simp [flags_length]), comb_eq]

theorem u32_zero (le : Bool) (bs : Bytes) (hbs : bs.length = 4) :
    (traitU32 le).isAllZero ((traitU32 le).scan bs) = true ↔ ∀ f ∈ wordFlags le bs, f = 0 := by
  rw [← wordFlags_zero, ← u32_scan le bs hbs]
  have key : ∀ w : UInt32, (w == 0) = true ↔ w.toNat = 0 := by
    intro w; rw [beq_iff_eq, ← UInt32.toNat_inj]; rfl
  exact key _

theorem u32_index (le : Bool) (bs : Bytes) (hbs : bs.length = 4) (h : ∃ f ∈ wordFlags le bs, f ≠ 0) :
    (traitU32 le).firstNonzeroByte ((traitU32 le).scan bs) = ((wordFlags le bs).takeWhile (· == 0)).length := by
  rw [← wordFlags_index le bs h, ← u32_scan le bs hbs, hbs]
  rfl

end Meojson
