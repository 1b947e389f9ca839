import Verif.Model.Bits

/-!
# C83: bit counting gives the same in every build
-/

set_option autoImplicit false

namespace Meojson
open Bits

/-- `n` is the number of bits equal to `one` at the low end of the `w` bits of `x`, before the first that is not. -/
def LowCount (one : Bool) (w x n : Nat) : Prop := n ≤ w ∧ (∀ i, i < n → x.testBit i = one) ∧ (n < w → x.testBit n = !one)

/-- The same at the high end. -/
def HighCount (one : Bool) (w x n : Nat) : Prop := n ≤ w ∧ (∀ i, w - n ≤ i → i < w → x.testBit i = one) ∧ (n < w → x.testBit (w - 1 - n) = !one)

def C83Claim : Prop :=
  ∀ (b : Build) (w x : Nat), b.Compiles → w = 32 ∨ w = 64 → x < 2 ^ w →
    (∃ n, Bits.countlZero b w x = .ok n ∧ HighCount false w x n) ∧ (∃ n, Bits.countrZero b w x = .ok n ∧ LowCount false w x n) ∧
    (∃ n, countlOne b w x = .ok n ∧ HighCount true w x n) ∧ (∃ n, countrOne b w x = .ok n ∧ LowCount true w x n)

namespace Bits

theorem low_unique {one : Bool} {w x m n : Nat} (hm : LowCount one w x m) (hn : LowCount one w x n) : m = n := by
  obtain ⟨a1, a2, a3⟩ := hm
  obtain ⟨b1, b2, b3⟩ := hn
  rcases Nat.lt_trichotomy m n with h | h | h
  · have := a3 (by omega); rw [b2 m h] at this; cases one <;> cases this
  · exact h
  · have := b3 (by omega); rw [a2 n h] at this; cases one <;> cases this

theorem high_unique {one : Bool} {w x m n : Nat} (hm : HighCount one w x m) (hn : HighCount one w x n) : m = n := by
  obtain ⟨a1, a2, a3⟩ := hm
  obtain ⟨b1, b2, b3⟩ := hn
  rcases Nat.lt_trichotomy m n with h | h | h
  · have := a3 (by omega); rw [b2 _ (by omega) (by omega)] at this; cases one <;> cases this
  · exact h
  · have := b3 (by omega); rw [a2 _ (by omega) (by omega)] at this; cases one <;> cases this

private theorem take_low (p : Nat → Bool) : ∀ (k s : Nat), ∃ n, ((List.range' s k).takeWhile p).length = n ∧ n ≤ k ∧ (∀ i, s ≤ i → i < s + n → p i = true) ∧ (n < k → p (s + n) = false)
  | 0, s => ⟨0, rfl, by omega, fun i _ _ => by omega, fun h => by omega⟩
  | k + 1, s => by
    cases h : p s with
    | false => exact ⟨0, by simp [List.range'_succ, h], by omega, fun i _ _ => by omega, fun _ => by simpa using h⟩
    | true =>
      obtain ⟨n, h1, h2, h3, h4⟩ := take_low p k (s + 1)
      refine ⟨n + 1, by simp [List.range'_succ, h, h1], by omega, fun i hi hj => ?_, fun hk => ?_⟩
      · by_cases e : i = s
        · rw [e]; exact h
        · exact h3 i (by omega) (by omega)
      · rw [← h4 (by omega)]; congr 1; omega

private theorem take_high (p : Nat → Bool) : ∀ (k : Nat), ∃ n, ((List.range k).reverse.takeWhile p).length = n ∧ n ≤ k ∧ (∀ i, k - n ≤ i → i < k → p i = true) ∧ (n < k → p (k - 1 - n) = false)
  | 0 => ⟨0, rfl, by omega, fun i _ _ => by omega, fun h => by omega⟩
  | k + 1 => by
    cases h : p k with
    | false => exact ⟨0, by simp [List.range_succ, h], by omega, fun i _ _ => by omega, fun _ => by simpa using h⟩
    | true =>
      obtain ⟨n, h1, h2, h3, h4⟩ := take_high p k
      refine ⟨n + 1, by simp only [List.range_succ, List.reverse_append, List.reverse_cons, List.reverse_nil, List.nil_append, List.singleton_append, List.takeWhile_cons, h, if_true, List.length_cons, h1],
        by omega, fun i hi hj => ?_, fun hk => ?_⟩
      · by_cases e : i = k
        · rw [e]; exact h
        · exact h3 i (by omega) (by omega)
      · rw [← h4 (by omega)]; congr 1; omega

theorem std_low (one : Bool) (w x : Nat) : LowCount one w x (stdCount false one w x) := by
  obtain ⟨n, h1, h2, h3, h4⟩ := take_low (fun i => x.testBit i == one) w 0
  have e : stdCount false one w x = n := by rw [← h1]; simp [stdCount, List.range_eq_range']
  rw [e]
  refine ⟨h2, fun i hi => by simpa using h3 i (by omega) (by omega), fun h => ?_⟩
  have := h4 h
  rw [Nat.zero_add] at this
  cases one <;> simpa using this

theorem std_high (one : Bool) (w x : Nat) : HighCount one w x (stdCount true one w x) := by
  obtain ⟨n, h1, h2, h3, h4⟩ := take_high (fun i => x.testBit i == one) w
  have e : stdCount true one w x = n := by rw [← h1]; simp [stdCount]
  rw [e]
  refine ⟨h2, fun i hi hj => by simpa using h3 i hi hj, fun h => ?_⟩
  have := h4 h
  cases one <;> simpa using this

theorem zero_low (w : Nat) : LowCount false w 0 w := ⟨by omega, fun i _ => Nat.zero_testBit i, fun h => by omega⟩
theorem zero_high (w : Nat) : HighCount false w 0 w := ⟨by omega, fun i _ _ => Nat.zero_testBit i, fun h => by omega⟩

theorem log_lt {w x : Nat} (h0 : x ≠ 0) (hx : x < 2 ^ w) : x.log2 < w := (Nat.log2_lt h0).2 hx

theorem log_high {w x : Nat} (h0 : x ≠ 0) (hx : x < 2 ^ w) : HighCount false w x (w - 1 - x.log2) := by
  have hl := log_lt h0 hx
  refine ⟨by omega, fun i h1 h2 => ?_, fun _ => ?_⟩
  · exact Nat.testBit_lt_two_pow (Nat.lt_of_lt_of_le Nat.lt_log2_self (Nat.pow_le_pow_right (by omega) (by omega)))
  · rw [show w - 1 - (w - 1 - x.log2) = x.log2 by omega]
    simpa using Nat.testBit_log2 h0

theorem find_low {v w x : Nat} (h0 : x ≠ 0) (hx : x < 2 ^ w) (hv : w ≤ v) : ∃ i, (List.range v).find? x.testBit = some i ∧ LowCount false w x i := by
  have hl := log_lt h0 hx
  cases h : (List.range v).find? x.testBit with
  | none => exact absurd (Nat.testBit_log2 h0) (List.find?_eq_none.1 h _ (List.mem_range.2 (by omega)))
  | some i =>
    obtain ⟨h1, h2, h3⟩ := List.find?_range_eq_some.1 h
    refine ⟨i, rfl, ?_, fun j hj => by simpa using h3 j hj, fun _ => by simpa using h1⟩
    rcases Nat.lt_or_ge w i with hi | hi
    · have := h3 x.log2 (by omega)
      rw [Nat.testBit_log2 h0] at this
      cases this
    · exact hi

theorem lzcnt_high (x w : Nat) : ∀ (k d : Nat), k + d = w → (∀ i, k ≤ i → i < w → x.testBit i = false) → HighCount false w x (lzcnt x k d)
  | 0, d, hk, h => ⟨by simp only [lzcnt]; omega, fun i _ hj => h i (by omega) hj, fun hd => by simp only [lzcnt] at hd; omega⟩
  | k + 1, d, hk, h => by
    unfold lzcnt
    split
    · rename_i hb
      exact ⟨by omega, fun i h1 h2 => h i (by omega) h2, fun _ => by rw [show w - 1 - d = k by omega]; simpa using hb⟩
    · rename_i hb
      refine lzcnt_high x w k (d + 1) (by omega) fun i h1 h2 => ?_
      by_cases e : i = k
      · rw [e]; simpa using hb
      · exact h i (by omega) h2

theorem tzcnt_low (x w : Nat) : ∀ (n d : Nat), n + d = w → (∀ i, i < d → x.testBit i = false) → LowCount false w x (tzcnt x n d d)
  | 0, d, hk, h => ⟨by simp only [tzcnt]; omega, fun i hi => h i hi, fun hd => by simp only [tzcnt] at hd; omega⟩
  | n + 1, d, hk, h => by
    unfold tzcnt
    split
    · rename_i hb
      exact ⟨by omega, h, fun _ => by simpa using hb⟩
    · rename_i hb
      refine tzcnt_low x w n (d + 1) (by omega) fun i hi => ?_
      by_cases e : i = d
      · rw [e]; simpa using hb
      · exact h i (by omega)

theorem flip_lt (w x : Nat) : flip w x < 2 ^ w := by
  have := Nat.two_pow_pos w
  unfold flip; omega

theorem flip_bit (w x i : Nat) (hx : x < 2 ^ w) (hi : i < w) : (flip w x).testBit i = !x.testBit i := by
  have : flip w x = 2 ^ w - (x + 1) := by unfold flip; omega
  rw [this, Nat.testBit_two_pow_sub_succ hx]
  simp [hi]

theorem flip_low {w x n : Nat} (hx : x < 2 ^ w) (h : LowCount false w (flip w x) n) : LowCount true w x n := by
  obtain ⟨h1, h2, h3⟩ := h
  refine ⟨h1, fun i hi => ?_, fun hn => ?_⟩
  · have := h2 i hi; rw [flip_bit w x i hx (by omega)] at this; simpa using this
  · have := h3 hn; rw [flip_bit w x n hx hn] at this; simpa using this

theorem flip_high {w x n : Nat} (hx : x < 2 ^ w) (h : HighCount false w (flip w x) n) : HighCount true w x n := by
  obtain ⟨h1, h2, h3⟩ := h
  refine ⟨h1, fun i hi hj => ?_, fun hn => ?_⟩
  · have := h2 i hi hj; rw [flip_bit w x i hx hj] at this; simpa using this
  · have := h3 hn; rw [flip_bit w x _ hx (by omega)] at this; simpa using this

theorem called_eq {int long w : Nat} (hb : (Build.gnu int long).Compiles) (hw : w = 32 ∨ w = 64) : called int long w = w := by
  unfold Build.Compiles at hb
  unfold called
  rcases hw with rfl | rfl
  · rcases hb with h | ⟨h1, h2⟩
    · simp [h]
    · simp [h2]
  · simp

theorem countl_zero_high (b : Build) (w x : Nat) (hb : b.Compiles) (hw : w = 32 ∨ w = 64) (hx : x < 2 ^ w) : ∃ n, Bits.countlZero b w x = .ok n ∧ HighCount false w x n := by
  cases b with
  | std => exact ⟨_, rfl, std_high false w x⟩
  | gnu int long =>
    by_cases h0 : x = 0
    · exact ⟨w, by simp [Bits.countlZero, h0], by rw [h0]; exact zero_high w⟩
    · exact ⟨w - 1 - x.log2, by simp [Bits.countlZero, builtinClz, h0, called_eq hb hw], log_high h0 hx⟩
  | msvcAvx2 => exact ⟨_, rfl, lzcnt_high x w w 0 rfl fun i _ _ => by omega⟩
  | msvc =>
    by_cases h0 : x = 0
    · exact ⟨w, by simp [Bits.countlZero, scanReverse, h0], by rw [h0]; exact zero_high w⟩
    · exact ⟨w - 1 - x.log2, by simp [Bits.countlZero, scanReverse, h0], log_high h0 hx⟩

theorem countr_zero_low (b : Build) (w x : Nat) (hb : b.Compiles) (hw : w = 32 ∨ w = 64) (hx : x < 2 ^ w) : ∃ n, Bits.countrZero b w x = .ok n ∧ LowCount false w x n := by
  cases b with
  | std => exact ⟨_, rfl, std_low false w x⟩
  | gnu int long =>
    by_cases h0 : x = 0
    · exact ⟨w, by simp [Bits.countrZero, h0], by rw [h0]; exact zero_low w⟩
    · obtain ⟨i, h1, h2⟩ := find_low (v := w) h0 hx (by omega)
      exact ⟨i, by simp [Bits.countrZero, builtinCtz, h0, called_eq hb hw, h1], h2⟩
  | msvcAvx2 => exact ⟨_, rfl, tzcnt_low x w w 0 rfl fun i _ => by omega⟩
  | msvc =>
    by_cases h0 : x = 0
    · refine ⟨w, ?_, by rw [h0]; exact zero_low w⟩
      have : (List.range w).find? (Nat.testBit 0) = none := List.find?_eq_none.2 fun i _ => by simp
      simp [Bits.countrZero, scanForward, h0, this]
    · obtain ⟨i, h1, h2⟩ := find_low (v := w) h0 hx (by omega)
      exact ⟨i, by simp [Bits.countrZero, scanForward, h1], h2⟩

end Bits

theorem C83_count : C83Claim := by
  intro b w x hb hw hx
  refine ⟨countl_zero_high b w x hb hw hx, countr_zero_low b w x hb hw hx, ?_, ?_⟩
  · cases b with
    | std => exact ⟨_, rfl, std_high true w x⟩
    | _ => obtain ⟨n, h1, h2⟩ := countl_zero_high _ w (flip w x) hb hw (flip_lt w x); exact ⟨n, h1, flip_high hx h2⟩
  · cases b with
    | std => exact ⟨_, rfl, std_low true w x⟩
    | _ => obtain ⟨n, h1, h2⟩ := countr_zero_low _ w (flip w x) hb hw (flip_lt w x); exact ⟨n, h1, flip_low hx h2⟩

example : (Build.gnu 4 8).Compiles ∧ (Build.gnu 2 4).Compiles ∧ Bits.countlZero (.gnu 4 8) 32 1 = .ok 31 ∧ Bits.countrOne .msvc 32 7 = .ok 3 := by
  refine ⟨.inl rfl, .inr ⟨by decide, rfl⟩, ?_, ?_⟩ <;> decide +kernel

/-- What is counted is determined, so any two builds count the same, -/
theorem C83_same (b c : Build) (w x : Nat) (hb : b.Compiles) (hc : c.Compiles) (hw : w = 32 ∨ w = 64) (hx : x < 2 ^ w) :
    Bits.countlZero b w x = Bits.countlZero c w x ∧ Bits.countrZero b w x = Bits.countrZero c w x ∧ countlOne b w x = countlOne c w x ∧ countrOne b w x = countrOne c w x := by
  obtain ⟨⟨m1, a1, b1⟩, ⟨m2, a2, b2⟩, ⟨m3, a3, b3⟩, ⟨m4, a4, b4⟩⟩ := C83_count b w x hb hw hx
  obtain ⟨⟨n1, c1, d1⟩, ⟨n2, c2, d2⟩, ⟨n3, c3, d3⟩, ⟨n4, c4, d4⟩⟩ := C83_count c w x hc hw hx
  rw [a1, a2, a3, a4, c1, c2, c3, c4, high_unique b1 d1, low_unique b2 d2, high_unique b3 d3, low_unique b4 d4]
  exact ⟨rfl, rfl, rfl, rfl⟩

private theorem packed_low (w : Nat) : ∀ x, LowCount false w x (Meojson.countrZero w x) := by
  induction w with
  | zero => intro x; exact ⟨Nat.le_refl _, fun i h => absurd h (by simp [Meojson.countrZero]), fun h => absurd h (by omega)⟩
  | succ w ih =>
    intro x
    unfold Meojson.countrZero
    split
    · rename_i h; exact ⟨by omega, fun i hi => by omega, fun _ => by simpa using h⟩
    · rename_i h
      obtain ⟨h1, h2, h3⟩ := ih (x / 2)
      have e (i : Nat) : (x / 2).testBit i = x.testBit (i + 1) := (Nat.testBit_succ x i).symm
      refine ⟨by omega, fun i hi => ?_, fun hn => ?_⟩
      · cases i with
        | zero => simpa using h
        | succ i => rw [← e]; exact h2 i (by omega)
      · rw [Nat.add_comm, ← e]; exact h3 (by omega)

private theorem packed_high (w x : Nat) : HighCount false w x (Meojson.countlZero w x) := by
  induction w with
  | zero => exact ⟨Nat.le_refl _, fun i _ h => absurd h (by omega), fun h => absurd h (by omega)⟩
  | succ w ih =>
    unfold Meojson.countlZero
    split
    · rename_i h; exact ⟨by omega, fun i _ _ => by omega, fun _ => by simpa using h⟩
    · rename_i h
      obtain ⟨h1, h2, h3⟩ := ih
      refine ⟨by omega, fun i hi hj => ?_, fun hn => ?_⟩
      · by_cases e : i = w
        · rw [e]; simpa using h
        · exact h2 i (by omega) (by omega)
      · rw [← h3 (by omega)]; congr 1; omega

/-- and the vector code, modelled with one definition of each, is the code of every build. -/
theorem C83_packed (b : Build) (hb : b.Compiles) :
    (∀ w x, w = 32 ∨ w = 64 → x < 2 ^ w → Bits.countlZero b w x = .ok (Meojson.countlZero w x) ∧ Bits.countrZero b w x = .ok (Meojson.countrZero w x)) ∧
    (∀ x : UInt32, countrOne b 32 x.toNat = .ok (countrOne32 x)) ∧ (∀ x : UInt64, countrOne b 64 x.toNat = .ok (countrOne64 x)) := by
  refine ⟨fun w x hw hx => ?_, fun x => ?_, fun x => ?_⟩
  · obtain ⟨⟨m, a, h⟩, ⟨n, c, k⟩, _⟩ := C83_count b w x hb hw hx
    rw [a, c, high_unique h (packed_high w x), low_unique k (packed_low w x)]
    exact ⟨rfl, rfl⟩
  · obtain ⟨_, _, _, n, h, k⟩ := C83_count b 32 x.toNat hb (.inl rfl) x.toNat_lt
    have e : (~~~x).toNat = flip 32 x.toNat := by rw [UInt32.toNat_not]; rfl
    rw [h, low_unique k (flip_low x.toNat_lt (packed_low 32 (flip 32 x.toNat))), countrOne32, e]
  · obtain ⟨_, _, _, n, h, k⟩ := C83_count b 64 x.toNat hb (.inr rfl) x.toNat_lt
    have e : (~~~x).toNat = flip 64 x.toNat := by rw [UInt64.toNat_not]; rfl
    rw [h, low_unique k (flip_low x.toNat_lt (packed_low 64 (flip 64 x.toNat))), countrOne64, e]

/-- The builds agree about the order of bytes: exactly the little-endian machines are called so. -/
theorem C83_endian (b : Build) (o : Order) : isLittleEndian b o = true ↔ o = .little := by
  cases b <;> cases o <;> simp [isLittleEndian, Order.store]

/-- The last line of the 32-bit `countl_zero` for GCC (bitops.hpp:34) counts 32 bits too many. It is compiled in only where neither `unsigned int` nor `unsigned long` has 32 bits, and there
bitops.hpp does not compile. -/
theorem C83_third (int long x : Nat) (h1 : int ≠ 4) (h2 : long ≠ 4) (h0 : x ≠ 0) (hx : x < 2 ^ 32) :
    ¬ (Build.gnu int long).Compiles ∧ ∃ n, HighCount false 32 x n ∧ Bits.countlZero (.gnu int long) 32 x = .ok (n + 32) := by
  refine ⟨by simp [Build.Compiles, h1, h2], 32 - 1 - x.log2, log_high h0 hx, ?_⟩
  have := log_lt h0 hx
  simp only [Bits.countlZero, h0, if_false, builtinClz, called, h1, h2, if_true]
  congr 1; omega

example : (8 : Nat) ≠ 4 ∧ (1 : Nat) ≠ 0 ∧ 1 < 2 ^ 32 := by decide

end Meojson
