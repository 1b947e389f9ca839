import Verif.Proofs.Pour
import Verif.Spec.Pour
import Verif.Spec.Work

/-!
# Proofs for C97: what the growing of the string costs
-/

set_option autoImplicit false

namespace Meojson

/-- What holds of the string at any time, if it was made for `b` bytes. -/
structure Kept (L : Str) (b : Nat) (s : Sink) : Prop where
  len : s.text.length ≤ s.cap
  low : L.small ≤ s.cap
  high : s.cap ≤ L.max
  moved : 2 * s.moved ≤ 7 * max b s.text.length
  moved' : s.cap = L.max ∨ 2 * s.moved ≤ 5 * s.cap
  asked : 2 * s.asked ≤ 13 * max b s.text.length + 2
  asked' : s.cap = L.max ∨ 2 * s.asked ≤ 7 * (s.cap + 1)
  peak : s.peak ≤ 4 * max b s.text.length + 1
  cap : s.cap = L.small ∨ s.cap ≤ 3 * max b s.text.length
  none : s.requests = 0 → s.cap = L.small ∧ s.moved = 0 ∧ s.asked = 0 ∧ s.peak = 0
  times : s.requests = 0 ∨ 4 ^ s.requests * L.small * 3 ≤ 3 ^ s.requests * max b s.text.length * 4
  times' : s.cap = L.max ∨ 4 ^ s.requests * L.small ≤ 3 ^ s.requests * s.cap

theorem Kept.empty {L : Str} (hL : L.Standard) : Kept L 0 L.empty where
  len := Nat.zero_le _
  low := Nat.le_refl _
  high := hL.least
  moved := by simp [Str.empty]
  moved' := .inr (by simp [Str.empty])
  asked := by simp [Str.empty]
  asked' := .inr (by simp [Str.empty])
  peak := by simp [Str.empty]
  cap := .inl rfl
  none := fun _ => ⟨rfl, rfl, rfl, rfl⟩
  times := .inl rfl
  times' := .inr (by simp [Str.empty])

theorem Kept.up {L : Str} {b b' : Nat} {s : Sink} (h : Kept L b s) (hb : b ≤ b') : Kept L b' s := by
  have m : max b s.text.length ≤ max b' s.text.length := by omega
  constructor
  · exact h.len
  · exact h.low
  · exact h.high
  · have := h.moved; omega
  · exact h.moved'
  · have := h.asked; omega
  · exact h.asked'
  · have := h.peak; omega
  · have := h.cap; omega
  · exact h.none
  · exact h.times.imp_right fun h => Nat.le_trans h (Nat.mul_le_mul_right _ (Nat.mul_le_mul_left _ m))
  · exact h.times'

theorem Kept.more {L : Str} {b : Nat} {s : Sink} (h : Kept L b s) (t : Bytes) (ht : s.text.length + t.length ≤ s.cap) : Kept L b { s with text := s.text ++ t } := by
  have e : (s.text ++ t).length = s.text.length + t.length := List.length_append
  have m : max b s.text.length ≤ max b (s.text.length + t.length) := by omega
  constructor <;> simp only [e]
  · exact ht
  · exact h.low
  · exact h.high
  · have := h.moved; omega
  · exact h.moved'
  · have := h.asked; omega
  · exact h.asked'
  · have := h.peak; omega
  · have := h.cap; omega
  · exact h.none
  · exact h.times.imp_right fun h => Nat.le_trans h (Nat.mul_le_mul_right _ (Nat.mul_le_mul_left _ m))
  · exact h.times'

theorem Kept.grown {L : Str} (hL : L.Standard) {b : Nat} {s : Sink} (h : Kept L b s) (t : Bytes) {need : Nat} (ht : s.cap < need) (hm : need ≤ L.max)
    (h1 : s.text.length + t.length ≤ need) (h2 : need ≤ max b (s.text.length + t.length)) : Kept L b { s.moveTo L (L.grow s.cap need) with text := s.text ++ t } := by
  have e : (s.text ++ t).length = s.text.length + t.length := List.length_append
  obtain ⟨f1, f2⟩ := hL.fits _ _ h.low ht hm
  have f3 := hL.half _ _ h.low ht hm
  have f4 := hL.thrice _ _ h.low ht hm
  have f5 := hL.small
  have g1 := h.len
  have g2 := h.low
  have g3 := h.moved
  have g4 := h.moved'
  have g5 := h.asked'
  have nomax : s.cap ≠ L.max := by omega
  have g6 := h.times'.resolve_left nomax
  have hp : (4 : Nat) ^ (s.requests + 1) = 4 * 4 ^ s.requests := by rw [Nat.pow_succ, Nat.mul_comm]
  have hq : (3 : Nat) ^ (s.requests + 1) = 3 * 3 ^ s.requests := by rw [Nat.pow_succ, Nat.mul_comm]
  generalize hw : max b (s.text.length + t.length) = w at *
  constructor <;> simp only [e, Sink.moveTo, hw]
  · omega
  · omega
  · exact f2
  · omega
  · omega
  · omega
  · omega
  · have c : L.block s.cap ≤ s.cap + 1 := by unfold Str.block; split <;> omega
    have := h.peak
    exact Nat.max_le.2 ⟨by omega, by omega⟩
  · exact .inr (by omega)
  · intro h0; omega
  · right
    have : 3 ^ s.requests * s.cap ≤ 3 ^ s.requests * w := Nat.mul_le_mul_left _ (by omega)
    rw [hp, hq]
    have a1 : 4 * 4 ^ s.requests * L.small * 3 = 12 * (4 ^ s.requests * L.small) := by rw [Nat.mul_assoc 4, Nat.mul_comm (4 * _) 3, ← Nat.mul_assoc]
    have a2 : 3 * 3 ^ s.requests * w * 4 = 12 * (3 ^ s.requests * w) := by
      rw [Nat.mul_assoc 3, Nat.mul_comm (3 * _) 4, ← Nat.mul_assoc]
    rw [a1, a2]
    omega
  · rcases f3 with f3 | f3
    · right
      rw [hp, hq]
      have h43 : 4 * s.cap ≤ 3 * L.grow s.cap need := by omega
      calc 4 * 4 ^ s.requests * L.small = 4 * (4 ^ s.requests * L.small) := Nat.mul_assoc _ _ _
        _ ≤ 4 * (3 ^ s.requests * s.cap) := Nat.mul_le_mul_left _ g6
        _ = 3 ^ s.requests * (4 * s.cap) := by rw [Nat.mul_left_comm]
        _ ≤ 3 ^ s.requests * (3 * L.grow s.cap need) := Nat.mul_le_mul_left _ h43
        _ = 3 * 3 ^ s.requests * L.grow s.cap need := by rw [Nat.mul_left_comm, Nat.mul_assoc]
    · exact .inl f3

/-- How one append ends. -/
theorem put_cases {L : Str} (hL : L.Standard) {b : Nat} {s : Sink} (h : Kept L b s) (t : Bytes) :
    ((L.put t s).res = .ok () ∧ (L.put t s).sink.text = s.text ++ t ∧ Kept L b (L.put t s).sink) ∨
      ((L.put t s).sink = s ∧ L.max < s.text.length + t.length ∧ (L.put t s).res = .throw .lengthError) ∨
      ((L.put t s).sink = s ∧ (∃ k n, L.gives k n = false) ∧ (L.put t s).res = .throw .badAlloc) := by
  by_cases h1 : s.text.length + t.length ≤ s.cap
  · have e : L.put t s = ⟨.ok (), { s with text := s.text ++ t }⟩ := by simp only [Str.put, h1, if_true]
    rw [e]; exact .inl ⟨rfl, rfl, h.more t h1⟩
  · by_cases h2 : L.max < s.text.length + t.length
    · have e : L.put t s = ⟨.throw .lengthError, s⟩ := by simp only [Str.put, h1, h2, if_true, if_false]
      rw [e]; exact .inr (.inl ⟨rfl, h2, rfl⟩)
    · by_cases h3 : L.gives s.requests (L.grow s.cap (s.text.length + t.length) + 1) = false
      · have e : L.put t s = ⟨.throw .badAlloc, s⟩ := by simp only [Str.put, h1, h2, h3, if_true, if_false]
        rw [e]; exact .inr (.inr ⟨rfl, ⟨_, _, h3⟩, rfl⟩)
      · have e : L.put t s = ⟨.ok (), { s.moveTo L (L.grow s.cap (s.text.length + t.length)) with text := s.text ++ t }⟩ := by simp only [Str.put, h1, h2, h3, if_false]; rfl
        rw [e]; exact .inl ⟨rfl, rfl, h.grown hL t (by omega) (by omega) (by omega) (by omega)⟩

/-- How a list of appends ends. -/
theorem pourAll_cases {L : Str} (hL : L.Standard) (ts : List Bytes) (e : Out Unit) {b : Nat} {s : Sink} (h : Kept L b s) :
    Kept L b (pourAll L ts e s).sink ∧ (∃ us vs, ts.flatten = us ++ vs ∧ (pourAll L ts e s).sink.text = s.text ++ us) ∧
    (((pourAll L ts e s).res = e ∧ (pourAll L ts e s).sink.text = s.text ++ ts.flatten) ∨
      ((pourAll L ts e s).res = .throw .lengthError ∧ L.max < s.text.length + ts.flatten.length) ∨
      ((pourAll L ts e s).res = .throw .badAlloc ∧ ∃ k n, L.gives k n = false)) := by
  induction ts generalizing s with
  | nil => exact ⟨h, ⟨[], [], rfl, by simp [pourAll]⟩, .inl ⟨rfl, by simp [pourAll]⟩⟩
  | cons t ts ih =>
    simp only [pourAll]
    rcases put_cases hL h t with ⟨h1, h2, h3⟩ | ⟨h1, h2, h3⟩ | ⟨h1, h2, h3⟩
    · have : (L.put t s).andThen (fun s => pourAll L ts e s) = pourAll L ts e (L.put t s).sink := by unfold Poured.andThen; rw [h1]
      rw [this]
      obtain ⟨k, ⟨us, vs, e1, e2⟩, r⟩ := ih h3
      refine ⟨k, ⟨t ++ us, vs, by simp [e1], by rw [e2, h2]; simp⟩, ?_⟩
      rcases r with ⟨r1, r2⟩ | ⟨r1, r2⟩ | r
      · exact .inl ⟨r1, by rw [r2, h2]; simp⟩
      · refine .inr (.inl ⟨r1, ?_⟩)
        rw [h2] at r2
        simp only [List.length_append, List.flatten_cons] at r2 ⊢
        omega
      · exact .inr (.inr r)
    · have : (L.put t s).andThen (fun s => pourAll L ts e s) = ⟨.throw .lengthError, s⟩ := by unfold Poured.andThen; rw [h3, h1]
      rw [this]
      exact ⟨h, ⟨[], (t :: ts).flatten, rfl, by simp⟩, .inr (.inl ⟨rfl, by simp only [List.length_append, List.flatten_cons]; omega⟩)⟩
    · have : (L.put t s).andThen (fun s => pourAll L ts e s) = ⟨.throw .badAlloc, s⟩ := by unfold Poured.andThen; rw [h3, h1]
      rw [this]
      exact ⟨h, ⟨[], (t :: ts).flatten, rfl, by simp⟩, .inr (.inr ⟨rfl, h2⟩)⟩

/-- The number of requests. -/
theorem Kept.logarithmic {L : Str} (hL : L.Standard) {b : Nat} {s : Sink} (h : Kept L b s) : s.requests ≤ 3 * (max b s.text.length).log2 + 2 := by
  rcases h.times with h0 | ht
  · omega
  · have hs := hL.small
    generalize s.requests = r at *
    generalize max b s.text.length = n at *
    have h1 : 4 ^ r ≤ 3 ^ r * n := by
      have : 4 ^ r * 27 ≤ 4 ^ r * L.small * 3 := by rw [Nat.mul_assoc]; exact Nat.mul_le_mul_left _ (by omega)
      omega
    obtain ⟨q, m, hr, hm⟩ : ∃ q m, r = 3 * q + m ∧ m < 3 := ⟨r / 3, r % 3, by omega, by omega⟩
    have h2 : 2 ^ q ≤ n := by
      have e4 : 4 ^ r = 64 ^ q * 4 ^ m := by rw [hr, Nat.pow_add, Nat.pow_mul]
      have e3 : 3 ^ r = 27 ^ q * 3 ^ m := by rw [hr, Nat.pow_add, Nat.pow_mul]
      have p27 : 0 < 27 ^ q := Nat.pow_pos (by omega)
      have pm : 0 < 3 ^ m := Nat.pow_pos (by omega)
      have m34 : 3 ^ m ≤ 4 ^ m := Nat.pow_le_pow_left (by omega) m
      have h54 : 2 ^ q * 27 ^ q ≤ 64 ^ q := by rw [← Nat.mul_pow]; exact Nat.pow_le_pow_left (by omega) q
      rw [e4, e3] at h1
      have h3 : (2 ^ q * 27 ^ q) * 3 ^ m ≤ 27 ^ q * 3 ^ m * n := Nat.le_trans (Nat.mul_le_mul h54 m34) h1
      have h4 : (27 ^ q * 3 ^ m) * 2 ^ q ≤ (27 ^ q * 3 ^ m) * n := by
        have : (2 ^ q * 27 ^ q) * 3 ^ m = (27 ^ q * 3 ^ m) * 2 ^ q := by rw [Nat.mul_comm (2 ^ q), Nat.mul_right_comm]
        omega
      exact Nat.le_of_mul_le_mul_left h4 (Nat.mul_pos p27 pm)
    have hn : n ≠ 0 := by have := Nat.pow_pos (n := q) (show 0 < 2 by omega); omega
    have := (Nat.le_log2 hn).2 h2
    omega

/-- `reserve` of an empty string. -/
theorem reserve_cases {L : Str} (hL : L.Standard) (n : Nat) :
    ((L.reserve n L.empty).res = .ok () ∧ (L.reserve n L.empty).sink.text = [] ∧ n ≤ (L.reserve n L.empty).sink.cap ∧ (L.reserve n L.empty).sink.requests ≤ 1 ∧ (L.reserve n L.empty).sink.moved = 0 ∧
        Kept L n (L.reserve n L.empty).sink) ∨
      (L.max < n ∧ L.reserve n L.empty = ⟨.throw .lengthError, L.empty⟩) ∨
      ((∃ k n, L.gives k n = false) ∧ L.reserve n L.empty = ⟨.throw .badAlloc, L.empty⟩) := by
  by_cases h1 : n ≤ L.small
  · have e : L.reserve n L.empty = ⟨.ok (), L.empty⟩ := by simp only [Str.reserve, Str.empty, h1, if_true]
    rw [e]; exact .inl ⟨rfl, rfl, h1, by simp [Str.empty], rfl, (Kept.empty hL).up (Nat.zero_le _)⟩
  · by_cases h2 : L.max < n
    · have e : L.reserve n L.empty = ⟨.throw .lengthError, L.empty⟩ := by simp only [Str.reserve, Str.empty, h1, h2, if_true, if_false]
      exact .inr (.inl ⟨h2, e⟩)
    · by_cases h3 : L.gives 0 (L.grow L.small n + 1) = false
      · have e : L.reserve n L.empty = ⟨.throw .badAlloc, L.empty⟩ := by simp only [Str.reserve, Str.empty, h1, h2, h3, if_true, if_false]
        exact .inr (.inr ⟨⟨_, _, h3⟩, e⟩)
      · have e : L.reserve n L.empty = ⟨.ok (), L.empty.moveTo L (L.grow L.small n)⟩ := by simp only [Str.reserve, Str.empty, h1, h2, h3, if_false]; rfl
        rw [e]
        refine .inl ⟨rfl, rfl, (hL.fits L.small n (Nat.le_refl _) (by omega) (by omega)).1, by simp [Sink.moveTo, Str.empty], by simp [Sink.moveTo, Str.empty], ?_⟩
        exact ((Kept.empty hL).up (Nat.zero_le n)).grown hL [] (need := n) (show L.small < n by omega) (by omega) (by simp [Str.empty]) (by omega)

/-! ### The number of spaces does not wrap around unnoticed -/

namespace Value

/-- One level further in, where a text of less than 2^63 bytes has been written. -/
theorem spaces_step {n times m : Nat} (hn : n < 2 ^ 64) (h : n * times < 2 ^ 63) (hs : (spaces n (times + 1)).length ≤ m) (hm : m < 2 ^ 63) : n * (times + 1) < 2 ^ 63 := by
  unfold spaces at hs
  rw [List.length_replicate] at hs
  have h64 : n * (times + 1) < 2 ^ 64 := by
    cases times with
    | zero => simpa using hn
    | succ k =>
      have e : n * (k + 1 + 1) = n * (k + 1) + n := by rw [Nat.mul_succ]
      have : n ≤ n * (k + 1) := Nat.le_mul_of_pos_right n (by omega)
      omega
  rw [Nat.mod_eq_of_lt h64] at hs
  omega

/-- The level of a value that has nothing in it. -/
theorem level_step {n times : Nat} (hn : n < 2 ^ 64) (h : n * times < 2 ^ 63) : n * (times + 1) < 2 ^ 64 := by
  cases times with
  | zero => simpa using hn
  | succ k =>
    have e : n * (k + 1 + 1) = n * (k + 1) + n := by rw [Nat.mul_succ]
    have : n ≤ n * (k + 1) := Nat.le_mul_of_pos_right n (by omega)
    omega

theorem max_step {n a b c : Nat} (h1 : n * (a + b) < 2 ^ 64) (h2 : n * (a + c) < 2 ^ 64) : n * (a + max b c) < 2 ^ 64 := by
  rcases Nat.le_total b c with h | h
  · rw [Nat.max_eq_right h]; exact h2
  · rw [Nat.max_eq_left h]; exact h1

mutual
theorem unwrapped {n : Nat} (hn : n < 2 ^ 64) : ∀ (times : Nat) (v : Value) (t : Bytes), v.formatTo n times = .ok t → t.length < 2 ^ 63 → n * times < 2 ^ 63 → n * (times + v.nesting) < 2 ^ 64
  | times, .arr .array vs, t, h, ht, hl => by
    rw [formatTo] at h
    obtain ⟨a, h1, h2⟩ := Out.bind_eq_ok.1 h
    cases h2
    simp only [List.length_append] at ht
    have := unwrappedAll hn times vs a h1 (by omega) hl
    rw [nesting, Nat.add_comm (nestingAll vs), ← Nat.add_assoc]; exact this
  | times, .obj .object ms, t, h, ht, hl => by
    rw [formatTo] at h
    obtain ⟨a, h1, h2⟩ := Out.bind_eq_ok.1 h
    cases h2
    simp only [List.length_append] at ht
    have := unwrappedMembers hn times ms a h1 (by omega) hl
    rw [nesting, Nat.add_comm (nestingMembers ms), ← Nat.add_assoc]; exact this
  | times, .str _ _, _, _, _, hl | times, .arr .null _, _, _, _, hl | times, .arr .boolean _, _, _, _, hl | times, .arr .number _, _, _, _, hl | times, .arr .string _, _, _, _, hl
  | times, .arr .object _, _, _, _, hl | times, .arr .invalid _, _, _, _, hl | times, .obj .null _, _, _, _, hl | times, .obj .boolean _, _, _, _, hl | times, .obj .number _, _, _, _, hl
  | times, .obj .string _, _, _, _, hl | times, .obj .array _, _, _, _, hl | times, .obj .invalid _, _, _, _, hl | times, .arrNull _, _, _, _, hl | times, .objNull _, _, _, _, hl => by
    rw [nesting, Nat.add_zero]
    · omega
    all_goals simp
theorem unwrappedAll {n : Nat} (hn : n < 2 ^ 64) : ∀ (times : Nat) (vs : List Value) (t : Bytes), formatElems n times vs = .ok t → t.length < 2 ^ 63 → n * times < 2 ^ 63 →
    n * (times + 1 + nestingAll vs) < 2 ^ 64
  | times, [], _, _, _, hl => by rw [nestingAll]; exact level_step hn hl
  | times, v :: vs, t, h, ht, hl => by
    rw [formatElems] at h
    obtain ⟨a, h1, h2⟩ := Out.bind_eq_ok.1 h
    obtain ⟨b, h3, h4⟩ := Out.bind_eq_ok.1 h2
    cases h4
    simp only [List.length_append] at ht
    have hs := spaces_step hn hl (Nat.le_refl _) (by omega)
    rw [nestingAll]
    exact max_step (unwrapped hn (times + 1) v a h1 (by omega) hs) (unwrappedAll hn times vs b h3 (by omega) hl)
theorem unwrappedMembers {n : Nat} (hn : n < 2 ^ 64) : ∀ (times : Nat) (ms : List (Bytes × Value)) (t : Bytes), formatMembers n times ms = .ok t → t.length < 2 ^ 63 → n * times < 2 ^ 63 →
    n * (times + 1 + nestingMembers ms) < 2 ^ 64
  | times, [], _, _, _, hl => by rw [nestingMembers]; exact level_step hn hl
  | times, (k, v) :: ms, t, h, ht, hl => by
    rw [formatMembers] at h
    obtain ⟨a, h1, h2⟩ := Out.bind_eq_ok.1 h
    obtain ⟨b, h3, h4⟩ := Out.bind_eq_ok.1 h2
    cases h4
    simp only [List.length_append] at ht
    have hs := spaces_step hn hl (Nat.le_refl _) (by omega)
    rw [nestingMembers]
    exact max_step (unwrapped hn (times + 1) v a h1 (by omega) hs) (unwrappedMembers hn times ms b h3 (by omega) hl)
end

end Value

end Meojson
