import Verif.Proofs.EffortLeast
import Verif.Props.Safety

/-!
# C93: no text makes the parser slow or greedy
-/

set_option autoImplicit false

namespace Meojson
open Spec

/-- What the standard and its implementations promise of the containers. A buffer that is too small is replaced by one that suffices, larger by half at least and at most thrice what is needed:
libstdc++ and libc++ double, Microsoft's adds half, and the latter two round the capacity of a string up to one less than a multiple of 16. No string has less than `small`.
A map is a red-black tree, no higher than twice the logarithm of its size. libstdc++ and Microsoft's compare once on every level and once more at the end, libc++ up to twice on every level. -/
structure Lib.Standard (L : Lib) : Prop where
  text : ∀ cap need, cap < need → need ≤ L.growText cap need ∧ cap + cap / 2 ≤ L.growText cap need ∧ L.growText cap need ≤ 3 * need
  elems : ∀ cap need, cap < need → need ≤ L.growElems cap need ∧ cap + cap / 2 ≤ L.growElems cap need ∧ L.growElems cap need ≤ 3 * need
  probes : ∀ n, L.probes n ≤ 4 * (n + 1).log2 + 2

private theorem log2_mono {m n : Nat} (h : m ≤ n) : (m + 1).log2 ≤ (n + 1).log2 := by
  rw [Nat.le_log2 (by omega)]
  have := Nat.log2_self_le (n := m + 1) (by omega)
  omega

private theorem rates {L : Lib} (hL : L.Standard) (N : Nat) : Rates L (4 * (N + 1).log2 + 2) N (4 * (N + 1).log2 + 26) (18 * L.value + L.node + L.box + 30) where
  text := ⟨fun c n h => (hL.text c n h).1, fun c n h => (hL.text c n h).2.1, fun c n h => (hL.text c n h).2.2⟩
  elems := ⟨fun c n h => (hL.elems c n h).1, fun c n h => (hL.elems c n h).2.1, fun c n h => (hL.elems c n h).2.2⟩
  probes := fun n hn => Nat.le_trans (hL.probes n) (by have := log2_mono hn; omega)
  byte := Nat.le_refl _
  mem := Nat.le_refl _

/-- `parseRunE` is the parser that counts what the containers do; its outcome is the parser's. Bytes copied, values moved and bytes of keys compared are at most 26 for every byte of the text,
and four times the logarithm of its length more. With the calls and loop passes (`parseRunT`) it is 90 for every byte. The memory asked for, added up over the whole parse, is at
most as much for each byte as 18 values, a node of a map, an array or object and 30 bytes take. -/
theorem C93_effort (L : Lib) (hL : L.Standard) (a : Accel) (jsonc : Bool) (steps : Nat) (s : Bytes) :
    (parseRunE L ⟨jsonc, a.traits⟩ steps s).res = parseRun ⟨jsonc, a.traits⟩ steps s ∧
      (parseRunE L ⟨jsonc, a.traits⟩ steps s).work ≤ (4 * (s.length + 1).log2 + 26) * s.length + 1 ∧
      (parseRunT ⟨jsonc, a.traits⟩ steps s).ticks + (parseRunE L ⟨jsonc, a.traits⟩ steps s).work ≤ (4 * (s.length + 1).log2 + 90) * s.length + 10 ∧
      (parseRunE L ⟨jsonc, a.traits⟩ steps s).asked ≤ (18 * L.value + L.node + L.box + 30) * s.length := by
  have h := parseRunE_paid (rates hL s.length) (cfg := ⟨jsonc, a.traits⟩) (stepPos a) steps s (Nat.le_refl _)
  have h1 := h.work
  have h2 := h.asked
  have h3 := (parseRunT_cost (cfg := ⟨jsonc, a.traits⟩) (stepPos a) steps s).ticks
  refine ⟨parseRunE_res L _ steps s, by omega, ?_, by omega⟩
  have e : (4 * (s.length + 1).log2 + 90) * s.length = 64 * s.length + (4 * (s.length + 1).log2 + 26) * s.length := by rw [← Nat.add_mul]; congr 1; omega
  omega

/-- The counts leave nothing out that is still there at the end: the work is no less than the values and bytes of the document, the memory no less than what the document occupies.
So a document occupies at most as much for each byte of its text as `C93_effort` says. -/
theorem C93_document (L : Lib) (hL : L.Standard) (a : Accel) (jsonc : Bool) (s : Bytes) {v : Value} (h : parser ⟨jsonc, a.traits⟩ s = some v) :
    v.weight ≤ (parseRunE L ⟨jsonc, a.traits⟩ (parseFuel s) s).work ∧
      footprint ⟨L.small, L.value, L.node, L.box⟩ v ≤ (parseRunE L ⟨jsonc, a.traits⟩ (parseFuel s) s).asked ∧
      footprint ⟨L.small, L.value, L.node, L.box⟩ v ≤ (18 * L.value + L.node + L.box + 30) * s.length := by
  obtain ⟨h1, _, _, h4⟩ := C93_effort L hL a jsonc (parseFuel s) s
  obtain ⟨r, h⟩ : ∃ r, parseRun ⟨jsonc, a.traits⟩ (parseFuel s) s = .ok v r := by
    unfold parser at h
    split at h
    · next e => cases h; exact ⟨_, e⟩
    · cases h
  have := parseRunE_least (fun c n h => (hL.text c n h).1) (fun c n h => (hL.elems c n h).1) ⟨jsonc, a.traits⟩ (parseFuel s) s v r (by rw [h1, h])
  simp only [Nat.zero_add] at this
  exact ⟨this.1, this.2, Nat.le_trans this.2 h4⟩

/-- `1,1,…,1]` with `k + 1` ones. -/
private def ones : Nat → Bytes
  | 0 => [0x31, 0x5d]
  | k + 1 => 0x31 :: 0x2c :: ones k

private theorem ones_cons (k : Nat) : ∃ t, ones k = 0x31 :: t := by cases k <;> exact ⟨_, rfl⟩

private theorem skip_plain (j : Bool) {c : UInt8} (s : Bytes) (h : c = 0x31 ∨ c = 0x2c ∨ c = 0x5d) : skipWhitespace j (c :: s) = .ok true (c :: s) := by
  rcases h with rfl | rfl | rfl <;> simp [skipWhitespace, skipWhitespaceF]

private theorem number_one {c : UInt8} (s : Bytes) (h : c = 0x2c ∨ c = 0x5d) : parseNumber (0x31 :: c :: s) = .ok (.str .number [0x31]) (c :: s) := by
  rcases h with rfl | rfl <;>
    simp [parseNumber, leadingZero, skipDigit, digitLoop, isDigit, numberFrac, numberExp, Res.bind, between]

private theorem value_one (L : Lib) (cfg : Cfg) (n : Nat) {c : UInt8} (s : Bytes) (h : c = 0x2c ∨ c = 0x5d) :
    parseValueE L cfg (n + 1) (0x31 :: c :: s) = ⟨.ok (.str .number [0x31]) (c :: s), 2, 2⟩ := by
  simp only [parseValueE, number_one s h, madeText]
  simp [isDigit]

/-- The work of `k + 1` calls of `emplace_back` on a full vector of `m` elements that grows by one each time: they move `m`, `m + 1`, …, `m + k` elements. -/
private theorem stingy (L : Lib) (hL : ∀ c n, L.growElems c n = n) (cfg : Cfg) (k : Nat) : ∀ (n m : Nat) (acc : List Value), acc.length = m → 2 * k + 2 ≤ n →
    ∃ r w, (arrayLoopE L cfg n m acc (ones k)).res = .ok r [0x5d] ∧ r.length = m + k + 1 ∧ (arrayLoopE L cfg n m acc (ones k)).work = w ∧ (k + 1) * (2 * m + k) ≤ 2 * w := by
  induction k with
  | zero =>
    intro n m acc hm hn
    obtain ⟨n, rfl⟩ : ∃ n', n = n' + 2 := ⟨n - 2, by omega⟩
    have hc : carried m acc.length 1 = m := by rw [carried, hm, if_neg (by omega)]
    refine ⟨acc ++ [.str .number [0x31]], 2 + (1 + m), ?_, by simp [hm], ?_, by omega⟩ <;>
      simp [arrayLoopE, ones, skip_plain, Spent.bind, Spent.free, Spent.pay, value_one, hc]
  | succ k ih =>
    intro n m acc hm hn
    obtain ⟨n, rfl⟩ : ∃ n', n = n' + 2 := ⟨n - 2, by omega⟩
    obtain ⟨r, w, h1, h2, h3, h4⟩ := ih (n + 1) (m + 1) (acc ++ [.str .number [0x31]]) (by simp [hm]) (by omega)
    have hc : carried m acc.length 1 = m := by rw [carried, hm, if_neg (by omega)]
    have hr : room L.growElems m acc.length 1 = m + 1 := by simp [room, hm, hL]
    refine ⟨r, 2 + (1 + m) + w, ?_, by omega, ?_, ?_⟩
    · rw [arrayLoopE]
      simp [ones, skip_plain, Spent.bind, Spent.free, Spent.pay, value_one, hr, h1]
    · rw [arrayLoopE]
      simp [ones, skip_plain, Spent.bind, Spent.free, Spent.pay, value_one, hr, h3, hc]
      omega
    · have : (k + 1 + 1) * (2 * m + (k + 1)) = (k + 1) * (2 * (m + 1) + k) + 2 * m := by
        simp only [Nat.mul_add, Nat.add_mul]; omega
      omega

/-- That buffers grow by a part of their size is needed: with a vector that makes room for one element at a time, reading `[1,1,…,1]` takes work quadratic in its length. -/
theorem C93_growth_needed (L : Lib) (hL : ∀ c n, L.growElems c n = n) (cfg : Cfg) (k : Nat) :
    ∃ s : Bytes, s.length = 2 * k + 3 ∧ (∃ v, parser cfg s = some v) ∧ k * k ≤ 2 * (parseRunE L cfg (parseFuel s) s).work := by
  obtain ⟨t, ht⟩ := ones_cons k
  have hl : ∀ k, (ones k).length = 2 * k + 2 := by intro k; induction k with | zero => rfl | succ k ih => simp only [ones, List.length_cons, ih]; omega
  obtain ⟨n, hn⟩ : ∃ n, parseFuel (0x5b :: ones k) = n + 1 := ⟨_, rfl⟩
  have hf : 2 * k + 2 ≤ n := by simp only [parseFuel, List.length_cons, hl] at hn; omega
  obtain ⟨r, w, h1, h2, h3, h4⟩ := stingy L hL cfg k n 0 [] rfl hf
  have hs : skipWhitespace cfg.jsonc (0x5b :: ones k) = .ok true (0x5b :: ones k) := by simp [skipWhitespace, skipWhitespaceF]
  have hs' : skipWhitespace cfg.jsonc (0x31 :: t) = .ok true (0x31 :: t) := skip_plain _ _ (.inl rfl)
  have hs0 : skipWhitespace cfg.jsonc [] = .ok false [] := by simp [skipWhitespace, skipWhitespaceF]
  rw [ht] at h1 h3 hs
  have e : (parseRunE L cfg (parseFuel (0x5b :: ones k)) (0x5b :: ones k)).res = .ok (.ofArray r) [] ∧ w ≤ (parseRunE L cfg (parseFuel (0x5b :: ones k)) (0x5b :: ones k)).work := by
    rw [hn]
    constructor <;> simp [parseRunE, hs, Spent.bind, Spent.free, parseArrayE, ht, hs', h1, h3, skip_plain, Spent.pay, hs0]
    all_goals omega
  refine ⟨0x5b :: ones k, by simp [hl], ⟨.ofArray r, ?_⟩, ?_⟩
  · have := e.1
    rw [parseRunE_res] at this
    simp only [parser, this]
  · have : k * k ≤ (k + 1) * (2 * 0 + k) := Nat.mul_le_mul (by omega) (by omega)
    have := e.2
    omega

/-- libstdc++ on a 64-bit machine. -/
def gnuLib : Lib := ⟨15, fun c n => max n (2 * c), fun c n => max n (2 * c), fun n => 2 * (n + 1).log2 + 2, 48, 112, 48⟩
/-- LLVM's libc++; a string of up to 22 bytes is kept in the object itself. -/
def llvmLib : Lib := ⟨22, fun c n => if c < 22 then 2 * n else max n (2 * c) / 16 * 16 + 15, fun c n => max n (2 * c), fun n => 4 * (n + 1).log2, 40, 96, 24⟩
/-- Microsoft's. -/
def microsoftLib : Lib := ⟨15, fun c n => if c < 15 then 2 * n else max (n / 16 * 16 + 15) (c + c / 2), fun c n => max n (c + c / 2), fun n => 2 * (n + 1).log2 + 2, 48, 112, 24⟩

example : gnuLib.Standard := ⟨fun c n h => by simp only [gnuLib]; omega, fun c n h => by simp only [gnuLib]; omega, fun n => by simp only [gnuLib]; omega⟩
example : llvmLib.Standard := ⟨fun c n h => by simp only [llvmLib]; split <;> omega, fun c n h => by simp only [llvmLib]; omega, fun n => by simp only [llvmLib]; omega⟩
example : microsoftLib.Standard := ⟨fun c n h => by simp only [microsoftLib]; split <;> omega, fun c n h => by simp only [microsoftLib]; omega, fun n => by simp only [microsoftLib]; omega⟩

example : (parseRunE gnuLib ⟨false, none⟩ 100 (ascii "[1,{\"k\":[true]},\"a\\nb\"]")).work = 35
    ∧ (parseRunE gnuLib ⟨false, none⟩ 100 (ascii "[1,{\"k\":[true]},\"a\\nb\"]")).asked = 655 := by
  decide +kernel

example : ((parser ⟨false, none⟩ (ascii "[1,{\"k\":[true]},\"a\\nb\",\"a text that is longer than fifteen\"]")).map fun v => (v.weight, footprint ⟨15, 48, 112, 48⟩ v)) = some (50, 531)
    ∧ (parseRunE gnuLib ⟨false, none⟩ 1000 (ascii "[1,{\"k\":[true]},\"a\\nb\",\"a text that is longer than fifteen\"]")).asked = 758 := by
  decide +kernel

end Meojson
