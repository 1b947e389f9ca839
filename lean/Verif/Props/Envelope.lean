import Verif.Props.Serialize
import Verif.Props.Edit
import Mathlib.Tactic.Ring

/-!
# C112: a document as a string in another
-/

set_option autoImplicit false

namespace Meojson
open Spec Mem Stores

/-- `json::array{t}.dumps()` with the text of `v` for `t`, and that again, `n` times in all. -/
def enveloped (v : Value) : Nat → Out Text
  | 0 => v.dumps
  | n + 1 => (enveloped v n).bind fun t => (Value.arr .array [.str .string t]).dumps

/-- The other way: parse, take the string out of the array, and that `n` times; then parse. -/
def opened (a : Accel) : Nat → Text → Option Value
  | 0, t => parse a.traits t
  | n + 1, t => match parse a.traits t with
    | some (.arr .array [.str .string u]) => opened a n u
    | _ => none

/-- The bytes that need a backslash before them. -/
def quotes (t : Text) : Nat := t.count 0x22 + t.count 0x5c

private theorem wrap_json (t : Text) : (Value.arr .array [.str .string t]).Json := by simp [Value.Json, Value.Wf, Value.WfAll]

/-- Whatever a document is and however often it is wrapped, it comes out as it went in. -/
theorem C112_opened (a : Accel) (v : Value) (hv : v.Json) (hc : v.IsContainer) (n : Nat) : ∃ t, enveloped v n = .ok t ∧ opened a n t = some v := by
  induction n with
  | zero =>
    obtain ⟨t, h1, h2, -⟩ := C08_roundtrip a v hv hc
    exact ⟨t, h1, h2⟩
  | succ n ih =>
    obtain ⟨t, h1, h2⟩ := ih
    obtain ⟨u, h3, h4, -⟩ := C08_roundtrip a (.arr .array [.str .string t]) (wrap_json t) (.inl rfl)
    exact ⟨u, by rw [enveloped, h1]; exact h3, by rw [opened, h4]; exact h2⟩

/-- With any indents, and at any place of any document. -/
theorem C112_anywhere (a b : Accel) (v w : Value) (hv : v.Json) (hc : v.IsContainer) (hw : w.Json) (hc' : w.IsContainer) (i i' : Option Nat) (t u : Text) (ht : v.dumps i = .ok t) (hu : w.dumps i' = .ok u)
    (p : List Sel) (hp : getAt w p = some (.str .string t)) : ∃ w' t', parse a.traits u = some w' ∧ getAt w' p = some (.str .string t') ∧ parse b.traits t' = some v := by
  have round : ∀ (a : Accel) (v : Value) (i : Option Nat) (t : Text), v.Json → v.IsContainer → v.dumps i = .ok t → parse a.traits t = some v := by
    intro a v i t h1 h2 h3
    obtain ⟨t', h4, h5, -⟩ : ∃ t, v.dumps i = .ok t ∧ parse a.traits t = some v ∧ parsec a.traits t = some v := by
      cases i with
      | none => exact C08_roundtrip a v h1 h2
      | some n => exact C09_roundtrip_indented a v h1 h2 n
    rw [h3] at h4
    cases h4
    exact h5
  exact ⟨w, t, round a w i' u hw hc' hu, hp, round b v i t hv hc ht⟩

example : getAt (.obj .object [(ascii "body", .str .string (ascii "[]"))]) [.key (ascii "body")] = some (.str .string (ascii "[]")) := by decide +kernel

private theorem esc_size (t : Text) (h : ∀ c ∈ t, 0x20 ≤ c) : (t.flatMap escByte).length = t.length + quotes t ∧ quotes (t.flatMap escByte) = 2 * quotes t := by
  induction t with
  | nil => exact ⟨rfl, rfl⟩
  | cons c t ih =>
    obtain ⟨h1, h2⟩ := ih fun x hx => h x (List.mem_cons_of_mem _ hx)
    have key : ∀ c : UInt8, 0x20 ≤ c → (escByte c).length = 1 + quotes [c] ∧ quotes (escByte c) = 2 * quotes [c] := by
      apply uint8_forall
      decide +kernel
    obtain ⟨h3, h4⟩ := key c (h c (by simp))
    have add : ∀ x y : Text, quotes (x ++ y) = quotes x + quotes y := fun x y => by simp only [quotes, List.count_append]; omega
    have e : quotes (c :: t) = quotes [c] + quotes t := add [c] t
    rw [List.flatMap_cons, List.length_append, add, h1, h2, h3, h4, e, List.length_cons]
    omega

private theorem wrap_size {t u : Text} (h : ∀ c ∈ t, 0x20 ≤ c) (hu : (Value.arr .array [.str .string t]).dumps = .ok u) : u.length = t.length + quotes t + 4 ∧ quotes u = 2 * quotes t + 2 := by
  have e : u = 0x5b :: 0x22 :: (t.flatMap escByte ++ [0x22, 0x5d]) := by
    simp [Value.dumps, Value.dumpTo, Value.dumpElems, escapeString_eq] at hu
    rw [← hu]
  obtain ⟨h1, h2⟩ := esc_size t h
  rw [e]
  simp [quotes] at h1 h2 ⊢
  omega

/-- How long the text is, exactly: each envelope doubles the quotation marks and backslashes. -/
theorem C112_size (v : Value) (hv : v.Json) (t u : Text) (n : Nat) (ht : v.dumps = .ok t) (hu : enveloped v n = .ok u) :
    u.length = t.length + (2 ^ n - 1) * (quotes t + 2) + 2 * n ∧ quotes u + 2 = 2 ^ n * (quotes t + 2) := by
  have all : ∀ n u, enveloped v n = .ok u → (∀ c ∈ u, 0x20 ≤ c) ∧ u.length + (quotes t + 2) = t.length + 2 ^ n * (quotes t + 2) + 2 * n ∧ quotes u + 2 = 2 ^ n * (quotes t + 2) := by
    intro n
    induction n with
    | zero =>
      intro u hu
      rw [enveloped, ht] at hu
      cases hu
      exact ⟨fun c hc => (C11_one_line v t hv ht c hc).1, by omega, by omega⟩
    | succ n ih =>
      intro u hu
      rw [enveloped] at hu
      cases he : enveloped v n with
      | ok s =>
        rw [he] at hu
        obtain ⟨h1, h2, h3⟩ := ih s he
        have hu' : (Value.arr .array [.str .string s]).dumps = .ok u := hu
        obtain ⟨h4, h5⟩ := wrap_size h1 hu'
        refine ⟨fun c hc => (C11_one_line _ u (wrap_json s) hu' c hc).1, ?_, ?_⟩
        · rw [pow_succ, Nat.mul_assoc, Nat.mul_comm 2, ← Nat.mul_assoc]
          omega
        · rw [pow_succ, Nat.mul_assoc, Nat.mul_comm 2, ← Nat.mul_assoc]
          omega
      | throw e => rw [he] at hu; cases hu
      | ub => rw [he] at hu; cases hu
  obtain ⟨-, h1, h2⟩ := all n u hu
  refine ⟨?_, h2⟩
  have h3 : 1 ≤ 2 ^ n := Nat.one_le_two_pow
  rw [Nat.sub_mul, Nat.one_mul]
  have h4 : quotes t + 2 ≤ 2 ^ n * (quotes t + 2) := Nat.le_mul_of_pos_left _ h3
  omega

/-- So after n envelopes the text has at least 2^(n+1) - 2 bytes; and one envelope at most doubles it, but for four bytes. -/
theorem C112_growth (v : Value) (hv : v.Json) (n : Nat) (t u w : Text) (ht : v.dumps = .ok t) (hu : enveloped v n = .ok u) (hw : enveloped v (n + 1) = .ok w) :
    2 ^ (n + 1) ≤ u.length + 2 ∧ w.length ≤ 2 * u.length + 4 := by
  obtain ⟨h1, h2⟩ := C112_size v hv t u n ht hu
  obtain ⟨h3, h4⟩ := C112_size v hv t w (n + 1) ht hw
  have h5 : quotes u ≤ u.length := by
    clear h1 h2 h3 h4 hu hw
    induction u with
    | nil => exact Nat.le_refl _
    | cons c u ih =>
      simp only [quotes, List.count_cons, List.length_cons] at ih ⊢
      have : ¬ (c = 0x22 ∧ c = 0x5c) := by rintro ⟨rfl, h⟩; revert h; decide
      by_cases h1 : c = 0x22 <;> by_cases h2 : c = 0x5c <;> simp [h1, h2] at this ⊢ <;> omega
  have h6 : 2 ^ n * 2 ≤ 2 ^ n * (quotes t + 2) := Nat.mul_le_mul_left _ (by omega)
  have h7 : 1 ≤ 2 ^ n := Nat.one_le_two_pow
  have h8 : 2 ^ (n + 1) * (quotes t + 2) = 2 * (2 ^ n * (quotes t + 2)) := by rw [pow_succ]; ring
  rw [Nat.sub_mul, Nat.one_mul] at h1 h3
  refine ⟨by rw [pow_succ]; omega, by omega⟩

example : enveloped (.arr .array []) 1 = .ok (ascii "[\"[]\"]") ∧ enveloped (.arr .array []) 2 = .ok (ascii "[\"[\\\"[]\\\"]\"]") ∧
    enveloped (.arr .array []) 3 = .ok (ascii "[\"[\\\"[\\\\\\\"[]\\\\\\\"]\\\"]\"]") ∧ opened .none 2 (ascii "[\"[\\\"[]\\\"]\"]") = some (.arr .array []) := by decide +kernel

example : quotes (ascii "[]") = 0 ∧ (ascii "[\"[\\\"[\\\\\\\"[]\\\\\\\"]\\\"]\"]").length = 2 + (2 ^ 3 - 1) * 2 + 2 * 3 := by decide +kernel

end Meojson
