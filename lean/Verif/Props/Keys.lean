import Verif.Model.Keys

/-!
# C82: an argument in the place of a key means what it says
-/

set_option autoImplicit false

namespace Meojson
open Keys
open Construct (Arith Chars)

/-- Integer types whose values are not meant as numbers. -/
def notNumbers : List Arith := [.bool, .char, .wchar, .char8, .char16, .char32]

/-- What a caller who writes this argument says. -/
def Says : Given → Means → Prop
  | .zero, m => m = .position 0
  | .int a n, m => a ∉ notNumbers ∧ 0 ≤ n ∧ m = .position n.toNat
  | .enumeration _ n, m => 0 ≤ n ∧ m = .position n.toNat
  | .chars p, m => ∃ s rest, (0 : UInt8) ∉ s ∧ p = some (s ++ 0 :: rest) ∧ m = .key s
  | .string s, m | .view s, m => m = .key s
  | .arrayIterator, m | .objectIterator, m => m = .iterator
  | _, _ => False

def C82Claim : Prop := ∀ (new : Bool) (c : Callee) (x : Given), means 64 new c x = .refused ∨ Says x (means 64 new c x)

/-- `v['a']` is the element at position 97. -/
theorem C82_refuted : ¬ C82Claim := by
  intro h
  have := h true .both (.int .char 0x61)
  have e : means 64 true .both (.int .char 0x61) = .position 97 := by decide
  rw [e] at this
  simp [Says, notNumbers] at this

/-- The other ways in which it fails: `v.at(-1)`, `v.at(true)`, `v.at(1.5)`, `v.at(-1.0)`, and, before C++23, `o.at(0)`, `o.erase(0)` and `v.at(nullptr)`. -/
theorem C82_surprises :
    means 64 true .both (.int .int (-1)) = .position (2 ^ 64 - 1) ∧ means 64 true .both (.int .bool 1) = .position 1 ∧
    means 64 true .both (.flt .double (.fin false 3 (-1))) = .position 1 ∧ means 64 true .both (.flt .double (.fin true 1 0)) = .undefined ∧
    means 64 false .keys .zero = .undefined ∧ means 64 false .objectErase .zero = .undefined ∧ means 64 false .both .nullptr = .undefined := by decide

/-- A string is the key with its bytes or does not compile, everywhere; where keys are taken it is the key. -/
theorem C82_string (w : Nat) (new : Bool) (c : Callee) (s : Bytes) :
    means w new c (.string s) = if c ∈ [.positions, .arrayErase, .arrayPath] then .refused else .key s := by
  cases c <;> rfl

/-- So is terminated text, up to its first NUL. -/
theorem C82_text (w : Nat) (new : Bool) (c : Callee) (s rest : Bytes) (hs : (0 : UInt8) ∉ s) :
    means w new c (.chars (some (s ++ 0 :: rest))) = if c ∈ [.positions, .arrayErase, .arrayPath] then .refused else .key s := by
  have ht : (s ++ 0 :: rest).takeWhile (· ≠ 0) = s := by
    induction s with
    | nil => simp
    | cons b s ih =>
      have hb : b ≠ 0 := fun e => hs (by simp [e])
      have := ih (fun e => hs (by simp [e]))
      simp only [List.cons_append, List.takeWhile_cons, hb, ne_eq, not_false_eq_true, decide_true, if_true]
      exact congrArg _ this
  have hm : (0 : UInt8) ∈ s ++ 0 :: rest := by simp
  cases c <;> simp only [means, toSize, toKey, stringable, Given.bound, hm, if_true, ht, Option.getD_none, Option.getD_some] <;> rfl

/-- An integer that a `size_t` can hold is that position or does not compile; where positions are taken it is the position. -/
theorem C82_integer (w : Nat) (new : Bool) (c : Callee) (a : Arith) (n : Nat) (hn : n < 2 ^ w) :
    means w new c (.int a n) = if c ∈ [.keys, .objectErase, .objectPath] then .refused else .position n := by
  have e : ((n : Int) % ((2 ^ w : Nat) : Int)).toNat = n := by
    rw [← Int.natCast_emod, Int.toNat_natCast, Nat.mod_eq_of_lt hn]
  cases c <;> simp only [means, toSize, toKey, stringable, integral, Given.bound, e, Option.getD_none, Option.getD_some] <;> rfl

/-- A negative integer -k is the position k below 2^w. -/
theorem C82_negative (w : Nat) (new : Bool) (c : Callee) (a : Arith) (k : Nat) (hk : 0 < k) (hw : k ≤ 2 ^ w) :
    means w new c (.int a (-(k : Int))) = if c ∈ [.keys, .objectErase, .objectPath] then .refused else .position (2 ^ w - k) := by
  have e : ((-(k : Int)) % ((2 ^ w : Nat) : Int)).toNat = 2 ^ w - k := by
    have h1 : (-(k : Int)) % ((2 ^ w : Nat) : Int) = ((2 ^ w - k : Nat) : Int) := by
      rw [← Int.add_emod_right, Int.emod_eq_of_lt] <;> omega
    rw [h1, Int.toNat_natCast]
  cases c <;> simp only [means, toSize, toKey, stringable, integral, Given.bound, e, Option.getD_none, Option.getD_some] <;> rfl

/-- What never compiles: string views, scoped enumerations, values and other pointers. -/
theorem C82_never (w : Nat) (new : Bool) (c : Callee) (x : Given) (hx : (∃ s, x = .view s) ∨ (∃ n, x = .enumeration true n) ∨ x = .value ∨ x = .pointer) :
    means w new c x = .refused := by
  rcases hx with ⟨s, rfl⟩ | ⟨n, rfl⟩ | rfl | rfl <;> cases c <;> cases new <;> rfl

/-- Where a call is undefined: a null pointer or text without NUL as a key, or a floating-point number as a position. -/
theorem C82_undefined (w : Nat) (new : Bool) (c : Callee) (x : Given) (h : means w new c x = .undefined) :
    (∃ a y, x = .flt a y) ∨ (∃ p, x = .chars p ∧ ∀ m, p = some m → (0 : UInt8) ∉ m) ∨ (new = false ∧ (x = .nullptr ∨ x = .zero ∧ c ∈ [.keys, .objectErase])) := by
  cases x with
  | flt a y => exact .inl ⟨a, y, rfl⟩
  | chars p =>
    refine .inr (.inl ⟨p, rfl, fun m hm hz => ?_⟩)
    subst hm
    cases c <;> simp [means, toSize, toKey, stringable, Given.bound, hz] at h
  | zero => cases c <;> cases new <;> simp [means, toSize, toKey, stringable, integral, Given.bound] at h ⊢
  | nullptr => cases c <;> cases new <;> simp [means, toSize, toKey, stringable, integral, Given.bound] at h ⊢
  | enumeration b n => cases b <;> cases c <;> simp [means, toSize, toKey, stringable, integral, Given.bound] at h
  | _ => cases c <;> simp [means, toSize, toKey, stringable, integral, Given.bound] at h

/-- A floating-point number m·2^e in the place of a position: what is in front of the point, if it is a position; a value's `get` and objects do not take it. -/
theorem C82_fraction (w : Nat) (new : Bool) (c : Callee) (a : Arith) (neg : Bool) (m n : Nat) (e : Int) (h1 : n * 2 ^ (-e).toNat ≤ m * 2 ^ e.toNat)
    (h2 : m * 2 ^ e.toNat < (n + 1) * 2 ^ (-e).toNat) :
    means w new c (.flt a (.fin neg m e)) =
      if c ∈ [.keys, .objectErase, .objectPath, .valuePath] then .refused else if n < 2 ^ w ∧ (neg = true → n = 0) then .position n else .undefined := by
  have hw : whole (.fin neg m e) = some (if neg then -(n : Int) else n) := by
    have : (if 0 ≤ e then m * 2 ^ e.toNat else m / 2 ^ (-e).toNat) = n := by
      split
      · next h =>
        rw [show (-e).toNat = 0 by omega] at h1 h2
        omega
      · next h =>
        rw [show e.toNat = 0 by omega] at h1 h2
        exact Nat.div_eq_of_lt_le (by simpa using h1) (by simpa using h2)
    simp only [whole, this]
  have hs : toSize w (.flt a (.fin neg m e)) = some (if n < 2 ^ w ∧ (neg = true → n = 0) then .position n else .undefined) := by
    simp only [toSize, hw]
    congr 1
    have := Nat.two_pow_pos w
    cases neg with
    | false => simp; norm_cast
    | true =>
      by_cases h : n = 0
      · subst h; simp; norm_cast
      · simp [h]
  cases c <;> simp only [means, hs, toKey, stringable, integral, Given.bound, Option.getD_none, Option.getD_some] <;> rfl

example : 1 * 2 ^ (-(-1) : Int).toNat ≤ 3 * 2 ^ (-1 : Int).toNat ∧ 3 * 2 ^ (-1 : Int).toNat < (1 + 1) * 2 ^ (-(-1) : Int).toNat := by decide

/-- An infinity or NaN is refused by the same functions and undefined in the others. -/
theorem C82_infinite (w : Nat) (new : Bool) (c : Callee) (a : Arith) (x : Fl) (hx : ∀ neg m e, x ≠ .fin neg m e) :
    means w new c (.flt a x) = if c ∈ [.keys, .objectErase, .objectPath, .valuePath] then .refused else .undefined := by
  cases x with
  | fin neg m e => exact absurd rfl (hx neg m e)
  | _ => cases c <;> rfl

/-- Enumerations without `class` are positions where integers are, but no keys of a value's `get`. -/
theorem C82_enumeration (w : Nat) (new : Bool) (c : Callee) (n : Nat) (hn : n < 2 ^ w) :
    means w new c (.enumeration false n) = if c ∈ [.keys, .objectErase, .objectPath, .valuePath] then .refused else .position n := by
  have e : ((n : Int) % ((2 ^ w : Nat) : Int)).toNat = n := by
    rw [← Int.natCast_emod, Int.toNat_natCast, Nat.mod_eq_of_lt hn]
  cases c <;> simp only [means, toSize, toKey, stringable, integral, Given.bound, e, Option.getD_none, Option.getD_some] <;> rfl

/-- `nullptr` never compiles since C++23. Before, it is an undefined key wherever keys are taken. -/
theorem C82_nullptr (w : Nat) (new : Bool) (c : Callee) :
    means w new c .nullptr = if new = true ∨ c ∈ [.positions, .arrayErase, .arrayPath] then .refused else .undefined := by
  cases c <;> cases new <;> rfl

/-- The literal 0 is the position 0 wherever positions are taken. Where only keys are taken it does not compile, or, before C++23 and unless it goes through `get`, is undefined. -/
theorem C82_zero (w : Nat) (new : Bool) (c : Callee) :
    means w new c .zero = if c ∈ [.keys, .objectErase] then (if new then .refused else .undefined) else if c = .objectPath then .refused else .position 0 := by
  cases c <;> cases new <;> simp [means, toSize, toKey, stringable, integral, Given.bound]

/-- The claim holds, for both sizes of `size_t`, for strings, terminated text, iterators, what never compiles, and integers and enumerations in range that are neither `bool` nor a character type; and for
the literal 0 unless it is a key of an object before C++23. -/
theorem C82_partial (w : Nat) (new : Bool) (c : Callee) (x : Given)
    (h : match x with
      | .zero => new = true ∨ c ∉ [.keys, .objectErase]
      | .int a n => a ∉ notNumbers ∧ 0 ≤ n ∧ n < (2 ^ w : Nat)
      | .enumeration isScoped n => isScoped = true ∨ 0 ≤ n ∧ n < (2 ^ w : Nat)
      | .chars p => ∃ m, p = some m ∧ (0 : UInt8) ∈ m
      | .flt _ _ => False
      | .nullptr => new = true
      | _ => True) :
    means w new c x = .refused ∨ Says x (means w new c x) := by
  cases x with
  | zero => cases c <;> cases new <;> simp [means, toSize, toKey, stringable, integral, Given.bound, Says] at h ⊢
  | int a n =>
    obtain ⟨h1, h3, h4⟩ := h
    obtain ⟨k, rfl⟩ := Int.eq_ofNat_of_zero_le h3
    rw [C82_integer w new c a k (by omega)]
    split
    · exact .inl rfl
    · exact .inr ⟨h1, h3, by simp⟩
  | enumeration b n =>
    cases b with
    | true => exact .inl (C82_never w new c _ (.inr (.inl ⟨n, rfl⟩)))
    | false =>
      obtain ⟨h3, h4⟩ : 0 ≤ n ∧ n < (2 ^ w : Nat) := by simpa using h
      have e : n % (2 ^ w : Int) = n := Int.emod_eq_of_lt h3 (by simpa using h4)
      cases c <;> simp [means, toSize, toKey, stringable, integral, Given.bound, e, Says, h3]
  | chars p =>
    obtain ⟨m, rfl, hm⟩ := h
    obtain ⟨s, rest, rfl, hs⟩ := List.eq_append_cons_of_mem hm
    rw [C82_text w new c s rest hs]
    split
    · exact .inl rfl
    · exact .inr ⟨s, rest, hs, rfl, rfl⟩
  | nullptr => subst h; cases c <;> exact .inl rfl
  | flt a y => exact h.elim
  | _ => cases c <;> first | exact .inl rfl | exact .inr rfl

example : means 64 false .both (.string [0x61]) = .key [0x61] ∧ means 64 false .positions (.string [0x61]) = .refused := by decide
example : means 64 false .objectPath (.chars (some [0x61, 0, 0x62])) = .key [0x61] := by decide
example : means 32 false .arrayPath (.int .int 7) = .position 7 ∧ means 32 false .objectPath .zero = .refused := by decide
example : means 32 false .arrayErase (.int .int (-1)) = .position 4294967295 := by decide
example : means 64 true .arrayErase .arrayIterator = .iterator ∧ means 64 true .objectErase .arrayIterator = .refused := by decide
example : means 64 true .both (.chars none) = .undefined ∧ means 64 true .keys (.chars (some [0x61])) = .undefined := by decide

end Meojson
