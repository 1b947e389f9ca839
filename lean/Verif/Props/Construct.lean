import Verif.Model.Construct
import Verif.Props.Convert

/-!
# C67: a constructor takes an argument for what it is

Which constructor of `value` an argument of an arithmetic type, a pointer or a text selects; what `json::array` makes of a number; where braces and parentheses differ.
-/

set_option autoImplicit false

namespace Meojson.Construct

/-- No argument is ambiguous. -/
theorem C67_unambiguous (A : Abi) (x : Arg) : ∃ p, chosen A x = some p := by
  obtain ⟨a, b, c, d⟩ := A
  refine Option.isSome_iff_exists.mp ?_
  cases a <;> cases b <;> cases c <;> cases d <;> cases x <;> first
    | decide
    | (rename_i y; cases y <;> decide)

/-- Which one it is: types with a constructor of their own get that, the four character types a deleted one; the other small types become `int`; pointers other than to `char` become `bool`. -/
def choice : Arg → Param
  | .arith .schar | .arith .uchar | .arith .char8 | .arith .short | .arith .ushort => .arith .int
  | .arith a => .arith a
  | .charPointer false => .cstr
  | .charPointer true | .pointer => .arith .bool
  | .nullptr => .nullptr
  | .enumeration _ => .enumeration
  | .string => .string
  | .view => .view
  | .monostate => .monostate

theorem C67_choice (A : Abi) (x : Arg) : chosen A x = some (choice x) := by
  obtain ⟨a, b, c, d⟩ := A
  cases a <;> cases b <;> cases c <;> cases d <;> cases x <;> first
    | decide
    | (rename_i y; cases y <;> decide)

private theorem wrap_of_has {T : IntTy} (hb : 0 < T.bits) {n : Int} (h : T.Has n) : T.wrap n = n := by
  obtain ⟨s, b⟩ := T
  obtain ⟨k, rfl⟩ : ∃ k, b = k + 1 := ⟨b - 1, by simp at hb; omega⟩
  have e : ((2 ^ (k + 1) : Nat) : Int) = 2 * ((2 ^ k : Nat) : Int) := by rw [Nat.pow_succ]; push_cast; omega
  have hp : (0 : Int) < ((2 ^ k : Nat) : Int) := by exact_mod_cast Nat.pow_pos (by decide)
  simp only [IntTy.Has, IntTy.min, IntTy.max, Nat.add_sub_cancel] at h
  simp only [IntTy.wrap, Nat.add_sub_cancel]
  rw [e] at h ⊢
  generalize ((2 ^ k : Nat) : Int) = P at *
  cases s
  · simp only [Bool.false_eq_true, if_false, false_and] at h ⊢
    exact Int.emod_eq_of_lt h.1 (by omega)
  · simp only [if_true, true_and] at h ⊢
    by_cases h0 : 0 ≤ n
    · rw [Int.emod_eq_of_lt h0 (by omega), if_neg (by omega)]
    · have : n % (2 * P) = n + 2 * P := by
        rw [← Int.add_emod_right]; exact Int.emod_eq_of_lt (by omega) (by omega)
      rw [this, if_pos (by omega)]; omega

/-- <climits>, with 8-bit bytes: the least and the greatest value of each integer type. -/
def limits (A : Abi) : Arith → Option (Int × Int)
  | .bool => some (0, 1)
  | .schar => some (-128, 127)
  | .uchar | .char8 => some (0, 255)
  | .char => if A.charSigned then some (-128, 127) else some (0, 255)
  | .short => some (-32768, 32767)
  | .ushort | .char16 => some (0, 65535)
  | .int => some (-2147483648, 2147483647)
  | .uint | .char32 => some (0, 4294967295)
  | .llong => some (-9223372036854775808, 9223372036854775807)
  | .ullong => some (0, 18446744073709551615)
  | .long => if A.longWide then some (-9223372036854775808, 9223372036854775807) else some (-2147483648, 2147483647)
  | .ulong => if A.longWide then some (0, 18446744073709551615) else some (0, 4294967295)
  | .wchar => match A.wcharSigned, A.wcharWide with
    | true, true => some (-2147483648, 2147483647)
    | false, true => some (0, 4294967295)
    | true, false => some (-32768, 32767)
    | false, false => some (0, 65535)
  | .float | .double | .ldouble => none

/-- These are the values the theorems below are about. -/
theorem C67_limits (A : Abi) (a : Arith) : (A.range a).map (fun T => (T.min, T.max)) = limits A a := by
  obtain ⟨w, x, y, z⟩ := A
  cases w <;> cases x <;> cases y <;> cases z <;> cases a <;> decide

/-- The character types that are not accepted. -/
def refused (a : Arith) : Prop := a = .char ∨ a = .wchar ∨ a = .char16 ∨ a = .char32

/-- Every integer, of whatever type and on whatever platform, becomes the number it is. `bool` becomes a boolean, a floating-point number the text of its own type. -/
theorem C67_arithmetic (F : Floats) (A : Abi) (a : Arith) (ha : ¬ refused a) :
    (∀ T n, A.range a = some T → T.Has n → value F A (.int a n) = some (.ok (if a = .bool then .ofBool (n ≠ 0) else .ofInt n))) ∧
    (A.range a = none → ∀ x, value F A (.flt a x) = some (.ok (.str .number (F.print (fmt a) x)))) := by
  have key : ∀ b S, chosen A (.arith a) = some (.arith b) → A.range b = some S → b ≠ .bool → a ≠ .bool → 0 < S.bits →
      (∀ T, A.range a = some T → S.min ≤ T.min ∧ T.max ≤ S.max) →
      ∀ T n, A.range a = some T → T.Has n → value F A (.int a n) = some (.ok (if a = .bool then .ofBool (n ≠ 0) else .ofInt n)) := by
    intro b S hc hS hb hab hp hr T n hT hn
    have h1 := hr T hT
    have h2 : S.wrap n = n := wrap_of_has hp ⟨Int.le_trans h1.1 hn.1, Int.le_trans hn.2 h1.2⟩
    rw [if_neg hab]
    have hd : deleted (.arith b) = false := by
      have := (C67_choice A (.arith a)).symm.trans hc
      cases a <;> simp_all [choice, refused] <;> subst this <;> rfl
    cases b <;> simp_all [value, Given.type, Option.filter]
  obtain ⟨w, x, y, z⟩ := A
  constructor
  · cases a <;> first
      | exact absurd (show refused _ from .inl rfl) ha
      | exact absurd (show refused _ from .inr (.inl rfl)) ha
      | exact absurd (show refused _ from .inr (.inr (.inl rfl))) ha
      | exact absurd (show refused _ from .inr (.inr (.inr rfl))) ha
      | (cases w <;> cases x <;> cases y <;> cases z <;>
          first
            | exact key .int ⟨true, 32⟩ (by decide) rfl (by decide) (by decide) (by decide) (by intro T h; cases h; decide)
            | exact key .uint ⟨false, 32⟩ (by decide) rfl (by decide) (by decide) (by decide) (by intro T h; cases h; decide)
            | exact key .long ⟨true, _⟩ (by decide) rfl (by decide) (by decide) (by decide) (by intro T h; cases h; decide)
            | exact key .ulong ⟨false, _⟩ (by decide) rfl (by decide) (by decide) (by decide) (by intro T h; cases h; decide)
            | exact key .llong ⟨true, 64⟩ (by decide) rfl (by decide) (by decide) (by decide) (by intro T h; cases h; decide)
            | exact key .ullong ⟨false, 64⟩ (by decide) rfl (by decide) (by decide) (by decide) (by intro T h; cases h; decide)
            | (intro T n _ _; rfl))
      | (intro T n h; cases h)
  · cases a <;> first
      | (intro h; cases h; done)
      | (intro _ v; cases w <;> cases x <;> cases y <;> cases z <;> rfl)

/-- The format in which each floating-point type is printed (the widest for `long double`). -/
theorem C67_formats : fmt .float = .single ∧ fmt .double = .double ∧ fmt .ldouble = .extended := ⟨rfl, rfl, rfl⟩

example : (Abi.mk true true true true).range .schar = some ⟨true, 8⟩ ∧ (⟨true, 8⟩ : IntTy).Has (-5) ∧ chosen ⟨true, true, true, true⟩ (.arith .schar) = some (.arith .int) ∧
    chosen ⟨false, false, true, false⟩ (.arith .ulong) = some (.arith .ulong) ∧ chosen ⟨true, true, true, true⟩ (.arith .float) = some (.arith .float) := by decide
example : ¬ refused .schar ∧ ¬ refused .double := by simp [refused]

/-- A character is neither text nor number: it does not compile, by itself or in braces. -/
theorem C67_characters (F : Floats) (A : Abi) (a : Arith) (ha : refused a) (n : Int) (before after : List Item) :
    value F A (.int a n) = none ∧ arrayBraces F A (before ++ .int a n :: after) = none := by
  have h : value F A (.int a n) = none := by
    rcases ha with rfl | rfl | rfl | rfl <;> simp [value, Given.type, C67_choice, choice, deleted, Option.filter]
  refine ⟨h, ?_⟩
  induction before with
  | nil => simp [arrayBraces, Item.value, h]
  | cons b bs ih =>
    simp only [List.cons_append, arrayBraces, ih]
    cases b.value F A <;> rfl

/-- Except for one of them: `char8_t` (a type since C++20) was forgotten and becomes a number. -/
theorem C67_char8 (F : Floats) (A : Abi) (n : Int) (hn : 0 ≤ n ∧ n ≤ 255) : value F A (.int .char8 n) = some (.ok (.ofInt n)) :=
  (C67_arithmetic F A .char8 (by simp [refused])).1 ⟨false, 8⟩ n rfl hn

/-- Texts: a string and a view keep all their bytes, a `const char*` those before the first NUL. A null pointer, or an array without NUL, is undefined behaviour. -/
theorem C67_text (F : Floats) (A : Abi) (s rest : Bytes) :
    value F A (.string s) = some (.ok (.str .string s)) ∧ value F A (.view s) = some (.ok (.str .string s)) ∧
    ((0 : UInt8) ∉ s → value F A (.chars false (some (s ++ 0 :: rest))) = some (.ok (.str .string s)) ∧ value F A (.chars false (some s)) = some .ub) ∧
    value F A (.chars false none) = some .ub := by
  obtain ⟨w, x, y, z⟩ := A
  have hc : ∀ p, value F ⟨w, x, y, z⟩ (.chars false p) = some (fromChars p) := fun p => rfl
  refine ⟨rfl, rfl, fun h => ⟨?_, ?_⟩, rfl⟩
  · rw [hc, fromChars, if_pos (by simp)]
    have : ∀ l : Bytes, (0 : UInt8) ∉ l → (l ++ 0 :: rest).takeWhile (· ≠ 0) = l := by
      intro l hl
      induction l with
      | nil => rfl
      | cons b l ih =>
        rw [List.mem_cons, not_or] at hl
        rw [List.cons_append, List.takeWhile_cons_of_pos (by simpa using fun e : b = 0 => hl.1 e.symm), ih hl.2]
    rw [this s h]
  · rw [hc, fromChars, if_neg h]

example : value Samples.noFloats ⟨true, true, true, true⟩ (.chars false (some (ascii "ab\x00cd\x00"))) = some (.ok (.str .string (ascii "ab"))) := by rfl

/-- The claim: arguments are taken for what they are. What JSON has nothing for does not compile: characters, and pointers that are no text. -/
def C67Claim : Prop := ∀ (F : Floats) (A : Abi),
  (∀ a n, a ∈ [Arith.char, .wchar, .char8, .char16, .char32] → value F A (.int a n) = none) ∧ (∀ null, value F A (.pointer null) = none) ∧ ∀ p, value F A (.chars true p) = none

/-- Pointers convert to `bool`, and there is a constructor for that. -/
theorem C67_refuted : ¬ C67Claim := fun h => by
  have := (h Samples.noFloats ⟨true, true, true, true⟩).2.1 true
  cases this

/-- What they become: whether they are null. So any C array that is not of `char`, a wide or `unsigned char` text, a function: all are `true`. -/
theorem C67_pointer_partial (F : Floats) (A : Abi) (null : Bool) (p : Chars) :
    value F A (.pointer null) = some (.ok (.ofBool !null)) ∧ value F A (.chars true p) = some (.ok (.ofBool p.isSome)) ∧ value F A .nullptr = some (.ok .null) ∧
    value F A .monostate = some (.ok .null) := ⟨rfl, rfl, rfl, rfl⟩

/-- A number where an array is wanted is its size: that many null values. As the conversion is implicit, `v += 3` appends three of them; a negative number is too big. -/
theorem C67_size (F : Floats) (A : Abi) (direct : Bool) (a : Arith) (T : IntTy) (n : Int) (ha : A.range a = some T) (hn : T.Has n) :
    array F direct (.int a n) = some (if 0 ≤ n ∧ n ≤ maxSize then .ok (List.replicate n.toNat .null) else .throw .lengthError) := by
  have hb : n < 2 ^ 64 ∧ -2 ^ 63 ≤ n := by
    have h1 : T.max < 2 ^ 64 ∧ -2 ^ 63 ≤ T.min := by
      obtain ⟨w, x, y, z⟩ := A
      cases w <;> cases x <;> cases y <;> cases z <;> cases a <;> cases ha <;> decide
    exact ⟨Int.lt_of_le_of_lt hn.2 h1.1, Int.le_trans h1.2 hn.1⟩
  have hw : (⟨false, 64⟩ : IntTy).wrap n = n % 2 ^ 64 := by simp [IntTy.wrap]
  unfold array
  simp only [hw, ArrayData.ofSize]
  by_cases h0 : 0 ≤ n
  · rw [Int.emod_eq_of_lt h0 hb.1]
    by_cases hm : n ≤ maxSize
    · rw [if_neg (by omega), if_pos ⟨h0, hm⟩]
    · rw [if_pos (by omega), if_neg (fun c => hm c.2)]
  · have : n % 2 ^ 64 = n + 2 ^ 64 := by rw [← Int.add_emod_right]; exact Int.emod_eq_of_lt (by omega) (by omega)
    rw [this, if_neg (show ¬ (0 ≤ n ∧ n ≤ (maxSize : Int)) from fun c => h0 c.1), if_pos (by unfold maxSize; omega)]

/-- How many that are at most: a value has 48 bytes, and a vector no more than `PTRDIFF_MAX`. -/
theorem C67_max_size : maxSize = 192153584101141162 := by decide

/-- Nothing else that is no list becomes an array, not even in parentheses: texts, booleans, floating-point numbers, maps, ... -/
theorem C67_no_list (F : Floats) (direct : Bool) (t : Ty) (c : Cat) (x : CVal) :
    (t = .bool ∨ (∃ T, t = .int T) ∨ (∃ f, t = .float f) ∨ t = .string ∨ t = .null ∨ t = .jobject ∨ (∃ w u, t = .nullable w u) ∨ (∃ E, t = .enum E) ∨ (∃ ts, t = .variant ts) ∨
      (∃ u, t = .map u) → array F direct (.thing t c x) = none) ∧
    (t = .jarray ∨ (∃ u, t = .seq u) ∨ (∃ lt u, t = .set lt u) ∨ (∃ n u, t = .fixed n u) ∨ (∃ ts, t = .tuple ts) ∨ (∃ fs, t = .struct fs) ∨ (∃ U, t = .user U) →
      array F direct (.thing t c x) = some ((t.store F c x).bind fun r => r.1.asArray)) := by
  constructor
  · rintro (rfl | ⟨_, rfl⟩ | ⟨_, rfl⟩ | rfl | rfl | rfl | ⟨_, _, rfl⟩ | ⟨_, rfl⟩ | ⟨_, rfl⟩ | ⟨_, rfl⟩) <;> rfl
  · rintro (rfl | ⟨_, rfl⟩ | ⟨_, _, rfl⟩ | ⟨_, _, rfl⟩ | ⟨_, rfl⟩ | ⟨_, rfl⟩ | ⟨_, rfl⟩) <;> rfl

/-- A `json::value` in parentheses is the array that it holds; it converts only there. -/
theorem C67_of_value (F : Floats) (c : Cat) (v : Value) (hv : v.Sound) :
    array F true (.thing .json c (.json v)) = some v.asArray ∧ array F false (.thing .json c (.json v)) = none := by
  refine ⟨?_, rfl⟩
  cases c <;> simp [array, Ty.store, sound_copied hv]

example : (Value.ofArray [.ofInt 1]).Sound ∧ (Value.ofArray [.ofInt 1]).asArray = .ok [.ofInt 1] ∧ (Value.ofInt 1).asArray = .throw .json := by
  refine ⟨?_, rfl, rfl⟩
  simp [Value.ofArray, Value.ofInt, Value.Sound, Value.Wf, Value.WfAll]

/-- `v += n` for an array `v` and a number `n`. -/
theorem C67_append (F : Floats) (A : Abi) (a : Arith) (T : IntTy) (n : Int) (ha : A.range a = some T) (hn : T.Has n) (h0 : 0 ≤ n) (hm : n ≤ maxSize) (vs : List Value) :
    ∃ xs, array F false (.int a n) = some (.ok xs) ∧ Value.plusAssign xs (.ofArray vs) = (.ofArray (vs ++ List.replicate n.toNat .null), .ok ()) :=
  ⟨_, by rw [C67_size F A false a T n ha hn, if_pos ⟨h0, hm⟩], by cases vs <;> rfl⟩

example : array Samples.noFloats false (.int .int 3) = some (.ok [.null, .null, .null]) ∧ array Samples.noFloats false (.int .int (-1)) = some (.throw .lengthError) ∧
    arrayBraces Samples.noFloats ⟨true, true, true, true⟩ [.int .int 3] = some (.ok [.ofInt 3]) := ⟨rfl, rfl, rfl⟩

/-- Braces around one argument make an array of it; parentheses convert it. For an array, and for anything else that has elements, the two never agree. -/
theorem C67_braces (F : Floats) (A : Abi) (t : Ty) (c : Cat) (x : CVal) (ht : match t with | .jarray | .seq _ | .set _ _ | .fixed _ _ | .tuple _ | .struct _ | .user _ => True | _ => False) (vs : List Value) (y : CVal) (h : t.store F c x = .ok (.ofArray vs, y)) :
    array F true (.thing t c x) = some (.ok vs) ∧ arrayBraces F A [.thing t c x] = some (.ok [.ofArray vs]) ∧ vs ≠ [.ofArray vs] := by
  refine ⟨?_, ?_, ?_⟩
  · unfold array
    cases t <;> simp_all [listLike, Value.ofArray, Value.asArray, Value.type]
  · simp [arrayBraces, Item.value, h]
  · intro e
    have := congrArg sizeOf e
    simp only [List.cons.sizeOf_spec, List.nil.sizeOf_spec, Value.ofArray, Value.arr.sizeOf_spec] at this
    omega

example : array Samples.noFloats true (.thing .jarray .constLv (.jarray [.ofInt 1])) = some (.ok [.ofInt 1]) ∧
    arrayBraces Samples.noFloats ⟨true, true, true, true⟩ [.thing .jarray .constLv (.jarray [.ofInt 1])] = some (.ok [.ofArray [.ofInt 1]]) := ⟨rfl, rfl⟩

/-- A pair of a text and something is an array of two in parentheses and an object with one member in braces. -/
theorem C67_pair (F : Floats) (t : Ty) (k : Bytes) (x : CVal) (v : Value) (y : CVal) (h : t.store F .constLv x = .ok (v, y)) :
    pairParens F t k x = .ok (.ofArray [.str .string k, v]) ∧ pairBraces F t k x = .ok (.ofObject [(k, v)]) := by
  constructor
  · simp [pairParens, Ty.store, Tys.storeAll, h, Cat.part]
  · simp only [pairBraces, h, Out.bind]; rfl

example (F : Floats) : pairParens F (.int cInt) (ascii "k") (.int 1) = .ok (.ofArray [.str .string (ascii "k"), .ofInt 1]) ∧
    pairBraces F (.int cInt) (ascii "k") (.int 1) = .ok (.ofObject [(ascii "k", .ofInt 1)]) := ⟨rfl, rfl⟩

/-- `emplace` with a pair: an object with members throws and stays as it is, an empty one becomes an array, and the pair is an array of two. -/
theorem C67_emplace_pair (F : Floats) (t : Ty) (k : Bytes) (x : CVal) (w : Value) (y : CVal) (h : t.store F .constLv x = .ok (w, y)) (m : Bytes × Value) (ms : List (Bytes × Value))
    (vs : List Value) :
    emplacePair F t k x (.ofObject (m :: ms)) = (.ofObject (m :: ms), .throw .json) ∧
    emplacePair F t k x (.ofObject []) = (.ofArray [.ofArray [.str .string k, w]], .ok ()) ∧
    emplacePair F t k x (.ofArray vs) = (.ofArray (vs ++ [.ofArray [.str .string k, w]]), .ok ()) := by
  simp only [emplacePair, (C67_pair F t k x w y h).1]
  refine ⟨rfl, rfl, ?_⟩
  cases vs <;> rfl

end Meojson.Construct
