import Verif.Proofs.EnumName
import Verif.Props.Convert

/-!
# Names of enumerators (C56)

The text `name<E, V>()` finds in the compiler's name for the function, and with it the conversion of a declared enum.
-/

set_option autoImplicit false

namespace Meojson
open Spec

namespace EnumDecl

theorem declares_iff (D : EnumDecl) (s : Bytes) (e : Int) : D.Declares s e ↔ D.nameOf e = some s := by
  unfold Declares nameOf
  constructor
  · rintro ⟨before, after, h, hb⟩
    rw [h, List.find?_append]
    have : before.find? (fun x => decide (x.2 = e)) = none := List.find?_eq_none.2 fun x hx => by simpa using hb x hx
    simp [this]
  · intro h
    obtain ⟨x, hx, rfl⟩ := Option.map_eq_some_iff.1 h
    obtain ⟨hp, before, after, h1, h2⟩ := List.find?_eq_some_iff_append.1 hx
    have hp' : x.2 = e := by simpa using hp
    exact ⟨before, after, by rw [h1, ← hp'], fun y hy => by simpa using h2 y hy⟩

end EnumDecl

namespace Samples

/-- `namespace ns { enum class Color { red, green }; }` -/
def colorDecl : EnumDecl :=
  { under := .int ⟨true, 32⟩, type := ascii "ns::Color", scope := ascii "ns::Color::", items := [(ascii "red", 0), (ascii "green", 1)] }

/-- `enum Old : int { red, green };` -/
def oldDecl : EnumDecl := { under := .int ⟨true, 32⟩, type := ascii "Old", scope := [], items := [(ascii "red", 0), (ascii "green", 1)] }

/-- `enum class Color` inside `template <char c> struct T`, for `T<';'>` -/
def semiDecl : EnumDecl :=
  { under := .int ⟨true, 32⟩, type := ascii "T<';'>::Color", scope := ascii "T<';'>::Color::", items := [(ascii "red", 0)] }

/-- `enum class Id { MEOJSON_ENUM_RANGE(0, 9), low = 0, high = 8 };` -/
def rangeDecl : EnumDecl :=
  { under := .int ⟨true, 32⟩, min := 0, max := 9, type := ascii "Id", scope := ascii "Id::",
    items := [(ascii "_MEOJSON_ENUM_MIN", 0), (ascii "_MEOJSON_ENUM_MAX", 9), (ascii "low", 0), (ascii "high", 8)] }

theorem colorDecl_spellable : colorDecl.Spellable := by
  refine ⟨by decide, by decide, .inr ⟨ascii "ns::Color:", by decide⟩, by decide, ?_⟩
  intro x hx
  rw [← isValidName_iff]
  revert x
  decide

theorem oldDecl_spellable : oldDecl.Spellable := by
  refine ⟨by decide, by decide, .inl rfl, by decide, ?_⟩
  intro x hx
  rw [← isValidName_iff]
  revert x
  decide

end Samples

/-! ## C56: enumerators are known by the names they are declared with -/

/-- With gcc and clang the name found for a value is that of the first enumerator with the value; a value without an enumerator has no valid name. -/
theorem C56_name (D : EnumDecl) (hD : D.Spellable) (c : Compiler) (hc : c ≠ .msvc) (e : Int) (hlen : (c.pretty D e).length < 2 ^ 64) :
    (∀ s, D.Declares s e → D.text c e = s ∧ Identifier s) ∧ ((∀ s, ¬ D.Declares s e) → ¬ Identifier (D.text c e)) := by
  constructor
  · intro s hs
    have hn := (D.declares_iff s e).1 hs
    exact ⟨EnumDecl.text_name hD hc hlen hn, EnumDecl.nameOf_ident hD hn⟩
  · intro h
    cases hn : D.nameOf e with
    | none => exact EnumDecl.text_none hD hc hlen hn
    | some s => exact absurd ((D.declares_iff s e).2 hn) (h s)

example : Samples.colorDecl.text .gcc 1 = ascii "green" ∧ Samples.colorDecl.text .clang 1 = ascii "green" ∧ Samples.oldDecl.text .gcc 0 = ascii "red" ∧
    Samples.oldDecl.text .clang 0 = ascii "red" ∧ Samples.colorDecl.text .gcc 7 = ascii "Color)7" ∧ Samples.oldDecl.text .gcc (-7) = ascii "(Old)-7" := by decide +kernel
example : Samples.colorDecl.Declares (ascii "green") 1 := ⟨[(ascii "red", 0)], [], rfl, by simp⟩
example : (Compiler.gcc.pretty Samples.colorDecl 1).length < 2 ^ 64 := by decide +kernel

/-- Hence the conversion of a declared enum: a value in the reflected range is written as the name of its (first) enumerator, and throws without one. -/
theorem C56_written (D : EnumDecl) (hD : D.Spellable) (c : Compiler) (hc : c ≠ .msvc) (hE : (D.toEnum c).Compiles) (hn : D.asNumber = false)
    (e : Int) (h1 : D.min ≤ e) (h2 : e ≤ D.max) (h3 : D.under.cast e = e) (hlen : (c.pretty D e).length < 2 ^ 64) :
    (∀ s, D.Declares s e → Value.ofEnum (D.toEnum c) e = .ok (.str .string s)) ∧
    ((∀ s, ¬ D.Declares s e) → Value.ofEnum (D.toEnum c) e = .throw .json) := by
  constructor
  · intro s hs
    obtain ⟨ht, hi⟩ := (C56_name D hD c hc e hlen).1 s hs
    have ht' : (D.toEnum c).text e = s := ht
    have := EnumTy.toString_in (E := D.toEnum c) hE h1 h2 h3 (by rw [ht']; exact hi)
    rw [ht'] at this
    have hs0 : s ≠ [] := by
      obtain ⟨x, t, rfl, _, _⟩ := hi
      simp
    simp [Value.ofEnum, EnumDecl.toEnum, hn] at this ⊢
    rw [this]
    simp [hs0]
  · intro h
    have hi := (C56_name D hD c hc e hlen).2 h
    have hE' := hE
    obtain ⟨a1, a2, a3, a4⟩ := hE'
    rw [EnumTy.cInt_has] at a1 a2 a4
    have b1 : cInt.Has e := by rw [EnumTy.cInt_has]; simp only [EnumDecl.toEnum] at a1 a2; omega
    have b2 : cInt.Has (e - (D.toEnum c).min) := by rw [EnumTy.cInt_has]; simp only [EnumDecl.toEnum] at a1 a2 a4 ⊢; omega
    exact (C32_outside_partial (D.toEnum c) hn e b1 b2).2 h3 hi

example : (Samples.colorDecl.toEnum .gcc).Compiles := by
  refine ⟨?_, ?_, by decide, ?_⟩ <;> (rw [EnumTy.cInt_has]; decide)
example : Value.ofEnum (Samples.colorDecl.toEnum .gcc) 1 = .ok (.str .string (ascii "green")) ∧ Value.ofEnum (Samples.colorDecl.toEnum .clang) 2 = .throw .json := by
  decide +kernel

/-- And a string is read as an enumerator with that name up to ASCII case, or is rejected if none in the range has it. -/
theorem C56_read (D : EnumDecl) (hD : D.Spellable) (c : Compiler) (hc : c ≠ .msvc) 
    (hlen : ∀ k, D.min ≤ k → k ≤ D.max → (c.pretty D (D.under.cast k)).length < 2 ^ 64) (s : Bytes) :
    (∀ e, (D.toEnum c).ofString s = some e → ∃ n, D.Declares n e ∧ SameName n s) ∧
    ((D.toEnum c).ofString s = none ↔ ∀ k n, D.min ≤ k → k ≤ D.max → D.Declares n (D.under.cast k) → ¬ SameName n s) := by
  have key : ∀ e n, (D.toEnum c).Named e n → D.Declares n e := by
    rintro e n ⟨⟨k, k1, k2, rfl⟩, h2, h3⟩
    have h2' : D.text c (D.under.cast k) = n := h2
    refine Classical.byContradiction fun h => ?_
    have hno : ∀ s, ¬ D.Declares s (D.under.cast k) := by
      intro s hs
      have := ((C56_name D hD c hc _ (hlen k k1 k2)).1 s hs).1
      rw [h2'] at this
      exact h (this ▸ hs)
    exact (C56_name D hD c hc _ (hlen k k1 k2)).2 hno (by rw [h2']; exact h3)
  obtain ⟨t1, t2, _⟩ := C32_text (D.toEnum c) s
  constructor
  · intro e he
    obtain ⟨n, hn, hs⟩ := t1 e he
    exact ⟨n, key e n hn, hs⟩
  · rw [t2]
    constructor
    · intro h k n h1 h2 hd
      obtain ⟨ht, hi⟩ := (C56_name D hD c hc _ (hlen k h1 h2)).1 n hd
      exact h _ n ⟨⟨k, h1, h2, rfl⟩, ht, hi⟩
    · rintro h e n hn
      obtain ⟨⟨k, h1, h2, rfl⟩, _, _⟩ := id hn
      exact h k n h1 h2 (key _ n hn)

example : (Samples.colorDecl.toEnum .gcc).ofString (ascii "GREEN") = some 1 ∧ (Samples.colorDecl.toEnum .clang).ofString (ascii "blue") = none := by decide +kernel

/-- With MSVC, names are found for a scoped enum and for one inside a namespace or class. -/
theorem C56_msvc (D : EnumDecl) (hD : D.Spellable) (hs : D.scope ≠ []) (e : Int) (hlen : (Compiler.msvc.pretty D e).length < 2 ^ 64) :
    (∀ s, D.Declares s e → D.text .msvc e = s) ∧ ((∀ s, ¬ D.Declares s e) → ¬ Identifier (D.text .msvc e)) := by
  rw [EnumDecl.msvc_text D e hlen]
  constructor
  · intro s hd
    have hn := (D.declares_iff s e).1 hd
    rcases hD.scope_form with h | ⟨p, hp⟩
    · exact absurd h hs
    · have : ascii "struct std::char_traits<char> > __cdecl json::_reflection::name<enum " ++ (D.type ++ (ascii "," ++ D.spelled e)) =
          ((ascii "struct std::char_traits<char> > __cdecl json::_reflection::name<enum " ++ (D.type ++ (ascii "," ++ p))) ++ [0x3a]) ++ s := by
        simp only [EnumDecl.spelled, hn, hp, List.append_assoc]
      rw [this]
      exact afterColon_name (.inr ⟨_, rfl⟩) (ident_no (EnumDecl.nameOf_ident hD hn) not_colon)
  · intro h
    cases hn : D.nameOf e with
    | none =>
      have := EnumDecl.spelled_none hn (ascii "struct std::char_traits<char> > __cdecl json::_reflection::name<enum " ++ (D.type ++ ascii ","))
      simpa only [List.append_assoc] using this
    | some s => exact absurd ((D.declares_iff s e).2 hn) (h s)

example : Samples.colorDecl.text .msvc 1 = ascii "green" := by decide +kernel

/-- An unscoped enum in the global namespace has no names with MSVC: the comma found first is in the return type of the function (enum_reflection.hpp:53), and no
colon follows the type's name. Every conversion to JSON throws. -/
theorem C56_refuted_msvc (D : EnumDecl) (hD : D.Spellable) (hs : D.scope = []) (e : Int) (hlen : (Compiler.msvc.pretty D e).length < 2 ^ 64) :
    ¬ Identifier (D.text .msvc e) := by
  rw [EnumDecl.msvc_text D e hlen]
  cases hn : D.nameOf e with
  | none =>
    have := EnumDecl.spelled_none hn (ascii "struct std::char_traits<char> > __cdecl json::_reflection::name<enum " ++ (D.type ++ ascii ","))
    simpa only [List.append_assoc] using this
  | some s =>
    have : ascii "struct std::char_traits<char> > __cdecl json::_reflection::name<enum " ++ (D.type ++ (ascii "," ++ D.spelled e)) =
        (ascii "struct std::char_traits<char> > __cdecl json::_reflection::name<enum " ++ D.type) ++ (ascii "," ++ s) := by
      simp only [EnumDecl.spelled, hn, hs, List.append_assoc, List.nil_append]
    rw [this]
    refine afterColon_bad (c := 0x2c) ?_ (by simp [ascii]) (by simp [Letter])
    simp only [List.mem_append, not_or]
    exact ⟨by decide, ident_no (EnumDecl.nameOf_ident hD hn) not_colon⟩

example : Samples.oldDecl.Spellable ∧ Samples.oldDecl.scope = [] := ⟨Samples.oldDecl_spellable, rfl⟩
example : Value.ofEnum (Samples.oldDecl.toEnum .msvc) 0 = .throw .json ∧ Value.ofEnum (Samples.oldDecl.toEnum .gcc) 0 = .ok (.str .string (ascii "red")) := by
  decide +kernel

/-- A `;` in the scope, as a template argument, hides the names from gcc's branch (40-43). -/
theorem C56_refuted_semicolon : Samples.semiDecl.Declares (ascii "red") 0 ∧ Value.ofEnum (Samples.semiDecl.toEnum .gcc) 0 = .throw .json :=
  ⟨⟨[], [], rfl, by simp⟩, by decide +kernel⟩

/-- The bounds that `MEOJSON_ENUM_RANGE` declares are enumerators too: written first, the lower one takes the name of the enumerator it stands for; and a bound that no
other enumerator has can be read and written under the name `_MEOJSON_ENUM_MAX`. -/
theorem C56_range_names :
    Value.ofEnum (Samples.rangeDecl.toEnum .gcc) 0 = .ok (.str .string (ascii "_MEOJSON_ENUM_MIN")) ∧
    (Value.str .string (ascii "low")).asEnum (Samples.rangeDecl.toEnum .gcc) = .throw .json ∧
    (Value.str .string (ascii "_meojson_enum_max")).asEnum (Samples.rangeDecl.toEnum .gcc) = .ok 9 := by decide +kernel

end Meojson
