import Verif.Spec.EnumName
import Verif.Proofs.Enum

/-! Cutting the name of an enumerator out of the compiler's text. -/

set_option autoImplicit false

namespace Meojson
open Spec

theorem findText_hit (p rest : Bytes) (hp : p ≠ []) : findText p (p ++ rest) = some 0 := by
  cases p with
  | nil => exact absurd rfl hp
  | cons c p => simp [findText]

/-- No byte of `a` starts the text. -/
theorem findText_first {x : UInt8} {p : Bytes} : ∀ {a t : Bytes}, x ∉ a → findText (x :: p) (a ++ t) = (findText (x :: p) t).map (· + a.length)
  | [], t, _ => by simp
  | c :: a, t, h => by
    have hc : (x == c) = false := by simp only [List.mem_cons, not_or] at h; simpa using h.1
    have ih := findText_first (p := p) (a := a) (t := t) (x := x) (by simp_all)
    simp only [List.cons_append, findText, List.isPrefixOf, hc, Bool.false_and, Bool.false_eq_true, if_false, ih, Option.map_map]
    congr 1

/-- No byte of `a` is the third of the text, nor are the next two. -/
theorem findText_third {x y z : UInt8} {p : Bytes} : ∀ {a : Bytes} {n m : UInt8} {t : Bytes}, z ∉ a → n ≠ z → m ≠ z →
    findText (x :: y :: z :: p) (a ++ n :: m :: t) = (findText (x :: y :: z :: p) (n :: m :: t)).map (· + a.length)
  | [], _, _, t, _, _, _ => by simp
  | c :: a, n, m, t, h, hn, hm => by
    have ih := findText_third (x := x) (y := y) (p := p) (a := a) (t := t) (by simp_all) hn hm
    have hno : (x :: y :: z :: p).isPrefixOf (c :: (a ++ n :: m :: t)) = false := by
      have : ∀ d ∈ a, (z == d) = false := fun d hd => by
        have : z ≠ d := fun e => h (by simp [e, hd])
        simpa using this
      have hn' : (z == n) = false := by simpa using hn.symm
      have hm' : (z == m) = false := by simpa using hm.symm
      rcases a with _ | ⟨d, _ | ⟨e, a⟩⟩
      · simp [List.isPrefixOf, hm']
      · simp [List.isPrefixOf, hn']
      · have := this e (by simp)
        simp [List.isPrefixOf, this]
    rw [List.cons_append, findText, hno]
    simp only [Bool.false_eq_true, if_false, ih, Option.map_map, List.length_cons]
    congr 1

theorem findText_absent {x : UInt8} {p : Bytes} {s : Bytes} (h : x ∉ s) : findText (x :: p) s = none := by
  have := findText_first (p := p) (t := []) h
  simpa [findText] using this

theorem findLast_none {c : UInt8} : ∀ {s : Bytes}, c ∉ s → findLast c s = none
  | [], _ => rfl
  | d :: s, h => by
    have hd : d ≠ c := fun e => h (by simp [e])
    have hs : c ∉ s := fun hm => h (by simp [hm])
    simp [findLast, findLast_none hs, hd]

theorem findLast_app {c : UInt8} {b : Bytes} (hb : c ∉ b) : ∀ (a : Bytes), findLast c (a ++ c :: b) = some a.length
  | [] => by simp [findLast, findLast_none hb]
  | d :: a => by simp [findLast, findLast_app hb a]

theorem substrTo_mid (a b c : Bytes) (h : (a ++ b).length < 2 ^ 64) : substrTo (a ++ (b ++ c)) a.length (a ++ b).length = b := by
  unfold substrTo
  have hlen : (a ++ b).length = a.length + b.length := by simp
  have : ((a ++ b).length + 2 ^ 64 - a.length) % 2 ^ 64 = b.length := by
    rw [hlen] at h ⊢
    omega
  rw [this]
  simp

theorem afterColon_name {scope n : Bytes} (hs : scope = [] ∨ ∃ s, scope = s ++ [0x3a]) (hn : (0x3a : UInt8) ∉ n) : afterColon (scope ++ n) = n := by
  unfold afterColon
  rcases hs with rfl | ⟨s, rfl⟩
  · simp [findLast_none hn]
  · have : s ++ [0x3a] ++ n = s ++ 0x3a :: n := by simp
    rw [this, findLast_app hn]
    simp

theorem ident_bytes {s : Bytes} (h : Identifier s) : ∀ c ∈ s, Letter c ∨ (0x30 ≤ c ∧ c ≤ 0x39) := by
  obtain ⟨c, t, rfl, h1, h2⟩ := h
  intro d hd
  rcases List.mem_cons.1 hd with rfl | hd
  · exact .inl h1
  · exact h2 d hd

theorem findLast_append {c : UInt8} {t : Bytes} (ht : c ∉ t) : ∀ a : Bytes, findLast c (a ++ t) = findLast c a
  | [] => by simp [findLast, findLast_none ht]
  | d :: a => by simp [findLast, findLast_append ht a]

theorem findLast_lt {c : UInt8} : ∀ {s : Bytes} {i : Nat}, findLast c s = some i → i < s.length
  | [], i, h => by simp [findLast] at h
  | d :: s, i, h => by
    simp only [findLast] at h
    split at h
    · rename_i j hj
      have := findLast_lt hj
      simp only [Option.some.injEq] at h
      simp only [List.length_cons]
      omega
    · split at h
      · simp only [Option.some.injEq] at h; simp only [List.length_cons]; omega
      · cases h

theorem afterColon_append {t : Bytes} (ht : (0x3a : UInt8) ∉ t) (a : Bytes) : afterColon (a ++ t) = afterColon a ++ t := by
  unfold afterColon
  rw [findLast_append ht]
  cases h : findLast 0x3a a with
  | none => rfl
  | some i =>
    have := findLast_lt h
    simp only [List.drop_append]
    congr 1
    rw [show i + 1 - a.length = 0 by omega]
    rfl

/-- A byte after the last colon that no identifier has. -/
theorem afterColon_bad {a t : Bytes} {c : UInt8} (ht : (0x3a : UInt8) ∉ t) (hc : c ∈ t) (hn : ¬ (Letter c ∨ (0x30 ≤ c ∧ c ≤ 0x39))) : ¬ Identifier (afterColon (a ++ t)) := by
  rw [afterColon_append ht]
  exact fun h => hn (ident_bytes h c (by simp [hc]))

theorem ident_no {s : Bytes} (h : Identifier s) {c : UInt8} (hc : ¬ (Letter c ∨ (0x30 ≤ c ∧ c ≤ 0x39))) : c ∉ s := fun hm => hc (ident_bytes h c hm)

theorem not_colon : ¬ (Letter 0x3a ∨ ((0x30 : UInt8) ≤ 0x3a ∧ (0x3a : UInt8) ≤ 0x39)) := by simp [Letter]
theorem not_semi : ¬ (Letter 0x3b ∨ ((0x30 : UInt8) ≤ 0x3b ∧ (0x3b : UInt8) ≤ 0x39)) := by simp [Letter]
theorem not_paren : ¬ (Letter 0x29 ∨ ((0x30 : UInt8) ≤ 0x29 ∧ (0x29 : UInt8) ≤ 0x39)) := by simp [Letter]
theorem not_open : ¬ (Letter 0x28 ∨ ((0x30 : UInt8) ≤ 0x28 ∧ (0x28 : UInt8) ≤ 0x39)) := by simp [Letter]

theorem lit_V {a : Bytes} (t : Bytes) (h : (0x56 : UInt8) ∉ a) : findText (ascii "V = ") (a ++ t) = (findText (ascii "V = ") t).map (· + a.length) :=
  findText_first (x := 0x56) (p := [0x20, 0x3d, 0x20]) h

theorem lit_eq {a : Bytes} {n m : UInt8} (t : Bytes) (h : (0x3d : UInt8) ∉ a) (hn : n ≠ 0x3d) (hm : m ≠ 0x3d) :
    findText (ascii "V = ") (a ++ n :: m :: t) = (findText (ascii "V = ") (n :: m :: t)).map (· + a.length) :=
  findText_third (x := 0x56) (y := 0x20) (z := 0x3d) (p := [0x20]) h hn hm

/-- The two formats of gcc and clang at once. -/
theorem cut_general (A ty B sp T : Bytes) (hA : (0x56 : UInt8) ∉ A) (hty : (0x3d : UInt8) ∉ ty) (hB : ∃ n m b, B = n :: m :: b ∧ n ≠ 0x3d ∧ m ≠ 0x3d)
    (hBV : (0x56 : UInt8) ∉ B) (hsp : (0x3b : UInt8) ∉ sp) (hT : T = [] ∨ ∃ t, T = 0x3b :: t)
    (hlen : (A ++ (ty ++ (B ++ (ascii "V = " ++ (sp ++ (T ++ [0x5d])))))).length < 2 ^ 64) :
    cutPretty (A ++ (ty ++ (B ++ (ascii "V = " ++ (sp ++ (T ++ [0x5d])))))) = afterColon sp := by
  have h1 : findText (ascii "V = ") (A ++ (ty ++ (B ++ (ascii "V = " ++ (sp ++ (T ++ [0x5d])))))) = some (B.length + ty.length + A.length) := by
    obtain ⟨n, m, b, rfl, hn, hm⟩ := hB
    rw [lit_V _ hA]
    have := lit_eq (a := ty) (n := n) (m := m) (b ++ (ascii "V = " ++ (sp ++ (T ++ [0x5d])))) hty hn hm
    rw [show (n :: m :: b) ++ (ascii "V = " ++ (sp ++ (T ++ [0x5d]))) = n :: m :: (b ++ (ascii "V = " ++ (sp ++ (T ++ [0x5d])))) from rfl, this]
    rw [show n :: m :: (b ++ (ascii "V = " ++ (sp ++ (T ++ [0x5d])))) = (n :: m :: b) ++ (ascii "V = " ++ (sp ++ (T ++ [0x5d]))) from rfl, lit_V _ hBV,
      findText_hit _ _ (by decide)]
    simp
  have h2 : findLast 0x5d (A ++ (ty ++ (B ++ (ascii "V = " ++ (sp ++ (T ++ [0x5d])))))) = some (A ++ ty ++ B ++ ascii "V = " ++ (sp ++ T)).length := by
    have := findLast_app (c := 0x5d) (b := []) (by simp) (A ++ ty ++ B ++ ascii "V = " ++ (sp ++ T))
    simpa only [List.append_assoc] using this
  have h3 : substrTo (A ++ (ty ++ (B ++ (ascii "V = " ++ (sp ++ (T ++ [0x5d])))))) (B.length + ty.length + A.length + 4)
      (A ++ ty ++ B ++ ascii "V = " ++ (sp ++ T)).length = sp ++ T := by
    have := substrTo_mid (A ++ ty ++ B ++ ascii "V = ") (sp ++ T) [0x5d] (by
      refine Nat.lt_of_le_of_lt ?_ hlen
      simp only [List.length_append]; omega)
    have e : (A ++ ty ++ B ++ ascii "V = ").length = B.length + ty.length + A.length + 4 := by
      simp only [List.length_append]; rw [show (ascii "V = ").length = 4 from rfl]; omega
    rw [e] at this
    simpa only [List.append_assoc] using this
  unfold cutPretty
  simp only [h1, h2, h3]
  congr 1
  rcases hT with rfl | ⟨t, rfl⟩
  · rw [List.append_nil, findText_absent hsp]
  · rw [findText_first hsp]
    simp [findText]

theorem gcc_text (D : EnumDecl) (e : Int) (hty : (0x3d : UInt8) ∉ D.type) (hsp : (0x3b : UInt8) ∉ D.spelled e) (hlen : (Compiler.gcc.pretty D e).length < 2 ^ 64) :
    D.text .gcc e = afterColon (D.spelled e) := by
  have := cut_general (ascii "constexpr std::string_view json::_reflection::name() [with E = ") D.type (ascii "; E ") (D.spelled e)
    (ascii "; std::string_view = std::basic_string_view<char>") (by decide) hty ⟨_, _, _, rfl, by decide, by decide⟩ (by decide) hsp (.inr ⟨_, rfl⟩) (by
      simpa [Compiler.pretty, ascii] using hlen)
  exact this

theorem clang_text (D : EnumDecl) (e : Int) (hty : (0x3d : UInt8) ∉ D.type) (hsp : (0x3b : UInt8) ∉ D.spelled e) (hlen : (Compiler.clang.pretty D e).length < 2 ^ 64) :
    D.text .clang e = afterColon (D.spelled e) := by
  have := cut_general (ascii "std::string_view json::_reflection::name() [E = ") D.type (ascii ", ") (D.spelled e)
    [] (by decide) hty ⟨_, _, _, rfl, by decide, by decide⟩ (by decide) hsp (.inl rfl) (by
      simpa [Compiler.pretty, ascii] using hlen)
  exact this

theorem intText_no {c : UInt8} (h1 : c ≠ 0x2d) (h2 : ¬ (0x30 ≤ c ∧ c ≤ 0x39)) (n : Int) : c ∉ intText n := by
  have hd : ∀ n, c ∉ natText n := fun n hm => h2 ((natText_intPart n).1.digits.2 c hm)
  unfold intText
  split
  · simp [h1, hd]
  · exact hd _

namespace EnumDecl

theorem nameOf_ident {D : EnumDecl} (h : D.Spellable) {e : Int} {n : Bytes} (hn : D.nameOf e = some n) : Identifier n := by
  unfold nameOf at hn
  obtain ⟨x, hx, rfl⟩ := Option.map_eq_some_iff.1 hn
  exact h.names x (List.mem_of_find?_eq_some hx)

theorem spelled_semi {D : EnumDecl} (h : D.Spellable) (e : Int) : (0x3b : UInt8) ∉ D.spelled e := by
  unfold spelled
  split
  · rename_i n hn
    simp only [List.mem_append, not_or]
    exact ⟨h.scope_semi, ident_no (nameOf_ident h hn) not_semi⟩
  · simp only [List.mem_append, not_or]
    exact ⟨⟨⟨by decide, h.type_semi⟩, by decide⟩, intText_no (by decide) (by decide) e⟩

theorem text_spelled {D : EnumDecl} (h : D.Spellable) {c : Compiler} (hc : c ≠ .msvc) (e : Int) (hlen : (c.pretty D e).length < 2 ^ 64) :
    D.text c e = afterColon (D.spelled e) := by
  cases c with
  | gcc => exact gcc_text D e h.type_eq (spelled_semi h e) hlen
  | clang => exact clang_text D e h.type_eq (spelled_semi h e) hlen
  | msvc => exact absurd rfl hc

theorem spelled_none {D : EnumDecl} {e : Int} (hn : D.nameOf e = none) (a : Bytes) : ¬ Identifier (afterColon (a ++ D.spelled e)) := by
  unfold spelled
  rw [hn]
  have : a ++ (ascii "(" ++ D.type ++ ascii ")" ++ intText e) = (a ++ (ascii "(" ++ D.type)) ++ (ascii ")" ++ intText e) := by simp
  simp only [this]
  refine afterColon_bad (c := 0x29) ?_ (by simp [ascii]) not_paren
  simp only [List.mem_append, not_or]
  exact ⟨by decide, intText_no (by decide) (by decide) e⟩

theorem text_name {D : EnumDecl} (h : D.Spellable) {c : Compiler} (hc : c ≠ .msvc) {e : Int} (hlen : (c.pretty D e).length < 2 ^ 64) {n : Bytes}
    (hn : D.nameOf e = some n) : D.text c e = n := by
  rw [text_spelled h hc e hlen]
  unfold spelled
  rw [hn]
  exact afterColon_name h.scope_form (ident_no (nameOf_ident h hn) not_colon)

theorem text_none {D : EnumDecl} (h : D.Spellable) {c : Compiler} (hc : c ≠ .msvc) {e : Int} (hlen : (c.pretty D e).length < 2 ^ 64)
    (hn : D.nameOf e = none) : ¬ Identifier (D.text c e) := by
  rw [text_spelled h hc e hlen]
  simpa using spelled_none hn []

theorem msvc_lit : ascii "class std::basic_string_view<char,struct std::char_traits<char> > __cdecl json::_reflection::name<enum " =
    ascii "class std::basic_string_view<char" ++ (0x2c :: ascii "struct std::char_traits<char> > __cdecl json::_reflection::name<enum ") := by decide
theorem msvc_lit2 : ascii "class std::basic_string_view<char," = ascii "class std::basic_string_view<char" ++ [0x2c] := by decide
theorem msvc_lit3 : ascii ">(void) noexcept" = 0x3e :: ascii "(void) noexcept" := by decide

/-- MSVC: the first comma is the one inside the return type. -/
theorem msvc_text (D : EnumDecl) (e : Int) (hlen : (Compiler.msvc.pretty D e).length < 2 ^ 64) :
    D.text .msvc e = afterColon (ascii "struct std::char_traits<char> > __cdecl json::_reflection::name<enum " ++ (D.type ++ (ascii "," ++ D.spelled e))) := by
  have split : Compiler.msvc.pretty D e = ascii "class std::basic_string_view<char" ++ (0x2c ::
      (ascii "struct std::char_traits<char> > __cdecl json::_reflection::name<enum " ++ (D.type ++ (ascii "," ++ (D.spelled e ++ ascii ">(void) noexcept"))))) := by
    unfold Compiler.pretty
    rw [msvc_lit, List.append_assoc, List.cons_append]
  have split2 : Compiler.msvc.pretty D e = (ascii "class std::basic_string_view<char,") ++ ((ascii "struct std::char_traits<char> > __cdecl json::_reflection::name<enum " ++
      (D.type ++ (ascii "," ++ D.spelled e))) ++ (0x3e :: ascii "(void) noexcept")) := by
    rw [split, msvc_lit2, msvc_lit3]
    simp only [List.append_assoc, List.cons_append, List.nil_append]
  have h1 : findText [0x2c] (Compiler.msvc.pretty D e) = some 33 := by
    rw [split, findText_first (by decide)]
    simp [findText, ascii]
  have h2 : findLast 0x3e (Compiler.msvc.pretty D e) = some ((ascii "class std::basic_string_view<char,") ++ (ascii "struct std::char_traits<char> > __cdecl json::_reflection::name<enum " ++
      (D.type ++ (ascii "," ++ D.spelled e)))).length := by
    rw [split2, ← List.append_assoc]
    exact findLast_app (by decide) _
  have h3 : ((Compiler.msvc.pretty D e).drop 34).takeWhile (· = 0x20) = [] := by
    rw [split2, List.drop_left' (by decide), show ascii "struct std::char_traits<char> > __cdecl json::_reflection::name<enum " =
      0x73 :: ascii "truct std::char_traits<char> > __cdecl json::_reflection::name<enum " by decide]
    rfl
  have h4 := substrTo_mid (ascii "class std::basic_string_view<char,") (ascii "struct std::char_traits<char> > __cdecl json::_reflection::name<enum " ++
    (D.type ++ (ascii "," ++ D.spelled e))) (0x3e :: ascii "(void) noexcept") (by
      rw [split2] at hlen
      refine Nat.lt_of_le_of_lt ?_ hlen
      simp only [List.length_append]; omega)
  rw [← split2, show (ascii "class std::basic_string_view<char,").length = 34 by decide] at h4
  unfold text cutFuncsig
  simp only [h1, h2, h3, List.length_nil, Nat.add_zero, h4]

end EnumDecl

end Meojson
