import Verif.Model.Convert

/-!
# Names of enumerators, `name<E, V>()` (include/common/enum_reflection.hpp:20-78)

The library cuts the name of an enumerator out of the text the compiler has for the function, `__PRETTY_FUNCTION__` or `__FUNCSIG__`. How compilers spell that text is
taken from g++ 13 (observed on a function template of our own), and from the documentation of clang and MSVC: `Compiler.pretty`. A value that no enumerator has is spelled
as a cast. `EnumDecl.toEnum` makes of a declaration the `EnumTy` that Model/Convert.lean works with.
-/

set_option autoImplicit false

namespace Meojson

/-- `std::string_view::find(text)` -/
def findText (p : Bytes) : Bytes → Option Nat
  | [] => if p = [] then some 0 else none
  | c :: s => if p.isPrefixOf (c :: s) then some 0 else (findText p s).map (· + 1)

/-- `std::string_view::find_last_of(c)` -/
def findLast (c : UInt8) : Bytes → Option Nat
  | [] => none
  | d :: s =>
    match findLast c s with
    | some i => some (i + 1)
    | none => if d = c then some 0 else none

/-- `substr(start, end - start)` for a `start` within the text; the difference of two `size_t`. -/
def substrTo (s : Bytes) (start stop : Nat) : Bytes := (s.drop start).take ((stop + 2 ^ 64 - start) % 2 ^ 64)

/-- `find_last_of(':')` and the `substr` after it, 44-47 and 69-72 -/
def afterColon (s : Bytes) : Bytes :=
  match findLast 0x3a s with
  | some sep => s.drop (sep + 1)
  | none => s

/-- `name` for gcc and clang, 25-48 -/
def cutPretty (text : Bytes) : Bytes :=
  match findText (ascii "V = ") text with
  | none => []
  | some start =>
    match findLast 0x5d text with
    | none => []
    | some stop =>
      let name := substrTo text (start + 4) stop
      let name := match findText [0x3b] name with
        | some sem => name.take sem
        | none => name
      afterColon name

/-- `name` for MSVC, 52-73 -/
def cutFuncsig (text : Bytes) : Bytes :=
  match findText [0x2c] text with
  | none => []
  | some start =>
    let start := start + 1 + ((text.drop (start + 1)).takeWhile (· = 0x20)).length
    match findLast 0x3e text with
    | none => []
    | some stop => afterColon (substrTo text start stop)

/-- The declaration of an enum: how the compiler spells its type, what it puts before the enumerators (`"Color::"`, or `"ns::"` or nothing for an unscoped enum), and the
enumerators in order. -/
structure EnumDecl where
  under : Under
  min : Int := -128
  max : Int := 128
  type : Bytes
  scope : Bytes
  items : List (Bytes × Int)
  asNumber : Bool := false

inductive Compiler where
  | gcc
  | clang
  | msvc

/-- The first enumerator with this value. -/
def EnumDecl.nameOf (D : EnumDecl) (e : Int) : Option Bytes := (D.items.find? (·.2 = e)).map (·.1)

/-- How the template argument `V` is spelled. -/
def EnumDecl.spelled (D : EnumDecl) (e : Int) : Bytes :=
  match D.nameOf e with
  | some n => D.scope ++ n
  | none => ascii "(" ++ D.type ++ ascii ")" ++ intText e

/-- The compiler's text for `json::_reflection::name<E, V>()` -/
def Compiler.pretty (D : EnumDecl) (e : Int) : Compiler → Bytes
  | .gcc => ascii "constexpr std::string_view json::_reflection::name() [with E = " ++ (D.type ++ (ascii "; E " ++ (ascii "V = " ++ (D.spelled e ++
      ascii "; std::string_view = std::basic_string_view<char>]"))))
  | .clang => ascii "std::string_view json::_reflection::name() [E = " ++ (D.type ++ (ascii ", " ++ (ascii "V = " ++ (D.spelled e ++ ascii "]"))))
  | .msvc => ascii "class std::basic_string_view<char,struct std::char_traits<char> > __cdecl json::_reflection::name<enum " ++ (D.type ++ (ascii "," ++ (D.spelled e ++
      ascii ">(void) noexcept")))

/-- `name<E, V>()` -/
def EnumDecl.text (D : EnumDecl) (c : Compiler) (e : Int) : Bytes :=
  match c with
  | .gcc | .clang => cutPretty (c.pretty D e)
  | .msvc => cutFuncsig (c.pretty D e)

/-- The enum as the conversions see it. -/
def EnumDecl.toEnum (D : EnumDecl) (c : Compiler) : EnumTy := ⟨D.under, D.min, D.max, D.text c, D.asNumber⟩

end Meojson
