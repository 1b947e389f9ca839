import Verif.Model.Parser

/-!
# `json::parser` on wide characters

include/parser/parser_impl.hpp again, for a `parsing_t` whose characters have more than one byte (`std::wstring`, `std::u16string`, `std::u32string` and their views). A code unit is a
`UInt32`; a `char16_t` is widened, a negative `wchar_t` is its bit pattern (no comparison in the code depends on its sign). Comparisons with character literals compare whole units;
`static_cast<unsigned char>(*_cur)` and the copy to a `std::string` keep the low byte. `sizeof(*_cur) != 1` switches the block traits off.
-/

set_option autoImplicit false

namespace Meojson.Wide

abbrev Units := List UInt32

/-- A character literal, promoted for a comparison with a code unit. -/
def ch (b : UInt8) : UInt32 := b.toUInt32

/-- `static_cast<unsigned char>(c)`. -/
def low (c : UInt32) : UInt8 := c.toUInt8

/-- Results as for bytes (`Res`), with a position in the wide text. -/
inductive WRes (α : Type) where
  | ok (a : α) (rest : Units)
  | fail
  | ub
  | timeout
deriving DecidableEq, Repr

/-- Sequencing: continue with the returned value and the new position. -/
def WRes.bind {α β : Type} (r : WRes α) (f : α → Units → WRes β) : WRes β :=
  match r with
  | .ok a rest => f a rest
  | .fail => .fail
  | .ub => .ub
  | .timeout => .timeout

/-- `std::string(first, cur)`: the units in the iterator range `[first, cur)`, each converted to `char`. -/
def between (first cur : Units) : Bytes := (first.take (first.length - cur.length)).map low

/-- The loop of `skip_comment`, parser_impl.hpp:550-569. `line` is `t == comment_type::line`. -/
def commentLoop (line : Bool) : Units → Bool × Units
  | [] => (line, [])
  | c :: s =>
    if c = ch 0x0a then
      if line then (true, s) else commentLoop line s
    else if c = ch 0x2a then
      if line = false ∧ s.head? = some (ch 0x2f) then (true, s.tail) else commentLoop line s
    else commentLoop line s

/-- `skip_comment`, parser_impl.hpp:521-570: the returned flag and the new position. -/
def skipComment : Units → Bool × Units
  | [] => (false, [])
  | c :: s =>
    if c ≠ ch 0x2f then (false, c :: s)
    else match s with
      | [] => (false, [])
      | d :: s' =>
        if d = ch 0x2f then commentLoop true s'
        else if d = ch 0x2a then commentLoop false s'
        else (false, s')

/-- The loop of `skip_whitespace`, parser_impl.hpp:493-518, with fuel. -/
def skipWhitespaceF (jsonc : Bool) : Nat → Units → WRes Bool
  | 0, _ => .timeout
  | _ + 1, [] => .ok false []
  | n + 1, c :: s =>
    if c = ch 0x20 ∨ c = ch 0x09 ∨ c = ch 0x0d ∨ c = ch 0x0a then skipWhitespaceF jsonc n s
    else if c = ch 0x2f then
      if jsonc then
        let r := skipComment (c :: s)
        if r.1 then skipWhitespaceF jsonc n r.2 else .ok false r.2
      else .ok false (c :: s)
    else if c = ch 0x00 then .ok false (c :: s)
    else .ok true (c :: s)

/-- `skip_whitespace`, parser_impl.hpp:490-519. -/
def skipWhitespace (jsonc : Bool) (s : Units) : WRes Bool := skipWhitespaceF jsonc (s.length + 1) s

/-- The loop of `skip_digit`, parser_impl.hpp:583-585. -/
def digitLoop : Units → Units
  | [] => []
  | c :: s => if isDigit (low c) then digitLoop s else c :: s

/-- `skip_digit`, parser_impl.hpp:572-593. False is `fail`: every caller returns an invalid value. -/
def skipDigit : Units → WRes Unit
  | [] => .fail
  | c :: s =>
    if isDigit (low c) then
      match digitLoop s with
      | [] => .fail
      | c' :: s' => .ok () (c' :: s')
    else .fail

/-- The loops over a literal in `parse_null` (83-90) and `parse_boolean` (100-107, 110-117). -/
def matchLiteral : Bytes → Units → WRes Unit
  | [], s => .ok () s
  | _ :: _, [] => .fail
  | l :: lit, c :: s => if c = ch l then matchLiteral lit s else .fail

/-- `parse_null`, parser_impl.hpp:80-93. -/
def parseNull (s : Units) : WRes Value :=
  (matchLiteral [0x6e, 0x75, 0x6c, 0x6c] s).bind fun _ s' => .ok .null s'

/-- `parse_boolean`, parser_impl.hpp:95-122. -/
def parseBoolean : Units → WRes Value
  | [] => .ub
  | c :: s =>
    if c = ch 0x74 then (matchLiteral [0x74, 0x72, 0x75, 0x65] (c :: s)).bind fun _ s' => .ok (.ofBool true) s'
    else if c = ch 0x66 then
      (matchLiteral [0x66, 0x61, 0x6c, 0x73, 0x65] (c :: s)).bind fun _ s' => .ok (.ofBool false) s'
    else .fail

/-- The leading-zero test of `parse_number`, parser_impl.hpp:133. -/
def leadingZero : Units → Bool
  | c :: d :: _ => c = ch 0x30 && isDigit (low d)
  | _ => false

/-- Fraction part of `parse_number`, parser_impl.hpp:141-146. -/
def numberFrac : Units → WRes Unit
  | [] => .ub
  | c :: s => if c = ch 0x2e then skipDigit s else .ok () (c :: s)

/-- Exponent part of `parse_number`, parser_impl.hpp:148-158. -/
def numberExp : Units → WRes Unit
  | [] => .ub
  | c :: s =>
    if c = ch 0x65 ∨ c = ch 0x45 then
      match s with
      | [] => .fail
      | d :: s' => if d = ch 0x2b ∨ d = ch 0x2d then skipDigit s' else skipDigit (d :: s')
    else .ok () (c :: s)

/-- `parse_number`, parser_impl.hpp:124-161. -/
def parseNumber : Units → WRes Value
  | [] => .ub
  | c :: s =>
    let s1 := if c = ch 0x2d then s else c :: s
    if leadingZero s1 then .fail
    else
      (skipDigit s1).bind fun _ s2 =>
      (numberFrac s2).bind fun _ s3 =>
      (numberExp s3).bind fun _ s4 =>
      .ok (.str .number (between (c :: s) s4)) s4

/-! ### Strings -/

/-- The hexadecimal digit branches of `skip_unicode_escape`, parser_impl.hpp:403-420, as the new `cp`
(`cp <<= 4; cp |= digit` on `uint16_t`); `none` is `return false`. -/
def hexStep (cp : UInt16) (c : UInt32) : Option UInt16 :=
  if ¬ isXDigit (low c) then none
  else if ch 0x30 ≤ c ∧ c ≤ ch 0x39 then some ((cp <<< 4) ||| (c - ch 0x30).toUInt16)
  else if ch 0x61 ≤ c ∧ c ≤ ch 0x66 then some ((cp <<< 4) ||| (c - ch 0x61 + 10).toUInt16)
  else if ch 0x41 ≤ c ∧ c ≤ ch 0x46 then some ((cp <<< 4) ||| (c - ch 0x41 + 10).toUInt16)
  else none

/-- The loop of `skip_unicode_escape`, parser_impl.hpp:398-421. The code advances `_cur` before it reads,
so the model's position is one byte ahead of `_cur`. -/
def hexLoop : Nat → UInt16 → Units → WRes UInt16
  | 0, cp, s => .ok cp s
  | _ + 1, _, [] => .fail
  | n + 1, cp, c :: s =>
    match hexStep cp c with
    | none => .fail
    | some cp' => hexLoop n cp' s

/-- `skip_unicode_escape`, parser_impl.hpp:394-462. The argument is what follows the `u`. -/
def skipUnicodeEscape (pairHigh : UInt16) (s : Units) : WRes (UInt16 × Bytes) :=
  (hexLoop 4 0 s).bind fun cp s' =>
    match unicodeUnit pairHigh cp with
    | none => .fail
    | some r => .ok r s'

/-- The one-character escapes of `parse_stdstring`, parser_impl.hpp:336-360 (without `u`). -/
def simpleEscape (c : UInt32) : Option UInt8 :=
  if c = ch 0x22 then some 0x22
  else if c = ch 0x5c then some 0x5c
  else if c = ch 0x2f then some 0x2f
  else if c = ch 0x62 then some 0x08
  else if c = ch 0x66 then some 0x0c
  else if c = ch 0x6e then some 0x0a
  else if c = ch 0x72 then some 0x0d
  else if c = ch 0x74 then some 0x09
  else none

/-- The loop of `parse_stdstring`, parser_impl.hpp:317-391, with fuel. The `if constexpr` of 318 is false. `result`, `no_escape_beg`, `pair_high`
are the local variables; the last argument is `_cur`. -/
def stringLoop : Nat → Bytes → Units → UInt16 → Units → WRes Bytes
  | 0, _, _, _, _ => .timeout
  | _ + 1, _, _, _, [] => .fail
  | n + 1, result, beg, pairHigh, c :: s =>
    if c = ch 0x09 ∨ c = ch 0x0d ∨ c = ch 0x0a then .fail
    else if c = ch 0x5c then
      let result := result ++ between beg (c :: s)
      match s with
      | [] => .fail
      | d :: s' =>
        if pairHigh ≠ 0 ∧ d ≠ ch 0x75 then .fail
        else if d = ch 0x75 then
          (skipUnicodeEscape pairHigh s').bind fun r s'' =>
            stringLoop n (result ++ r.2) s'' r.1 s''
        else match simpleEscape d with
          | none => .fail
          | some e => stringLoop n (result ++ [e]) s' pairHigh s'
    else if c = ch 0x22 then
      if pairHigh ≠ 0 then .fail else .ok (result ++ between beg (c :: s)) s
    else
      if pairHigh ≠ 0 then .fail
      else if low c < 0x20 then .fail
      else stringLoop n result beg pairHigh s

/-- `parse_stdstring`, parser_impl.hpp:303-392. -/
def parseStdstring : Units → WRes Bytes
  | [] => .ub
  | c :: s => if c = ch 0x22 then stringLoop (s.length + 1) [] s 0 s else .fail

/-- `parse_string`, parser_impl.hpp:163-171. -/
def parseString (s : Units) : WRes Value :=
  (parseStdstring s).bind fun str s' => .ok (.str .string str) s'

/-! ### Values, arrays, objects -/

mutual

/-- `parse_value`, parser_impl.hpp:48-78. -/
def parseValue (jsonc : Bool) : Nat → Units → WRes Value
  | 0, _ => .timeout
  | _ + 1, [] => .ub
  | n + 1, c :: s =>
    if c = ch 0x6e then parseNull (c :: s)
    else if c = ch 0x74 ∨ c = ch 0x66 then parseBoolean (c :: s)
    else if c = ch 0x2d ∨ (ch 0x30 ≤ c ∧ c ≤ ch 0x39) then parseNumber (c :: s)
    else if c = ch 0x22 then parseString (c :: s)
    else if c = ch 0x5b then parseArray jsonc n (c :: s)
    else if c = ch 0x7b then parseObject jsonc n (c :: s)
    else .fail

/-- `parse_array`, parser_impl.hpp:173-228. -/
def parseArray (jsonc : Bool) : Nat → Units → WRes Value
  | 0, _ => .timeout
  | _ + 1, [] => .ub
  | n + 1, c :: s =>
    if c ≠ ch 0x5b then .fail
    else
      (skipWhitespace jsonc s).bind fun more cur =>
      if more = false then .fail
      else match cur with
        | [] => .ub
        | d :: cur' =>
          if d = ch 0x5d then .ok (.ofArray []) cur'
          else
            (arrayLoop jsonc n [] (d :: cur')).bind fun result cur =>
            (skipWhitespace jsonc cur).bind fun more cur =>
            if more = false then .fail
            else match cur with
              | [] => .ub
              | d :: cur' => if d = ch 0x5d then .ok (.ofArray result) cur' else .fail

/-- The loop of `parse_array`, parser_impl.hpp:193-218; `ok` is `break`. -/
def arrayLoop (jsonc : Bool) : Nat → List Value → Units → WRes (List Value)
  | 0, _, _ => .timeout
  | n + 1, result, cur =>
    (skipWhitespace jsonc cur).bind fun more cur =>
    if more = false then .fail
    else match cur with
      | [] => .ub
      | c :: s =>
        if jsonc = true ∧ c = ch 0x5d then .ok result (c :: s)
        else
          (parseValue jsonc n (c :: s)).bind fun val cur =>
          (skipWhitespace jsonc cur).bind fun more cur =>
          if more = false then .fail
          else match cur with
            | [] => .ub
            | c :: s =>
              if c = ch 0x2c then arrayLoop jsonc n (result ++ [val]) s
              else .ok (result ++ [val]) (c :: s)

/-- `parse_object`, parser_impl.hpp:230-301. -/
def parseObject (jsonc : Bool) : Nat → Units → WRes Value
  | 0, _ => .timeout
  | _ + 1, [] => .ub
  | n + 1, c :: s =>
    if c ≠ ch 0x7b then .fail
    else
      (skipWhitespace jsonc s).bind fun more cur =>
      if more = false then .fail
      else match cur with
        | [] => .ub
        | d :: cur' =>
          if d = ch 0x7d then .ok (.ofObject []) cur'
          else
            (objectLoop jsonc n [] (d :: cur')).bind fun result cur =>
            (skipWhitespace jsonc cur).bind fun more cur =>
            if more = false then .fail
            else match cur with
              | [] => .ub
              | d :: cur' => if d = ch 0x7d then .ok (.ofObject result) cur' else .fail

/-- The loop of `parse_object`, parser_impl.hpp:250-291; `ok` is `break`. -/
def objectLoop (jsonc : Bool) : Nat → List (Bytes × Value) → Units → WRes (List (Bytes × Value))
  | 0, _, _ => .timeout
  | n + 1, result, cur =>
    (skipWhitespace jsonc cur).bind fun more cur =>
    if more = false then .fail
    else match cur with
      | [] => .ub
      | c :: s =>
        if jsonc = true ∧ c = ch 0x7d then .ok result (c :: s)
        else
          (parseStdstring (c :: s)).bind fun key cur =>
          (skipWhitespace jsonc cur).bind fun more cur =>
          if more = false then .fail
          else match cur with
            | [] => .ub
            | c :: s =>
              if c ≠ ch 0x3a then .fail
              else
                (skipWhitespace jsonc s).bind fun more cur =>
                if more = false then .fail
                else
                  (parseValue jsonc n cur).bind fun val cur =>
                  (skipWhitespace jsonc cur).bind fun more cur =>
                  if more = false then .fail
                  else
                    let e := RawObject.emplace key val result
                    if e.2 = false then .fail
                    else match cur with
                      | [] => .ub
                      | c :: s =>
                        if c = ch 0x2c then objectLoop jsonc n e.1 s
                        else .ok e.1 (c :: s)

end

/-- `parser::parse()`, parser_impl.hpp:17-46, with fuel for the recursion. The final position is kept
for the statements of theorems. -/
def parseRun (jsonc : Bool) (fuel : Nat) (s : Units) : WRes Value :=
  (skipWhitespace jsonc s).bind fun more cur =>
  if more = false then .fail
  else match cur with
    | [] => .ub
    | c :: cur' =>
      (if c = ch 0x5b then parseArray jsonc fuel (c :: cur')
       else if c = ch 0x7b then parseObject jsonc fuel (c :: cur')
       else .fail).bind fun result cur =>
      (skipWhitespace jsonc cur).bind fun more cur =>
      if more then .fail else .ok result cur

/-- Fuel that always suffices (theorem `C57_safe`). -/
def parseFuel (s : Units) : Nat := 3 * s.length + 3

/-- `parser::parse(content)`, parser_impl.hpp:11-15. The outcomes `ub` and `timeout` of `parseRun` do not occur
(theorem `C57_safe`), so reading them as `none` loses nothing. -/
def parser (jsonc : Bool) (s : Units) : Option Value :=
  match parseRun jsonc (parseFuel s) s with
  | .ok v _ => some v
  | _ => none

end Meojson.Wide
