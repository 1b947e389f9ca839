import Verif.Model.Value

/-!
# `json::parser`

include/parser/parser_impl.hpp, function by function. The parser's state is the pair of iterators
`_cur`, `_end`; the model's state is the list of bytes `[_cur, _end)`. `parsing_t` is a container of
one-byte characters (`std::string`, `std::string_view`).
-/

namespace Meojson

/-- A packed-bytes trait (packed_bytes.hpp, packed_bytes_x86.hpp, packed_bytes_arm.hpp): the members
used by `skip_string_literal_with_accel`. `load` receives exactly `step` bytes in memory order. `whole` is not part of the trait but of
the content: whether the `step` bytes from the position with that many bytes left lie in one piece of memory, as they do in a string. -/
structure Traits where
  W : Type
  step : Nat
  load : Bytes → W
  less : W → UInt8 → W
  equal : W → UInt8 → W
  bitwiseOr : W → W → W
  isAllZero : W → Bool
  firstNonzeroByte : W → Nat
  whole : Nat → Bool := fun _ => true

/-- The template arguments of `parser` that matter: `accept_jsonc`, and `accel_traits` (`none` when
`accel_traits::available` is false). -/
structure Cfg where
  jsonc : Bool
  accel : Option Traits

/-- The bytes in the iterator range `[first, cur)`, both given by what follows them. -/
def between (first cur : Bytes) : Bytes := first.take (first.length - cur.length)

/-- `std::isdigit` in the C locale. -/
def isDigit (c : UInt8) : Bool := 0x30 ≤ c && c ≤ 0x39

/-- `std::isxdigit` in the C locale. -/
def isXDigit (c : UInt8) : Bool := isDigit c || (0x61 ≤ c && c ≤ 0x66) || (0x41 ≤ c && c ≤ 0x46)

/-- The loop of `skip_comment`, parser_impl.hpp:550-569. `line` is `t == comment_type::line`. -/
def commentLoop (line : Bool) : Bytes → Bool × Bytes
  | [] => (line, [])
  | c :: s =>
    if c = 0x0a then
      if line then (true, s) else commentLoop line s
    else if c = 0x2a then
      if line = false ∧ s.head? = some 0x2f then (true, s.tail) else commentLoop line s
    else commentLoop line s

/-- `skip_comment`, parser_impl.hpp:521-570: the returned flag and the new position. -/
def skipComment : Bytes → Bool × Bytes
  | [] => (false, [])
  | c :: s =>
    if c ≠ 0x2f then (false, c :: s)
    else match s with
      | [] => (false, [])
      | d :: s' =>
        if d = 0x2f then commentLoop true s'
        else if d = 0x2a then commentLoop false s'
        else (false, s')

/-- The loop of `skip_whitespace`, parser_impl.hpp:493-518, with fuel. -/
def skipWhitespaceF (jsonc : Bool) : Nat → Bytes → Res Bool
  | 0, _ => .timeout
  | _ + 1, [] => .ok false []
  | n + 1, c :: s =>
    if c = 0x20 ∨ c = 0x09 ∨ c = 0x0d ∨ c = 0x0a then skipWhitespaceF jsonc n s
    else if c = 0x2f then
      if jsonc then
        let r := skipComment (c :: s)
        if r.1 then skipWhitespaceF jsonc n r.2 else .ok false r.2
      else .ok false (c :: s)
    else if c = 0x00 then .ok false (c :: s)
    else .ok true (c :: s)

/-- `skip_whitespace`, parser_impl.hpp:490-519. -/
def skipWhitespace (jsonc : Bool) (s : Bytes) : Res Bool := skipWhitespaceF jsonc (s.length + 1) s

/-- The loop of `skip_digit`, parser_impl.hpp:583-585. -/
def digitLoop : Bytes → Bytes
  | [] => []
  | c :: s => if isDigit c then digitLoop s else c :: s

/-- `skip_digit`, parser_impl.hpp:572-593. False is `fail`: every caller returns an invalid value. -/
def skipDigit : Bytes → Res Unit
  | [] => .fail
  | c :: s =>
    if isDigit c then
      match digitLoop s with
      | [] => .fail
      | c' :: s' => .ok () (c' :: s')
    else .fail

/-- The loops over a literal in `parse_null` (83-90) and `parse_boolean` (100-107, 110-117). -/
def matchLiteral : Bytes → Bytes → Res Unit
  | [], s => .ok () s
  | _ :: _, [] => .fail
  | ch :: lit, c :: s => if c = ch then matchLiteral lit s else .fail

/-- `parse_null`, parser_impl.hpp:80-93. -/
def parseNull (s : Bytes) : Res Value :=
  (matchLiteral [0x6e, 0x75, 0x6c, 0x6c] s).bind fun _ s' => .ok .null s'

/-- `parse_boolean`, parser_impl.hpp:95-122. -/
def parseBoolean : Bytes → Res Value
  | [] => .ub
  | c :: s =>
    if c = 0x74 then (matchLiteral [0x74, 0x72, 0x75, 0x65] (c :: s)).bind fun _ s' => .ok (.ofBool true) s'
    else if c = 0x66 then
      (matchLiteral [0x66, 0x61, 0x6c, 0x73, 0x65] (c :: s)).bind fun _ s' => .ok (.ofBool false) s'
    else .fail

/-- The leading-zero test of `parse_number`, parser_impl.hpp:133. -/
def leadingZero : Bytes → Bool
  | c :: d :: _ => c = 0x30 && isDigit d
  | _ => false

/-- Fraction part of `parse_number`, parser_impl.hpp:141-146. -/
def numberFrac : Bytes → Res Unit
  | [] => .ub
  | c :: s => if c = 0x2e then skipDigit s else .ok () (c :: s)

/-- Exponent part of `parse_number`, parser_impl.hpp:148-158. -/
def numberExp : Bytes → Res Unit
  | [] => .ub
  | c :: s =>
    if c = 0x65 ∨ c = 0x45 then
      match s with
      | [] => .fail
      | d :: s' => if d = 0x2b ∨ d = 0x2d then skipDigit s' else skipDigit (d :: s')
    else .ok () (c :: s)

/-- `parse_number`, parser_impl.hpp:124-161. -/
def parseNumber : Bytes → Res Value
  | [] => .ub
  | c :: s =>
    let s1 := if c = 0x2d then s else c :: s
    if leadingZero s1 then .fail
    else
      (skipDigit s1).bind fun _ s2 =>
      (numberFrac s2).bind fun _ s3 =>
      (numberExp s3).bind fun _ s4 =>
      .ok (.str .number (between (c :: s) s4)) s4

/-! ### Strings -/

/-- The hexadecimal digit branches of `skip_unicode_escape`, parser_impl.hpp:403-420, as the new `cp`
(`cp <<= 4; cp |= digit` on `uint16_t`); `none` is `return false`. -/
def hexStep (cp : UInt16) (c : UInt8) : Option UInt16 :=
  if ¬ isXDigit c then none
  else if 0x30 ≤ c ∧ c ≤ 0x39 then some ((cp <<< 4) ||| (c - 0x30).toUInt16)
  else if 0x61 ≤ c ∧ c ≤ 0x66 then some ((cp <<< 4) ||| (c - 0x61 + 10).toUInt16)
  else if 0x41 ≤ c ∧ c ≤ 0x46 then some ((cp <<< 4) ||| (c - 0x41 + 10).toUInt16)
  else none

/-- The loop of `skip_unicode_escape`, parser_impl.hpp:398-421. The code advances `_cur` before it reads,
so the model's position is one byte ahead of `_cur`. -/
def hexLoop : Nat → UInt16 → Bytes → Res UInt16
  | 0, cp, s => .ok cp s
  | _ + 1, _, [] => .fail
  | n + 1, cp, c :: s =>
    match hexStep cp c with
    | none => .fail
    | some cp' => hexLoop n cp' s

/-- The UTF-8 encoder in `skip_unicode_escape`, parser_impl.hpp:442-459. -/
def utf8Bytes (e : UInt32) : Bytes :=
  if e ≤ 0x7F then [e.toUInt8]
  else if e ≤ 0x7FF then
    [(((e >>> 6) &&& 0x1F) ||| 0xC0).toUInt8, ((e &&& 0x3F) ||| 0x80).toUInt8]
  else if e ≤ 0xFFFF then
    [(((e >>> 12) &&& 0x0F) ||| 0xE0).toUInt8, (((e >>> 6) &&& 0x3F) ||| 0x80).toUInt8,
      ((e &&& 0x3F) ||| 0x80).toUInt8]
  else
    [(((e >>> 18) &&& 0x07) ||| 0xF0).toUInt8, (((e >>> 12) &&& 0x3F) ||| 0x80).toUInt8,
      (((e >>> 6) &&& 0x3F) ||| 0x80).toUInt8, ((e &&& 0x3F) ||| 0x80).toUInt8]

/-- `skip_unicode_escape` after the four digits, parser_impl.hpp:423-461: the new `pair_high` and the
bytes appended to `result`; `none` is `return false`. -/
def unicodeUnit (pairHigh cp : UInt16) : Option (UInt16 × Bytes) :=
  if 0xD800 ≤ cp ∧ cp ≤ 0xDBFF then
    if pairHigh ≠ 0 then none else some (cp, [])
  else if 0xDC00 ≤ cp ∧ cp ≤ 0xDFFF then
    if pairHigh = 0 then none
    else some (0, utf8Bytes
      ((((pairHigh.toUInt32 - 0xD800) <<< 10) ||| (cp.toUInt32 - 0xDC00)) + 0x10000))
  else some (pairHigh, utf8Bytes cp.toUInt32)

/-- `skip_unicode_escape`, parser_impl.hpp:394-462. The argument is what follows the `u`. -/
def skipUnicodeEscape (pairHigh : UInt16) (s : Bytes) : Res (UInt16 × Bytes) :=
  (hexLoop 4 0 s).bind fun cp s' =>
    match unicodeUnit pairHigh cp with
    | none => .fail
    | some r => .ok r s'

/-- The block test of `skip_string_literal_with_accel`, parser_impl.hpp:472-475. The load reads `step` bytes
from the address of the current one on; `none` if fewer remain (a read past `_end`) or if they are not all there. -/
def scanBlock (T : Traits) (s : Bytes) : Option T.W :=
  if T.step ≤ s.length ∧ T.whole s.length then
    let pack := T.load (s.take T.step)
    let result := T.less pack 32
    let result := T.bitwiseOr result (T.equal pack 0x22)
    let result := T.bitwiseOr result (T.equal pack 0x5c)
    some result
  else none

/-- The loop of `skip_string_literal_with_accel`, parser_impl.hpp:471-485, with fuel. -/
def accelLoop (T : Traits) : Nat → Bytes → Res Unit
  | 0, _ => .timeout
  | n + 1, s =>
    if s.length ≥ T.step then
      match scanBlock T s with
      | none => .ub
      | some result =>
        if T.isAllZero result then accelLoop T n (s.drop T.step)
        else
          let index := T.firstNonzeroByte result
          if index ≤ s.length then .ok () (s.drop index) else .ub
    else .ok () s

/-- `skip_string_literal_with_accel`, parser_impl.hpp:464-488: the flag is `_cur != _end`. -/
def skipStringLiteralWithAccel (T : Traits) (s : Bytes) : Res Bool :=
  (accelLoop T (s.length + 1) s).bind fun _ s' => .ok (s' ≠ []) s'

/-- Entry of the loop body of `parse_stdstring`, parser_impl.hpp:318-322. -/
def accelStep (accel : Option Traits) (s : Bytes) : Res Bool :=
  match accel with
  | none => .ok true s
  | some T => skipStringLiteralWithAccel T s

/-- The one-character escapes of `parse_stdstring`, parser_impl.hpp:336-360 (without `u`). -/
def simpleEscape (c : UInt8) : Option UInt8 :=
  if c = 0x22 then some 0x22
  else if c = 0x5c then some 0x5c
  else if c = 0x2f then some 0x2f
  else if c = 0x62 then some 0x08
  else if c = 0x66 then some 0x0c
  else if c = 0x6e then some 0x0a
  else if c = 0x72 then some 0x0d
  else if c = 0x74 then some 0x09
  else none

/-- The loop of `parse_stdstring`, parser_impl.hpp:317-391, with fuel. `result`, `no_escape_beg`, `pair_high`
are the local variables; the last argument is `_cur`. -/
def stringLoop (accel : Option Traits) : Nat → Bytes → Bytes → UInt16 → Bytes → Res Bytes
  | 0, _, _, _, _ => .timeout
  | _ + 1, _, _, _, [] => .fail
  | n + 1, result, beg, pairHigh, c₀ :: s₀ =>
    (accelStep accel (c₀ :: s₀)).bind fun more cur =>
    if more = false then .fail
    else match cur with
      | [] => .ub
      | c :: s =>
        if c = 0x09 ∨ c = 0x0d ∨ c = 0x0a then .fail
        else if c = 0x5c then
          let result := result ++ between beg (c :: s)
          match s with
          | [] => .fail
          | d :: s' =>
            if pairHigh ≠ 0 ∧ d ≠ 0x75 then .fail
            else if d = 0x75 then
              (skipUnicodeEscape pairHigh s').bind fun r s'' =>
                stringLoop accel n (result ++ r.2) s'' r.1 s''
            else match simpleEscape d with
              | none => .fail
              | some e => stringLoop accel n (result ++ [e]) s' pairHigh s'
        else if c = 0x22 then
          if pairHigh ≠ 0 then .fail else .ok (result ++ between beg (c :: s)) s
        else
          if pairHigh ≠ 0 then .fail
          else if c < 0x20 then .fail
          else stringLoop accel n result beg pairHigh s

/-- `parse_stdstring`, parser_impl.hpp:303-392. -/
def parseStdstring (accel : Option Traits) : Bytes → Res Bytes
  | [] => .ub
  | c :: s => if c = 0x22 then stringLoop accel (s.length + 1) [] s 0 s else .fail

/-- `parse_string`, parser_impl.hpp:163-171. -/
def parseString (accel : Option Traits) (s : Bytes) : Res Value :=
  (parseStdstring accel s).bind fun str s' => .ok (.str .string str) s'

/-! ### Values, arrays, objects -/

mutual

/-- `parse_value`, parser_impl.hpp:48-78. -/
def parseValue (cfg : Cfg) : Nat → Bytes → Res Value
  | 0, _ => .timeout
  | _ + 1, [] => .ub
  | n + 1, c :: s =>
    if c = 0x6e then parseNull (c :: s)
    else if c = 0x74 ∨ c = 0x66 then parseBoolean (c :: s)
    else if c = 0x2d ∨ isDigit c then parseNumber (c :: s)
    else if c = 0x22 then parseString cfg.accel (c :: s)
    else if c = 0x5b then parseArray cfg n (c :: s)
    else if c = 0x7b then parseObject cfg n (c :: s)
    else .fail

/-- `parse_array`, parser_impl.hpp:173-228. -/
def parseArray (cfg : Cfg) : Nat → Bytes → Res Value
  | 0, _ => .timeout
  | _ + 1, [] => .ub
  | n + 1, c :: s =>
    if c ≠ 0x5b then .fail
    else
      (skipWhitespace cfg.jsonc s).bind fun more cur =>
      if more = false then .fail
      else match cur with
        | [] => .ub
        | d :: cur' =>
          if d = 0x5d then .ok (.ofArray []) cur'
          else
            (arrayLoop cfg n [] (d :: cur')).bind fun result cur =>
            (skipWhitespace cfg.jsonc cur).bind fun more cur =>
            if more = false then .fail
            else match cur with
              | [] => .ub
              | d :: cur' => if d = 0x5d then .ok (.ofArray result) cur' else .fail

/-- The loop of `parse_array`, parser_impl.hpp:193-218; `ok` is `break`. -/
def arrayLoop (cfg : Cfg) : Nat → List Value → Bytes → Res (List Value)
  | 0, _, _ => .timeout
  | n + 1, result, cur =>
    (skipWhitespace cfg.jsonc cur).bind fun more cur =>
    if more = false then .fail
    else match cur with
      | [] => .ub
      | c :: s =>
        if cfg.jsonc = true ∧ c = 0x5d then .ok result (c :: s)
        else
          (parseValue cfg n (c :: s)).bind fun val cur =>
          (skipWhitespace cfg.jsonc cur).bind fun more cur =>
          if more = false then .fail
          else match cur with
            | [] => .ub
            | c :: s =>
              if c = 0x2c then arrayLoop cfg n (result ++ [val]) s
              else .ok (result ++ [val]) (c :: s)

/-- `parse_object`, parser_impl.hpp:230-301. -/
def parseObject (cfg : Cfg) : Nat → Bytes → Res Value
  | 0, _ => .timeout
  | _ + 1, [] => .ub
  | n + 1, c :: s =>
    if c ≠ 0x7b then .fail
    else
      (skipWhitespace cfg.jsonc s).bind fun more cur =>
      if more = false then .fail
      else match cur with
        | [] => .ub
        | d :: cur' =>
          if d = 0x7d then .ok (.ofObject []) cur'
          else
            (objectLoop cfg n [] (d :: cur')).bind fun result cur =>
            (skipWhitespace cfg.jsonc cur).bind fun more cur =>
            if more = false then .fail
            else match cur with
              | [] => .ub
              | d :: cur' => if d = 0x7d then .ok (.ofObject result) cur' else .fail

/-- The loop of `parse_object`, parser_impl.hpp:250-291; `ok` is `break`. -/
def objectLoop (cfg : Cfg) : Nat → List (Bytes × Value) → Bytes → Res (List (Bytes × Value))
  | 0, _, _ => .timeout
  | n + 1, result, cur =>
    (skipWhitespace cfg.jsonc cur).bind fun more cur =>
    if more = false then .fail
    else match cur with
      | [] => .ub
      | c :: s =>
        if cfg.jsonc = true ∧ c = 0x7d then .ok result (c :: s)
        else
          (parseStdstring cfg.accel (c :: s)).bind fun key cur =>
          (skipWhitespace cfg.jsonc cur).bind fun more cur =>
          if more = false then .fail
          else match cur with
            | [] => .ub
            | c :: s =>
              if c ≠ 0x3a then .fail
              else
                (skipWhitespace cfg.jsonc s).bind fun more cur =>
                if more = false then .fail
                else
                  (parseValue cfg n cur).bind fun val cur =>
                  (skipWhitespace cfg.jsonc cur).bind fun more cur =>
                  if more = false then .fail
                  else
                    let e := RawObject.emplace key val result
                    if e.2 = false then .fail
                    else match cur with
                      | [] => .ub
                      | c :: s =>
                        if c = 0x2c then objectLoop cfg n e.1 s
                        else .ok e.1 (c :: s)

end

/-- `parser::parse()`, parser_impl.hpp:17-46, with fuel for the recursion. The final position is kept
for the statements of theorems. -/
def parseRun (cfg : Cfg) (fuel : Nat) (s : Bytes) : Res Value :=
  (skipWhitespace cfg.jsonc s).bind fun more cur =>
  if more = false then .fail
  else match cur with
    | [] => .ub
    | c :: cur' =>
      (if c = 0x5b then parseArray cfg fuel (c :: cur')
       else if c = 0x7b then parseObject cfg fuel (c :: cur')
       else .fail).bind fun result cur =>
      (skipWhitespace cfg.jsonc cur).bind fun more cur =>
      if more then .fail else .ok result cur

/-- Fuel that always suffices (theorem `C07`). -/
def parseFuel (s : Bytes) : Nat := 3 * s.length + 3

/-- `parser::parse(content)`, parser_impl.hpp:11-15. The outcomes `ub` and `timeout` of `parseRun` do not occur
(theorems `C06`, `C07`), so reading them as `none` loses nothing. -/
def parser (cfg : Cfg) (s : Bytes) : Option Value :=
  match parseRun cfg (parseFuel s) s with
  | .ok v _ => some v
  | _ => none

/-- `json::parse(content)`, parser_impl.hpp:599-603, in a build with the given packed-bytes trait. -/
def parse (accel : Option Traits) (s : Bytes) : Option Value := parser ⟨false, accel⟩ s

/-- `json::parsec(content)`, parser_impl.hpp:646-650. -/
def parsec (accel : Option Traits) (s : Bytes) : Option Value := parser ⟨true, accel⟩ s

end Meojson
