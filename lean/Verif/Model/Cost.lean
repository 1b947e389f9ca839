import Verif.Model.Parser

/-!
# The parser with a step counter

The functions of Model/Parser.lean again, counting. `ticks` grows by one at every call of a member function of `json::parser`
(parser_impl.hpp) and at every pass through a loop body; `depth` is the greatest number of activations of `parse_array`/`parse_object` that are
on the stack at once. The work inside `std::string::append`, `std::vector::emplace_back`, `std::map::emplace` and the block operations of a
packed-bytes trait is not counted. Proofs/Cost.lean shows that the results are those of Model/Parser.lean.
-/

namespace Meojson

/-- An outcome with the work done to reach it. -/
structure Run (α : Type) where
  res : Res α
  ticks : Nat
  depth : Nat

namespace Run
def ret {α : Type} (a : α) (s : Bytes) : Run α := ⟨.ok a s, 0, 0⟩
def fail {α : Type} : Run α := ⟨.fail, 0, 0⟩
def ub {α : Type} : Run α := ⟨.ub, 0, 0⟩
def timeout {α : Type} : Run α := ⟨.timeout, 0, 0⟩
def bind {α β : Type} (r : Run α) (f : α → Bytes → Run β) : Run β :=
  match r.res with
  | .ok a s => ⟨(f a s).res, r.ticks + (f a s).ticks, max r.depth (f a s).depth⟩
  | .fail => ⟨.fail, r.ticks, r.depth⟩
  | .ub => ⟨.ub, r.ticks, r.depth⟩
  | .timeout => ⟨.timeout, r.ticks, r.depth⟩
/-- One call or one pass through a loop. -/
def tick {α : Type} (r : Run α) : Run α := ⟨r.res, r.ticks + 1, r.depth⟩
/-- One more activation on the stack while `r` runs. -/
def nest {α : Type} (r : Run α) : Run α := ⟨r.res, r.ticks, r.depth + 1⟩
end Run

/-- `skip_comment`'s loop, 550-569: result and ticks. -/
def commentLoopT (line : Bool) : Bytes → (Bool × Bytes) × Nat
  | [] => ((line, []), 1)
  | c :: s =>
    if c = 0x0a then
      if line then ((true, s), 1) else let r := commentLoopT line s; (r.1, r.2 + 1)
    else if c = 0x2a then
      if line = false ∧ s.head? = some 0x2f then ((true, s.tail), 1) else let r := commentLoopT line s; (r.1, r.2 + 1)
    else let r := commentLoopT line s; (r.1, r.2 + 1)

/-- `skip_comment`, 521-570. -/
def skipCommentT : Bytes → (Bool × Bytes) × Nat
  | [] => ((false, []), 1)
  | c :: s =>
    if c ≠ 0x2f then ((false, c :: s), 1)
    else match s with
      | [] => ((false, []), 1)
      | d :: s' =>
        if d = 0x2f then let r := commentLoopT true s'; (r.1, r.2 + 1)
        else if d = 0x2a then let r := commentLoopT false s'; (r.1, r.2 + 1)
        else ((false, s'), 1)

/-- `skip_whitespace`, 490-519. -/
def skipWhitespaceFT (jsonc : Bool) : Nat → Bytes → Run Bool
  | 0, _ => .timeout
  | _ + 1, [] => (Run.ret false []).tick
  | n + 1, c :: s =>
    if c = 0x20 ∨ c = 0x09 ∨ c = 0x0d ∨ c = 0x0a then (skipWhitespaceFT jsonc n s).tick
    else if c = 0x2f then
      if jsonc then
        let r := skipCommentT (c :: s)
        if r.1.1 then let q := skipWhitespaceFT jsonc n r.1.2; ⟨q.res, q.ticks + r.2 + 1, q.depth⟩
        else ⟨.ok false r.1.2, r.2 + 1, 0⟩
      else (Run.ret false (c :: s)).tick
    else if c = 0x00 then (Run.ret false (c :: s)).tick
    else (Run.ret true (c :: s)).tick

def skipWhitespaceT (jsonc : Bool) (s : Bytes) : Run Bool := (skipWhitespaceFT jsonc (s.length + 1) s).tick

/-- `skip_digit`'s loop, 583-585. -/
def digitLoopT : Bytes → Bytes × Nat
  | [] => ([], 1)
  | c :: s => if isDigit c then let r := digitLoopT s; (r.1, r.2 + 1) else (c :: s, 1)

/-- `skip_digit`, 572-593. -/
def skipDigitT : Bytes → Run Unit
  | [] => Run.fail.tick
  | c :: s =>
    if isDigit c then
      let r := digitLoopT s
      match r.1 with
      | [] => ⟨.fail, r.2 + 1, 0⟩
      | c' :: s' => ⟨.ok () (c' :: s'), r.2 + 1, 0⟩
    else Run.fail.tick

/-- The literal loops, 83-90, 100-107, 110-117. -/
def matchLiteralT : Bytes → Bytes → Run Unit
  | [], s => (Run.ret () s).tick
  | _ :: _, [] => Run.fail.tick
  | ch :: lit, c :: s => if c = ch then (matchLiteralT lit s).tick else Run.fail.tick

/-- `parse_null`, 80-93. -/
def parseNullT (s : Bytes) : Run Value :=
  ((matchLiteralT [0x6e, 0x75, 0x6c, 0x6c] s).bind fun _ s' => .ret .null s').tick

/-- `parse_boolean`, 95-122. -/
def parseBooleanT : Bytes → Run Value
  | [] => Run.ub.tick
  | c :: s =>
    if c = 0x74 then ((matchLiteralT [0x74, 0x72, 0x75, 0x65] (c :: s)).bind fun _ s' => .ret (.ofBool true) s').tick
    else if c = 0x66 then
      ((matchLiteralT [0x66, 0x61, 0x6c, 0x73, 0x65] (c :: s)).bind fun _ s' => .ret (.ofBool false) s').tick
    else Run.fail.tick

/-- `parse_number`, 124-161. -/
def numberFracT : Bytes → Run Unit
  | [] => .ub
  | c :: s => if c = 0x2e then skipDigitT s else .ret () (c :: s)
def numberExpT : Bytes → Run Unit
  | [] => .ub
  | c :: s =>
    if c = 0x65 ∨ c = 0x45 then
      match s with
      | [] => .fail
      | d :: s' => if d = 0x2b ∨ d = 0x2d then skipDigitT s' else skipDigitT (d :: s')
    else .ret () (c :: s)
def parseNumberT : Bytes → Run Value
  | [] => Run.ub.tick
  | c :: s =>
    let s1 := if c = 0x2d then s else c :: s
    if leadingZero s1 then Run.fail.tick
    else
      ((skipDigitT s1).bind fun _ s2 =>
      (numberFracT s2).bind fun _ s3 =>
      (numberExpT s3).bind fun _ s4 =>
      .ret (.str .number (between (c :: s) s4)) s4).tick

/-- `skip_unicode_escape`, 394-462. -/
def hexLoopT : Nat → UInt16 → Bytes → Run UInt16
  | 0, cp, s => (Run.ret cp s).tick
  | _ + 1, _, [] => Run.fail.tick
  | n + 1, cp, c :: s =>
    match hexStep cp c with
    | none => Run.fail.tick
    | some cp' => (hexLoopT n cp' s).tick
def skipUnicodeEscapeT (pairHigh : UInt16) (s : Bytes) : Run (UInt16 × Bytes) :=
  ((hexLoopT 4 0 s).bind fun cp s' =>
    match unicodeUnit pairHigh cp with
    | none => .fail
    | some r => .ret r s').tick

/-- `skip_string_literal_with_accel`, 464-488. -/
def accelLoopT (T : Traits) : Nat → Bytes → Run Unit
  | 0, _ => .timeout
  | n + 1, s =>
    if s.length ≥ T.step then
      match scanBlock T s with
      | none => Run.ub.tick
      | some result =>
        if T.isAllZero result then (accelLoopT T n (s.drop T.step)).tick
        else
          let index := T.firstNonzeroByte result
          if index ≤ s.length then (Run.ret () (s.drop index)).tick else Run.ub.tick
    else (Run.ret () s).tick
def skipStringLiteralWithAccelT (T : Traits) (s : Bytes) : Run Bool :=
  ((accelLoopT T (s.length + 1) s).bind fun _ s' => .ret (decide (s' ≠ [])) s').tick
def accelStepT (accel : Option Traits) (s : Bytes) : Run Bool :=
  match accel with
  | none => .ret true s
  | some T => skipStringLiteralWithAccelT T s

/-- `parse_stdstring`, 303-392. -/
def stringLoopT (accel : Option Traits) : Nat → Bytes → Bytes → UInt16 → Bytes → Run Bytes
  | 0, _, _, _, _ => .timeout
  | _ + 1, _, _, _, [] => Run.fail.tick
  | n + 1, result, beg, pairHigh, c₀ :: s₀ =>
    ((accelStepT accel (c₀ :: s₀)).bind fun more cur =>
    if more = false then .fail
    else match cur with
      | [] => .ub
      | c :: s =>
        if c = 0x09 ∨ c = 0x0d ∨ c = 0x0a then .fail
        else if c = 0x5c then
          let result := result ++ between beg (c :: s)
          match s with
          | [] => .fail
          | d :: s' =>
            if pairHigh ≠ 0 ∧ d ≠ 0x75 then .fail
            else if d = 0x75 then
              (skipUnicodeEscapeT pairHigh s').bind fun r s'' =>
                stringLoopT accel n (result ++ r.2) s'' r.1 s''
            else match simpleEscape d with
              | none => .fail
              | some e => stringLoopT accel n (result ++ [e]) s' pairHigh s'
        else if c = 0x22 then
          if pairHigh ≠ 0 then .fail else .ret (result ++ between beg (c :: s)) s
        else
          if pairHigh ≠ 0 then .fail
          else if c < 0x20 then .fail
          else stringLoopT accel n result beg pairHigh s).tick
def parseStdstringT (accel : Option Traits) : Bytes → Run Bytes
  | [] => Run.ub.tick
  | c :: s => if c = 0x22 then (stringLoopT accel (s.length + 1) [] s 0 s).tick else Run.fail.tick

/-- `parse_string`, 163-171. -/
def parseStringT (accel : Option Traits) (s : Bytes) : Run Value :=
  ((parseStdstringT accel s).bind fun str s' => .ret (.str .string str) s').tick

mutual

/-- `parse_value`, 48-78. -/
def parseValueT (cfg : Cfg) : Nat → Bytes → Run Value
  | 0, _ => .timeout
  | _ + 1, [] => Run.ub.tick
  | n + 1, c :: s =>
    (if c = 0x6e then parseNullT (c :: s)
    else if c = 0x74 ∨ c = 0x66 then parseBooleanT (c :: s)
    else if c = 0x2d ∨ isDigit c then parseNumberT (c :: s)
    else if c = 0x22 then parseStringT cfg.accel (c :: s)
    else if c = 0x5b then parseArrayT cfg n (c :: s)
    else if c = 0x7b then parseObjectT cfg n (c :: s)
    else .fail).tick

/-- `parse_array`, 173-228. -/
def parseArrayT (cfg : Cfg) : Nat → Bytes → Run Value
  | 0, _ => .timeout
  | _ + 1, [] => Run.ub.tick
  | n + 1, c :: s =>
    (if c ≠ 0x5b then .fail
    else
      (skipWhitespaceT cfg.jsonc s).bind fun more cur =>
      if more = false then .fail
      else match cur with
        | [] => .ub
        | d :: cur' =>
          if d = 0x5d then .ret (.ofArray []) cur'
          else
            (arrayLoopT cfg n [] (d :: cur')).bind fun result cur =>
            (skipWhitespaceT cfg.jsonc cur).bind fun more cur =>
            if more = false then .fail
            else match cur with
              | [] => .ub
              | d :: cur' => if d = 0x5d then .ret (.ofArray result) cur' else .fail).tick.nest

/-- The loop, 193-218. -/
def arrayLoopT (cfg : Cfg) : Nat → List Value → Bytes → Run (List Value)
  | 0, _, _ => .timeout
  | n + 1, result, cur =>
    ((skipWhitespaceT cfg.jsonc cur).bind fun more cur =>
    if more = false then .fail
    else match cur with
      | [] => .ub
      | c :: s =>
        if cfg.jsonc = true ∧ c = 0x5d then .ret result (c :: s)
        else
          (parseValueT cfg n (c :: s)).bind fun val cur =>
          (skipWhitespaceT cfg.jsonc cur).bind fun more cur =>
          if more = false then .fail
          else match cur with
            | [] => .ub
            | c :: s =>
              if c = 0x2c then arrayLoopT cfg n (result ++ [val]) s
              else .ret (result ++ [val]) (c :: s)).tick

/-- `parse_object`, 230-301. -/
def parseObjectT (cfg : Cfg) : Nat → Bytes → Run Value
  | 0, _ => .timeout
  | _ + 1, [] => Run.ub.tick
  | n + 1, c :: s =>
    (if c ≠ 0x7b then .fail
    else
      (skipWhitespaceT cfg.jsonc s).bind fun more cur =>
      if more = false then .fail
      else match cur with
        | [] => .ub
        | d :: cur' =>
          if d = 0x7d then .ret (.ofObject []) cur'
          else
            (objectLoopT cfg n [] (d :: cur')).bind fun result cur =>
            (skipWhitespaceT cfg.jsonc cur).bind fun more cur =>
            if more = false then .fail
            else match cur with
              | [] => .ub
              | d :: cur' => if d = 0x7d then .ret (.ofObject result) cur' else .fail).tick.nest

/-- The loop, 250-291. -/
def objectLoopT (cfg : Cfg) : Nat → List (Bytes × Value) → Bytes → Run (List (Bytes × Value))
  | 0, _, _ => .timeout
  | n + 1, result, cur =>
    ((skipWhitespaceT cfg.jsonc cur).bind fun more cur =>
    if more = false then .fail
    else match cur with
      | [] => .ub
      | c :: s =>
        if cfg.jsonc = true ∧ c = 0x7d then .ret result (c :: s)
        else
          (parseStdstringT cfg.accel (c :: s)).bind fun key cur =>
          (skipWhitespaceT cfg.jsonc cur).bind fun more cur =>
          if more = false then .fail
          else match cur with
            | [] => .ub
            | c :: s =>
              if c ≠ 0x3a then .fail
              else
                (skipWhitespaceT cfg.jsonc s).bind fun more cur =>
                if more = false then .fail
                else
                  (parseValueT cfg n cur).bind fun val cur =>
                  (skipWhitespaceT cfg.jsonc cur).bind fun more cur =>
                  if more = false then .fail
                  else
                    let e := RawObject.emplace key val result
                    if e.2 = false then .fail
                    else match cur with
                      | [] => .ub
                      | c :: s =>
                        if c = 0x2c then objectLoopT cfg n e.1 s
                        else .ret e.1 (c :: s)).tick

end

/-- `parser::parse()`, 17-46. -/
def parseRunT (cfg : Cfg) (fuel : Nat) (s : Bytes) : Run Value :=
  ((skipWhitespaceT cfg.jsonc s).bind fun more cur =>
  if more = false then .fail
  else match cur with
    | [] => .ub
    | c :: cur' =>
      (if c = 0x5b then parseArrayT cfg fuel (c :: cur')
       else if c = 0x7b then parseObjectT cfg fuel (c :: cur')
       else .fail).bind fun result cur =>
      (skipWhitespaceT cfg.jsonc cur).bind fun more cur =>
      if more then .fail else .ret result cur).tick

end Meojson
