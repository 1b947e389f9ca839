import Verif.Spec.Denote

/-!
# Specification: laying out a compact text

What indented output should look like, said of texts alone: go through the compact text, break lines after opening brackets and commas and before closing brackets, and
begin each line with spaces for the brackets that are open. Nothing here knows what a value is.
-/

set_option autoImplicit false

namespace Meojson.Spec

/-- Where the reader is: outside strings, at the beginning of a line of the output or not; inside a string; after a backslash inside a string. -/
inductive Reading where
  | code (fresh : Bool)
  | text
  | escape
  deriving DecidableEq

/-- The indentation of a line inside `d` brackets. -/
def margin (n d : Nat) : Bytes := List.replicate (n * d) 0x20

/-- The compact text with lines broken and indented, where `d` brackets are open. A line is indented once there is something to put on it. -/
def layout (n : Nat) : Nat → Reading → Bytes → Bytes
  | _, _, [] => []
  | d, .text, c :: t =>
    if c = 0x22 then c :: layout n d (.code false) t
    else if c = 0x5c then c :: layout n d .escape t
    else c :: layout n d .text t
  | d, .escape, c :: t => c :: layout n d .text t
  | d, .code fresh, c :: t =>
    if c = 0x5d ∨ c = 0x7d then (if fresh then [] else [0x0a]) ++ margin n (d - 1) ++ c :: layout n (d - 1) (.code false) t
    else (if fresh then margin n d else []) ++
      if c = 0x5b ∨ c = 0x7b then c :: 0x0a :: layout n (d + 1) (.code true) t
      else if c = 0x2c then c :: 0x0a :: layout n d (.code true) t
      else if c = 0x3a then c :: 0x20 :: layout n d (.code false) t
      else if c = 0x22 then c :: layout n d .text t
      else c :: layout n d (.code false) t

/-- The text without the white space outside strings. -/
def squeeze : Reading → Bytes → Bytes
  | _, [] => []
  | .text, c :: t =>
    if c = 0x22 then c :: squeeze (.code false) t
    else if c = 0x5c then c :: squeeze .escape t
    else c :: squeeze .text t
  | .escape, c :: t => c :: squeeze .text t
  | .code b, c :: t =>
    if c = 0x20 ∨ c = 0x09 ∨ c = 0x0a ∨ c = 0x0d then squeeze (.code b) t
    else if c = 0x22 then c :: squeeze .text t
    else c :: squeeze (.code b) t

end Meojson.Spec
