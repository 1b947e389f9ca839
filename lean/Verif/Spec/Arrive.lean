import Verif.Spec.Grammar

/-!
# Documents that arrive byte by byte

A reader of a pipe or a socket that keeps what has come in, tries to read it after every byte, and starts anew when it could be read. Used by C111.
-/

set_option autoImplicit false

namespace Meojson.Spec

/-- What the reader has got when the bytes `s` have come in; `kept` has come in before and could not be read. -/
def arrivals {α : Type} (read : Text → Option α) : Text → Text → List α
  | _, [] => []
  | kept, c :: s => match read (kept ++ [c]) with
    | some v => v :: arrivals read [] s
    | none => arrivals read (kept ++ [c]) s

/-- The texts that the reader has tried. -/
def tries {α : Type} (read : Text → Option α) : Text → Text → List Text
  | _, [] => []
  | kept, c :: s => (kept ++ [c]) :: match read (kept ++ [c]) with
    | some _ => tries read [] s
    | none => tries read (kept ++ [c]) s

/-- A text of an array or an object with nothing after its last bracket; there may be white space before. -/
def Closed (D : Dialect) (s : Text) (j : Doc) : Prop := j.isContainer = true ∧ ∃ w t, D.ws w ∧ Val D t j ∧ s = w ++ t

end Meojson.Spec
