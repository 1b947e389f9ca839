import Verif.Spec.Grammar

/-!
# Lines of a file

What a loop `while (std::getline(file, line))` sees, and a file with a text on each line. Used by C109.
-/

set_option autoImplicit false

namespace Meojson.Spec

/-- The lines of a file: each ends before a line feed; what follows the last line feed is a line unless it is empty. -/
def lines : Text → List Text
  | [] => []
  | c :: t => if c = 0x0a then [] :: lines t else match lines t with
    | [] => [[c]]
    | l :: ls => (c :: l) :: ls

/-- The texts, with a line feed after each. -/
def lineFile (ts : List Text) : Text := ts.flatMap (· ++ [0x0a])

end Meojson.Spec
