import Verif.Spec.Grammar

/-!
# Specification: documents that differ only in the order of members

RFC 8259 section 1: an object is an unordered collection of name/value pairs, an array an ordered sequence of values.
-/

set_option autoImplicit false

namespace Meojson.Spec

mutual
/-- The same up to the order of members, at any depth. Numbers are compared as they are written. -/
inductive Doc.Alike : Doc → Doc → Prop
  | null : Doc.Alike .null .null
  | bool {b} : Doc.Alike (.bool b) (.bool b)
  | num {t} : Doc.Alike (.num t) (.num t)
  | str {s} : Doc.Alike (.str s) (.str s)
  | arr {js ks} : AlikeAll js ks → Doc.Alike (.arr js) (.arr ks)
  | obj {ms ms' ns} : ms.Perm ms' → AlikeMembers ms' ns → Doc.Alike (.obj ms) (.obj ns)
inductive AlikeAll : List Doc → List Doc → Prop
  | nil : AlikeAll [] []
  | cons {j k js ks} : Doc.Alike j k → AlikeAll js ks → AlikeAll (j :: js) (k :: ks)
inductive AlikeMembers : List (Text × Doc) → List (Text × Doc) → Prop
  | nil : AlikeMembers [] []
  | cons {key j k ms ns} : Doc.Alike j k → AlikeMembers ms ns → AlikeMembers ((key, j) :: ms) ((key, k) :: ns)
end

/-- Pieces of text with commas between them. -/
def commas : List Text → Text
  | [] => []
  | [t] => t
  | t :: ts => t ++ 0x2c :: commas ts

end Meojson.Spec
