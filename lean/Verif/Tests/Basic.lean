import Verif.Model.PackedBytes
import Verif.Model.Entry
import Verif.Model.Handle
import Verif.Model.Containers
import Verif.Model.Take
import Verif.Model.FloatText
import Verif.Model.EnumName
import Verif.Model.GetText

/-!
# The library's tests, on the model: common definitions

The files beside this one run the assertions of /repo/test on the model. Nothing is proved in general here: the tests are the library's own statement of what it does, and
this checks that the model does the same. Left out are assertions that a text is not empty where a stronger one stands in its place, and what only exercises the
standard library (iterators).

The tests are built with `MEOJSON_KEEP_FLOATING_PRECISION` and `MEOJSON_FS_PATH_EXTENSION` (CMakeLists.txt:78).
-/

set_option autoImplicit false

namespace Meojson.Tests

/-- The bytes of a literal. -/
scoped macro:max "b!" s:str : term => do
  let bytes := s.getString.toUTF8.toList.map fun c => Lean.Syntax.mkNumLit (toString c.toNat)
  let bytes := bytes.toArray
  `(([$[$bytes],*] : Bytes))

/-- The conversions of floating-point numbers of the build the tests are made with. -/
def F : Floats := floats true [0x2e]

/-- A floating-point constant in the source: the nearest number of the format. -/
def flt (f : FloatFmt) (s : Bytes) : Fl := (readFloat f [0x2e] s).getD (.nan false)

/-- `json::value(<double>)` -/
def ofDouble (s : Bytes) : Value := .str .number (F.print .double (flt .double s))

/-- `json::value("...")` -/
def ofText (s : Bytes) : Value := .str .string s

/-- `json::object { ... }` -/
def object (ms : List (Bytes × Value)) : List (Bytes × Value) := ObjectData.ofInit ms []

def long : IntTy := ⟨true, 64⟩
def unsigned : IntTy := ⟨false, 32⟩
def unsignedLong : IntTy := ⟨false, 64⟩

mutual
/-- Equality of C++ values -/
def same : CVal → CVal → Bool
  | .bool a, .bool b => a == b
  | .int a, .int b => a == b
  | .flt a, .flt b => decide (a = b)
  | .str a, .str b => a == b
  | .null, .null => true
  | .json a, .json b => decide (a = b)
  | .jarray a, .jarray b => decide (a = b)
  | .jobject a, .jobject b => decide (a = b)
  | .nothing, .nothing => true
  | .just a, .just b => same a b
  | .enum a, .enum b => a == b
  | .list a, .list b => sameAll a b
  | .alt i a, .alt j b => i == j && same a b
  | .map a, .map b => sameMembers a b
  | _, _ => false
def sameAll : List CVal → List CVal → Bool
  | [], [] => true
  | a :: as, b :: bs => same a b && sameAll as bs
  | _, _ => false
def sameMembers : List (Bytes × CVal) → List (Bytes × CVal) → Bool
  | [], [] => true
  | (k, a) :: as, (l, b) :: bs => k == l && same a b && sameMembers as bs
  | _, _ => false
end

/-- A conversion returns this value. -/
def gives (r : Out CVal) (x : CVal) : Bool :=
  match r with
  | .ok y => same y x
  | _ => false

/-- A conversion throws `json::exception`. -/
def throws (r : Out CVal) : Bool :=
  match r with
  | .throw e => decide (e = .json)
  | _ => false

end Meojson.Tests
