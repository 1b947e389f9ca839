import Verif.Tests.Basic

/-! # test/value_test.cpp, smart_ptr_test.cpp and enum_test.cpp on the model -/

set_option autoImplicit false

namespace Meojson.Tests
open Value

/-- `json::value(x)` for a const lvalue -/
def make (t : Ty) (x : CVal) : Out Value := (t.store F .constLv x).bind fun r => .ok r.1

/-- `json::value(std::move(x))` -/
def makeMove (t : Ty) (x : CVal) : Out Value := (t.store F .rv x).bind fun r => .ok r.1

/-- `v.is<T>()` and `v.as<T>()`, on an expression for `v` -/
def isA (t : Ty) (v : Value) : Bool := decide (t.is F v = .ok true)
def isNot (t : Ty) (v : Value) : Bool := decide (t.is F v = .ok false)

def color : EnumDecl := { under := .int cInt, type := b!"Color", scope := b!"Color::", items := [(b!"Red", 1), (b!"Green", 2), (b!"Blue", 4)] }
def direction : EnumDecl := { under := .int cInt, type := b!"Direction", scope := b!"Direction::", items := [(b!"Up", 0), (b!"Down", 1), (b!"Left", 2), (b!"Right", 3)] }
/-- `MEOJSON_ENUM_RANGE(Idle, Stopped)` -/
def status : EnumDecl :=
  { under := .int cInt, min := 100, max := 103, type := b!"Status", scope := b!"Status::",
    items := [(b!"Idle", 100), (b!"Running", 101), (b!"Paused", 102), (b!"Stopped", 103), (b!"_MEOJSON_ENUM_MIN", 100), (b!"_MEOJSON_ENUM_MAX", 103)] }

def Color : Ty := .enum (color.toEnum .gcc)
def Direction : Ty := .enum (direction.toEnum .gcc)
def Status : Ty := .enum (status.toEnum .gcc)

/-! ### value_test.cpp -/

/-- 45-66 -/
example : Value.null.type = .null ∧ make .null .null = .ok .null ∧ make .bool (.bool true) = .ok (.ofBool true) ∧ (ofBool true).asBoolean = .ok true ∧ (ofBool false).asBoolean = .ok false := by
  decide +kernel

/-- 68-89 -/
example : (make (.int cInt) (.int 42)) = .ok (.ofInt 42) ∧ (make (.float .single) (.flt (flt .single b!"3.14"))) = .ok (.str .number b!"3.1400001") ∧
    (make (.float .double) (.flt (flt .double b!"3.14159"))) = .ok (.str .number b!"3.1415899999999999") ∧
    (make (.float .extended) (.flt (flt .extended b!"3.14159265358979323846"))) = .ok (.str .number b!"3.14159265358979323851") := by decide +kernel

/-- 91-102 -/
example : (make .string (.str b!"hello")).bind asString = .ok b!"hello" ∧ (makeMove .string (.str b!"world")).bind asString = .ok b!"world" := by decide +kernel

def vObj : Value := .ofObject (object [(b!"key1", .ofInt 1), (b!"key2", ofText b!"value2")])

/-- 104-140 -/
example : vObj.type = .object ∧ vObj.copied = .ok vObj ∧ vObj.movedOut.2 = .ok vObj ∧ (vObj.asObject.bind fun ms => .ok ms.length) = .ok 2 := by decide +kernel

/-- 142-160 -/
example : make Color (.enum 1) = .ok (ofText b!"Red") := by decide +kernel

def seven : List Value := [.null, .ofBool true, .ofInt 42, ofDouble b!"3.14", ofText b!"hello", .ofArray [.ofInt 1, .ofInt 2, .ofInt 3], .ofObject [(b!"key", ofText b!"value")]]

/-- 170-258 -/
example : seven.map type = [.null, .boolean, .number, .number, .string, .array, .object] ∧ seven.all valid ∧
    (ofText []).empty = .ok true ∧ (ofArray []).empty = .ok true ∧ (ofObject []).empty = .ok true ∧ (seven.drop 4).all (fun v => v.empty = .ok false) := by decide +kernel

/-- 260-289: `std::numeric_limits<unsigned>::max() + 1` is 4294967296 -/
example : isA .bool (.ofBool true) ∧ isA (.int cInt) (.ofInt 42) ∧ isNot (.int cInt) (ofDouble b!"1.2") ∧ isNot (.int unsigned) (.ofInt (-1)) ∧
    isNot (.int unsigned) (.str .number b!"4294967296") ∧ isA .string (ofText b!"hello") := by decide +kernel

/-- 291-313 -/
example : Value.all (isInt cInt) (.ofArray [.ofInt 1, .ofInt 2, .ofInt 3, .ofInt 4, .ofInt 5]) = .ok true ∧
    Value.all (isInt cInt) (.ofArray [.ofInt 1, ofText b!"two", .ofInt 3]) = .ok false ∧
    Value.all (isInt cInt) (.ofObject [(b!"a", .ofInt 1), (b!"b", .ofInt 2)]) = .ok true ∧
    Value.all (isInt cInt) (.ofObject [(b!"a", .ofInt 1), (b!"b", ofText b!"two")]) = .ok false := by decide +kernel

def vArr : Value := .ofArray [.ofInt 1, .ofInt 2, .ofInt 3, ofText b!"four", .ofInt 5]

/-- 324-368 -/
example : vArr.containsPos 0 = .ok true ∧ vArr.containsPos 4 = .ok true ∧ vArr.containsPos 5 = .ok false ∧ (vArr.atPos 0).bind (asInt cInt) = .ok 1 ∧
    (vArr.atPos 3).bind asString = .ok b!"four" ∧ vArr.findPosAs (isInt cInt) (asInt cInt) 0 = .ok (some 1) ∧ vArr.findPos 0 = .ok (some (.ofInt 1)) ∧ vArr.findPos 10 = .ok none := by
  decide +kernel

def vPerson : Value := .ofObject (object [(b!"name", ofText b!"Alice"), (b!"age", .ofInt 30), (b!"city", ofText b!"NYC")])

/-- 370-432 -/
example : vPerson.containsKey b!"name" = .ok true ∧ vPerson.containsKey b!"age" = .ok true ∧ vPerson.containsKey b!"country" = .ok false ∧ vPerson.containsKey b!"city" = .ok true ∧
    (vPerson.atKey b!"name").bind asString = .ok b!"Alice" ∧ (vPerson.atKey b!"age").bind (asInt cInt) = .ok 30 ∧
    vPerson.findKeyAs (fun v => .ok (v.type = .string)) asString b!"name" = .ok (some b!"Alice") ∧ vPerson.findKey b!"country" = .ok none ∧
    vPerson.getPath (isInt cInt) (asInt cInt) 0 [.key b!"age"] = .ok 30 ∧ vPerson.getPath (isInt cInt) (asInt cInt) 25 [.key b!"unknown"] = .ok 25 := by decide +kernel

def nested : Value := .ofObject [(b!"user", .ofObject [(b!"info", .ofObject [(b!"name", ofText b!"Bob")])])]

/-- 434-445 -/
example : getTextPath (.string b!"Unknown") [.key b!"user", .key b!"info", .key b!"name"] nested = .ok b!"Bob" ∧
    getTextPath (.string b!"N/A") [.key b!"user", .key b!"info", .key b!"age"] nested = .ok b!"N/A" := by decide +kernel

/-- 447-467: erasing at the first and at the end iterator -/
example : ArrayData.erase [.ofInt 1] 0 = ([], true) ∧ ArrayData.erase [] 0 = ([], false) ∧ ObjectData.erase [(b!"key", .ofInt 1)] b!"key" = ([], true) := by decide +kernel

/-- 478-559 -/
example : (ofInt 42).asInt cInt = .ok 42 ∧ (ofInt 42).asInt long = .ok 42 ∧ (ofInt 42).asInt unsigned = .ok 42 ∧ (ofInt 42).asInt unsignedLong = .ok 42 ∧
    (ofDouble b!"1.2").asInt cInt = .throw .json ∧ (ofInt (-1)).asInt unsigned = .throw .json ∧ (Value.str .number b!"2147483648").asInt cInt = .throw .json ∧
    (Value.str .number b!"4294967296").asInt unsigned = .throw .json := by decide +kernel

/-- 561-573: exactly, not only within 0.001 and 0.00001 -/
example : (Value.str .number (F.print .single (flt .single b!"3.14"))).asFloat F .single = .ok (flt .single b!"3.14") ∧
    (ofDouble b!"3.14159").asFloat F .double = .ok (flt .double b!"3.14159") := by decide +kernel

/-- 575-635 -/
example : (ofText b!"hello world").asString = .ok b!"hello world" ∧ gives (Ty.bool.as F (.ofBool true)) (.bool true) ∧ gives ((Ty.int cInt).as F (.ofInt 100)) (.int 100) ∧
    gives (Ty.string.as F (ofText b!"test")) (.str b!"test") ∧
    gives ((Ty.seq (.int cInt)).as F (.ofArray [.ofInt 1, .ofInt 2, .ofInt 3, .ofInt 4, .ofInt 5])) (.list [.int 1, .int 2, .int 3, .int 4, .int 5]) ∧
    gives ((Ty.map (.int cInt)).as F (.ofObject [(b!"a", .ofInt 1), (b!"b", .ofInt 2)])) (.map [(b!"a", .int 1), (b!"b", .int 2)]) := by decide +kernel

/-- 646-668 -/
example : ((ofArray [.ofInt 1, .ofInt 2, .ofInt 3]).indexPos 0).2 = .ok (.ofInt 1) ∧ ((ofArray [.ofInt 1, .ofInt 2, .ofInt 3]).indexPos 2).2 = .ok (.ofInt 3) ∧
    ((ofObject [(b!"a", .ofInt 1), (b!"b", .ofInt 2)]).indexKey b!"b").2 = .ok (.ofInt 2) ∧
    ((ofObject [(b!"a", .ofInt 1)]).indexKey b!"c") = (.ofObject [(b!"a", .ofInt 1), (b!"c", .null)], .ok .null) := by decide +kernel

/-- 670-682 -/
example : Value.eq (.ofInt 42) (.ofInt 42) = .ok true ∧ Value.eq (.ofInt 42) (.ofInt 43) = .ok false := by decide +kernel

/-- 684-718 -/
example : (ofObject [(b!"a", .ofInt 1), (b!"b", .ofInt 2)]).or [(b!"b", .ofInt 3), (b!"c", .ofInt 4)] = .ok (.ofObject [(b!"a", .ofInt 1), (b!"b", .ofInt 3), (b!"c", .ofInt 4)]) ∧
    (ofObject [(b!"x", .ofInt 1)]).orAssign [(b!"y", .ofInt 2)] = (.ofObject [(b!"x", .ofInt 1), (b!"y", .ofInt 2)], .ok ()) ∧
    (ofArray [.ofInt 1, .ofInt 2]).plus [.ofInt 3, .ofInt 4] = .ok (.ofArray [.ofInt 1, .ofInt 2, .ofInt 3, .ofInt 4]) ∧
    (ofArray [.ofInt 1, .ofInt 2]).plusAssign [.ofInt 3, .ofInt 4] = (.ofArray [.ofInt 1, .ofInt 2, .ofInt 3, .ofInt 4], .ok ()) := by decide +kernel

/-- 737-756 -/
example : ([.ofInt 1, .ofInt 2, ofText b!"three"].foldl (fun v x => (emplaceBack v x).1) (.ofArray [])) = .ofArray [.ofInt 1, .ofInt 2, ofText b!"three"] ∧
    ([(b!"key1", ofText b!"value1"), (b!"key2", .ofInt 42)].foldl (fun v e => (emplaceKey v e.1 e.2).1) (.ofObject [])) =
      .ofObject [(b!"key1", ofText b!"value1"), (b!"key2", .ofInt 42)] := by decide +kernel

/-- 758-796 -/
example : (ofArray [.ofInt 1, .ofInt 2, .ofInt 3, .ofInt 4, .ofInt 5]).erasePos 2 = (.ofArray [.ofInt 1, .ofInt 2, .ofInt 4, .ofInt 5], .ok true) ∧
    (ofArray [.ofInt 1, .ofInt 2, .ofInt 4, .ofInt 5]).erasePos 10 = (.ofArray [.ofInt 1, .ofInt 2, .ofInt 4, .ofInt 5], .ok false) ∧
    (ofObject [(b!"a", .ofInt 1), (b!"b", .ofInt 2), (b!"c", .ofInt 3)]).eraseKey b!"b" = (.ofObject [(b!"a", .ofInt 1), (b!"c", .ofInt 3)], .ok true) ∧
    (ofObject [(b!"a", .ofInt 1), (b!"c", .ofInt 3)]).eraseKey b!"d" = (.ofObject [(b!"a", .ofInt 1), (b!"c", .ofInt 3)], .ok false) ∧
    (ofArray [.ofInt 1]).clear.empty = .ok true := by decide +kernel

/-- 798-834: the text itself instead of "not empty" -/
example : (ofObject (object [(b!"string", ofText b!"hello"), (b!"number", .ofInt 42), (b!"float", ofDouble b!"3.14"), (b!"bool", .ofBool true), (b!"null", .null),
      (b!"array", .ofArray [.ofInt 1, .ofInt 2, .ofInt 3]), (b!"object", .ofObject [(b!"nested", ofText b!"value")])])).dumps =
    .ok b!"{\"array\":[1,2,3],\"bool\":true,\"float\":3.1400000000000001,\"null\":null,\"number\":42,\"object\":{\"nested\":\"value\"},\"string\":\"hello\"}" := by decide +kernel

/-- 844-925 -/
example : make .null .null = .ok .null ∧ isA .null .null ∧ isNot .null (.ofInt 42) ∧ gives (Ty.null.as F .null) .null ∧ throws (Ty.null.as F (.ofInt 42)) := by decide +kernel

/-- 927-987 -/
example : asView (ofText b!"hello world") = .ok (.value, b!"hello world") ∧ asView (.ofInt 42) = .throw .json := by decide +kernel

/-- 989-1011: `std::filesystem::path` is converted through its text -/
example : gives (Ty.string.as F (ofText b!"/usr/local/bin")) (.str b!"/usr/local/bin") ∧ gives (Ty.string.take F (ofText b!"/tmp/test")).2 (.str b!"/tmp/test") := by decide +kernel

def monoVariant : Ty := .variant (.cons .null (.cons (.int cInt) (.cons .string .nil)))

/-- 1013-1035 -/
example : make monoVariant (.alt 0 .null) = .ok .null ∧ make monoVariant (.alt 1 (.int 42)) = .ok (.ofInt 42) ∧ make monoVariant (.alt 2 (.str b!"test")) = .ok (ofText b!"test") := by
  decide +kernel

/-! ### smart_ptr_test.cpp -/

def ptr (t : Ty) : Ty := .nullable .pointer t

/-- 27-68 -/
example : make (ptr (.int cInt)) (.just (.int 42)) = .ok (.ofInt 42) ∧ make (ptr (.int cInt)) .nothing = .ok .null ∧ make (ptr .string) (.just (.str b!"hello")) = .ok (ofText b!"hello") ∧
    make (ptr .bool) (.just (.bool true)) = .ok (.ofBool true) ∧ make (ptr (.float .double)) (.just (.flt (flt .double b!"3.14"))) = .ok (ofDouble b!"3.14") := by decide +kernel

/-- 79-119 -/
example : makeMove (ptr (.int cInt)) (.just (.int 42)) = .ok (.ofInt 42) ∧ makeMove (ptr (.int cInt)) .nothing = .ok .null ∧
    makeMove (ptr .string) (.just (.str b!"world")) = .ok (ofText b!"world") ∧ makeMove (ptr .bool) (.just (.bool false)) = .ok (.ofBool false) := by decide +kernel

/-- 129-185 -/
example : isA (ptr (.int cInt)) (.ofInt 42) ∧ isA (ptr (.int cInt)) .null ∧ isNot (ptr (.int cInt)) (ofText b!"hello") ∧ isA (ptr .string) (ofText b!"hello") ∧
    isNot (ptr .string) (.ofInt 42) := by decide +kernel

/-- 195-259 and 269-329 -/
example : gives ((ptr (.int cInt)).as F (.ofInt 100)) (.just (.int 100)) ∧ gives ((ptr (.int cInt)).take F (.ofInt 200)).2 (.just (.int 200)) ∧
    gives ((ptr (.int cInt)).as F .null) .nothing ∧ gives ((ptr .string).as F (ofText b!"test")) (.just (.str b!"test")) := by decide +kernel

/-- 339-391 -/
example : make (ptr (.seq (.int cInt))) (.just (.list [.int 1, .int 2, .int 3])) = .ok (.ofArray [.ofInt 1, .ofInt 2, .ofInt 3]) ∧
    gives ((ptr (.seq (.int cInt))).as F (.ofArray [.ofInt 4, .ofInt 5, .ofInt 6])) (.just (.list [.int 4, .int 5, .int 6])) ∧
    makeMove (ptr (.seq (.int cInt))) (.just (.list [.int 7, .int 8, .int 9])) = .ok (.ofArray [.ofInt 7, .ofInt 8, .ofInt 9]) ∧
    isA (ptr (.seq (.int cInt))) (.ofArray [.ofInt 1, .ofInt 2, .ofInt 3]) := by decide +kernel

/-! ### enum_test.cpp -/

/-- 45-66 -/
example : make Color (.enum 1) = .ok (ofText b!"Red") ∧ make Direction (.enum 2) = .ok (ofText b!"Left") := by decide +kernel

/-- 68-99 -/
example : isA Color (ofText b!"Green") ∧ gives (Color.as F (ofText b!"Green")) (.enum 2) ∧ isA Color (ofText b!"blue") ∧ gives (Color.as F (ofText b!"blue")) (.enum 4) := by decide +kernel

/-- 101-136 -/
example : isNot Color (ofText b!"Purple") ∧ throws (Color.as F (ofText b!"Purple")) ∧ make Color (.enum 3) = .throw .json := by decide +kernel

/-- 138-150 -/
example : isA Color (.ofInt 2) ∧ gives (Color.as F (.ofInt 2)) (.enum 2) := by decide +kernel

/-- 152-221 -/
example : make Status (.enum 101) = .ok (ofText b!"Running") ∧ isA Status (ofText b!"Paused") ∧ gives (Status.as F (ofText b!"Paused")) (.enum 102) ∧
    isA Status (ofText b!"stopped") ∧ gives (Status.as F (ofText b!"stopped")) (.enum 103) ∧ isA Status (.ofInt 103) ∧ gives (Status.as F (.ofInt 103)) (.enum 103) ∧
    make Status (.enum 100) = .ok (ofText b!"Idle") ∧ make Status (.enum 103) = .ok (ofText b!"Stopped") := by decide +kernel

end Meojson.Tests
