import Verif.Tests.Basic

/-! # test/parse_test.cpp, unicode_test.cpp, precision_test.cpp and jsonc_test.cpp on the model -/

set_option autoImplicit false

namespace Meojson.Tests

/-- The test program is built for whatever the machine has: the model is run as each of these builds. -/
def builds : List (Option Traits) := [none, (Accel.u32 true).traits, (Accel.u64 true).traits, (Accel.u64 false).traits, (Accel.sse true).traits, Accel.avx2.traits, Accel.neon.traits]

/-- `json::parse` and `json::parsec` -/
def reads (s : Bytes) (v : Value) : Bool := builds.all fun a => parse a s = some v
def refuses (s : Bytes) : Bool := builds.all fun a => parse a s = none
def readsC (s : Bytes) (v : Value) : Bool := builds.all fun a => parsec a s = some v

/-! ### parse_test.cpp -/

/-- 18-27 -/
example : reads b!"{}" (.obj .object []) := by decide +kernel

/-- 31-47 -/
example : refuses b!"{\"key\": 1, \"key\": 2}" ∧ refuses b!"{\\" ∧ refuses b!"{\\**" := by decide +kernel

/-- 52-74: raw control characters in a string -/
example : refuses b!"{\"key\":\"\x01\"}" ∧ refuses b!"{\"key\":\"\n\"}" ∧ refuses b!"{\"key\":\"\t\"}" ∧ refuses b!"{\"key\":\"\r\"}" := by decide +kernel

/-- 76-84 -/
example : reads b!"{\"key\":\"\\u0001\"}" (.obj .object [(b!"key", ofText [1])]) := by decide +kernel

def escapedCommon : Value := .obj .object [(b!"carriage_return", ofText b!"\r"), (b!"newline", ofText b!"\n"), (b!"tab", ofText b!"\t")]

/-- 86-110 -/
example : reads b!"{\"newline\":\"\\n\",\"tab\":\"\\t\",\"carriage_return\":\"\\r\"}" escapedCommon ∧
    escapedCommon.dumps = .ok b!"{\"carriage_return\":\"\\r\",\"newline\":\"\\n\",\"tab\":\"\\t\"}" := by decide +kernel

/-- 116-129 -/
example : readsC b!"{ \"key\": 1, }" (.obj .object [(b!"key", .ofInt 1)]) ∧ readsC b!"[ 1, 2, ]" (.arr .array [.ofInt 1, .ofInt 2]) := by decide +kernel

/-- 134-151 -/
example : readsC b!"
/*123//321
123*/{ \"key\"://456/*789
 1, }
/* trail */
// 111
" (.obj .object [(b!"key", .ofInt 1)]) ∧ readsC b!"{}//" (.obj .object []) := by decide +kernel

/-! ### unicode_test.cpp -/

/-- 6-24 -/
example : reads b!"{ \"test\": \"abc\\u9a8fdef\\ud83d\\udca9ghi\" }" (.obj .object [(b!"test", ofText b!"abc\u9a8fdef💩ghi")]) := by decide +kernel

/-! ### precision_test.cpp -/

/-- 7-29 -/
example : Value.objDumps (object [(b!"double", ofDouble b!"3.141592653589793")]) = .ok b!"{\"double\":3.1415926535897931}" ∧
    reads b!"{\"double\":3.1415926535897931}" (.obj .object (object [(b!"double", ofDouble b!"3.141592653589793")])) ∧
    (ofDouble b!"3.141592653589793").asFloat F .double = .ok (flt .double b!"3.141592653589793") := by decide +kernel

/-! ### jsonc_test.cpp -/

/-- 24-41 -/
example : readsC b!"
        {
            // This is a comment
            \"key1\": \"value1\",
            \"key2\": 42 // Another comment
        }
    " (.obj .object [(b!"key1", ofText b!"value1"), (b!"key2", .ofInt 42)]) := by decide +kernel

/-- 43-57 -/
example : readsC b!"
        {
            /* This is a
               multi-line comment */
            \"key1\": \"value1\",
            \"key2\": /* inline comment */ 42
        }
    " (.obj .object [(b!"key1", ofText b!"value1"), (b!"key2", .ofInt 42)]) := by decide +kernel

/-- 59-73 -/
example : readsC b!"
        /* Header comment */
        {
            \"key1\": \"value1\", // Line comment
            /* Block comment */ \"key2\": 42
        }
        // Trailing comment
    " (.obj .object [(b!"key1", ofText b!"value1"), (b!"key2", .ofInt 42)]) := by decide +kernel

/-- 84-97 -/
example : readsC b!"{
        \"key1\": \"value1\",
        \"key2\": \"value2\",
    }" (.obj .object [(b!"key1", ofText b!"value1"), (b!"key2", ofText b!"value2")]) := by decide +kernel

/-- 99-114 -/
example : readsC b!"[
        1,
        2,
        3,
    ]" (.arr .array [.ofInt 1, .ofInt 2, .ofInt 3]) := by decide +kernel

/-- 116-126 -/
example : readsC b!"{
        \"array\": [1, 2, 3,],
        \"object\": {\"a\": 1, \"b\": 2,},
    }" (.obj .object [(b!"array", .arr .array [.ofInt 1, .ofInt 2, .ofInt 3]), (b!"object", .obj .object [(b!"a", .ofInt 1), (b!"b", .ofInt 2)])]) := by decide +kernel

/-- 136-148 -/
example : readsC b!"{
        \"key1\": \"value1\",
        \"key2\": 42,
        \"key3\": [1, 2, 3]
    }" (.obj .object [(b!"key1", ofText b!"value1"), (b!"key2", .ofInt 42), (b!"key3", .arr .array [.ofInt 1, .ofInt 2, .ofInt 3])]) := by decide +kernel

/-- 150-163 -/
example : refuses b!"{\"key\": 1,}" ∧ readsC b!"{\"key\": 1,}" (.obj .object [(b!"key", .ofInt 1)]) := by decide +kernel

def deepNested : Value :=
  .obj .object [(b!"level1", .obj .object [(b!"level2", .obj .object [(b!"level3", .obj .object [(b!"level4", .arr .array [.ofInt 1, .ofInt 2, .ofInt 3]), (b!"value", ofText b!"deep")])])])]

/-- 174-194 -/
example : deepNested.dumps = .ok b!"{\"level1\":{\"level2\":{\"level3\":{\"level4\":[1,2,3],\"value\":\"deep\"}}}}" ∧
    reads b!"{\"level1\":{\"level2\":{\"level3\":{\"level4\":[1,2,3],\"value\":\"deep\"}}}}" deepNested ∧
    Value.getTextPath (.string []) [.key b!"level1", .key b!"level2", .key b!"level3", .key b!"value"] deepNested = .ok b!"deep" := by decide +kernel

def largeArray : Value := .arr .array ((List.range 100).map fun (i : Nat) => .ofInt i)

/-- 196-208, with 100 elements instead of 1000 (C08 is about all sizes) -/
example : (largeArray.dumps.bind fun s => .ok (parse none s)) = .ok (some largeArray) := by decide +kernel

def largeObject : Value := .obj .object ((List.range 30).foldl (fun m (i : Nat) => RawObject.insertOrAssign (b!"key" ++ intText i) (.ofInt i) m) [])

/-- 210-222, with 30 members instead of 100 -/
example : (largeObject.dumps.bind fun s => .ok (parse none s)) = .ok (some largeObject) ∧ (largeObject.asObject.bind fun ms => .ok ms.length) = .ok 30 := by decide +kernel

def complexValue : Value := .obj .object (object [
    (b!"null", .null), (b!"bool_true", .ofBool true), (b!"bool_false", .ofBool false), (b!"int", .ofInt 42), (b!"float", ofDouble b!"3.14159"), (b!"string", ofText b!"hello world"),
    (b!"empty_string", ofText []), (b!"empty_array", .arr .array []), (b!"empty_object", .obj .object []),
    (b!"array", .arr .array [.ofInt 1, ofText b!"two", ofDouble b!"3.0", .ofBool true, .null]), (b!"object", .obj .object [(b!"nested", ofText b!"value")])])

/-- 224-253 -/
example : (complexValue.dumps.bind fun s => .ok (parse none s)) = .ok (some complexValue) ∧
    complexValue.atKey b!"null" = .ok .null ∧ ((complexValue.atKey b!"bool_true").bind Value.asBoolean) = .ok true ∧
    ((complexValue.atKey b!"bool_false").bind Value.asBoolean) = .ok false ∧ ((complexValue.atKey b!"int").bind (Value.asInt cInt)) = .ok 42 ∧
    ((complexValue.atKey b!"string").bind Value.asString) = .ok b!"hello world" ∧ ((complexValue.atKey b!"empty_array").bind Value.empty) = .ok true ∧
    ((complexValue.atKey b!"empty_object").bind Value.empty) = .ok true := by decide +kernel

/-- 263-269 -/
example : reads b!"{\"emoji\": \"😀\", \"chinese\": \"你好\", \"japanese\": \"こんにちは\"}"
    (.obj .object [(b!"chinese", ofText b!"你好"), (b!"emoji", ofText b!"😀"), (b!"japanese", ofText b!"こんにちは")]) := by decide +kernel

/-- 271-281 -/
example : reads b!"{\"newline\": \"line1\\nline2\", \"tab\": \"col1\\tcol2\", \"quote\": \"He said \\\"hello\\\"\"}"
    (.obj .object [(b!"newline", ofText b!"line1\nline2"), (b!"quote", ofText b!"He said \"hello\""), (b!"tab", ofText b!"col1\tcol2")]) := by decide +kernel

/-- 283-296 -/
example : reads b!"{
        \"zero\": 0,
        \"negative\": -42,
        \"float\": 3.14159,
        \"scientific\": 1.23e10,
        \"negative_scientific\": -1.23e-10
    }" (.obj .object [(b!"float", .str .number b!"3.14159"), (b!"negative", .ofInt (-42)), (b!"negative_scientific", .str .number b!"-1.23e-10"),
      (b!"scientific", .str .number b!"1.23e10"), (b!"zero", .ofInt 0)]) := by decide +kernel

/-- 298-313 -/
example : reads b!"[null, true, false, 42, \"string\", [], {}]"
    (.arr .array [.null, .ofBool true, .ofBool false, .ofInt 42, ofText b!"string", .arr .array [], .obj .object []]) := by decide +kernel

/-- 323-334 -/
example : reads b!"{}" (.obj .object []) ∧ (Value.obj .object []).empty = .ok true ∧ reads b!"[]" (.arr .array []) ∧ (Value.arr .array []).empty = .ok true := by decide +kernel

/-- 336-359 -/
example : refuses b!"null" ∧ refuses b!"true" ∧ refuses b!"42" ∧ refuses b!"\"hello\"" := by decide +kernel

/-- 361-366 -/
example : reads b!"  \n\t {  \"key\"  :  \"value\"  }  \n\t  " (.obj .object [(b!"key", ofText b!"value")]) := by decide +kernel

def specialStrings : Value := .obj .object (object [(b!"empty", ofText []), (b!"space", ofText b!" "), (b!"newline", ofText b!"\n"), (b!"tab", ofText b!"\t"),
  (b!"backslash", ofText b!"\\"), (b!"quote", ofText b!"\"")])

/-- 368-388 -/
example : specialStrings.dumps = .ok b!"{\"backslash\":\"\\\\\",\"empty\":\"\",\"newline\":\"\\n\",\"quote\":\"\\\"\",\"space\":\" \",\"tab\":\"\\t\"}" ∧
    reads b!"{\"backslash\":\"\\\\\",\"empty\":\"\",\"newline\":\"\\n\",\"quote\":\"\\\"\",\"space\":\" \",\"tab\":\"\\t\"}" specialStrings := by decide +kernel

/-- 390-414 -/
example : refuses b!"{\"key\": 1, \"key\": 2}" ∧ refuses b!"{key: value}" ∧ refuses b!"[1, 2, 3,]" ∧ refuses b!"{\"key\": }" := by decide +kernel

def formatTest : Value := .obj .object [(b!"a", .ofInt 1), (b!"b", .arr .array [.ofInt 1, .ofInt 2, .ofInt 3])]

/-- 416-427 -/
example : formatTest.dumps = .ok b!"{\"a\":1,\"b\":[1,2,3]}" ∧
    formatTest.dumps (some 2) = .ok b!"{\n  \"a\": 1,\n  \"b\": [\n    1,\n    2,\n    3\n  ]\n}" ∧
    formatTest.formatTo 4 0 = .ok b!"{\n    \"a\": 1,\n    \"b\": [\n        1,\n        2,\n        3\n    ]\n}" := by decide +kernel

end Meojson.Tests
