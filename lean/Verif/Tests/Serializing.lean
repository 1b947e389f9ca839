import Verif.Tests.Value
import Verif.Model.Heap

/-! # test/serializing_test.cpp and sample/sample.cpp on the model; the statements are run in the memory model -/

set_option autoImplicit false

namespace Meojson.Tests
open Value Mem

/-- `x[p1]...[pn][k]`, where the value at `p` may not have `k` yet -/
def at_ (path : List Bytes) : Place := ⟨0, path.map .key⟩

/-- `root[...][k] = v;` -/
def set (path : List Bytes) (k : Bytes) (v : Value) : List Op := [.index (at_ path) k, .assign (at_ (path ++ [k])) v]
/-- `root[...].emplace(v);`, with a temporary for the value -/
def push (path : List Bytes) (v : Value) : List Op := [.init 1 v, .emplaceBackMove (at_ path) ⟨1, []⟩ [], .drop 1]
/-- `root[...].emplace(k, v);` -/
def put (path : List Bytes) (k : Bytes) (v : Value) : List Op := [.init 1 v, .emplaceKeyMove (at_ path) k ⟨1, []⟩ [], .drop 1]
/-- `root[...] += json::array { ... };` -/
def append (path : List Bytes) (vs : List Value) : List Op := [.init 1 (.ofArray vs), .appendMove (at_ path) ⟨1, []⟩ (fun _ => []), .drop 1]
/-- `root[...] |= json::object { ... };` -/
def merge (path : List Bytes) (ms : List (Bytes × Value)) : List Op := [.init 1 (.ofObject ms), .mergeMove (at_ path) ⟨1, []⟩ (fun _ => []), .drop 1]

/-- The value of `root` after the statements, when nothing runs out of memory. -/
def after (ops : List Op) : Option Value :=
  match run (fun _ => false) .init (.init 0 .null :: ops) with
  | .done st => st.value 0
  | _ => none

/-- The number of cells of the heap that are in use when `root` is gone, too. -/
def leaked (ops : List Op) : Option Nat :=
  match run (fun _ => false) .init (.init 0 .null :: ops ++ [.drop 0]) with
  | .done st => some ((List.range st.heap.next).filter fun a => (st.heap.cell a).isSome).length
  | _ => none

def fromC (t : Ty) (x : CVal) : Value := match make t x with | .ok v => v | _ => .invalid

/-! ### serializing_test.cpp, `serializing` -/

def setOf : CVal → CVal → Bool
  | .int a, .int b => a < b
  | .str a, .str b => bytesLt a b
  | _, _ => false

def complexTy : Ty := .seq (.seq (.set setOf (.int cInt)))

/-- test/serializing_test.cpp:34-139; the statements that assign the same again are left out -/
def serializing : List Op :=
  set [] b!"hello" (ofText b!"meojson") ++ set [] b!"Pi" (ofDouble b!"3.1416") ++ set [] b!"null" .null ++
  set [] b!"obj" (.ofObject (object [(b!"obj_key1", ofText b!"Hi"), (b!"obj_key2", .ofInt 123), (b!"obj_key3", .ofBool true)])) ++
  put [b!"obj"] b!"obj_key4" (.ofInt 789) ++ put [b!"obj"] b!"obj_key5" (.ofObject [(b!"key4 child", ofText b!"i am object value")]) ++
  [.index (at_ []) b!"another_obj", .index (at_ [b!"another_obj"]) b!"child"] ++ set [b!"another_obj", b!"child"] b!"grand" (ofText b!"i am grand") ++
  merge [b!"obj"] (object [(b!"obj_key6", ofText b!"i am string"), (b!"obj_key7", .ofArray [ofText b!"i", ofText b!"am", ofText b!"array"])]) ++
  set [] b!"arr" (.ofArray [.ofInt 1, .ofInt 2, .ofInt 3]) ++ push [b!"arr"] (.ofInt 4) ++ push [b!"arr"] (.ofInt 5) ++ append [b!"arr"] [.ofInt 6, .ofInt 7] ++
  set [] b!"str" (fromC .string (.str b!"hello")) ++
  set [] b!"arr from vec" (fromC (.seq (.int cInt)) (.list [.int 1, .int 2, .int 3, .int 4, .int 5])) ++
  set [] b!"obj from map" (fromC (.map (.int cInt)) (.map [(b!"key1", .int 1), (b!"key2", .int 2)])) ++
  set [] b!"arr from set" (fromC (.set setOf .string) (.list [.str b!"a", .str b!"bb\n\nb", .str b!"cc\t"])) ++
  set [] b!"complex" (fromC complexTy (.list [.list [.list [.int 1, .int 2, .int 3], .list [.int 4, .int 5]], .list [.list [.int 6], .list [.int 7, .int 8]]])) ++
  set [] b!"a\\n" (ofText b!"1a\\n") ++ set [] b!"a\n" (ofText b!"2a\n") ++ set [] b!"control" (ofText [0x61, 1, 0, 0x62])

def root : Value := .ofObject [
  (b!"Pi", ofDouble b!"3.1416"), (b!"a\n", ofText b!"2a\n"), (b!"a\\n", ofText b!"1a\\n"),
  (b!"another_obj", .ofObject [(b!"child", .ofObject [(b!"grand", ofText b!"i am grand")])]),
  (b!"arr", .ofArray [.ofInt 1, .ofInt 2, .ofInt 3, .ofInt 4, .ofInt 5, .ofInt 6, .ofInt 7]),
  (b!"arr from set", .ofArray [ofText b!"a", ofText b!"bb\n\nb", ofText b!"cc\t"]),
  (b!"arr from vec", .ofArray [.ofInt 1, .ofInt 2, .ofInt 3, .ofInt 4, .ofInt 5]),
  (b!"complex", .ofArray [.ofArray [.ofArray [.ofInt 1, .ofInt 2, .ofInt 3], .ofArray [.ofInt 4, .ofInt 5]], .ofArray [.ofArray [.ofInt 6], .ofArray [.ofInt 7, .ofInt 8]]]),
  (b!"control", ofText [0x61, 1, 0, 0x62]), (b!"hello", ofText b!"meojson"), (b!"null", .null),
  (b!"obj", .ofObject [(b!"obj_key1", ofText b!"Hi"), (b!"obj_key2", .ofInt 123), (b!"obj_key3", .ofBool true), (b!"obj_key4", .ofInt 789),
    (b!"obj_key5", .ofObject [(b!"key4 child", ofText b!"i am object value")]), (b!"obj_key6", ofText b!"i am string"),
    (b!"obj_key7", .ofArray [ofText b!"i", ofText b!"am", ofText b!"array"])]),
  (b!"obj from map", .ofObject [(b!"key1", .ofInt 1), (b!"key2", .ofInt 2)]), (b!"str", ofText b!"hello")]

example : after serializing = some root := by decide +kernel
example : leaked serializing = some 0 := by decide +kernel

/-- 65-112 -/
example : root.getPath (fun v => .ok (v.type = .array)) asArray [] [.key b!"arr"] = .ok [.ofInt 1, .ofInt 2, .ofInt 3, .ofInt 4, .ofInt 5, .ofInt 6, .ofInt 7] ∧
    (root.atKey b!"arr").bind (Value.all (isInt cInt)) = .ok true ∧ (root.atKey b!"obj from map").bind (Value.all (isInt cInt)) = .ok true ∧
    gives ((root.atKey b!"arr from vec").bind ((Ty.seq (.int cInt)).as F)) (.list [.int 1, .int 2, .int 3, .int 4, .int 5]) ∧
    gives ((root.atKey b!"obj from map").bind ((Ty.map (.int cInt)).as F)) (.map [(b!"key1", .int 1), (b!"key2", .int 2)]) := by decide +kernel

/-- 117-150 -/
example : (root.atKey b!"a\\n").bind asString = .ok b!"1a\\n" ∧ (root.atKey b!"a\n").bind asString = .ok b!"2a\n" ∧
    (root.atKey b!"a\\n").bind dumps = .ok b!"\"1a\\\\n\"" ∧ (root.atKey b!"a\n").bind dumps = .ok b!"\"2a\\n\"" ∧
    (root.atKey b!"control").bind dumps = .ok b!"\"a\\u0001\\u0000b\"" ∧
    parse none b!"{\"control\":\"a\\u0001\\u0000b\"}" = some (.ofObject [(b!"control", ofText [0x61, 1, 0, 0x62])]) := by decide +kernel

/-! ### serializing_test.cpp, `jsonizing` -/

def crazy : Ty := .map (.seq (.map (.seq (.int cInt))))
def crazyValue : CVal := .map [(b!"key_1", .list [.map [(b!"inner_key_1", .list [.int 7, .int 8, .int 9])], .map [(b!"inner_key_2", .list [.int 10])]])]

def enumW : EnumDecl := { under := .int cInt, type := b!"jsonizing()::MyStruct::W", scope := b!"jsonizing()::MyStruct::W::", items := [(b!"A", 0), (b!"B", 1), (b!"C", 2)] }
def varT : Ty := .variant (.cons .bool (.cons .string (.cons (.fixed 4 (.int cInt)) .nil)))

def myStruct : Ty := .struct (.var b!"str1" (.str []) .string <| .var b!"str2" (.str []) .string <| .var b!"str3" (.str []) .string <|
  .var b!"vec" (.list []) (.seq (.float .double)) <| .var b!"map" (.map []) crazy <| .var b!"arr" (.list [.int 0, .int 0, .int 0, .int 0, .int 0]) (.fixed 5 (.int cInt)) <|
  .var b!"w" (.enum 0) (.enum (enumW.toEnum .gcc)) <| .var b!"var" (.alt 0 (.bool false)) varT .done)

/-- Uninitialised in the test; some numbers here. -/
def mine : CVal := .list [.str b!"Hello", .str b!"World", .str b!"!", .list [.flt (flt .double b!"0.5")], crazyValue,
  .list [.int 3, .int 1, .int 4, .int 1, .int 5], .enum 2, .alt 0 (.bool false)]

def jMine : Value := .ofObject [(b!"arr", .ofArray [.ofInt 3, .ofInt 1, .ofInt 4, .ofInt 1, .ofInt 5]),
  (b!"map", .ofObject [(b!"key_1", .ofArray [.ofObject [(b!"inner_key_1", .ofArray [.ofInt 7, .ofInt 8, .ofInt 9])], .ofObject [(b!"inner_key_2", .ofArray [.ofInt 10])]])]),
  (b!"str1", ofText b!"Hello"), (b!"str2", ofText b!"World"), (b!"str3", ofText b!"!"), (b!"var", .ofBool false), (b!"vec", .ofArray [ofDouble b!"0.5"]), (b!"w", ofText b!"C")]

/-- 193-229 -/
example : make myStruct mine = .ok jMine ∧ gives (myStruct.as F jMine) mine := by decide +kernel

def optTest : Ty := .struct (.opt <| .var b!"a" (.int 0) (.int cInt) <| .opt <| .var b!"b" (.int 0) (.int cInt) <|
  .opt <| .var b!"o" (.just (.int 5)) (.nullable .optional (.int cInt)) .done)

/-- 231-251 -/
example : isA optTest (.ofObject []) ∧ gives (optTest.as F (.ofObject [(b!"a", .ofInt 10)])) (.list [.int 10, .int 0, .just (.int 5)]) := by decide +kernel

/-- 279-298 -/
example : isA (.fixed 10 (.int cInt)) (.ofArray ((List.range 10).map fun (i : Nat) => .ofInt i)) ∧
    gives ((Ty.fixed 10 (.int cInt)).as F (.ofArray ((List.range 10).map fun (i : Nat) => .ofInt i))) (.list ((List.range 10).map fun (i : Nat) => .int i)) ∧
    isNot (.fixed 5 (.int cInt)) (.ofArray ((List.range 10).map fun (i : Nat) => .ofInt i)) := by decide +kernel

def pairT : Ty := .tuple (.cons (.int cInt) (.cons .string .nil))
def tupleArr : Value := .ofArray [.ofInt 1, ofText b!"aaabbbccc"]

/-- 300-323 -/
example : gives (pairT.as F tupleArr) (.list [.int 1, .str b!"aaabbbccc"]) ∧ isA pairT tupleArr ∧ make pairT (.list [.int 1, .str b!"aaabbbccc"]) = .ok tupleArr := by decide +kernel

/-- 325-337 -/
example : make varT (.alt 1 (.str b!"abc")) = .ok (ofText b!"abc") ∧ gives (varT.as F (ofText b!"abc")) (.alt 1 (.str b!"abc")) ∧ isA varT (ofText b!"abc") := by decide +kernel

def movable : Value := .ofArray [.ofInt 1, .ofArray [.ofInt 2, .ofInt 3]]
def movableTy : Ty := .tuple (.cons (.int cInt) (.cons .jarray .nil))

/-- 342-347: the array is empty afterwards -/
example : gives (movableTy.take F movable).2 (.list [.int 1, .jarray [.ofInt 2, .ofInt 3]]) ∧ (movableTy.take F movable).1 = .ofArray [] := by decide +kernel

/-! ### sample.cpp -/

/-- sample/sample.cpp:28-43 -/
def sample : List Op :=
  set [] b!"pi" (ofDouble b!"3.14") ++ set [] b!"happy" (.ofBool true) ++ [.index (at_ []) b!"answer"] ++ set [b!"answer"] b!"everything" (.ofInt 42) ++
  set [] b!"object" (.ofObject (object [(b!"currency", ofText b!"USD"), (b!"value", ofDouble b!"42.99")])) ++
  set [] b!"set" (fromC (.set setOf (.int cInt)) (.list [.int 1, .int 2, .int 3])) ++ set [] b!"map" (fromC crazy crazyValue)

/-- The output in the comment of the sample is that of a build without `MEOJSON_KEEP_FLOATING_PRECISION`, in the compact form. -/
example : (after sample).bind (fun v => match v.dumps with | .ok s => some s | _ => none) =
    some b!"{\"answer\":{\"everything\":42},\"happy\":true,\"map\":{\"key_1\":[{\"inner_key_1\":[7,8,9]},{\"inner_key_2\":[10]}]},\"object\":{\"currency\":\"USD\",\"value\":42.990000000000002},\"pi\":3.1400000000000001,\"set\":[1,2,3]}" := by
  decide +kernel
example : (floats false [0x2e]).print .double (flt .double b!"42.99") = b!"42.990000" ∧ (floats false [0x2e]).print .double (flt .double b!"3.14") = b!"3.140000" := by decide +kernel

def optionalFields : Ty := .struct (.var b!"a" (.int 0) (.int cInt) <| .opt <| .var b!"b" (.flt (flt .double b!"0")) (.float .double) <|
  .opt <| .var b!"c" (.list []) (.seq (.int cInt)) <| .key b!"delete" <| .var b!"delete_" (.bool false) .bool <|
  .opt <| .var b!"focus" .nothing (.nullable .optional (.int cInt)) .done)

/-- 126-139 -/
example : isA optionalFields (.ofObject (object [(b!"a", .ofInt 100), (b!"delete", .ofBool true), (b!"focus", .ofInt 5)])) ∧
    gives (optionalFields.as F (.ofObject (object [(b!"a", .ofInt 100), (b!"delete", .ofBool true), (b!"focus", .ofInt 5)])))
      (.list [.int 100, .flt (flt .double b!"0"), .list [], .bool true, .just (.int 5)]) := by decide +kernel

/-- 178-188 -/
example : (after (sample ++ push [b!"set"] (.ofInt 10) ++ put [b!"object"] b!"key3" (ofText b!"value3") ++ append [b!"set"] [.ofInt 11, .ofInt 12] ++
      merge [b!"object"] (object [(b!"key4", .ofInt 4), (b!"key5", .ofBool false)]))).map (fun v => (v.atKey b!"set", v.atKey b!"object")) =
    some (.ok (.ofArray [.ofInt 1, .ofInt 2, .ofInt 3, .ofInt 10, .ofInt 11, .ofInt 12]),
      .ok (.ofObject [(b!"currency", ofText b!"USD"), (b!"key3", ofText b!"value3"), (b!"key4", .ofInt 4), (b!"key5", .ofBool false), (b!"value", ofDouble b!"42.99")])) := by
  decide +kernel

def content : Bytes := b!"
{
    \"repo\": \"meojson\",
    \"author\": {
        \"MistEO\": \"https://github.com/MistEO\",
        \"ChingCdesu\": \"https://github.com/ChingCdesu\"
    },
    \"list\": [ 1, 2, 3 ],
    \"str\": \"abc\\n123\",
    \"num\": 3.1416,
    \"A_obj\": {
        \"B_arr\": [
            { \"C_str\": \"i am a distraction\" },
            { \"C_str\": \"you found me!\" }
        ]
    },
    \"my_type\": { \"i\": 99 }
}"

def sampleValue : Value := .ofObject [
  (b!"A_obj", .ofObject [(b!"B_arr", .ofArray [.ofObject [(b!"C_str", ofText b!"i am a distraction")], .ofObject [(b!"C_str", ofText b!"you found me!")]])]),
  (b!"author", .ofObject [(b!"ChingCdesu", ofText b!"https://github.com/ChingCdesu"), (b!"MistEO", ofText b!"https://github.com/MistEO")]),
  (b!"list", .ofArray [.ofInt 1, .ofInt 2, .ofInt 3]), (b!"my_type", .ofObject [(b!"i", .ofInt 99)]), (b!"num", .str .number b!"3.1416"),
  (b!"repo", ofText b!"meojson"), (b!"str", ofText b!"abc\n123")]

/-- 249-307 -/
example : parse none content = some sampleValue ∧ parse Accel.avx2.traits content = some sampleValue := by decide +kernel
example : sampleValue.getText (.key b!"maybe_exists") (.cstr (some b!"default_value")) = .ok (.own, b!"default_value") ∧
    getTextPath (.cstr (some b!"default_value")) [.key b!"A_obj", .key b!"B_arr", .pos 1, .key b!"C_str"] sampleValue = .ok b!"you found me!" ∧
    sampleValue.findKeyAs (isFloat F .double) (asFloat F .double) b!"num" = .ok (some (flt .double b!"3.1416")) := by decide +kernel

/-- 336-339 -/
example : ((jvalueLit none b!"{\"hi\":\"literals\"}").indexKey b!"hi").2 = .ok (ofText b!"literals") := by decide +kernel

end Meojson.Tests
