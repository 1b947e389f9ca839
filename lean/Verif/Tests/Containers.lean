import Verif.Tests.Basic

/-! # test/array_test.cpp and object_test.cpp on the model -/

set_option autoImplicit false

namespace Meojson.Tests
open Value

def ints (ns : List Int) : List Value := ns.map .ofInt

/-! ### array_test.cpp -/

/-- 29-46: constructors -/
example : ArrayData.size [] = 0 ∧ ArrayData.size [.ofInt 1, .ofInt 2, ofText b!"three", .ofBool true, ofDouble b!"5.5"] = 5 ∧ ArrayData.size (ArrayData.ofSize 10) = 10 := by decide +kernel

/-- 62-84: from `std::vector`, `std::list`, `std::set` -/
example : gives (((Ty.seq (.int cInt)).store F .constLv (.list [.int 1, .int 2, .int 3, .int 4, .int 5])).bind fun r => .ok (.json r.1)) (.json (.ofArray (ints [1, 2, 3, 4, 5]))) ∧
    gives (((Ty.seq .string).store F .constLv (.list [.str b!"a", .str b!"b", .str b!"c"])).bind fun r => .ok (.json r.1))
      (.json (.ofArray [ofText b!"a", ofText b!"b", ofText b!"c"])) := by decide +kernel

def arr : List Value := [.ofInt 1, .ofInt 2, ofText b!"three", ofDouble b!"4.5", .ofBool true, .null]

/-- 96-128 -/
example : arr.length = 6 ∧ arrContains 0 arr ∧ arrContains 5 arr ∧ ¬ arrContains 6 arr ∧ arrContains 2 arr ∧ ¬ arrContains 10 arr ∧
    ((arrAt 0 arr).bind (asInt cInt)) = .ok 1 ∧ ((arrAt 2 arr).bind asString) = .ok b!"three" ∧
    ((arrIndex 1 arr).bind (asInt cInt)) = .ok 2 ∧ ((arrIndex 4 arr).bind asBoolean) = .ok true := by decide +kernel

/-- 130-154 -/
example : arrGet (isInt cInt) (asInt cInt) 999 0 [] arr = .ok 1 ∧ arrGet (isInt cInt) (asInt cInt) 999 100 [] arr = .ok 999 ∧
    arrFindAs (isInt cInt) (asInt cInt) 0 arr = .ok (some 1) ∧ arrFind 20 arr = .ok none := by decide +kernel

/-- 156-167 -/
example : arrAll (isInt cInt) (ints [1, 2, 3, 4, 5]) = .ok true ∧ arrAll (isInt cInt) [.ofInt 1, ofText b!"two", .ofInt 3] = .ok false := by decide +kernel

/-- 177-203 -/
example :
    let a := [.ofInt 1, ofText b!"two", ofDouble b!"3.3"].foldl ArrayData.emplaceBack []
    let b := [.ofBool true, .null].foldl ArrayData.emplaceBack a
    let c := ArrayData.indexAssign b 0 (.ofInt 100)
    a.length = 3 ∧ a[1]? = some (ofText b!"two") ∧ b.length = 5 ∧ b[3]? = some (.ofBool true) ∧ c[0]? = some (.ofInt 100) := by decide +kernel

/-- 205-228: `erase`, by position and by iterator -/
example : ArrayData.erase (ints [1, 2, 3, 4, 5]) 2 = (ints [1, 2, 4, 5], true) ∧ ArrayData.erase (ints [1, 2, 4, 5]) 10 = (ints [1, 2, 4, 5], false) ∧
    ArrayData.erase (ints [10, 20, 30]) 1 = (ints [10, 30], true) := by decide +kernel

/-- 317-341 -/
example : arrEq (ints [1, 2, 3]) (ints [1, 2, 3]) = .ok true ∧ arrEq (ints [1, 2, 3]) (ints [1, 2, 4]) = .ok false := by decide +kernel

/-- 343-361 -/
example : appendArray (ints [1, 2]) (ints [3, 4]) = ints [1, 2, 3, 4] ∧ appendArray (ints [1, 2]) (ints [3, 4, 5]) = ints [1, 2, 3, 4, 5] := by decide +kernel

def arr2 : List Value :=
  [.ofInt 1, ofText b!"two", ofDouble b!"3.14", .ofBool true, .null, .arr .array [ofText b!"nested", ofText b!"array"], .obj .object [(b!"nested", ofText b!"object")]]

/-- 379-408: the texts themselves instead of "not empty" -/
example : arrDumps arr2 = .ok b!"[1,\"two\",3.1400000000000001,true,null,[\"nested\",\"array\"],{\"nested\":\"object\"}]" ∧
    arrDumps arr2 (some 2) = .ok b!"[
  1,
  \"two\",
  3.1400000000000001,
  true,
  null,
  [
    \"nested\",
    \"array\"
  ],
  {
    \"nested\": \"object\"
  }
]" := by decide +kernel

/-- 410-424 -/
example : parse none b!"[1, \"hello\", true, null, {\"key\": \"value\"}]" =
    some (.arr .array [.ofInt 1, ofText b!"hello", .ofBool true, .null, .obj .object [(b!"key", ofText b!"value")]]) := by decide +kernel

/-- 426-452 -/
example : gives ((Ty.seq (.int cInt)).as F (.ofArray (ints [1, 2, 3, 4, 5]))) (.list [.int 1, .int 2, .int 3, .int 4, .int 5]) ∧
    gives ((Ty.seq (.seq (.int cInt))).as F (.ofArray [.ofArray (ints [1, 2]), .ofArray (ints [3, 4]), .ofArray (ints [5, 6])]))
      (.list [.list [.int 1, .int 2], .list [.int 3, .int 4], .list [.int 5, .int 6]]) := by decide +kernel

/-! ### object_test.cpp -/

/-- 25-37 -/
example : ObjectData.size [] = 0 ∧ ObjectData.size (object [(b!"key1", .ofInt 1), (b!"key2", ofText b!"value2"), (b!"key3", .ofBool true)]) = 3 := by decide +kernel

/-- 53-67 -/
example : gives (((Ty.map (.int cInt)).store F .constLv (.map [(b!"a", .int 1), (b!"b", .int 2), (b!"c", .int 3)])).bind fun r => .ok (.json r.1))
      (.json (.ofObject [(b!"a", .ofInt 1), (b!"b", .ofInt 2), (b!"c", .ofInt 3)])) ∧
    gives (((Ty.map .string).store F .constLv (.map [(b!"y", .str b!"world"), (b!"x", .str b!"hello")])).bind fun r => .ok (.json r.1))
      (.json (.ofObject [(b!"x", ofText b!"hello"), (b!"y", ofText b!"world")])) := by decide +kernel

def obj : List (Bytes × Value) := object [(b!"name", ofText b!"Alice"), (b!"age", .ofInt 30), (b!"city", ofText b!"NYC"), (b!"active", .ofBool true)]

/-- 79-108 -/
example : obj.length = 4 ∧ objContains b!"name" obj ∧ objContains b!"age" obj ∧ ¬ objContains b!"country" obj ∧ objContains b!"city" obj ∧ ¬ objContains b!"unknown" obj ∧
    ((objAt b!"name" obj).bind asString) = .ok b!"Alice" ∧ (ObjectData.index obj b!"age").2 = .ofInt 30 := by decide +kernel

/-- 110-134 -/
example : objGetText b!"name" (.string b!"Unknown") obj = .ok b!"Alice" ∧ objGet (isInt cInt) (asInt cInt) 50000 b!"salary" [] obj = .ok 50000 ∧
    objFindAs (fun v => .ok (v.type = .string)) asString b!"city" obj = .ok (some b!"NYC") ∧ objFind b!"unknown" obj = none := by decide +kernel

/-- 136-147 -/
example : objAll (isInt cInt) (object [(b!"a", .ofInt 1), (b!"b", .ofInt 2), (b!"c", .ofInt 3)]) = .ok true ∧
    objAll (isInt cInt) (object [(b!"a", .ofInt 1), (b!"b", ofText b!"two")]) = .ok false := by decide +kernel

/-- 157-208 -/
example :
    let o1 := [(b!"key1", ofText b!"value1"), (b!"key2", .ofInt 42), (b!"key3", .ofBool true)].foldl (fun o e => (ObjectData.emplace o e.1 e.2).1) []
    let o2 := RawObject.emplace b!"key4" (ofDouble b!"3.14") o1
    let o3 := ObjectData.indexAssign o2.1 b!"key5" (ofText b!"new value")
    let o4 := ObjectData.erase o3 b!"key3"
    let o5 := ObjectData.erase o4.1 b!"nonexistent"
    o1.length = 3 ∧ (ObjectData.index o1 b!"key2").2 = .ofInt 42 ∧ o2.1.length = 4 ∧ o3.length = 5 ∧ (ObjectData.index o3 b!"key5").2 = ofText b!"new value" ∧
    o4.2 = true ∧ o4.1.length = 4 ∧ ¬ ObjectData.contains o4.1 b!"key3" ∧ o5.2 = false ∧
    (ObjectData.erase o5.1 ((o5.1.head?.map (·.1)).getD [])).1.length = 3 := by decide +kernel

def ab (a b : Int) : List (Bytes × Value) := object [(b!"a", .ofInt a), (b!"b", .ofInt b)]

/-- 266-293 -/
example : objEq (ab 1 2) (ab 1 2) = .ok true ∧ objEq (ab 1 2) (ab 1 3) = .ok false := by decide +kernel

/-- 295-313 -/
example : mergeObject (ab 1 2) (object [(b!"b", .ofInt 3), (b!"c", .ofInt 4)]) = [(b!"a", .ofInt 1), (b!"b", .ofInt 3), (b!"c", .ofInt 4)] ∧
    mergeObject (object [(b!"x", .ofInt 10)]) (object [(b!"y", .ofInt 20), (b!"z", .ofInt 30)]) = [(b!"x", .ofInt 10), (b!"y", .ofInt 20), (b!"z", .ofInt 30)] := by decide +kernel

/-- 327-359 -/
example : objDumps (object [(b!"name", ofText b!"Bob"), (b!"age", .ofInt 25), (b!"scores", .ofArray (ints [85, 90, 95])),
      (b!"address", .ofObject (object [(b!"city", ofText b!"LA"), (b!"zip", ofText b!"90001")]))]) =
    .ok b!"{\"address\":{\"city\":\"LA\",\"zip\":\"90001\"},\"age\":25,\"name\":\"Bob\",\"scores\":[85,90,95]}" := by decide +kernel

/-- 361-373 -/
example : parse none b!"{\"key1\": \"value1\", \"key2\": 42, \"key3\": true}" =
    some (.obj .object [(b!"key1", ofText b!"value1"), (b!"key2", .ofInt 42), (b!"key3", .ofBool true)]) := by decide +kernel

/-- 375-381 -/
example : gives ((Ty.map (.int cInt)).as F (.ofObject [(b!"a", .ofInt 1), (b!"b", .ofInt 2), (b!"c", .ofInt 3)])) (.map [(b!"a", .int 1), (b!"b", .int 2), (b!"c", .int 3)]) := by decide +kernel

end Meojson.Tests
