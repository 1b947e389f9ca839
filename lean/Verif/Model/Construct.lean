import Verif.Model.Convert
import Verif.Model.Containers

/-!
# Which constructor an argument gets

value.hpp:49-97, value.hpp:305-309 and array.hpp:32-137 declare constructors for many types, and none of them is `explicit`. Which one an argument gets is decided by overload resolution
([over.ics.rank] of the C++ standard), and braces prefer constructors that take a `std::initializer_list` ([over.match.list]). Here is this choice for arguments of
arithmetic types, pointers and texts, and for arguments of the types of `Convert`.

Left out: classes with conversion operators of their own; `__int128`; the literal 0 as a null pointer constant (it is an `int`, and that constructor is better); floating-point numbers and
enumerators as sizes. The choices were compared with g++ 13 on a small program of our own with the same signatures (not the library).
-/

set_option autoImplicit false

namespace Meojson.Construct

/-- The arithmetic types -/
inductive Arith where
  | bool | char | schar | uchar | wchar | char8 | char16 | char32 | short | ushort | int | uint | long | ulong | llong | ullong | float | double | ldouble
deriving DecidableEq, Repr

/-- What a platform chooses: whether `char` and `wchar_t` are signed, whether `wchar_t` has 32 bits (else 16), whether `long` has 64 (else 32). -/
structure Abi where
  charSigned : Bool
  wcharSigned : Bool
  wcharWide : Bool
  longWide : Bool

/-- The integer types and their ranges; `bool` has the values 0 and 1. -/
def Abi.range (A : Abi) : Arith → Option IntTy
  | .bool => some ⟨false, 1⟩
  | .char => some ⟨A.charSigned, 8⟩
  | .schar => some ⟨true, 8⟩
  | .uchar | .char8 => some ⟨false, 8⟩
  | .wchar => some ⟨A.wcharSigned, if A.wcharWide then 32 else 16⟩
  | .char16 => some ⟨false, 16⟩
  | .char32 => some ⟨false, 32⟩
  | .short => some ⟨true, 16⟩
  | .ushort => some ⟨false, 16⟩
  | .int => some ⟨true, 32⟩
  | .uint => some ⟨false, 32⟩
  | .long => some ⟨true, if A.longWide then 64 else 32⟩
  | .ulong => some ⟨false, if A.longWide then 64 else 32⟩
  | .llong => some ⟨true, 64⟩
  | .ullong => some ⟨false, 64⟩
  | .float | .double | .ldouble => none

/-- [conv.prom], [conv.fpprom]: small integer types and character types become the first of `int`, `unsigned`, ... that has all their values; `float` becomes `double`. -/
def Abi.promoted (A : Abi) : Arith → Option Arith
  | .float => some .double
  | .int | .uint | .long | .ulong | .llong | .ullong | .double | .ldouble => none
  | a => [Arith.int, .uint, .long, .ulong, .llong, .ullong].find? fun b =>
    match A.range a, A.range b with
    | some S, some T => decide (T.min ≤ S.min ∧ S.max ≤ T.max)
    | _, _ => false

/-- The type of an argument. An array is a pointer to its first element by then, and so is a function. A pointer to `char` may be to `volatile`. -/
inductive Arg where
  | arith (a : Arith)
  | charPointer (volatile_ : Bool)
  | pointer
  | nullptr
  | enumeration (isScoped : Bool)
  | string
  | view
  | monostate
deriving DecidableEq, Repr

/-- The parameter of a constructor of `value`, value.hpp:54-72, 82-97 and 306-309 -/
inductive Param where
  | arith (a : Arith)
  | cstr
  | string
  | view
  | nullptr
  | monostate
  | enumeration
deriving DecidableEq, Repr

def params : List Param :=
  [.arith .bool, .arith .int, .arith .uint, .arith .long, .arith .ulong, .arith .llong, .arith .ullong, .arith .float, .arith .double, .arith .ldouble,
   .cstr, .string, .view, .nullptr, .monostate, .enumeration, .arith .char, .arith .wchar, .arith .char16, .arith .char32]

/-- The constructors that are declared and deleted, value.hpp:305-309: they take part in overload resolution, and a call that chooses one does not compile. -/
def deleted : Param → Bool
  | .arith .char | .arith .wchar | .arith .char16 | .arith .char32 => true
  | _ => false

/-- How good a conversion is: 0 exact match, 1 promotion, 2 conversion, 3 pointer to `bool`, 4 user-defined. None if there is no implicit conversion. -/
def rank (A : Abi) : Arg → Param → Option Nat
  | .arith a, .arith b => some (if a = b then 0 else if A.promoted a = some b then 1 else 2)
  | .charPointer false, .cstr => some 0
  | .charPointer false, .string | .charPointer false, .view => some 4
  | .charPointer _, .arith .bool => some 3
  | .pointer, .arith .bool => some 3
  | .nullptr, .nullptr => some 0
  | .nullptr, .cstr => some 2
  | .nullptr, .string | .nullptr, .view => some 4
  | .enumeration _, .enumeration => some 0
  | .enumeration false, .arith _ => some 2
  | .string, .string => some 0
  | .string, .view => some 4
  | .view, .view => some 0
  | .monostate, .monostate => some 0
  | _, _ => none

/-- The constructor that is better than all others; none if the call is ambiguous or there is none. -/
def chosen (A : Abi) (x : Arg) : Option Param :=
  params.find? fun p =>
    match rank A x p with
    | none => false
    | some r => params.all fun q => q = p || match rank A x q with | none => true | some s => decide (r < s)

/-- A `const char*` argument: null, or the memory from there to the end of the array it points into. -/
abbrev Chars := Option Bytes

/-- `value(const char*)`, value_impl.hpp:148-152: `std::string(str)`, which reads up to the first NUL. Reading past the end, and a null pointer, are undefined. -/
def fromChars : Chars → Out Value
  | none => .ub
  | some m => if (0 : UInt8) ∈ m then .ok (.str .string (m.takeWhile (· ≠ 0))) else .ub

/-- An argument -/
inductive Given where
  | int (a : Arith) (n : Int)
  | flt (a : Arith) (x : Fl)
  | chars (volatile_ : Bool) (p : Chars)
  | pointer (null : Bool)
  | nullptr
  | string (s : Bytes)
  | view (s : Bytes)
  | monostate

def Given.type : Given → Arg
  | .int a _ | .flt a _ => .arith a
  | .chars v _ => .charPointer v
  | .pointer _ => .pointer
  | .nullptr => .nullptr
  | .string _ => .string
  | .view _ => .view
  | .monostate => .monostate

def fmt : Arith → FloatFmt
  | .float => .single
  | .double => .double
  | _ => .extended

/-- `json::value(x)`, value_impl.hpp:88-174, with the conversion of the argument to the parameter. None: does not compile (or a conversion that is never chosen, see `C67_choice`). -/
def value (F : Floats) (A : Abi) (x : Given) : Option (Out Value) :=
  match (chosen A x.type).filter (!deleted ·), x with
  | some (.arith .bool), .int _ n => some (.ok (.ofBool (n ≠ 0)))
  | some (.arith .bool), .chars _ p => some (.ok (.ofBool p.isSome))
  | some (.arith .bool), .pointer null => some (.ok (.ofBool !null))
  | some (.arith b), .int _ n => (A.range b).map fun T => .ok (.ofInt (T.wrap n))
  | some (.arith b), .flt a y => if a = b then some (.ok (.str .number (F.print (fmt b) y))) else none
  | some .cstr, .chars _ p => some (fromChars p)
  | some .string, .string s => some (.ok (.str .string s))
  | some .view, .view s => some (.ok (.str .string s))
  | some .nullptr, .nullptr => some (.ok .null)
  | some .monostate, .monostate => some (.ok .null)
  | _, _ => none

/-- An argument of the array constructors: an integer, or a value of a type of `Convert`. -/
inductive Item where
  | int (a : Arith) (n : Int)
  | thing (t : Ty) (c : Cat) (x : CVal)

/-- `json::value(x)` -/
def Item.value (F : Floats) (A : Abi) : Item → Option (Out Value)
  | .int a n => Construct.value F A (.int a n)
  | .thing t c x => some ((t.store F c x).bind fun r => .ok r.1)

/-- The types from which `json::array` is constructed element by element or through `to_json`, array.hpp:33-137 -/
def listLike : Ty → Bool
  | .jarray | .seq _ | .set _ _ | .fixed _ _ | .tuple _ | .struct _ | .user _ => true
  | _ => false

/-- `std::vector::max_size` for elements of 48 bytes -/
def maxSize : Nat := (2 ^ 63 - 1) / 48

/-- `json::array(x)`, or without `direct` the implicit conversion to `json::array` (as in `json::array a = x`, `a += x`, `a + x`, `a == x`). An integer goes to `array(size_t)`, array_impl.hpp:34-37.
A `json::value` goes through `explicit operator array()`. None: does not compile. -/
def array (F : Floats) (direct : Bool) : Item → Option (Out (List Value))
  | .int _ n =>
    let size := ((⟨false, 64⟩ : IntTy).wrap n).toNat
    some (if maxSize < size then .throw .lengthError else .ok (ArrayData.ofSize size))
  | .thing .json c x => if direct then some ((Ty.json.store F c x).bind fun r => r.1.asArray) else none
  | .thing t c x => if listLike t then some ((t.store F c x).bind fun r => r.1.asArray) else none

/-- `json::array{x...}`: `array(std::initializer_list<value>)`, array_impl.hpp:29-32, for any arguments that convert to `json::value`. -/
def arrayBraces (F : Floats) (A : Abi) : List Item → Option (Out (List Value))
  | [] => some (.ok [])
  | x :: xs =>
    match x.value F A, arrayBraces F A xs with
    | some v, some vs => some (v.bind fun v => vs.bind fun vs => .ok (v :: vs))
    | _, _ => none

/-- `json::value(p)` and `json::value{p}` for a `std::pair` `p` of a text and something: the first is the constructor for tuples, value.hpp:225-252; the second takes
`{p}` as a list with one member, value.hpp:76 and value_impl.hpp:200-204, as the pair converts to `std::pair<const std::string, value>`. -/
def pairParens (F : Floats) (t : Ty) (k : Bytes) (x : CVal) : Out Value :=
  ((Ty.tuple (.cons .string (.cons t .nil))).store F .constLv (.list [.str k, x])).bind fun r => .ok r.1
def pairBraces (F : Floats) (t : Ty) (k : Bytes) (x : CVal) : Out Value :=
  (t.store F .constLv x).bind fun r => .ok (.ofObject (ObjectData.ofInit [(k, r.1)] []))

/-- `v.emplace(p)` for such a pair, value_impl.hpp:740-755: as `json::value` is constructible from a pair, it is taken for an element of an array, though
`object::value_type` is constructible from it as well. -/
def emplacePair (F : Floats) (t : Ty) (k : Bytes) (x : CVal) (v : Value) : Value.Mut Unit :=
  match v.asArrayM.2, pairParens F t k x with
  | .ok _, .ok e => v.emplaceBack e
  | .ok _, .throw e => (v.asArrayM.1, .throw e)
  | .throw e, _ => (v.asArrayM.1, .throw e)
  | _, _ => (v, .ub)

end Meojson.Construct
