import Verif.Model.Convert
import Verif.Spec.Access

/-!
# Specification: C++ types, enums and structs

What the values of a type are, what the description of a struct means, and when a conversion can lose nothing.
-/

set_option autoImplicit false

namespace Meojson
open Spec

/-! ### Values of a type -/

mutual
/-- The value is one of the type. -/
def Ty.Has : Ty → CVal → Prop
  | .bool, .bool _ => True
  | .int T, .int n => T.Has n
  | .float f, .flt x => f.Has x
  | .string, .str _ => True
  | .null, .null => True
  | .json, .json v => v.Sound
  | .jarray, .jarray vs => (Value.arr .array vs).Sound
  | .jobject, .jobject ms => (Value.obj .object ms).Sound
  | .nullable _ _, .nothing => True
  | .nullable _ t, .just x => t.Has x
  | .enum E, .enum e => E.under.Has e
  | .seq t, .list xs => ∀ x ∈ xs, t.Has x
  | .set lt t, .list xs => (∀ x ∈ xs, t.Has x) ∧ xs.Pairwise (fun a b => lt a b = true ∧ lt b a = false)
  | .fixed n t, .list xs => xs.length = n ∧ ∀ x ∈ xs, t.Has x
  | .tuple ts, .list xs => ts.HasAll xs
  | .variant ts, .alt i x => ts.HasAlt i x
  | .map t, .map ms => ms.Pairwise (fun a b => a.1 < b.1) ∧ ∀ e ∈ ms, t.Has e.2
  | .struct fs, .list xs => fs.Has xs
  | .user U, x => U.has x
  | _, _ => False
def Tys.HasAll : Tys → List CVal → Prop
  | .nil, [] => True
  | .cons t ts, x :: xs => t.Has x ∧ ts.HasAll xs
  | _, _ => False
def Tys.HasAlt : Tys → Nat → CVal → Prop
  | .nil, _, _ => False
  | .cons t _, 0, x => t.Has x
  | .cons _ ts, i + 1, x => ts.HasAlt i x
def Fields.Has : Fields → List CVal → Prop
  | .done, [] => True
  | .opt rest, xs => rest.Has xs
  | .key _ rest, xs => rest.Has xs
  | .var _ _ t rest, x :: xs => t.Has x ∧ rest.Has xs
  | _, _ => False
end

/-- Alternative number `i`. -/
def Tys.get? : Tys → Nat → Option Ty
  | .nil, _ => none
  | .cons t _, 0 => some t
  | .cons _ ts, i + 1 => ts.get? i

/-! ### Enums -/

def Letter (c : UInt8) : Prop := (0x61 ≤ c ∧ c ≤ 0x7a) ∨ (0x41 ≤ c ∧ c ≤ 0x5a) ∨ c = 0x5f

/-- A C++ identifier of ASCII characters. -/
def Identifier (s : Bytes) : Prop := ∃ c t, s = c :: t ∧ Letter c ∧ ∀ d ∈ t, Letter d ∨ (0x30 ≤ d ∧ d ≤ 0x39)

/-- A letter and its capital, or equal bytes. -/
def SameLetter (a b : UInt8) : Prop :=
  a = b ∨ (0x41 ≤ a.toNat ∧ a.toNat ≤ 0x5a ∧ b.toNat = a.toNat + 32) ∨ (0x41 ≤ b.toNat ∧ b.toNat ≤ 0x5a ∧ a.toNat = b.toNat + 32)

/-- Equal up to ASCII case. -/
inductive SameName : Bytes → Bytes → Prop
  | nil : SameName [] []
  | cons {a b as bs} : SameLetter a b → SameName as bs → SameName (a :: as) (b :: bs)

namespace EnumTy

/-- What the compiler checks: the range fits an `int`, and so does the number of values in it. -/
def Compiles (E : EnumTy) : Prop := cInt.Has E.min ∧ cInt.Has E.max ∧ E.min ≤ E.max ∧ cInt.Has (E.max - E.min + 1)

/-- `e` is an enumerator called `s`, and some `int` in the reflected range stands for it. -/
def Named (E : EnumTy) (e : Int) (s : Bytes) : Prop :=
  (∃ k, E.min ≤ k ∧ k ≤ E.max ∧ E.under.cast k = e) ∧ E.text e = s ∧ Identifier s

/-- No two enumerators have names that differ in case only. -/
def Clear (E : EnumTy) : Prop := ∀ e e' s s', E.Named e s → E.Named e' s' → SameName s s' → e = e'

/-- `e` converts to text and back: it is in the reflected range and has a name, which no other enumerator shares up to case. Or enums are written as numbers. -/
def Faithful (E : EnumTy) (e : Int) : Prop :=
  if E.asNumber then E.under ≠ .bool
  else E.Compiles ∧ E.min ≤ e ∧ e ≤ E.max ∧ E.under.cast e = e ∧ Identifier (E.text e) ∧ ∀ e' s', E.Named e' s' → SameName s' (E.text e) → e' = e

end EnumTy

/-! ### Types whose check and conversion agree -/

mutual
/-- The type has nothing in it for which `is` and `as` go by different rules: no enum with underlying type `bool`, no `std::optional`, no `std::tuple` with one
element, and no `std::variant` that a `json::value` converts to implicitly; and the user's own `check_json` accepts what their `from_json` does. -/
def Ty.Regular : Ty → Prop
  | .user U => ∀ v : Value, v.Sound → (U.check v = true ↔ (U.load v).isSome = true)
  | .enum E => E.under ≠ .bool
  | .nullable .optional _ => False
  | .nullable .pointer t => t.Regular
  | .seq t => t.Regular
  | .set _ t => t.Regular
  | .fixed _ t => t.Regular
  | .tuple ts => ts.size ≠ 1 ∧ ts.Regular
  | .variant ts => ts.chosen = none ∧ ts.Regular
  | .map t => t.Regular
  | .struct fs => fs.Regular
  | _ => True
def Tys.Regular : Tys → Prop
  | .nil => True
  | .cons t ts => t.Regular ∧ ts.Regular
def Fields.Regular : Fields → Prop
  | .done => True
  | .opt rest => rest.Regular
  | .key _ rest => rest.Regular
  | .var _ _ t rest => t.Regular ∧ rest.Regular
end

mutual
/-- Where the type has such things in it, the value does not meet them with what they treat differently: no boolean where an enum with underlying type `bool` is
expected, no null where a `std::optional` is expected, nothing where the user's `check_json` and `from_json` disagree; one-element tuples and the variants named above are not allowed. -/
def Ty.Apt : Ty → Value → Prop
  | .user U, v => U.check v = true ↔ (U.load v).isSome = true
  | .enum E, v => E.under = .bool → v.type ≠ .boolean
  | .nullable .optional t, v => v.type ≠ .null ∧ t.Apt v
  | .nullable .pointer t, v => v.type ≠ .null → t.Apt v
  | .seq t, v => ∀ i w, Step v (.pos i) w → t.Apt w
  | .set _ t, v => ∀ i w, Step v (.pos i) w → t.Apt w
  | .fixed _ t, v => ∀ i w, Step v (.pos i) w → t.Apt w
  | .tuple ts, v => ts.size ≠ 1 ∧ ts.AptAll 0 v
  | .variant ts, v => ts.chosen = none ∧ ts.AptAny v
  | .map t, v => ∀ k w, Step v (.key k) w → t.Apt w
  | .struct fs, v => fs.Apt none v
  | _, _ => True
/-- The same for the elements of a tuple, from position `i` on. -/
def Tys.AptAll : Tys → Int → Value → Prop
  | .nil, _, _ => True
  | .cons t ts, i, v => (∀ w, Step v (.pos i) w → t.Apt w) ∧ ts.AptAll (i + 1) v
/-- The same for every alternative of a variant. -/
def Tys.AptAny : Tys → Value → Prop
  | .nil, _ => True
  | .cons t ts, v => t.Apt v ∧ ts.AptAny v
/-- The same for the members of a struct; `k` is the key given by `MEO_KEY`, if any, since the last member. -/
def Fields.Apt : Fields → Option Bytes → Value → Prop
  | .done, _, _ => True
  | .opt rest, k, v => rest.Apt k v
  | .key k rest, _, v => rest.Apt (some k) v
  | .var name _ t rest, k, v => (∀ w, Step v (.key (match k with | some k' => k' | none => name)) w → t.Apt w) ∧ rest.Apt none v
end

/-! ### Structs -/

/-- A member of a struct as JSON sees it: its key (its name unless `MEO_KEY` says otherwise), whether it is `MEO_OPT`, its type. -/
structure Member where
  key : Bytes
  optional : Bool
  ty : Ty

/-- The members that the arguments of `MEO_JSONIZATION` describe; `o` and `k` are the tags read since the last member. -/
def Fields.membersFrom (o : Bool) (k : Option Bytes) : Fields → List Member
  | .done => []
  | .opt rest => rest.membersFrom true k
  | .key k' rest => rest.membersFrom o (some k')
  | .var name _ t rest => ⟨match k with | some k' => k' | none => name, o, t⟩ :: rest.membersFrom false none

def Fields.members (fs : Fields) : List Member := fs.membersFrom false none

/-- The value has an element under the key of the member, of the type of the member. -/
def Member.Present (F : Floats) (m : Member) (v w : Value) : Prop := Step v (.key m.key) w ∧ m.ty.is F w = .ok true

/-- The member is missing and not optional, or of another type. -/
def Member.Bad (F : Floats) (m : Member) (v : Value) : Prop :=
  ((∀ w, ¬ Step v (.key m.key) w) ∧ m.optional = false) ∨ ∃ w, Step v (.key m.key) w ∧ m.ty.is F w = .ok false

/-- What a member is after it was read: the converted element, or the old value if there is none. -/
def Member.Read (F : Floats) (m : Member) (v : Value) (old new : CVal) : Prop :=
  (∃ w, Step v (.key m.key) w ∧ m.ty.as F w = .ok new) ∨ ((∀ w, ¬ Step v (.key m.key) w) ∧ m.optional = true ∧ new = old)

/-- The members before number `i` were read, those from `i` on were left alone. -/
def ReadUpTo (F : Floats) (v : Value) (ms : List Member) (i : Nat) (dst dst' : List CVal) : Prop :=
  dst'.length = dst.length ∧ (∀ j, i ≤ j → dst'[j]? = dst[j]?) ∧
  ∀ j m, j < i → ms[j]? = some m → ¬ m.Bad F v ∧ ∃ old new, dst[j]? = some old ∧ dst'[j]? = some new ∧ m.Read F v old new

/-- The outcome of reading the members: none if no member is bad; otherwise the key of the first bad one, and neither it nor any later one was touched. -/
def Outcome (F : Floats) (v : Value) (ms : List Member) (dst dst' : List CVal) : Option Bytes → Prop
  | none => ReadUpTo F v ms ms.length dst dst'
  | some k => ∃ (i : Nat) (m : Member), ms[i]? = some m ∧ m.key = k ∧ m.Bad F v ∧ ReadUpTo F v ms i dst dst'

/-! ### Lossless conversions -/

/-- The value is written as `null`. -/
def CVal.IsNull : CVal → Prop
  | .null => True
  | .nothing => True
  | .json v => v.type = .null
  | .just x => x.IsNull
  | .alt _ x => x.IsNull
  | _ => False

mutual
/-- Nothing is lost when the value is written and read: floating-point numbers inside are printed exactly, enumerators have unambiguous names, there is no empty
`std::optional`, the content of a smart pointer is not itself written as null, no tuple has just one element, no earlier alternative of a variant accepts what is written
(or, if a `json::value` converts to the variant implicitly, the variant holds the alternative it converts to), members of a struct have different keys, and
the user's own conversions return what was put in (and write null just for what counts as such above). -/
def Ty.Lossless (F : Floats) : Ty → CVal → Prop
  | .float f, .flt x => F.read f (F.print f x) = some x
  | .enum E, .enum e => E.Faithful e
  | .nullable .optional _, .nothing => False
  | .nullable .optional t, .just x => t.Lossless F x
  | .nullable .pointer t, .just x => t.Lossless F x ∧ ¬ x.IsNull
  | .seq t, .list xs => ∀ x ∈ xs, t.Lossless F x
  | .set _ t, .list xs => ∀ x ∈ xs, t.Lossless F x
  | .fixed _ t, .list xs => ∀ x ∈ xs, t.Lossless F x
  | .tuple ts, .list xs => ts.size ≠ 1 ∧ ts.LosslessAll F xs
  | .variant ts, .alt i x => (ts.chosen = some i ∧ ts.LosslessNth F i x) ∨ (ts.chosen = none ∧ ts.LosslessAlt F i x)
  | .map t, .map ms => ∀ e ∈ ms, t.Lossless F e.2
  | .struct fs, .list xs => (fs.members.map (·.key)).Nodup ∧ fs.Lossless F xs
  | .user U, x => ∃ v, U.dump x = some v ∧ v.Sound ∧ U.check v = true ∧ U.load v = some x ∧ (v.type = .null ↔ x.IsNull)
  | _, _ => True
def Tys.LosslessAll (F : Floats) : Tys → List CVal → Prop
  | .cons t ts, x :: xs => t.Lossless F x ∧ ts.LosslessAll F xs
  | _, _ => True
def Tys.LosslessNth (F : Floats) : Tys → Nat → CVal → Prop
  | .cons t _, 0, x => t.Lossless F x
  | .cons _ ts, i + 1, x => ts.LosslessNth F i x
  | _, _, _ => True
def Tys.LosslessAlt (F : Floats) : Tys → Nat → CVal → Prop
  | .cons t _, 0, x => t.Lossless F x
  | .cons t ts, i + 1, x => ts.LosslessAlt F i x ∧ ∀ u v y, ts.get? i = some u → u.store F .constLv x = .ok (v, y) → t.is F v = .ok false
  | _, _, _ => True
def Fields.Lossless (F : Floats) : Fields → List CVal → Prop
  | .opt rest, xs => rest.Lossless F xs
  | .key _ rest, xs => rest.Lossless F xs
  | .var _ _ t rest, x :: xs => t.Lossless F x ∧ rest.Lossless F xs
  | _, _ => True
end

mutual
/-- Every floating-point number inside is printed as a JSON number, and every `json::value` inside is a JSON value. -/
def Ty.Printable (F : Floats) : Ty → CVal → Prop
  | .float f, .flt x => Number (F.print f x)
  | .json, .json v => v.Json
  | .jarray, .jarray vs => (Value.arr .array vs).Json
  | .jobject, .jobject ms => (Value.obj .object ms).Json
  | .nullable _ t, .just x => t.Printable F x
  | .seq t, .list xs => ∀ x ∈ xs, t.Printable F x
  | .set _ t, .list xs => ∀ x ∈ xs, t.Printable F x
  | .fixed _ t, .list xs => ∀ x ∈ xs, t.Printable F x
  | .tuple ts, .list xs => ts.PrintableAll F xs
  | .variant ts, .alt i x => ts.PrintableAlt F i x
  | .map t, .map ms => ∀ e ∈ ms, t.Printable F e.2
  | .struct fs, .list xs => fs.Printable F xs
  | .user U, x => ∀ v, U.dump x = some v → v.Json
  | _, _ => True
def Tys.PrintableAll (F : Floats) : Tys → List CVal → Prop
  | .cons t ts, x :: xs => t.Printable F x ∧ ts.PrintableAll F xs
  | _, _ => True
def Tys.PrintableAlt (F : Floats) : Tys → Nat → CVal → Prop
  | .cons t _, 0, x => t.Printable F x
  | .cons _ ts, i + 1, x => ts.PrintableAlt F i x
  | _, _, _ => True
def Fields.Printable (F : Floats) : Fields → List CVal → Prop
  | .opt rest, xs => rest.Printable F xs
  | .key _ rest, xs => rest.Printable F xs
  | .var _ _ t rest, x :: xs => t.Printable F x ∧ rest.Printable F xs
  | _, _ => True
end

/-! ### Types that are put together properly -/

/-- A strict order on the values of the type, as `std::set` asks for. -/
def StrictOrder (t : Ty) (lt : CVal → CVal → Bool) : Prop :=
  (∀ a b, t.Has a → t.Has b → lt a b = true → lt b a = false) ∧
  ∀ a b c, t.Has a → t.Has b → t.Has c → lt a b = true → lt b c = true → lt a c = true

mutual
/-- What the program provides is in order: the machine reads floating-point numbers of the format it was asked for, sets have an order, the integers below an enum have at least one
bit, the members of a fresh struct have values of their types, and the user's own `from_json` returns values of the user's type. -/
def Ty.Proper (F : Floats) : Ty → Prop
  | .float f => ∀ s x, F.read f s = some x → f.Has x
  | .enum E => ∀ T, E.under = .int T → 0 < T.bits
  | .nullable _ t => t.Proper F
  | .seq t => t.Proper F
  | .set lt t => StrictOrder t lt ∧ t.Proper F
  | .fixed _ t => t.Proper F
  | .tuple ts => ts.Proper F
  | .variant ts => ts.Proper F
  | .map t => t.Proper F
  | .struct fs => fs.Proper F ∧ fs.Has fs.defaults
  | .user U => ∀ v x, v.Sound → U.load v = some x → U.has x
  | _ => True
def Tys.Proper (F : Floats) : Tys → Prop
  | .nil => True
  | .cons t ts => t.Proper F ∧ ts.Proper F
def Fields.Proper (F : Floats) : Fields → Prop
  | .done => True
  | .opt rest => rest.Proper F
  | .key _ rest => rest.Proper F
  | .var _ _ t rest => t.Proper F ∧ rest.Proper F
end

/-! ### What moving may change -/

/-- A nullable wrapper. -/
def Ty.IsNullable : Ty → Prop
  | .nullable _ _ => True
  | _ => False

/-- Types whose values a move leaves as they are. -/
def Ty.Plain : Ty → Prop
  | .bool | .int _ | .float _ | .null | .enum _ => True
  | _ => False

mutual
/-- No smart pointer to a nullable wrapper occurs in the type, except to one of a plain type. -/
def Ty.NoNested : Ty → Prop
  | .nullable .pointer (.nullable _ t) => t.Plain
  | .nullable _ t => t.NoNested
  | .seq t => t.NoNested
  | .set _ t => t.NoNested
  | .fixed _ t => t.NoNested
  | .tuple ts => ts.NoNested
  | .variant ts => ts.NoNested
  | .map t => t.NoNested
  | .struct fs => fs.NoNested
  | _ => True
def Tys.NoNested : Tys → Prop
  | .nil => True
  | .cons t ts => t.NoNested ∧ ts.NoNested
def Fields.NoNested : Fields → Prop
  | .done => True
  | .opt rest => rest.NoNested
  | .key _ rest => rest.NoNested
  | .var _ _ t rest => t.NoNested ∧ rest.NoNested
end

end Meojson
