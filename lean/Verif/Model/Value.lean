import Verif.Model.Basic

/-!
# `json::value`: representation

A `json::value` (include/common/value.hpp:671-672) is a tag `_type` and a payload `_raw_data`, a
`std::variant<std::string, array_ptr, object_ptr>` (value.hpp:46). Nothing in the C++ type keeps
the two in step, so the model keeps them apart as well.
-/

namespace Meojson

/-- `value::value_type`, include/common/value.hpp:33-42. -/
inductive VType where
  | invalid | null | boolean | string | number | array | object
deriving DecidableEq, Repr

/-- A `json::value`. The constructor is the alternative that `_raw_data` holds; `ty` is `_type`.

* `str ty s`: the payload is a `std::string`;
* `arr ty vs`: a non-null `unique_ptr<array>`; the array's only member is a `std::vector<value>` (array.hpp);
* `arrNull ty`: a null `unique_ptr<array>` (left behind by a move);
* `obj ty ms`: a non-null `unique_ptr<object>`; its only member is a `std::map<std::string, value>`
  (object.hpp:23, 236), here the list of its nodes in iteration order;
* `objNull ty`: a null `unique_ptr<object>`. -/
inductive Value where
  | str (ty : VType) (s : Bytes)
  | arr (ty : VType) (vs : List Value)
  | arrNull (ty : VType)
  | obj (ty : VType) (ms : List (Bytes × Value))
  | objNull (ty : VType)
deriving Repr

instance : Inhabited Value := ⟨.str .null []⟩

namespace Value

mutual
/-- Structural equality of representations (not `operator==`; see `Value.eq`). -/
def decEq : (a b : Value) → Decidable (a = b)
  | .str t s, b => match b with
    | .str t' s' => if h : t = t' ∧ s = s' then isTrue (by rw [h.1, h.2]) else isFalse (by simpa using h)
    | .arr .. | .arrNull .. | .obj .. | .objNull .. => isFalse (by simp)
  | .arr t vs, b => match b with
    | .arr t' vs' =>
      if h : t = t' then
        match decEqList vs vs' with
        | isTrue h' => isTrue (by rw [h, h'])
        | isFalse h' => isFalse (by simp [h'])
      else isFalse (by simp [h])
    | .str .. | .arrNull .. | .obj .. | .objNull .. => isFalse (by simp)
  | .arrNull t, b => match b with
    | .arrNull t' => if h : t = t' then isTrue (by rw [h]) else isFalse (by simpa using h)
    | .str .. | .arr .. | .obj .. | .objNull .. => isFalse (by simp)
  | .obj t vs, b => match b with
    | .obj t' vs' =>
      if h : t = t' then
        match decEqMembers vs vs' with
        | isTrue h' => isTrue (by rw [h, h'])
        | isFalse h' => isFalse (by simp [h'])
      else isFalse (by simp [h])
    | .str .. | .arrNull .. | .arr .. | .objNull .. => isFalse (by simp)
  | .objNull t, b => match b with
    | .objNull t' => if h : t = t' then isTrue (by rw [h]) else isFalse (by simpa using h)
    | .str .. | .arr .. | .obj .. | .arrNull .. => isFalse (by simp)
def decEqList : (a b : List Value) → Decidable (a = b)
  | [], b => match b with
    | [] => isTrue rfl
    | _ :: _ => isFalse (by simp)
  | v :: vs, b => match b with
    | [] => isFalse (by simp)
    | w :: ws => match decEq v w with
      | isTrue h => match decEqList vs ws with
        | isTrue h' => isTrue (by rw [h, h'])
        | isFalse h' => isFalse (by simp [h'])
      | isFalse h => isFalse (by simp [h])
def decEqMembers : (a b : List (Bytes × Value)) → Decidable (a = b)
  | [], b => match b with
    | [] => isTrue rfl
    | _ :: _ => isFalse (by simp)
  | (k, v) :: vs, b => match b with
    | [] => isFalse (by simp)
    | (k', w) :: ws =>
      if hk : k = k' then
        match decEq v w with
        | isTrue h => match decEqMembers vs ws with
          | isTrue h' => isTrue (by rw [hk, h, h'])
          | isFalse h' => isFalse (by simp [h'])
        | isFalse h => isFalse (by simp [h])
      else isFalse (by simp [hk])
end

instance : DecidableEq Value := decEq

/-- `value::type()`, value_impl.hpp:362-365. -/
def type : Value → VType
  | .str t _ | .arr t _ | .arrNull t | .obj t _ | .objNull t => t

/-- Setting `_type` alone (first statement of `operator=(const value&)`, value_impl.hpp:848, and of
the non-const `as_array`/`as_object`, 643 and 657). -/
def setType (t : VType) : Value → Value
  | .str _ s => .str t s
  | .arr _ vs => .arr t vs
  | .arrNull _ => .arrNull t
  | .obj _ ms => .obj t ms
  | .objNull _ => .objNull t

/-- `value::value()`: null tag, default payload (an empty string). value.hpp:671-672, value_impl.hpp:78. -/
def null : Value := .str .null []

/-- `invalid_value()`, parser_impl.hpp:682-685. -/
def invalid : Value := .str .invalid []

/-- `value::value(bool)`, value_impl.hpp: the text of the boolean. -/
def ofBool (b : Bool) : Value :=
  .str .boolean (if b then [0x74, 0x72, 0x75, 0x65] else [0x66, 0x61, 0x6c, 0x73, 0x65])

/-- `value::value(array)`, value_impl.hpp: tag `array`, payload `make_unique<array>(...)`. -/
def ofArray (vs : List Value) : Value := .arr .array vs

/-- `value::value(object)`, value_impl.hpp: tag `object`, payload `make_unique<object>(...)`. -/
def ofObject (ms : List (Bytes × Value)) : Value := .obj .object ms

/-- `value::valid()`, value_impl.hpp:207-210. -/
def valid (v : Value) : Bool := v.type ≠ .invalid

end Value

/-! ### `std::map<std::string, value>` -/

/-- `std::less<std::string>`: lexicographic comparison of the bytes as `unsigned char`
(`std::char_traits<char>::compare`, i.e. `memcmp`, then the shorter first). -/
def bytesLt : Bytes → Bytes → Bool
  | _, [] => false
  | [], _ :: _ => true
  | a :: as, b :: bs => if a < b then true else if b < a then false else bytesLt as bs

namespace RawObject

variable {β : Type}

/-- `std::map::emplace(key, val)`: inserts unless the key is present; the flag is `.second`. -/
def emplace (k : Bytes) (v : β) : List (Bytes × β) → List (Bytes × β) × Bool
  | [] => ([(k, v)], true)
  | (k', v') :: m =>
    if bytesLt k k' then ((k, v) :: (k', v') :: m, true)
    else if bytesLt k' k then
      let r := emplace k v m
      ((k', v') :: r.1, r.2)
    else ((k', v') :: m, false)

/-- `std::map::insert_or_assign(key, val)`. -/
def insertOrAssign (k : Bytes) (v : β) : List (Bytes × β) → List (Bytes × β)
  | [] => [(k, v)]
  | (k', v') :: m =>
    if bytesLt k k' then (k, v) :: (k', v') :: m
    else if bytesLt k' k then (k', v') :: insertOrAssign k v m
    else (k', v) :: m

/-- `std::map::find(key)`: the mapped value, or none for `end()`. -/
def find (k : Bytes) : List (Bytes × β) → Option β
  | [] => none
  | (k', v') :: m =>
    if bytesLt k k' then none
    else if bytesLt k' k then find k m
    else some v'

/-- `std::map::erase(key)`: the map without the key, and the number of erased nodes being positive. -/
def erase (k : Bytes) : List (Bytes × β) → List (Bytes × β) × Bool
  | [] => ([], false)
  | (k', v') :: m =>
    if bytesLt k k' then ((k', v') :: m, false)
    else if bytesLt k' k then
      let r := erase k m
      ((k', v') :: r.1, r.2)
    else (m, true)

end RawObject

end Meojson
