/-!
# Bytes and outcomes

Shared vocabulary of the model. Nothing here corresponds to one particular function of the code.
-/

namespace Meojson

/-- A text: the contents of a `std::string` or `std::string_view`. -/
abbrev Bytes := List UInt8

/-- Bytes of an ASCII string literal (used in examples and for literal texts only). -/
def ascii (s : String) : Bytes := s.toList.map fun c => UInt8.ofNat c.toNat

/-- Result of a member function of `json::parser` that returns a value and moves `_cur`.

* `ok a rest`: returned `a`, the bytes `[_cur, _end)` are now `rest`.
* `fail`: returned `invalid_value()` or `std::nullopt`. The position is dropped: every caller in
  `parser_impl.hpp` returns at once on such a result and `parse()` (36-38) does not look at `_cur` again.
* `ub`: a byte at or after `_end` was read, or one beside the content in between.
* `timeout`: the model's fuel ran out (not an outcome of the code). -/
inductive Res (α : Type) where
  | ok (a : α) (rest : Bytes)
  | fail
  | ub
  | timeout
deriving DecidableEq, Repr

namespace Res

/-- Sequencing: continue with the returned value and the new position. -/
def bind {α β : Type} (r : Res α) (f : α → Bytes → Res β) : Res β :=
  match r with
  | .ok a rest => f a rest
  | .fail => .fail
  | .ub => .ub
  | .timeout => .timeout

@[simp] theorem bind_ok {α β : Type} (a : α) (s : Bytes) (f : α → Bytes → Res β) :
    (Res.ok a s).bind f = f a s := rfl
@[simp] theorem bind_fail {α β : Type} (f : α → Bytes → Res β) : (Res.fail : Res α).bind f = .fail := rfl
@[simp] theorem bind_ub {α β : Type} (f : α → Bytes → Res β) : (Res.ub : Res α).bind f = .ub := rfl
@[simp] theorem bind_timeout {α β : Type} (f : α → Bytes → Res β) : (Res.timeout : Res α).bind f = .timeout := rfl

theorem bind_eq_ok {α β : Type} {r : Res α} {f : α → Bytes → Res β} {b : β} {t : Bytes} :
    r.bind f = .ok b t ↔ ∃ a s, r = .ok a s ∧ f a s = .ok b t := by
  cases r <;> simp [and_assoc]

end Res

/-- Classes of C++ exceptions the library can raise. Exception texts are not modelled. -/
inductive Exn where
  /-- `json::exception` (include/common/exception.hpp) -/
  | json
  /-- `std::out_of_range`, from `std::vector::at` and `std::map::at` -/
  | outOfRange
  /-- `std::bad_variant_access`, from `std::get` on the payload -/
  | badVariant
  /-- `std::length_error`, from a `std::string` of size -1 or longer than a string can be -/
  | lengthError
  /-- `std::bad_alloc`; only in Model/Noexcept and Model/Pour -/
  | badAlloc
deriving DecidableEq, Repr

/-- Outcome of an API call: a result, an exception, or undefined behaviour. -/
inductive Out (α : Type) where
  | ok (a : α)
  | throw (e : Exn)
  | ub
deriving DecidableEq, Repr

namespace Out

def bind {α β : Type} (r : Out α) (f : α → Out β) : Out β :=
  match r with
  | .ok a => f a
  | .throw e => .throw e
  | .ub => .ub

instance : Monad Out where
  pure := .ok
  bind := bind

@[simp] theorem bind_ok {α β : Type} (a : α) (f : α → Out β) : (Out.ok a).bind f = f a := rfl
@[simp] theorem bind_throw {α β : Type} (e : Exn) (f : α → Out β) : (Out.throw e : Out α).bind f = .throw e := rfl
@[simp] theorem bind_ub {α β : Type} (f : α → Out β) : (Out.ub : Out α).bind f = .ub := rfl
@[simp] theorem bind_def {α β : Type} (r : Out α) (f : α → Out β) : (r >>= f) = r.bind f := rfl
@[simp] theorem pure_def {α : Type} (a : α) : (pure a : Out α) = .ok a := rfl

theorem bind_eq_ok {α β : Type} {r : Out α} {f : α → Out β} {b : β} :
    r.bind f = .ok b ↔ ∃ a, r = .ok a ∧ f a = .ok b := by
  cases r <;> simp

end Out

end Meojson
