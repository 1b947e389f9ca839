import Verif.Model.Convert
import Verif.Model.Compare

/-!
# `v == x` for a value and something that is none

`value::operator==(const value&) const` is the library's only candidate for `v == x` (value.hpp:425-427): the conversion functions of `value` are explicit (448-476), so `x` is made a
`json::value` by a constructor, with the value category that the expression `x` has. For `std::optional` the standard library has a better candidate, a template `operator==(const U&, const std::optional<T>&)`, which needs no conversion: an empty optional is not equal, and
the content of another is compared with `v` in turn. (Checked with g++ 13 in the dialects C++17 to C++23 on a class of our own with the same signatures. `x == v` does not compile there: `operator!=` being a
member, C++20 does not exchange the operands.) Left out: classes of the user's with an `operator==` of their own.
-/

set_option autoImplicit false

namespace Meojson
variable (F : Floats)

/-- `v == x`, and what `x` is afterwards. -/
def Ty.equals : Ty → Cat → Value → CVal → Out (Bool × CVal)
  | .json, _, v, .json w => (v.eq w).bind fun b => .ok (b, .json w)
  | .nullable .optional _, _, _, .nothing => .ok (false, .nothing)
  | .nullable .optional t, _, v, .just x => (t.equals .constLv v x).bind fun r => .ok (r.1, .just r.2)
  | t, c, v, x => (t.store F c x).bind fun r => (v.eq r.1).bind fun b => .ok (b, r.2)

/-- `v != x`: value_impl.hpp:878-881, and the template of the standard library for `!=`. -/
def Ty.differs : Ty → Cat → Value → CVal → Out (Bool × CVal)
  | .json, _, v, .json w => (v.ne w).bind fun b => .ok (b, .json w)
  | .nullable .optional _, _, _, .nothing => .ok (true, .nothing)
  | .nullable .optional t, _, v, .just x => (t.differs .constLv v x).bind fun r => .ok (r.1, .just r.2)
  | t, c, v, x => (t.store F c x).bind fun r => (v.ne r.1).bind fun b => .ok (b, r.2)

end Meojson
