import Verif.Model.Access
import Verif.Spec.WellFormed

/-! # Specification: parts of a value and paths to them -/

set_option autoImplicit false

namespace Meojson.Spec

/-- `Step v p x`: the key or position `p` names the direct part `x` of `v`. -/
inductive Step : Value → Value.PathKey → Value → Prop
  | key {ms k x} : (k, x) ∈ ms → Step (.obj .object ms) (.key k) x
  | pos {vs i x} : 0 ≤ i → vs[i.toNat]? = some x → Step (.arr .array vs) (.pos i) x

/-- `Reaches v path x`: the path leads from `v` to `x`. -/
inductive Reaches : Value → List Value.PathKey → Value → Prop
  | here {v} : Reaches v [] v
  | step {v p y rest x} : Step v p y → Reaches y rest x → Reaches v (p :: rest) x

/-- No array inside is longer than a `std::vector` can be (its `max_size()` is below 2^63). -/
def Storable (v : Value) : Prop := ∀ path vs, Reaches v path (.arr .array vs) → vs.length < 2 ^ 63

end Meojson.Spec
