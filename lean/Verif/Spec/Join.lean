import Verif.Spec.Take
import Verif.Model.TakeMemory

/-!
# What `+` and `|` give, and what they leave
-/

set_option autoImplicit false

namespace Meojson

/-- `v + xs`: what is left of `v`, and the outcome. The flag tells whether `v` is an rvalue. -/
inductive Concat : Bool → Value → List Value → Value → Out Value → Prop
  | kept {vs xs} : Concat false (.arr .array vs) xs (.arr .array vs) (.ok (.arr .array (vs ++ xs)))
  | taken {vs xs} : Concat true (.arr .array vs) xs (.arr .array []) (.ok (.arr .array (vs ++ xs)))
  | made {v xs} : Spec.Blank v → v.type ≠ .array → Concat true v xs (.arr .array []) (.ok (.arr .array xs))
  | noArray {v xs} : v.type ≠ .array → Concat false v xs v (.throw .json)
  | other {v xs} : v.type ≠ .array → ¬ Spec.Blank v → Concat true v xs v (.throw .json)

/-- `r` has the members of `ns`, and those of `ms` whose keys `ns` lacks. -/
def Union (ms ns r : List (Bytes × Value)) : Prop :=
  r.Pairwise (fun a b => a.1 < b.1) ∧ ∀ k x, (k, x) ∈ r ↔ (k, x) ∈ ns ∨ ((k, x) ∈ ms ∧ ∀ y, (k, y) ∉ ns)

/-- `v | ns`: what is left of `v`, and the outcome. -/
inductive United : Bool → Value → List (Bytes × Value) → Value → Out Value → Prop
  | kept {ms ns r} : Union ms ns r → United false (.obj .object ms) ns (.obj .object ms) (.ok (.obj .object r))
  | taken {ms ns r} : Union ms ns r → United true (.obj .object ms) ns (.obj .object []) (.ok (.obj .object r))
  | made {v ns} : Spec.Blank v → v.type ≠ .object → United true v ns (.obj .object []) (.ok (.obj .object ns))
  | noObject {v ns} : v.type ≠ .object → United false v ns v (.throw .json)
  | other {v ns} : v.type ≠ .object → ¬ Spec.Blank v → United true v ns v (.throw .json)

/-- What is left of an array that was the right operand of an operation that returned: nothing has changed if it is an lvalue, and each element has been moved from if it is an rvalue. -/
def UsedUp (mv : Bool) (xs ys : List Value) : Prop := if mv then List.Forall₂ Spec.Gone xs ys else ys = xs

/-- The same for an object: the keys stay. -/
def UsedUpMembers (mv : Bool) (ns os : List (Bytes × Value)) : Prop := if mv then List.Forall₂ (fun a b => b.1 = a.1 ∧ Spec.Gone a.2 b.2) ns os else os = ns

/-- How far a merge that failed has come. The members in front have been merged, and those of an rvalue moved from; it may be that the next one was to be assigned, and of the assignment only the tag has
been written. -/
inductive Midway (mv : Bool) (ms : List (Bytes × Value)) : List (Bytes × Value) → List (Bytes × Value) → List (Bytes × Value) → Prop
  | between {done left used r} : Union ms done r → UsedUpMembers mv done used → Midway mv ms (done ++ left) r (used ++ left)
  | assigning {done k x left used r old r'} : Union ms done r → UsedUpMembers mv done used → mv = false → (k, old) ∈ r →
      Union r [(k, old.retag x.type)] r' → Midway mv ms (done ++ (k, x) :: left) r' (used ++ (k, x) :: left)

/-- What `v + xs` may leave of the two when it runs out of memory. `l` and `m` tell which is an rvalue. -/
inductive ConcatFailed (l m : Bool) (v : Value) (xs : List Value) : Value → List Value → Prop
  /-- Nothing has changed. -/
  | kept : ConcatFailed l m v xs v xs
  /-- An empty value has become something else, only by its tag. -/
  | mislabelled : l = true → Spec.Blank v → ConcatFailed l m v xs (v.retag .array) xs
  /-- An empty value has become an array. -/
  | made : l = true → Spec.Blank v → ConcatFailed l m v xs (.arr .array []) xs
  /-- All but the last step has been done, and what was to be the result is lost. -/
  | lost {ys} : UsedUp m xs ys → ConcatFailed l m v xs (if l then .arr .array [] else v) ys

/-- What `v | ns` may leave of the two when it runs out of memory. -/
inductive UnionFailed (l m : Bool) (v : Value) (ns : List (Bytes × Value)) : Value → List (Bytes × Value) → Prop
  | kept : UnionFailed l m v ns v ns
  | mislabelled : l = true → Spec.Blank v → UnionFailed l m v ns (v.retag .object) ns
  /-- The loop did not get to its end. -/
  | midway {ms r os} : v = .obj .object ms → Midway m ms ns r os → UnionFailed l m v ns (if l then .obj .object r else v) os
  | midwayMade {r os} : l = true → Spec.Blank v → Midway m [] ns r os → UnionFailed l m v ns (.obj .object r) os
  | lost {os} : UsedUpMembers m ns os → UnionFailed l m v ns (if l then .obj .object [] else v) os

end Meojson
