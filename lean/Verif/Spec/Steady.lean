import Verif.Spec.Convert

/-!
# Specification: values that are written the same after they have been read back

Less is asked than in `Ty.Lossless`: what is read back may be another value, as long as it is written alike.
-/

set_option autoImplicit false

namespace Meojson
open Spec

mutual
/-- Floating-point numbers inside, printed and read, are printed the same again; enumerators have unambiguous names; where an empty `std::optional` is, null is not
read as something that is written otherwise; no tuple has just one element; the elements of a set come back as they were; no earlier alternative of a variant accepts
what is written, and its own does (or, if a `json::value` converts to the variant implicitly, the variant holds the alternative it converts to); members of a struct have different keys; and
what the user's `from_json` makes of what `to_json` wrote is written alike. -/
def Ty.Steady (F : Floats) : Ty → CVal → Prop
  | .float f, .flt x => ∀ y, F.read f (F.print f x) = some y → F.print f y = F.print f x
  | .enum E, .enum e => E.Faithful e
  | .nullable .optional t, .nothing => ∀ y, t.as F .null = .ok y → ∀ c, ∃ z, t.store F c y = .ok (.null, z)
  | .nullable _ t, .just x => t.Steady F x
  | .seq t, .list xs => ∀ x ∈ xs, t.Steady F x
  | .set _ t, .list xs => ∀ x ∈ xs, t.Lossless F x
  | .fixed _ t, .list xs => ∀ x ∈ xs, t.Steady F x
  | .tuple ts, .list xs => ts.size ≠ 1 ∧ ts.SteadyAll F xs
  | .variant ts, .alt i x => (ts.chosen = some i ∧ ts.SteadyNth F i x) ∨ (ts.chosen = none ∧ ts.SteadyAlt F i x)
  | .map t, .map ms => ∀ e ∈ ms, t.Steady F e.2
  | .struct fs, .list xs => (fs.members.map (·.key)).Nodup ∧ fs.Steady F xs
  | .user U, x => ∃ v, U.dump x = some v ∧ v.Sound ∧ ∀ y, U.load v = some y → U.dump y = some v
  | _, _ => True
def Tys.SteadyAll (F : Floats) : Tys → List CVal → Prop
  | .cons t ts, x :: xs => t.Steady F x ∧ ts.SteadyAll F xs
  | _, _ => True
def Tys.SteadyNth (F : Floats) : Tys → Nat → CVal → Prop
  | .cons t _, 0, x => t.Steady F x
  | .cons _ ts, i + 1, x => ts.SteadyNth F i x
  | _, _, _ => True
def Tys.SteadyAlt (F : Floats) : Tys → Nat → CVal → Prop
  | .cons t _, 0, x => t.Steady F x ∧ ∀ v y, t.store F .constLv x = .ok (v, y) → t.is F v = .ok true
  | .cons t ts, i + 1, x => ts.SteadyAlt F i x ∧ ∀ u v y, ts.get? i = some u → u.store F .constLv x = .ok (v, y) → t.is F v = .ok false
  | _, _, _ => True
def Fields.Steady (F : Floats) : Fields → List CVal → Prop
  | .opt rest, xs => rest.Steady F xs
  | .key _ rest, xs => rest.Steady F xs
  | .var _ _ t rest, x :: xs => t.Steady F x ∧ rest.Steady F xs
  | _, _ => True
end

mutual
/-- A type all of whose values are like that. For the parts that need no condition nothing is asked; sets, variants, enums, `std::optional` and the user's types as above. -/
def Ty.Tidy (F : Floats) : Ty → Prop
  | .float f => ∀ x, f.Has x → (Ty.float f).Steady F (.flt x)
  | .enum E => ∀ e, E.under.Has e → E.Faithful e
  | .nullable .optional t => (Ty.nullable .optional t).Steady F .nothing ∧ t.Tidy F
  | .nullable .pointer t => t.Tidy F
  | .seq t => t.Tidy F
  | .set _ t => ∀ x, t.Has x → t.Lossless F x
  | .fixed _ t => t.Tidy F
  | .tuple ts => ts.size ≠ 1 ∧ ts.Tidy F
  | .variant ts => ∀ i x, ts.HasAlt i x → (Ty.variant ts).Steady F (.alt i x)
  | .map t => t.Tidy F
  | .struct fs => (fs.members.map (·.key)).Nodup ∧ fs.Tidy F
  | .user U => ∀ x, U.has x → (Ty.user U).Steady F x
  | _ => True
def Tys.Tidy (F : Floats) : Tys → Prop
  | .nil => True
  | .cons t ts => t.Tidy F ∧ ts.Tidy F
def Fields.Tidy (F : Floats) : Fields → Prop
  | .done => True
  | .opt rest => rest.Tidy F
  | .key _ rest => rest.Tidy F
  | .var _ _ t rest => t.Tidy F ∧ rest.Tidy F
end

end Meojson
