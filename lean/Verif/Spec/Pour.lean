import Verif.Model.Pour

/-!
# What standard libraries promise of `std::string`
-/

set_option autoImplicit false

namespace Meojson

/-- A buffer that is too small is replaced by one that suffices, larger by half at least or as large as can be, and at most thrice what is needed. libstdc++ and libc++ double, Microsoft's adds half;
the latter two round up to one less than a multiple of 16. No string has less than `small`, which is 15 or 22. -/
structure Str.Standard (L : Str) : Prop where
  small : 9 ≤ L.small
  least : L.small ≤ L.max
  fits : ∀ cap need, L.small ≤ cap → cap < need → need ≤ L.max → need ≤ L.grow cap need ∧ L.grow cap need ≤ L.max
  half : ∀ cap need, L.small ≤ cap → cap < need → need ≤ L.max → cap + cap / 2 ≤ L.grow cap need ∨ L.grow cap need = L.max
  thrice : ∀ cap need, L.small ≤ cap → cap < need → need ≤ L.max → L.grow cap need ≤ 3 * need

/-- Memory is never refused. -/
def Str.Generous (L : Str) : Prop := ∀ k n, L.gives k n = true

end Meojson
