import Verif.Model.Classify

/-!
# Classes of the standard library

What `Model/Classify` asks of a class, for the containers and wrappers of the C++17 standard library and `std::span`, with elements that can be converted and may be proxies in
`std::vector<bool>` only.
-/

set_option autoImplicit false

namespace Meojson.Classify.Std

/-- `std::vector<T>`: two template parameters, no `std::tuple_size` -/
def vector : Class := { form := .types 2 none, range := true, emplaceBack := true, emplace := false, indexed := true }
def vectorBool : Class := { vector with refs := false }
def deque : Class := vector
def list : Class := { vector with indexed := false }
/-- neither `emplace_back` nor `emplace` -/
def forwardList : Class := { form := .types 2 none, range := true }
/-- also the other sets -/
def set : Class := { form := .types 3 none, range := true, key := some .other, emplace := true }
/-- a set of strings -/
def stringSet : Class := { set with key := some .string }
/-- `std::map<std::string, T>` and the other maps -/
def map : Class := { form := .types 4 none, range := true, key := some .string, mapped := true, emplace := true }
/-- `std::map<std::string_view, T>` -/
def viewMap : Class := { map with key := some .text }
/-- `std::map<int, T>` -/
def intMap : Class := { map with key := some .other }
def array (n : Nat) : Class := { form := .sized n, range := true, indexed := true }
/-- `std::span<T, n>`, also with the number that stands for any length. No `at` before C++26. -/
def span (n : Nat) : Class := { form := .sized n, range := true, default := n = 0 }
def initializerList : Class := { form := .types 1 none, range := true }
def pair : Class := { form := .types 2 (some 2) }
def tuple (k : Nat) : Class := { form := .types k (some k) }
def optional : Class := { form := .types 1 none, bool := true, deref := true, pointer := true }
/-- `std::optional` in C++26, with `begin()` -/
def optional26 : Class := { optional with range := true }
def uniquePtr : Class := { form := .types 2 none, bool := true, deref := true, pointer := true }
def sharedPtr : Class := { form := .types 1 none, bool := true, deref := true, pointer := true }
/-- `std::stack`, `std::queue`, `std::priority_queue` -/
def stack : Class := { form := .types 2 none, emplace := true }
/-- `std::wstring` and the strings of other characters -/
def wstring : Class := { form := .types 3 none, range := true, chars := true, indexed := true }
/-- `begin` is no member -/
def valarray : Class := { form := .types 1 none }
def bitset : Class := { form := .other }

end Meojson.Classify.Std
