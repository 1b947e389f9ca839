import Verif.Model.Keys

/-!
# The choices of Model/Keys, as g++ makes them

The choices were printed by a program of our own with functions of the same signatures (not the library), compiled with g++ 13: `p` for `size_t`, `k` for `std::string`, `i` for an iterator, `-` if
the call does not compile. The columns are `v.at(x)`, `v[x]`, `v[x]` for a const `v`, `a.at(x)`, `a.erase(x)`, `o.at(x)`, `o.erase(x)`, `o[x]`, and a key of `v.get`, `a.get`, `o.get`.

Two things differ from what was printed. For a key of `v.get` the program shows the branch that is taken: `?` for the one with the `static_assert`, which is `-` here, and `k` for a
`std::string_view`, which does not convert to `const std::string&` in that branch (its `o.get` is `-`), so it is `-` here too. The row of `json::value` comes from a second program with a class that
has some of its explicit conversions; it covers the first eight columns, the others follow from there being no implicit conversion.
-/

set_option autoImplicit false

namespace Meojson.Keys.Table
open Construct

def columns : List Callee := [.both, .both, .positions, .positions, .arrayErase, .keys, .objectErase, .keys, .valuePath, .arrayPath, .objectPath]

def letter : Means → Char
  | .position _ => 'p'
  | .key _ | .undefined => 'k'
  | .iterator => 'i'
  | .refused => '-'

def row (new : Bool) (x : Given) : String := String.ofList (columns.map fun c => letter (means 64 new c x))

def arguments : List Given :=
  [.zero, .int .int 1, .int .llong 1, .int .bool 1, .int .char 0x61, .int .uchar 0, .int .wchar 0x61, .int .char16 0x61, .flt .double (.fin false 3 (-1)), .flt .float (.fin false 1 0),
   .enumeration false 3, .enumeration true 3, .nullptr, .chars (some [0x61, 0]), .string [], .view [], .value, .pointer, .arrayIterator, .objectIterator]

/-- -std=c++17 -/
example : arguments.map (row false) =
    ["pppppkkkpp-", "ppppp---pp-", "ppppp---pp-", "ppppp---pp-", "ppppp---pp-", "ppppp---pp-", "ppppp---pp-", "ppppp---pp-", "ppppp----p-", "ppppp----p-",
     "ppppp----p-", "-----------", "kk---kkkk-k", "kk---kkkk-k", "kk---kkkk-k", "-----------", "-----------", "-----------", "----i------", "------i----"] := by decide

/-- -std=c++23 -/
example : arguments.map (row true) =
    ["ppppp---pp-", "ppppp---pp-", "ppppp---pp-", "ppppp---pp-", "ppppp---pp-", "ppppp---pp-", "ppppp---pp-", "ppppp---pp-", "ppppp----p-", "ppppp----p-",
     "ppppp----p-", "-----------", "-----------", "kk---kkkk-k", "kk---kkkk-k", "-----------", "-----------", "-----------", "----i------", "------i----"] := by decide

end Meojson.Keys.Table
