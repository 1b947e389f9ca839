import Verif.Model.Dispatch

/-!
# The choices of Model/Dispatch, as g++ makes them

The tables were printed by a program of our own with the signatures of the constructors and conversion functions (not the library), compiled with g++ 13 -std=c++17. A row holds what is
chosen for an lvalue, a const lvalue, an rvalue and a const rvalue: X nothing (ambiguous, deleted or not viable), b the built-in one, m a member, s the specialisation, r its function for
rvalues. (For a const rvalue the latter is chosen when writing, and its body does not compile.)
-/

set_option autoImplicit false

namespace Meojson.Dispatch.Table

def letter : Option Via → Char
  | none => 'X'
  | some .builtIn => 'b'
  | some .member => 'm'
  | some .spec => 's'
  | some .moveSpec => 'r'

def row (f : Cat → Option Via) : String := String.ofList ([Cat.lv, .constLv, .rv, .constRv].map fun c => letter (f c))

/-- kind, `to_json` in the class, in the specialisation, `move_to_json` there -/
def written : List (Kind × Bool × Bool × Bool × String) := [
  (.own, false, false, false, "bbbb"),
  (.own, false, false, true, "bbbb"),
  (.own, false, true, false, "bbbb"),
  (.own, false, true, true, "bbbb"),
  (.refused, false, false, false, "XXXX"),
  (.refused, false, false, true, "XXXX"),
  (.refused, false, true, false, "XXXX"),
  (.refused, false, true, true, "XXXX"),
  (.small, false, false, false, "bbbb"),
  (.small, false, false, true, "bbrX"),
  (.small, false, true, false, "ssss"),
  (.small, false, true, true, "ssrX"),
  (.enumeration, false, false, false, "bbbb"),
  (.enumeration, false, false, true, "bbXX"),
  (.enumeration, false, true, false, "XXXX"),
  (.enumeration, false, true, true, "XXXX"),
  (.nullable, false, false, false, "bbbb"),
  (.nullable, false, false, true, "bbXX"),
  (.nullable, false, true, false, "ssss"),
  (.nullable, false, true, true, "ssrX"),
  (.nullable, true, false, false, "mmmm"),
  (.nullable, true, false, true, "mmrX"),
  (.nullable, true, true, false, "XXXX"),
  (.nullable, true, true, true, "XXrX"),
  (.variant, false, false, false, "bbbb"),
  (.variant, false, false, true, "bbbX"),
  (.variant, false, true, false, "ssss"),
  (.variant, false, true, true, "ssrX"),
  (.fixed, false, false, false, "bbbb"),
  (.fixed, false, false, true, "bbbX"),
  (.fixed, false, true, false, "ssss"),
  (.fixed, false, true, true, "ssrX"),
  (.collection, false, false, false, "bbbb"),
  (.collection, false, false, true, "bbXX"),
  (.collection, false, true, false, "ssss"),
  (.collection, false, true, true, "ssrX"),
  (.collection, true, false, false, "mmmm"),
  (.collection, true, false, true, "mmrX"),
  (.collection, true, true, false, "XXXX"),
  (.collection, true, true, true, "XXrX"),
  (.tupleLike, false, false, false, "bbbb"),
  (.tupleLike, false, false, true, "bbbX"),
  (.tupleLike, false, true, false, "ssss"),
  (.tupleLike, false, true, true, "ssrX"),
  (.map, false, false, false, "bbbb"),
  (.map, false, false, true, "bbXX"),
  (.map, false, true, false, "ssss"),
  (.map, false, true, true, "ssrX"),
  (.map, true, false, false, "mmmm"),
  (.map, true, false, true, "mmrX"),
  (.map, true, true, false, "XXXX"),
  (.map, true, true, true, "XXrX"),
  (.other, false, false, false, "XXXX"),
  (.other, false, false, true, "XXrX"),
  (.other, false, true, false, "ssss"),
  (.other, false, true, true, "ssrX"),
  (.other, true, false, false, "mmmm"),
  (.other, true, false, true, "mmrX"),
  (.other, true, true, false, "XXXX"),
  (.other, true, true, true, "XXrX")]

example : written.all fun (k, m, s, r, t) => row (write k { toMember := m, toSpec := s, moveToSpec := r }) == t := by decide +kernel

/-- kind, `from_json` in the class, in the specialisation, `move_from_json` there -/
def read : List (Kind × Bool × Bool × Bool × String) := [
  (.own, false, false, false, "bbbb"),
  (.own, false, false, true, "bbrb"),
  (.own, false, true, false, "bbbb"),
  (.own, false, true, true, "bbrb"),
  (.enumeration, false, false, false, "bbbb"),
  (.enumeration, false, false, true, "bbrb"),
  (.enumeration, false, true, false, "XXXX"),
  (.enumeration, false, true, true, "XXrX"),
  (.nullable, false, false, false, "bbbb"),
  (.nullable, false, false, true, "bbbb"),
  (.nullable, false, true, false, "bbbb"),
  (.nullable, false, true, true, "bbbb"),
  (.variant, false, false, false, "bbbb"),
  (.variant, false, false, true, "bbbb"),
  (.variant, false, true, false, "bbbb"),
  (.variant, false, true, true, "bbbb"),
  (.fixed, false, false, false, "bbbb"),
  (.fixed, false, false, true, "bbXb"),
  (.fixed, false, true, false, "ssss"),
  (.fixed, false, true, true, "ssrs"),
  (.collection, false, false, false, "bbbb"),
  (.collection, false, false, true, "bbXb"),
  (.collection, false, true, false, "ssss"),
  (.collection, false, true, true, "ssrs"),
  (.tupleLike, false, false, false, "bbbb"),
  (.tupleLike, false, false, true, "bbXb"),
  (.tupleLike, false, true, false, "ssss"),
  (.tupleLike, false, true, true, "ssrs"),
  (.map, false, false, false, "bbbb"),
  (.map, false, false, true, "bbXb"),
  (.map, false, true, false, "ssss"),
  (.map, false, true, true, "ssrs"),
  (.other, false, false, false, "XXXX"),
  (.other, false, false, true, "XXrX"),
  (.other, false, true, false, "ssss"),
  (.other, false, true, true, "ssrs"),
  (.other, true, false, false, "mmmm"),
  (.other, true, false, true, "mmrm"),
  (.other, true, true, false, "XXXX"),
  (.other, true, true, true, "XXrX"),
  (.small, false, false, false, "XXXX"),
  (.small, false, false, true, "XXrX"),
  (.small, false, true, false, "ssss"),
  (.small, false, true, true, "ssrs")]

example : read.all fun (k, m, s, r, t) => row (cast k { fromMember := m, fromSpec := s, moveFromSpec := r }) == t := by decide +kernel

end Meojson.Dispatch.Table
