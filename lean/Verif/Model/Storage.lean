import Verif.Model.Parser

/-!
# `json::parse` on containers in several pieces

`parse` and `parsec` are templates over the container (parser.hpp:67-75, parser_impl.hpp:599-603, 646-650). Everything is read through iterators, except that
`skip_string_literal_with_accel` takes the address of a character and reads `step` bytes from there (parser_impl.hpp:472). `sizeof(*_cur) == 1` is all that is asked of the container.
-/

set_option autoImplicit false

namespace Meojson

/-- A packed-bytes trait on a content of `total` bytes that lies in pieces of `k` bytes each, like a `std::deque<char>`, and begins `off` bytes after the start of a piece.
Reading from one piece on into what follows it in memory is undefined. (No position has more than `total` bytes left.) -/
def Traits.chunked (T : Traits) (k off total : Nat) : Traits :=
  { T with whole := fun left => decide (total < left ∨ (off + (total - left)) % k + T.step ≤ k) }

/-- `json::parse` (`jsonc = false`) and `json::parsec` on such a container. -/
def parseChunked (jsonc : Bool) (accel : Option Traits) (k off : Nat) (s : Bytes) : Res Value :=
  parseRun ⟨jsonc, accel.map fun T => T.chunked k off s.length⟩ (parseFuel s) s

end Meojson
