import Verif.Model.PackedBytes

/-!
# Bit counting in every build

include/parser/bitops.hpp has the counting functions four times: from `<bit>` since C++20 (5-19), with the builtins of GCC and clang (25-56), with the `lzcnt`/`tzcnt` instructions for MSVC with AVX2
(57-79), with `_BitScanReverse`/`_BitScanForward` for MSVC otherwise (80-103), and with `countl_one`, `countr_one` shared by all but the first (108-126). Model/PackedBytes uses one definition of each count.
Here are the others, each from the description of what it calls.

* A word of `w` bits, 32 or 64, is a number below 2^w.
* `if constexpr` without `else` (27-35): the first `return` that is compiled is the one that runs.
* MSVC: an `/arch:AVX2` build is run on a processor with `lzcnt`. Whether MSVC accepts `constexpr` functions that call the scanning intrinsics (81-103), and the 64-bit intrinsics in a 32-bit build,
  is not modelled.
* `is_little_endian` of the older builds (129-138) reads a member of a union that is not the active one. GCC, clang and MSVC define that; the standard does not. Modelled as they do.
-/

set_option autoImplicit false

namespace Meojson.Bits

inductive Build where
  | std
  /-- the sizes of `unsigned int` and `unsigned long` in bytes -/
  | gnu (int long : Nat)
  | msvcAvx2
  | msvc
deriving DecidableEq, Repr

/-- `std::countl_zero`, [bit.count]: the number of consecutive 0 bits, starting from the most significant one; the other three alike. -/
def stdCount (fromTop one : Bool) (w x : Nat) : Nat :=
  ((if fromTop then (List.range w).reverse else List.range w).takeWhile fun i => x.testBit i == one).length

/-- `__builtin_clz` for a type of `w` bits: undefined for 0. -/
def builtinClz (w x : Nat) : Out Nat := if x = 0 then .ub else .ok (w - 1 - x.log2)

/-- `__builtin_ctz`: undefined for 0. -/
def builtinCtz (w x : Nat) : Out Nat := match (List.range w).find? x.testBit with | some i => .ok i | none => .ub

/-- `lzcnt`, as the loop in the manual: `temp` counts down from the operand size. -/
def lzcnt (x : Nat) : Nat → Nat → Nat
  | 0, dest => dest
  | temp + 1, dest => if x.testBit temp then dest else lzcnt x temp (dest + 1)

/-- `tzcnt`: `temp` counts up to the operand size; `n` is what is left. -/
def tzcnt (x : Nat) : Nat → Nat → Nat → Nat
  | 0, _, dest => dest
  | n + 1, temp, dest => if x.testBit temp then dest else tzcnt x n (temp + 1) (dest + 1)

/-- `_BitScanReverse(&index, x)`: the highest 1 bit; nothing for 0. -/
def scanReverse (x : Nat) : Option Nat := if x = 0 then none else some x.log2

/-- `_BitScanForward(&index, x)`: the lowest 1 bit. -/
def scanForward (w x : Nat) : Option Nat := (List.range w).find? x.testBit

/-- The type that the builtin called for a `uint32_t` has, bitops.hpp:28-34 and 39-45; for a `uint64_t`, `unsigned long long` (50, 55). -/
def called (int long w : Nat) : Nat := if w = 32 then (if int = 4 then 32 else if long = 4 then 32 else 64) else 64

/-- `countl_zero`, bitops.hpp:26-35, 48-51; 60-63, 70-73; 81-85, 93-97 -/
def countlZero (b : Build) (w x : Nat) : Out Nat :=
  match b with
  | .std => .ok (stdCount true false w x)
  | .gnu int long => if x = 0 then .ok w else builtinClz (called int long w) x
  | .msvcAvx2 => .ok (lzcnt x w 0)
  | .msvc => .ok (match scanReverse x with | some i => w - 1 - i | none => w)

/-- `countr_zero`, bitops.hpp:37-46, 53-56; 65-68, 75-78; 87-91, 99-103 -/
def countrZero (b : Build) (w x : Nat) : Out Nat :=
  match b with
  | .std => .ok (stdCount false false w x)
  | .gnu int long => if x = 0 then .ok w else builtinCtz (called int long w) x
  | .msvcAvx2 => .ok (tzcnt x w 0 0)
  | .msvc => .ok (match scanForward w x with | some i => i | none => w)

/-- `~x` in a type of `w` bits -/
def flip (w x : Nat) : Nat := 2 ^ w - 1 - x

/-- `countl_one`, bitops.hpp:108-111, 118-121 -/
def countlOne (b : Build) (w x : Nat) : Out Nat := match b with | .std => .ok (stdCount true true w x) | b => countlZero b w (flip w x)

/-- `countr_one`, bitops.hpp:113-116, 123-126 -/
def countrOne (b : Build) (w x : Nat) : Out Nat := match b with | .std => .ok (stdCount false true w x) | b => countrZero b w (flip w x)

/-- In `countl_zero(~x)` the type of `~x` is `int` if `uint32_t` is narrower than that, and then both overloads fit equally well: such a platform does not compile bitops.hpp. If `unsigned int` is
narrower than 32 bits, `uint32_t` is `unsigned long`. -/
def Build.Compiles : Build → Prop
  | .gnu int long => int = 4 ∨ int < 4 ∧ long = 4
  | _ => True

/-- The order of the bytes of a word in memory: the first byte of 0x01020304 is the lowest, the highest, or (as on the PDP-11) another. -/
inductive Order where
  | little | big | middle
deriving DecidableEq, Repr

def Order.store : Order → Bytes
  | .little => [4, 3, 2, 1]
  | .big => [1, 2, 3, 4]
  | .middle => [2, 1, 4, 3]

/-- `is_little_endian()`, bitops.hpp:15-18 and 129-138 -/
def isLittleEndian (b : Build) (o : Order) : Bool :=
  match b with
  | .std => o = .little
  | _ => o.store.head? = some 4

end Meojson.Bits
