import Verif.Model.Parser

/-!
# Packed-bytes traits

include/parser/packed_bytes.hpp, packed_bytes_x86.hpp, packed_bytes_arm.hpp and bitops.hpp. Vector intrinsics are
modelled by their documented lane-wise meaning; a vector register is the list of its byte lanes in memory order.
-/

namespace Meojson

/-! ### bitops.hpp -/

/-- `countr_zero` on a `w`-bit word, bitops.hpp:37-56: the number of zero bits below the lowest one bit, `w` if none. -/
def countrZero : Nat → Nat → Nat
  | 0, _ => 0
  | w + 1, x => if x.testBit 0 then 0 else 1 + countrZero w (x / 2)

/-- `countl_zero` on a `w`-bit word, bitops.hpp:26-51. -/
def countlZero : Nat → Nat → Nat
  | 0, _ => 0
  | w + 1, x => if x.testBit w then 0 else 1 + countlZero w x

/-- `countr_one`, bitops.hpp:112-125. -/
def countrOne32 (x : UInt32) : Nat := countrZero 32 (~~~x).toNat
def countrOne64 (x : UInt64) : Nat := countrZero 64 (~~~x).toNat

/-- Number whose base-256 digits, lowest first, are the given bytes. -/
def leVal : Bytes → Nat
  | [] => 0
  | b :: bs => b.toNat + 256 * leVal bs

/-- The number a `memcpy` into an unsigned integer yields. -/
def loadVal (littleEndian : Bool) (bs : Bytes) : Nat := leVal (if littleEndian then bs else bs.reverse)

/-! ### packed_bytes_trait_uint64 (packed_bytes.hpp:44-84) -/

namespace U64
def less (x : UInt64) (n : UInt8) : UInt64 :=
  (x - 0x0101010101010101 * n.toUInt64) &&& ~~~x &&& 0x8080808080808080
def isZeroMemberwise (v : UInt64) : UInt64 := (v - 0x0101010101010101) &&& ~~~v &&& 0x8080808080808080
def equal (x : UInt64) (n : UInt8) : UInt64 := isZeroMemberwise (x ^^^ (0x0101010101010101 * n.toUInt64))
def firstNonzeroByte (littleEndian : Bool) (x : UInt64) : Nat :=
  if littleEndian then countrZero 64 x.toNat / 8 else countlZero 64 x.toNat / 8
end U64

def traitU64 (littleEndian : Bool) : Traits where
  W := UInt64
  step := 8
  load bs := UInt64.ofNat (loadVal littleEndian bs)
  less := U64.less
  equal := U64.equal
  bitwiseOr a b := a ||| b
  isAllZero v := v == 0
  firstNonzeroByte := U64.firstNonzeroByte littleEndian

/-! ### packed_bytes_trait_uint32 (packed_bytes.hpp:86-127) -/

namespace U32
/-- `~UINT32_C(0) / 255` is 0x01010101 and `~UINT32_C(0) / 255 * 128` is 0x80808080. -/
def less (x : UInt32) (n : UInt8) : UInt32 := (x - ~~~0 / 255 * n.toUInt32) &&& ~~~x &&& ~~~0 / 255 * 128
def isZeroMemberwise (v : UInt32) : UInt32 := (v - 0x01010101) &&& ~~~v &&& 0x80808080
def equal (x : UInt32) (n : UInt8) : UInt32 := isZeroMemberwise (x ^^^ (~~~0 / 255 * n.toUInt32))
def firstNonzeroByte (littleEndian : Bool) (x : UInt32) : Nat :=
  if littleEndian then countrZero 32 x.toNat / 8 else countlZero 32 x.toNat / 8
end U32

def traitU32 (littleEndian : Bool) : Traits where
  W := UInt32
  step := 4
  load bs := UInt32.ofNat (loadVal littleEndian bs)
  less := U32.less
  equal := U32.equal
  bitwiseOr a b := a ||| b
  isAllZero v := v == 0
  firstNonzeroByte := U32.firstNonzeroByte littleEndian

/-! ### packed_bytes_trait_sse and packed_bytes_trait_avx2 (packed_bytes_x86.hpp) -/

/-- `_mm_set1_epi8`, `_mm256_set1_epi8`, `vdupq_n_u8` for a register of `k` lanes. -/
def Simd.set1 (k : Nat) (n : UInt8) : Bytes := List.replicate k n
/-- `_mm_max_epu8` -/
def Simd.maxU8 (a b : Bytes) : Bytes := List.zipWith (fun x y => if x < y then y else x) a b
/-- `_mm_cmpeq_epi8`, `vceqq_u8` -/
def Simd.cmpeq (a b : Bytes) : Bytes := List.zipWith (fun x y => if x = y then 0xff else 0) a b
/-- `_mm_andnot_si128`: `~a & b` -/
def Simd.andnot (a b : Bytes) : Bytes := List.zipWith (fun x y => ~~~x &&& y) a b
/-- `_mm_or_si128`, `vorrq_u8` -/
def Simd.or (a b : Bytes) : Bytes := List.zipWith (fun x y => x ||| y) a b
/-- `_mm_testz_si128(x, x)`: all bits of `x & x` are zero. -/
def Simd.testz (a : Bytes) : Bool := a.all fun x => x &&& x == 0
/-- `_mm_movemask_epi8`: bit `i` is the top bit of lane `i`. -/
def Simd.movemask : Bytes → Nat
  | [] => 0
  | x :: xs => (if x.toNat.testBit 7 then 1 else 0) + 2 * movemask xs

/-- Lines 28-36 and 79-87. -/
def Simd.less (k : Nat) (x : Bytes) (n : UInt8) : Bytes :=
  let bcast := Simd.set1 k n
  let all1 := Simd.set1 k 0xff
  let maxWithN := Simd.maxU8 x bcast
  let isGreaterOrEqual := Simd.cmpeq maxWithN x
  Simd.andnot isGreaterOrEqual all1

/-- packed_bytes_x86.hpp:16-66. `sse41` selects between the two bodies of `is_all_zero`. -/
def traitSse (sse41 : Bool) : Traits where
  W := Bytes
  step := 16
  load bs := bs
  less := Simd.less 16
  equal x n := Simd.cmpeq x (Simd.set1 16 n)
  bitwiseOr := Simd.or
  isAllZero x :=
    if sse41 then Simd.testz x
    else UInt16.ofNat (Simd.movemask (Simd.cmpeq x (Simd.set1 16 0))) == 0xffff
  firstNonzeroByte x := countrOne32 (UInt16.ofNat (Simd.movemask (Simd.cmpeq x (Simd.set1 16 0)))).toUInt32

/-- packed_bytes_x86.hpp:74-116. -/
def traitAvx2 : Traits where
  W := Bytes
  step := 32
  load bs := bs
  less := Simd.less 32
  equal x n := Simd.cmpeq x (Simd.set1 32 n)
  bitwiseOr := Simd.or
  isAllZero := Simd.testz
  firstNonzeroByte x := countrOne32 (UInt32.ofNat (Simd.movemask (Simd.cmpeq x (Simd.set1 32 0))))

/-! ### packed_bytes_trait_neon (packed_bytes_arm.hpp:17-60), AArch64 -/

/-- `vcltq_u8` -/
def Neon.clt (a b : Bytes) : Bytes := List.zipWith (fun x y => if x < y then 0xff else 0) a b
/-- `vmaxvq_u8` -/
def Neon.maxv (a : Bytes) : UInt8 := a.foldl (fun m x => if m < x then x else m) 0
/-- `vshrn_n_u16(_, 4)`: the lanes taken in pairs as 16-bit numbers, shifted right by 4, low byte kept. -/
def Neon.shrn4 : Bytes → Bytes
  | lo :: hi :: rest => UInt8.ofNat ((lo.toNat + 256 * hi.toNat) / 16) :: Neon.shrn4 rest
  | _ => []

/-- Only the AArch64 body of `is_all_zero` (line 42) is modelled: the other one calls `vget_high_u64` with two
arguments. -/
def traitNeon : Traits where
  W := Bytes
  step := 16
  load bs := bs
  less x n := Neon.clt x (Simd.set1 16 n)
  equal x n := Simd.cmpeq x (Simd.set1 16 n)
  bitwiseOr := Simd.or
  isAllZero x := Neon.maxv x == 0
  firstNonzeroByte x := countrOne64 (UInt64.ofNat (leVal (Neon.shrn4 (Simd.cmpeq x (Simd.set1 16 0))))) / 4

/-- The instantiations of the parser's `accel_traits` (packed_bytes.hpp:129-150). -/
inductive Accel where
  | none
  | u32 (littleEndian : Bool)
  | u64 (littleEndian : Bool)
  | sse (sse41 : Bool)
  | avx2
  | neon
deriving DecidableEq, Repr

def Accel.traits : Accel → Option Traits
  | .none => .none
  | .u32 le => some (traitU32 le)
  | .u64 le => some (traitU64 le)
  | .sse sse41 => some (traitSse sse41)
  | .avx2 => some traitAvx2
  | .neon => some traitNeon

end Meojson
