import Verif.Model.Entry
import Verif.Model.PackedBytes

/-!
# How a build chooses the way strings are scanned

include/parser/packed_bytes.hpp:20-39, 129-152, packed_bytes_x86.hpp:7-10, 44-52, 67-73, 117-125, packed_bytes_arm.hpp:6-12, 58-64. The default for the last template parameter of `parser`
(parser.hpp:19) is `packed_bytes_trait_max`; it depends on macros that the compiler defines for the target, on two that the user may define, and on the size of a pointer. No entry function
passes another trait.

* A macro is defined or not; `_M_IX86_FP` counts as defined if it is not 0.
* NEON: the intrinsics in `is_all_zero` for 32-bit ARM (packed_bytes_arm.hpp:42-44) are given arguments that they do not take, so nothing compiles with `MEOJSON_ENABLE_NEON` there. On 64-bit ARM
  the machine is taken to be little-endian when NEON is used, and the compiler to convert between vector types of one size implicitly (packed_bytes_arm.hpp:52), as clang does and GCC on request.
  Both are as generally known of these compilers; neither could be tried here.
-/

set_option autoImplicit false

namespace Meojson

structure Target where
  /-- `MEOJSON_DISABLE_PACKED_BYTES`, `MEOJSON_ENABLE_NEON` -/
  disable : Bool := false
  enableNeon : Bool := false
  /-- `__SSE2__`, `__SSE4_1__`, `__AVX2__` -/
  sse2 : Bool := false
  sse41 : Bool := false
  avx2 : Bool := false
  /-- `_MSC_VER`, `_M_X64`, `_M_IX86_FP` -/
  msc : Bool := false
  mX64 : Bool := false
  mIX86FP : Bool := false
  /-- `__ARM_NEON`, `_M_ARM`, `_M_ARM64`, and `__aarch64__` or `__arm64__` -/
  armNeon : Bool := false
  mARM : Bool := false
  mARM64 : Bool := false
  aarch64 : Bool := false
  /-- `sizeof(void*)` -/
  pointer : Nat := 8
  littleEndian : Bool := true
deriving DecidableEq, Repr

namespace Target

/-- packed_bytes.hpp:33-34 -/
def x86 (t : Target) : Bool := !t.disable && (t.sse2 || t.mX64 || t.mIX86FP)

/-- packed_bytes.hpp:36-37, packed_bytes_arm.hpp:6 -/
def arm (t : Target) : Bool := !t.disable && !(t.sse2 || t.mX64 || t.mIX86FP) && (t.armNeon || t.mARM || t.mARM64) && t.enableNeon

/-- `packed_bytes_trait<32>` if it is available, packed_bytes_x86.hpp:74-123 -/
def trait32 (t : Target) : Option Accel := if t.x86 && t.avx2 then some .avx2 else none

/-- `packed_bytes_trait<16>` if it is available, packed_bytes_x86.hpp:67-71, packed_bytes_arm.hpp:58-62. The test for SSE4.1 is that of packed_bytes_x86.hpp:46. -/
def trait16 (t : Target) : Option Accel := if t.x86 then some (.sse (t.sse41 || t.avx2 || t.msc)) else if t.arm then some .neon else none

/-- `packed_bytes_trait<8>` if it is available, packed_bytes.hpp:45 -/
def trait8 (t : Target) : Option Accel := if 8 ≤ t.pointer then some (.u64 t.littleEndian) else none

/-- `packed_bytes_trait_max`, packed_bytes.hpp:144-150 -/
def accel (t : Target) : Accel := (t.trait32.or (t.trait16.or t.trait8)).getD (.u32 t.littleEndian)

/-- Whether the NEON code compiles, packed_bytes_arm.hpp:10-12, 39-45 -/
def compiles (t : Target) : Bool := !t.arm || t.aarch64 || t.mARM64

/-- `json::parse` in a build. -/
def parse (t : Target) (s : Bytes) : Option Value := Meojson.parse t.accel.traits s

end Target

end Meojson
