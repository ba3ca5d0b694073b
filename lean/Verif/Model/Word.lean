/-
Machine words of the modelled platform.

The code only uses `size_t`, `uintptr_t` (LP64: 64 bits, `bare/base_types.h`) and, in the hash,
`uint32_t`.
-/
namespace Sanctum

/-- `size_t` / `uintptr_t` (src/bare/arch/test/base_types_arch.h, src/bare/base_types.h). -/
abbrev W := BitVec 64

/-- `uint32_t` (src/bare/base_types.h). -/
abbrev W32 := BitVec 32

/-- A C++ expression `1 << n`, whose left operand is a (32-bit) `int`. For `n >= 31` the result is
not representable / the shift is undefined: `none`. Otherwise the value converted to `size_t`.
Used at src/bare/bit_masking.h:60 and src/monitor/boot_init.cc:67,72,100-104. -/
def intShl1 (n : W) : Option W := if n.toNat < 31 then some (BitVec.ofNat 64 (2 ^ n.toNat)) else none

/-- Conversion of a C++ `bool` stored in a `size_t` field. -/
def b2w (b : Bool) : W := if b then 1 else 0

end Sanctum
