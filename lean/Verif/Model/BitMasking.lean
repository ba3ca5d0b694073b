import Verif.Model.Word
/-
Model of the pure functions of src/bare/bit_masking.h.
-/
namespace Sanctum

/-- `page_shift()`: src/bare/arch/riscv/page_tables_arch.h:9-11, src/bare/arch/test/page_tables_arch.h:12-14. -/
def pageShift : Nat := 12

/-- `page_size()`: src/bare/page_tables.h:65-67 (`1 << 12` in `int`, in range). -/
def pageSize : W := BitVec.ofNat 64 (2 ^ pageShift)

/-- `is_valid_range_mask`: src/bare/bit_masking.h:16-18. -/
def isValidRangeMask (mask : W) : Bool := (mask &&& (mask + 1)) == 0

/-- `is_aligned_to_mask`: src/bare/bit_masking.h:20-22. -/
def isAlignedToMask (address mask : W) : Bool := (address &&& mask) == 0

/-- `is_valid_range`: src/bare/bit_masking.h:31-33. -/
def isValidRange (base mask : W) : Bool := isAlignedToMask base mask && isValidRangeMask mask

/-- `is_page_aligned`: src/bare/bit_masking.h:35-37. -/
def isPageAligned (address : W) : Bool := isAlignedToMask address (pageSize - 1)

/-- `pages_needed_for`: src/bare/bit_masking.h:40-42. -/
def pagesNeededFor (memorySize : W) : W := (memorySize + pageSize - 1) >>> pageShift

/-- The loop of `address_bits_for`: src/bare/bit_masking.h:53-54. `fuel` bounds the iterations; 64
are enough for a 64-bit quantity because every iteration shifts right by one (proved in
`Lemmas/Bits.lean`, `addressBitsLoop_fuel`). -/
def addressBitsLoop : Nat → W → W → W
  | 0, _, bits => bits
  | fuel + 1, n, bits => if n > 0 then addressBitsLoop fuel (n >>> 1) (bits + 1) else bits

/-- `address_bits_for`: src/bare/bit_masking.h:47-56. -/
def addressBitsFor (memorySize : W) : W := addressBitsLoop 64 (memorySize - 1) 0

/-- `ceil_power_of_two`: src/bare/bit_masking.h:59-61; `none` when the `int` shift is undefined. -/
def ceilPowerOfTwo (memorySize : W) : Option W := intShl1 (addressBitsFor memorySize)

/-- `is_power_of_two`: src/bare/bit_masking.h:64-66. -/
def isPowerOfTwo (memorySize : W) : Bool := decide (memorySize > 0) && isValidRangeMask (memorySize - 1)

/-- `offset` of src/bare/bit_masking.h:75,88: index of the bitmap word holding a bit. -/
def bitmapOffset (bit : W) : W := bit / 64

/-- `mask` of src/bare/bit_masking.h:76,89: the bit within its word. -/
def bitmapMask (bit : W) : W := (1 : W) <<< (bit % 64).toNat

/-- `reverse_bytes<uint32_t>`: src/bare/bit_masking.h:103-106. -/
def reverseBytes (value : W32) : W32 :=
  ((value &&& 0xff) <<< 24) ||| ((value &&& 0xff00) <<< 8) |||
  ((value >>> 24) &&& 0xff) ||| ((value >>> 8) &&& 0xff00)

/-- `to_big_endian`: src/crypto/hash.cc:48-50 with `is_big_endian() = false`
(src/bare/arch/{test,riscv}/bit_masking_arch.h). -/
def toBigEndian (value : W32) : W32 := reverseBytes value

end Sanctum
