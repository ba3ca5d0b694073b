import Verif.Spec.Geometry
/-
Which machines boot supports, in terms of what the hardware reports (src/monitor/boot_init.h, and the comments beside the calls of `boot_panic` in
src/monitor/boot_init.cc).
-/
namespace Sanctum

namespace Platform
variable (p : Platform)

/-- The line size of the last-level cache. -/
def line : Nat := (p.lineSize (p.cacheLevels.toNat - 1)).toNat
/-- The number of sets of the last-level cache. -/
def sets : Nat := (p.setCount (p.cacheLevels.toNat - 1)).toNat
/-- The number of DRAM regions: the pages in the index range of the last-level cache. -/
def regionsN : Nat := p.line * p.sets / 4096
/-- The cache index shift that makes regions as contiguous as the hardware allows. -/
def shiftN : Nat := min (p.dramSize.toNat / (p.line * p.sets)).log2 p.maxShift.toNat
/-- The contiguous piece of DRAM at the bottom of which the monitor lives. -/
def stripeN : Nat := 4096 * 2 ^ p.shiftN
/-- The memory the monitor needs: core records, region records, the clock, the OS's region bitmap. -/
def monitorN : Nat := 32 * p.coreCount.toNat + 40 * p.regionsN + 8 + 8 * ((p.regionsN + 63) / 64)

/-- The machines that the design supports. -/
structure Supported : Prop where
  /-- only the last-level cache is shared -/
  shared : ∀ i, i + 1 < p.cacheLevels.toNat → p.shared i = false
  /-- its line size and its set count are powers of two -/
  line : ∃ l, p.line = 2 ^ l
  sets : ∃ s, p.sets = 2 ^ s
  /-- its index range is larger than a page -/
  large : 4096 < p.line * p.sets
  /-- the hardware allows the shift -/
  shift : p.minShift.toNat ≤ p.shiftN
  /-- the monitor fits in a stripe -/
  fits : p.monitorN ≤ p.stripeN

/-- The machines on which the code's arithmetic (much of it in `int`) is defined, and whose DRAM can hold the monitor's arrays. -/
structure Ordinary : Prop where
  levels : 1 ≤ p.cacheLevels.toNat
  line_pos : 1 ≤ p.line
  line_le : p.line ≤ 2 ^ 30
  sets_pos : 1 ≤ p.sets
  sets_le : p.sets ≤ 2 ^ 30
  cache_le : p.line * p.sets ≤ 2 ^ 42
  stripe_le : p.stripeN ≤ 2 ^ 30
  monitor_le : p.monitorN ≤ 2 ^ 30
  monitor_dram : p.monitorN ≤ p.dramSize.toNat

end Platform
end Sanctum
