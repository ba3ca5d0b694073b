import Verif.Model.Exec
/-
What a consistent configuration is, in terms of natural numbers: the DRAM has `2^d` bytes, a stripe
has `2^sp` pages, there are `2^rb` regions. `Props/Geometry.lean` proves that a successful boot on a
reasonable platform produces such a configuration.
-/
namespace Sanctum

/-- log2 of the number of pages in a stripe. -/
def Cfg.sp (g : Cfg) : Nat := g.regionShift.toNat - 12
/-- log2 of the number of regions. -/
def Cfg.rb (g : Cfg) : Nat := g.stripeShift.toNat - g.regionShift.toNat
/-- log2 of the DRAM size. -/
def Cfg.d (g : Cfg) : Nat := Nat.log2 g.dramSize.toNat
/-- Number of regions. -/
def Cfg.regions (g : Cfg) : Nat := g.regionCount.toNat
/-- Number of cores. -/
def Cfg.cores (g : Cfg) : Nat := g.coreCount.toNat

/-- A consistent configuration. -/
structure Cfg.WF (g : Cfg) : Prop where
  d_le : g.d ≤ 63
  rb_pos : 1 ≤ g.rb
  rb_lt : g.rb < 31
  sp_lt : 12 + g.sp < 31
  fits : 12 + g.sp + g.rb ≤ g.d
  dramSize : g.dramSize.toNat = 2 ^ g.d
  regionShift : g.regionShift.toNat = 12 + g.sp
  stripeShift : g.stripeShift.toNat = 12 + g.sp + g.rb
  stripePageMask : g.stripePageMask.toNat = (2 ^ g.sp - 1) * 2 ^ 12
  regionMask : g.regionMask.toNat = (2 ^ g.rb - 1) * 2 ^ (12 + g.sp)
  stripeMask : g.stripeMask.toNat = (2 ^ (g.d - (12 + g.sp + g.rb)) - 1) * 2 ^ (12 + g.sp + g.rb)
  regionCount : g.regionCount.toNat = 2 ^ g.rb
  stripeSize : g.stripeSize.toNat = 2 ^ (12 + g.sp)
  stripePages : g.stripePages.toNat = 2 ^ g.sp
  bitmapWords : g.bitmapWords.toNat = (2 ^ g.rb + 63) / 64
  metaPages : g.metaPages.toNat = min (2 ^ (g.d - g.rb - 12)) (2 ^ (9 + g.sp))
  metaStart : g.metaStart.toNat = (8 * g.metaPages.toNat + 4095) / 4096
  cores_pos : 1 ≤ g.cores
  coreBase : g.coreBase.toNat = 0
  regionBase : g.regionBase.toNat = 32 * g.cores
  regionsBase : g.regionsBase.toNat = g.regionBase.toNat + 40 * g.regions
  osBitmap : g.osBitmap.toNat = g.regionsBase.toNat + 8
  arrays_le : g.osBitmap.toNat + 8 * g.bitmapWords.toNat ≤ g.monitorTop.toNat
  top_pow : ∃ t, g.monitorTop.toNat = 2 ^ t
  top_le : g.monitorTop.toNat ≤ g.stripeSize.toNat

/-- Every region consists of one stripe (the usual case: the cache index shift could be chosen
optimally, src/monitor/dram_regions.h:16-30). -/
def Cfg.SingleStripe (g : Cfg) : Prop := g.d = 12 + g.sp + g.rb

/-- On every known processor, an out-of-range left shift of zero is zero (C++ leaves it undefined). -/
def Cfg.ShiftOk (g : Cfg) : Prop := ∀ n, g.oobShl 0 n = 0

/-- A platform as the design assumes it: a power-of-two DRAM that is at least as large as the last-level
cache's index range, at least one core, not absurdly many cores. -/
structure Platform.Sane (p : Platform) : Prop where
  dram : ∃ d, d ≤ 63 ∧ p.dramSize.toNat = 2 ^ d
  cache : (p.lineSize (p.cacheLevels.toNat - 1)).toNat * (p.setCount (p.cacheLevels.toNat - 1)).toNat ≤ p.dramSize.toNat
  cores_pos : 1 ≤ p.coreCount.toNat
  cores_le : p.coreCount.toNat ≤ 2 ^ 57

end Sanctum
