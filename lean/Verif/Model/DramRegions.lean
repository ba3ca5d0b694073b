import Verif.Model.Layout
/-
Model of src/monitor/dram_regions_inl.h, src/monitor/cpu_core_inl.h and the lock / record accessors.
-/
namespace Sanctum

/-- `is_dram_address`: src/monitor/dram_regions_inl.h:25-27. -/
def isDramAddress (g : Cfg) (address : W) : Bool := decide (address < g.dramSize)

/-- `is_valid_dram_region`: src/monitor/dram_regions_inl.h:32-34. -/
def isValidDramRegion (g : Cfg) (r : W) : Bool := decide (r < g.regionCount)

/-- `is_dynamic_dram_region`: src/monitor/dram_regions_inl.h:39-41. -/
def isDynamicDramRegion (g : Cfg) (r : W) : Bool := r != 0 && isValidDramRegion g r

/-- `dram_region_start`: src/monitor/dram_regions_inl.h:46-48. (Shift amounts of 64 and more are
undefined in C++ and give 0 here; `Cfg.WF` excludes them.) -/
def dramRegionStart (g : Cfg) (r : W) : W := r <<< g.regionShift.toNat

/-- `dram_region_for`: src/monitor/dram_regions_inl.h:53-55. -/
def dramRegionFor (g : Cfg) (address : W) : W := (address &&& g.regionMask) >>> g.regionShift.toNat

/-- `clamped_dram_region_for`: src/monitor/dram_regions_inl.h:60-62. -/
def clampedDramRegionFor (g : Cfg) (address : W) : W :=
  if isDramAddress g address then dramRegionFor g address else 0

/-- `dram_stripe_page_for`: src/monitor/dram_regions_inl.h:67-69. -/
def dramStripePageFor (g : Cfg) (address : W) : W := (address &&& g.stripePageMask) >>> pageShift

/-- `dram_stripe_for`: src/monitor/dram_regions_inl.h:74-76. -/
def dramStripeFor (g : Cfg) (address : W) : W := address >>> g.stripeShift.toNat

/-- A 64-bit left shift whose amount may be out of range, in which case the platform decides. -/
def shlC (g : Cfg) (x n : W) : W := if n.toNat < 64 then x <<< n.toNat else g.oobShl x n

/-- `dram_region_page_for`: src/monitor/dram_regions_inl.h:84-87. -/
def dramRegionPageFor (g : Cfg) (address : W) : W :=
  dramStripePageFor g address ||| shlC g (dramStripeFor g address) (g.regionShift - g.stripeShift)

/-- `&g_dram_region[dram_region]` (phys_ptr arithmetic, wraps). -/
def regionA (g : Cfg) (r : W) : W := g.regionBase + r * regionInfoSize

/-- `&g_core[core]`. -/
def coreA (g : Cfg) (core : W) : W := g.coreBase + core * coreInfoSize

/-- `test_and_set_dram_region_lock`: src/monitor/dram_regions_inl.h:95-98. -/
def tasLock (g : Cfg) (r : W) : Prog Bool := tas (regionA g r + offLock)

/-- `clear_dram_region_lock`: src/monitor/dram_regions_inl.h:106-109. -/
def clearLock (g : Cfg) (r : W) : Prog Unit := store (regionA g r + offLock) 0

/-- `read_dram_region_owner`: src/monitor/dram_regions_inl.h:114-117. -/
def readOwner (g : Cfg) (r : W) : Prog W := load (regionA g r + offOwner)

/-- `current_enclave`: src/monitor/cpu_core_inl.h:14-25. -/
def currentEnclave (g : Cfg) : Prog W := do
  let core ← act .curCore
  load (coreA g core + offCoreEnclaveId)

/-- The loop of `bzero_dram_region`: src/monitor/dram_regions_inl.h:127-130. `fuel` bounds the number
of iterations of the model only; running out is `diverge`. -/
def bzeroRegionLoop (g : Cfg) (stripeStep regionStart : W) : Nat → W → Prog Unit
  | 0, _ => .diverge
  | fuel + 1, stripe =>
      if stripe < g.dramSize then do
        bzero (stripe ||| regionStart) g.stripeSize
        bzeroRegionLoop g stripeStep regionStart fuel (stripe + stripeStep)
      else pure ()

/-- `bzero_dram_region`: src/monitor/dram_regions_inl.h:122-131. -/
def bzeroDramRegion (g : Cfg) (r : W) : Prog Unit :=
  bzeroRegionLoop g (g.regionCount <<< g.regionShift.toNat) (r <<< g.regionShift.toNat) (2 ^ 64) 0

/-- `dram_region_tlb_flush`: src/monitor/dram_regions_inl.h:136-147. -/
def dramRegionTlbFlush (g : Cfg) : Prog Unit := do
  act_ .flushTlbs
  let core ← act .curCore
  let clock ← load g.regionsBase
  store (coreA g core + offFlushedAt) clock

end Sanctum
