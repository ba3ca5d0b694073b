import Verif.Spec.System
/-
Calls about one DRAM region. Nothing here mentions the monitor's code.
-/
namespace Sanctum

/-- The region that a call changes or asks about. -/
def Call.about : Call → Option W
  | .blockDramRegion r => some r
  | .assignDramRegion r _ => some r
  | .freeDramRegion r => some r
  | .createMetadataRegion r => some r
  | .dramRegionState r => some r
  | .dramRegionOwner r => some r
  | .dramRegionCheckOwnership r => some r
  | _ => none

/-- A `block_dram_region` that succeeded. -/
def Blocked (k : Call) (v : W) : Prop := (∃ r, k = .blockDramRegion r) ∧ v = monitorOk

/-- The machines are the same but for the maps of some cores and the words in `S`. -/
structure AlmostSame (S : Nat → Prop) (C : Nat → Prop) (m m' : Machine) : Prop where
  mem : ∀ x, ¬ S x → m'.mem x = m.mem x
  drb : ∀ c, ¬ C c → m'.drb c = m.drb c
  edrb : m'.edrb = m.edrb
  dma : m'.dmaStart = m.dmaStart ∧ m'.dmaEnd = m.dmaEnd ∧ m'.dmarBase = m.dmarBase ∧ m'.dmarMask = m.dmarMask
  regs : m'.parBase = m.parBase ∧ m'.parMask = m.parMask ∧ m'.cacheShift = m.cacheShift ∧ m'.tlbFlushes = m.tlbFlushes

end Sanctum
