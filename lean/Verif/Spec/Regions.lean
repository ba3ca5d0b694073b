import Verif.Spec.View
/-
What the calls on DRAM regions are supposed to do: for each call the exact condition under which it succeeds
(`…Ok`) and the exact effect of a success (`…Effect`). Nothing here mentions the monitor's code.
-/
namespace Sanctum

/-- Every region lock holds 0 or 1. -/
def LockWords (g : Cfg) (m : Machine) : Prop := ∀ i, i < g.regions → m.mem (lockA g i) = 0 ∨ m.mem (lockA g i) = 1

/-- An ID is that of the OS, or the address of a record outside the monitor's own memory, large enough for
the enclave's region bitmap. -/
def RecordOk (g : Cfg) (e : W) : Prop :=
  e ≠ 0 → e.toNat % 8 = 0 ∧ g.monitorTop.toNat ≤ e.toNat ∧ e.toNat + 304 + 8 * g.bitmapWords.toNat ≤ g.dramSize.toNat

/-- Address of the word with the bit of region `i` in the bitmap of `e` (0: the OS). -/
def bmWordA (g : Cfg) (e : W) (i : Nat) : Nat := if e = 0 then osWordA g i else e.toNat + 304 + 8 * (i / 64)

/-- Is region `i` in the region bitmap of `e`? -/
def Machine.bmBit (m : Machine) (g : Cfg) (e : W) (i : Nat) : Bool := (m.mem (bmWordA g e i)).getLsbD (i % 64)

/-- The condition for `free_dram_region(r)` to succeed. -/
def FreeOk (g : Cfg) (m : Machine) (r : Nat) : Prop :=
  r < g.regions ∧ m.locked g r = false ∧
    ((m.owner g r = blockedEnclaveId ∧ ∀ k, k < g.cores → m.blockedAt g r ≤ m.flushedAt k) ∨
     (m.owner g r = metadataEnclaveId ∧ m.pinned g r = 0))

/-- Bytes of a metadata region's page map. -/
def mapBytes (g : Cfg) : Nat := 4096 * g.metaStart.toNat

/-- The region whose owner field decides whether `e` is a valid ID. -/
def idRegion (g : Cfg) (e : W) : Nat := if e.toNat < g.dramSize.toNat then regionOf g e.toNat else 0

/-- The condition for `assign_dram_region(r, e)` to succeed. -/
def AssignOk (g : Cfg) (m : Machine) (r : Nat) (e : W) : Prop :=
  r < g.regions ∧ m.locked g r = false ∧ m.owner g r = freeEnclaveId ∧
  regionOf g e.toNat ≠ r ∧ m.locked g (regionOf g e.toNat) = false ∧ m.owner g (idRegion g e) = e

/-- Does the DMA window touch (overlap or be adjacent to) the first stripe of region `r`? -/
def DmaTouches (g : Cfg) (m : Machine) (r : Nat) : Prop :=
  r * g.stripeSize.toNat ≤ m.dmaEnd.toNat ∧ m.dmaStart.toNat ≤ (r + 1) * g.stripeSize.toNat

/-- The condition for `block_dram_region(r)` on core `c` to succeed. -/
def BlockOk (g : Cfg) (c : Nat) (m : Machine) (r : Nat) : Prop :=
  r ≠ 0 ∧ r < g.regions ∧ m.locked g r = false ∧ m.owner g r = m.running c ∧
  (m.running c ≠ 0 → m.pinned g r = 0) ∧
  regionOf g (m.running c).toNat ≠ r ∧ m.locked g (regionOf g (m.running c).toNat) = false ∧
  (regionOf g (m.running c).toNat = 0 → ¬ DmaTouches g m r)

/-- The condition for `set_dma_range(base, mask)` to succeed: the window is an aligned power-of-two range
inside DRAM, and neither region 0 nor a region with a byte in the window is locked. -/
def DmaOk (g : Cfg) (m : Machine) (base mask : W) : Prop :=
  (∃ k, k ≤ 64 ∧ mask.toNat = 2 ^ k - 1 ∧ 2 ^ k ∣ base.toNat) ∧ base.toNat + mask.toNat < g.dramSize.toNat ∧
  m.locked g 0 = false ∧
  ∀ a, base.toNat ≤ a → a ≤ base.toNat + mask.toNat → m.locked g (regionOf g a) = false

/-! ### Effects -/

/-- Is region `i` in the access map loaded in core `c`'s EDRBMAP register? -/
def Machine.edrbBit (m : Machine) (c i : Nat) : Bool := ((m.edrb c).getD (i / 64) 0).getLsbD (i % 64)

/-- Memory changed at most at the addresses in `S`. -/
def OnlyMem (S : Nat → Prop) (m m' : Machine) : Prop := ∀ a, ¬ S a → m'.mem a = m.mem a

/-- The DMA window and DMA registers are the same. -/
def SameDma (m m' : Machine) : Prop :=
  m'.dmaStart = m.dmaStart ∧ m'.dmaEnd = m.dmaEnd ∧ m'.dmarBase = m.dmarBase ∧ m'.dmarMask = m.dmarMask

/-- The registers of all cores other than the access maps are the same. -/
def SameCoreRegs (m m' : Machine) : Prop :=
  m'.parBase = m.parBase ∧ m'.parMask = m.parMask ∧ m'.cacheShift = m.cacheShift ∧ m'.tlbFlushes = m.tlbFlushes

/-- The access maps of all cores are the same. -/
def SameMaps (m m' : Machine) : Prop := m'.drb = m.drb ∧ m'.edrb = m.edrb

/-- The effect of a successful `block_dram_region(r)` on core `c`. -/
structure BlockEffect (g : Cfg) (c : Nat) (m : Machine) (r : Nat) (m' : Machine) : Prop where
  blocked : m'.owner g r = blockedEnclaveId
  previous : m'.prevOwner g r = m.running c
  time : m'.blockedAt g r = m.clock g
  clock : m'.clock g = m.clock g + 1
  /-- the caller's region bitmap loses exactly `r` -/
  bitmap : ∀ i, m'.bmBit g (m.running c) i = (m.bmBit g (m.running c) i && decide (i ≠ r))
  /-- only these five words of memory change -/
  mem : OnlyMem (fun a => a = ownerA g r ∨ a = prevA g r ∨ a = blockedA g r ∨ a = clockA g ∨ a = bmWordA g (m.running c) r) m m'
  /-- the map loaded on the calling core becomes the caller's bitmap -/
  map_os : m.running c = 0 → ∀ i, i < g.regions → m'.drbBit c i = m'.osBit g i
  map_enclave : m.running c ≠ 0 → ∀ i, i < g.regions → m'.edrbBit c i = m'.bmBit g (m.running c) i
  /-- the other maps do not change -/
  maps : (∀ c', c' ≠ c → m'.drb c' = m.drb c' ∧ m'.edrb c' = m.edrb c') ∧ (m.running c = 0 → m'.edrb c = m.edrb c) ∧
    (m.running c ≠ 0 → m'.drb c = m.drb c)
  dma : SameDma m m'
  regs : SameCoreRegs m m'

/-- The effect of a successful `assign_dram_region(r, e)` on core `c`. -/
structure AssignEffect (g : Cfg) (c : Nat) (m : Machine) (r : Nat) (e : W) (m' : Machine) : Prop where
  owned : m'.owner g r = e
  /-- the new owner's region bitmap gains exactly `r` -/
  bitmap : ∀ i, m'.bmBit g e i = (m.bmBit g e i || decide (i = r))
  /-- only these two words of memory change -/
  mem : OnlyMem (fun a => a = ownerA g r ∨ a = bmWordA g e r) m m'
  /-- if the new owner is the OS, the map loaded on the calling core becomes the OS bitmap -/
  map_os : e = 0 → ∀ i, i < g.regions → m'.drbBit c i = m'.osBit g i
  maps : m'.edrb = m.edrb ∧ (∀ c', c' ≠ c → m'.drb c' = m.drb c') ∧ (e ≠ 0 → m'.drb = m.drb)
  dma : SameDma m m'
  regs : SameCoreRegs m m'

/-- The effect of a successful `free_dram_region(r)`: nothing but the owner of `r`. -/
structure FreeEffect (g : Cfg) (m : Machine) (r : Nat) (m' : Machine) : Prop where
  free : m'.owner g r = freeEnclaveId
  mem : OnlyMem (fun a => a = ownerA g r) m m'
  maps : SameMaps m m'
  dma : SameDma m m'
  regs : SameCoreRegs m m'

/-- The effect of a successful `create_metadata_region(r)`. -/
structure MetadataEffect (g : Cfg) (m : Machine) (r : Nat) (m' : Machine) : Prop where
  metadata : m'.owner g r = metadataEnclaveId
  pinned : m'.pinned g r = 0
  /-- every entry of the page map (one word per page, at the start of the region) is empty -/
  map_empty : ∀ p, p < g.metaPages.toNat → m'.mem (r * g.stripeSize.toNat + 8 * p) = 0
  /-- only the table entry and the first pages of `r` (those before `metadata_region_start()`) change -/
  mem : OnlyMem (fun a => a = ownerA g r ∨ a = pinnedA g r ∨
    (r * g.stripeSize.toNat ≤ a ∧ a < r * g.stripeSize.toNat + mapBytes g)) m m'
  maps : SameMaps m m'
  dma : SameDma m m'
  regs : SameCoreRegs m m'

/-- The effect of a successful `set_dma_range(base, mask)`: the window is `[base, base | mask]`. -/
structure DmaEffect (m : Machine) (base mask : W) (m' : Machine) : Prop where
  window : m'.dmaStart = base ∧ m'.dmaEnd = (base ||| mask) + 1
  registers : m'.dmarBase = base ∧ m'.dmarMask = ~~~ mask
  mem : m'.mem = m.mem
  maps : SameMaps m m'
  regs : SameCoreRegs m m'

/-- The effect of `flush_cached_dram_regions()` on core `c`. -/
structure FlushEffect (g : Cfg) (c : Nat) (m m' : Machine) : Prop where
  time : m'.flushedAt c = m.clock g
  tlb : m'.tlbFlushes c = m.tlbFlushes c + 1 ∧ ∀ c', c' ≠ c → m'.tlbFlushes c' = m.tlbFlushes c'
  mem : OnlyMem (fun a => a = flushedA c) m m'
  maps : SameMaps m m'
  dma : SameDma m m'
  regs : m'.parBase = m.parBase ∧ m'.parMask = m.parMask ∧ m'.cacheShift = m.cacheShift

end Sanctum
