import Verif.Model.Calls
/-
Model of src/monitor/boot_init.cc.
-/
namespace Sanctum

/-- What the boot code reads from the platform (src/bare/memory.h:20-59, src/bare/cpu_context.h). -/
structure Platform where
  /-- `read_dram_size()` -/
  dramSize : W
  /-- `read_cache_levels()` -/
  cacheLevels : W
  /-- `is_shared_cache(level)` -/
  shared : Nat → Bool
  /-- `read_cache_line_size(level)` -/
  lineSize : Nat → W
  /-- `read_cache_set_count(level)` -/
  setCount : Nat → W
  /-- `read_min_cache_index_shift()` -/
  minShift : W
  /-- `read_max_cache_index_shift()` -/
  maxShift : W
  /-- `read_core_count()` -/
  coreCount : W
  /-- see `Cfg.oobShl` -/
  oobShl : W → W → W

/-- Outcome of boot: a value, `boot_panic()` (src/monitor/boot_init.cc:42-45, halts for ever),
undefined behaviour of the C++ code, or a faulting memory access. -/
inductive Boot (α : Type) where
  | ok (a : α)
  | panic
  | ub
  | fault

/-- Sequencing of boot steps. -/
def Boot.bind {α β : Type} : Boot α → (α → Boot β) → Boot β
  | .ok a, f => f a
  | .panic, _ => .panic
  | .ub, _ => .ub
  | .fault, _ => .fault

instance : Monad Boot where
  pure := Boot.ok
  bind := Boot.bind

/-- An `int` shift `1 << n` at boot. -/
def bootShl (n : W) : Boot W :=
  match intShl1 n with
  | some v => .ok v
  | none => .ub

/-- The loop at src/monitor/boot_init.cc:59-62: some level but the last is shared. -/
def hasSharedInnerCache (p : Platform) : Bool :=
  (List.range p.cacheLevels.toNat).any (fun i => p.shared i && i != p.cacheLevels.toNat - 1)

/-- The part of the configuration computed by `boot_init_dram_regions`, with the array bases, the
metadata constants and the core count still zero. -/
def bootInitDramRegions (p : Platform) : Boot (Cfg × W) := do
  let dramBits := addressBitsFor p.dramSize                                    -- line 56
  if hasSharedInnerCache p then .panic                                          -- lines 58-62
  else if p.cacheLevels = 0 then .ub                                            -- line 63: llc underflows
  else do
    let llc := p.cacheLevels.toNat - 1
    let lineSize := p.lineSize llc
    let lineBits := addressBitsFor lineSize
    let l ← bootShl lineBits
    if lineSize ≠ l then .panic                                                 -- lines 65-68
    else do
      let setCount := p.setCount llc
      let setBits := addressBitsFor setCount
      let s ← bootShl setBits
      if setCount ≠ s then .panic                                               -- lines 70-73
      else do
        let cacheBits := setBits + lineBits
        if cacheBits ≤ BitVec.ofNat 64 pageShift then .panic                    -- lines 75-77
        else do
          let regionBits := cacheBits - BitVec.ofNat 64 pageShift               -- line 78
          let sp0 := dramBits - cacheBits                                       -- line 80 (may wrap)
          let sp := if sp0 > p.maxShift then p.maxShift else sp0                -- lines 81-85
          if sp < p.minShift then .panic                                        -- lines 86-93
          else do
            let regionShift := BitVec.ofNat 64 pageShift + sp                   -- line 98
            let stripeShift := regionShift + regionBits                         -- line 99
            let stripeSize ← bootShl regionShift                                -- line 101
            let stripePages ← bootShl sp                                        -- line 102
            let regionCount ← bootShl regionBits                                -- line 103
            .ok ({ dramSize := p.dramSize
                   regionShift := regionShift
                   stripeShift := stripeShift
                   stripePageMask := (stripePages - 1) <<< pageShift            -- line 105
                   regionMask := (regionCount - 1) <<< regionShift.toNat        -- line 106
                   stripeMask := ((p.dramSize - 1) >>> stripeShift.toNat) <<< stripeShift.toNat -- lines 107-108
                   regionCount := regionCount
                   stripeSize := stripeSize
                   stripePages := stripePages
                   bitmapWords := (regionCount + 64 - 1) / 64                   -- lines 111-112
                   metaPages := 0, metaStart := 0, coreCount := 0, coreBase := 0, regionBase := 0
                   regionsBase := 0, osBitmap := 0, monitorTop := 0
                   oobShl := p.oobShl }, sp)

/-- `boot_init_metadata`: src/monitor/boot_init.cc:115-134. -/
def bootInitMetadata (g : Cfg) : Cfg :=
  let pages := g.dramSize >>> (g.stripeShift - g.regionShift + BitVec.ofNat 64 pageShift).toNat
  let mapSize := pages * 8
  if mapSize > g.stripeSize then
    { g with metaPages := g.stripeSize / 8, metaStart := pagesNeededFor g.stripeSize }
  else
    { g with metaPages := pages, metaStart := pagesNeededFor mapSize }

/-- The array addresses computed by `boot_init_dynamic_arrays` (src/monitor/boot_init.cc:137-142,152-153,
157-159) and the value of `g_monitor_top` after it. `boot_init_monitor_top` (47-50) makes the first
array start at 0. -/
def bootLayout (p : Platform) (g : Cfg) : Cfg :=
  let coreBase : W := 0
  let regionBase := coreBase + p.coreCount * coreInfoSize
  let regionsBase := regionBase + g.regionCount * regionInfoSize
  let osBitmap := regionsBase + 8
  { g with
    coreCount := p.coreCount
    coreBase := coreBase
    regionBase := regionBase
    regionsBase := regionsBase
    osBitmap := osBitmap
    monitorTop := osBitmap + g.bitmapWords * 8 }

/-- The loop initialising the region records: src/monitor/boot_init.cc:143-150. -/
def bootRegionLoop (g : Cfg) : Nat → W → Prog Unit
  | 0, _ => pure ()
  | n + 1, i => do
      store (regionA g i + offLock) 0
      store (regionA g i + offOwner) nullEnclaveId
      store (regionA g i + offPrevOwner) nullEnclaveId
      store (regionA g i + offPinned) 0
      store (regionA g i + offBlockedAt) 0
      bootRegionLoop g n (i + 1)

/-- The loop filling the OS bitmap: src/monitor/boot_init.cc:160-161. -/
def bootBitmapLoop (g : Cfg) : Nat → W → Prog Unit
  | 0, _ => pure ()
  | n + 1, i => do
      setBitmapBit g.osBitmap i true
      bootBitmapLoop g n (i + 1)

/-- The memory effects of `boot_init_dynamic_arrays`: src/monitor/boot_init.cc:136-162. -/
def bootArrays (g : Cfg) : Prog Unit := do
  bootRegionLoop g g.regionCount.toNat 0
  store g.regionsBase 0
  bootBitmapLoop g g.regionCount.toNat 0

/-- The register effects of `boot_init_protection` (src/monitor/boot_init.cc:168-170,176-179), given the
rounded `g_monitor_top`. -/
def bootProtection (g : Cfg) (top : W) : Prog Unit := do
  act_ (.setParBase 0)
  act_ (.setParMask (~~~ (top - 1)))
  setDrbMap g g.osBitmap
  act_ (.setDmaStart top)
  act_ (.setDmaEnd (top + 1))
  act_ (.setDmarBase top)
  act_ (.setDmarMask (~~~ 0))

/-- Runs a boot program on core 0. -/
def bootRun (g : Cfg) (p : Prog Unit) (m : Machine) : Boot Machine :=
  match run g 0 p m with
  | some (_, m') => .ok m'
  | none => .fault

/-- The whole boot sequence on core 0 from a machine with arbitrary contents: `boot_init_dram_regions`
(with its `set_cache_index_shift`, line 96), `boot_init_metadata`, `boot_init_dynamic_arrays`,
`boot_init_protection`. The panic of lines 172-173 is checked before the DMA registers are set, as in
the code; the protection registers it would have set before halting are irrelevant. -/
def boot (p : Platform) (m : Machine) : Boot (Cfg × Machine) := do
  let (g0, sp) ← bootInitDramRegions p
  let g1 := bootLayout p (bootInitMetadata g0)
  let m1 ← bootRun g1 (do act_ (.setCacheShift sp); bootArrays g1) m
  match ceilPowerOfTwo g1.monitorTop with
  | none => .ub
  | some top =>
      if top > g1.stripeSize then .panic
      else do
        let g := { g1 with monitorTop := top }
        let m2 ← bootRun g (bootProtection g top) m1
        .ok (g, m2)

end Sanctum
