import Verif.Model.Metadata
/-
Model of the API functions of src/monitor/dram_regions.cc.
-/
namespace Sanctum

/-- One of the four tests of src/monitor/dram_regions.cc:117-124: `p(global) && q(global)`, with the second global read only if the first
comparison holds. -/
def dmaTest (o1 : Op) (p : W → Bool) (o2 : Op) (q : W → Bool) : Prog Bool := do
  let a ← act o1
  if p a then do
    let b ← act o2
    pure (q b)
  else pure false

/-- `dma_range_crossed`: src/monitor/dram_regions.cc:114-124. The globals are read anew in each comparison, as in the code. -/
def dmaRangeCrossed (g : Cfg) (r : W) : Prog Bool := do
  let regionStart := dramRegionStart g r
  let regionEnd := dramRegionStart g (r + 1)
  let c1 ← dmaTest .getDmaStart (fun s => decide (s ≥ regionStart)) .getDmaEnd (fun e => decide (e ≤ regionEnd))
  let c2 ← dmaTest .getDmaEnd (fun e => decide (e ≥ regionStart)) .getDmaEnd (fun e => decide (e ≤ regionEnd))
  let c3 ← dmaTest .getDmaStart (fun s => decide (regionStart ≥ s)) .getDmaEnd (fun e => decide (regionStart ≤ e))
  let c4 ← dmaTest .getDmaStart (fun s => decide (regionEnd ≥ s)) .getDmaEnd (fun e => decide (regionEnd ≤ e))
  pure (c1 || c2 || c3 || c4)

/-- `block_dram_region`: src/monitor/dram_regions.cc:82-150. -/
def blockDramRegion (g : Cfg) (r : W) : Prog W :=
  if !isDynamicDramRegion g r then pure monitorInvalidValue
  else do
    if ← tasLock g r then pure monitorConcurrentCall
    else do
      let owner ← readOwner g r
      let cur ← currentEnclave g
      if owner != cur then do
        clearLock g r
        pure monitorAccessDenied
      else do
        -- lines 93-98: `owner != null_enclave_id && region->pinned_pages != 0`
        let pinned ← (if owner != nullEnclaveId then load (regionA g r + offPinned) else pure 0)
        if owner != nullEnclaveId && pinned != 0 then do
          clearLock g r
          pure monitorInvalidState
        else do
          let ownerRegion := dramRegionFor g owner
          if ← tasLock g ownerRegion then do
            clearLock g r
            pure monitorConcurrentCall
          else do
            let crossed ← (if ownerRegion = 0 then dmaRangeCrossed g r else pure false)
            if crossed then do
              clearLock g ownerRegion
              clearLock g r
              pure monitorInvalidState
            else do
              store (regionA g r + offPrevOwner) owner
              store (regionA g r + offOwner) blockedEnclaveId
              let clock ← act (.fetchAdd g.regionsBase 1)
              store (regionA g r + offBlockedAt) clock
              setEnclaveRegionBitmapBit g owner r false
              (if owner = 0 then setDrbMap g g.osBitmap else setEdrbMap g (enclaveRegionBitmap owner))
              clearLock g ownerRegion
              clearLock g r
              pure monitorOk

/-- `dram_region_check_ownership`: src/monitor/dram_regions.cc:159-178. -/
def dramRegionCheckOwnership (g : Cfg) (r : W) : Prog W :=
  if !isDynamicDramRegion g r then pure monitorInvalidValue
  else do
    if ← tasLock g r then pure monitorConcurrentCall
    else do
      let owner ← readOwner g r
      let cur ← currentEnclave g
      clearLock g r
      pure (if owner == cur then monitorOk else monitorInvalidState)

/-- `dram_region_state`: src/monitor/dram_regions.cc:188-212. -/
def dramRegionState (g : Cfg) (r : W) : Prog W :=
  if !isValidDramRegion g r then pure stateInvalid
  else do
    if ← tasLock g r then pure stateLocked
    else do
      let owner ← readOwner g r
      clearLock g r
      pure (if owner = nullEnclaveId then stateOwned
            else if owner = blockedEnclaveId then stateBlocked
            else if owner = freeEnclaveId then stateFree
            else stateOwned)

/-- `dram_region_owner`: src/monitor/dram_regions.cc:214-227. -/
def dramRegionOwner (g : Cfg) (r : W) : Prog W :=
  if !isValidDramRegion g r then pure nullEnclaveId
  else do
    if ← tasLock g r then pure nullEnclaveId
    else do
      let owner ← readOwner g r
      clearLock g r
      pure (if owner = blockedEnclaveId ∨ owner = freeEnclaveId then nullEnclaveId else owner)

/-- The loop of `set_dma_range`: src/monitor/dram_regions.cc:245-266. Returns `none` when a region lock
could not be acquired (lines 250-253, after releasing region 0's lock), otherwise `os_owns_regions`. -/
def dmaRangeLoop (g : Cfg) (rangeEnd : W) : Nat → W → Bool → Prog (Option Bool)
  | 0, _, _ => .diverge
  | fuel + 1, stripeAddr, owns =>
      if stripeAddr < rangeEnd then do
        let r := dramRegionFor g stripeAddr
        let busy ← (if r != 0 then tasLock g r else pure false)
        if busy then do
          clearLock g 0
          pure none
        else do
          let owner ← readOwner g r
          (if r != 0 then clearLock g r else pure ())
          dmaRangeLoop g rangeEnd fuel (stripeAddr + g.stripeSize) (owns && owner == 0)
      else pure (some owns)

/-- `set_dma_range`: src/monitor/dram_regions.cc:229-277. As in the code, the computed
`os_owns_regions` is not used. -/
def setDmaRange (g : Cfg) (base mask : W) : Prog W :=
  if !isValidRange base mask then pure monitorInvalidValue
  else if !isDramAddress g (base ||| mask) then pure monitorInvalidValue
  else do
    if ← tasLock g 0 then pure monitorConcurrentCall
    else do
      let rangeEnd := (base ||| mask) + 1
      match ← dmaRangeLoop g rangeEnd (2 ^ 64) base true with
      | none => pure monitorConcurrentCall
      | some _osOwnsRegions => do
          act_ (.setDmaStart base)
          act_ (.setDmaEnd rangeEnd)
          act_ (.setDmarBase base)
          act_ (.setDmarMask (~~~ mask))
          clearLock g 0
          pure monitorOk

/-- `create_metadata_region`: src/monitor/dram_regions.cc:279-294. -/
def createMetadataRegion (g : Cfg) (r : W) : Prog W :=
  if !isValidDramRegion g r then pure monitorInvalidValue
  else do
    if ← tasLock g r then pure monitorConcurrentCall
    else do
      let owner ← readOwner g r
      if owner != freeEnclaveId then do
        clearLock g r
        pure monitorInvalidState
      else do
        initMetadataRegion g r
        clearLock g r
        pure monitorOk

/-- `assign_dram_region`: src/monitor/dram_regions.cc:296-337. -/
def assignDramRegion (g : Cfg) (r newOwner : W) : Prog W :=
  if !isValidDramRegion g r then pure monitorInvalidValue
  else do
    if ← tasLock g r then pure monitorConcurrentCall
    else do
      let owner ← readOwner g r
      if owner != freeEnclaveId then do
        clearLock g r
        pure monitorInvalidState
      else do
        let newOwnerRegion := dramRegionFor g newOwner
        if ← tasLock g newOwnerRegion then do
          clearLock g r
          pure monitorConcurrentCall
        else do
          if ← isValidEnclaveId g newOwner then do
            store (regionA g r + offOwner) newOwner
            setEnclaveRegionBitmapBit g newOwner r true
            (if newOwner = 0 then setDrbMap g g.osBitmap else pure ())
            clearLock g newOwnerRegion
            clearLock g r
            pure monitorOk
          else do
            clearLock g newOwnerRegion
            clearLock g r
            pure monitorInvalidValue

/-- The loop of `free_dram_region`: src/monitor/dram_regions.cc:359-365; `n` cores left, next core `i`.
True if no core's `flushed_at` is below `blockedAt`. -/
def coresFlushedLoop (g : Cfg) (blockedAt : W) : Nat → W → Prog Bool
  | 0, _ => pure true
  | n + 1, i => do
      let flushedAt ← load (coreA g i + offFlushedAt)
      if flushedAt < blockedAt then pure false else coresFlushedLoop g blockedAt n (i + 1)

/-- `free_dram_region`: src/monitor/dram_regions.cc:339-391. -/
def freeDramRegion (g : Cfg) (r : W) : Prog W :=
  if !isValidDramRegion g r then pure monitorInvalidValue
  else do
    if ← tasLock g r then pure monitorConcurrentCall
    else do
      let owner ← readOwner g r
      if owner = blockedEnclaveId then do
        let blockedAt ← load (regionA g r + offBlockedAt)
        if ← coresFlushedLoop g blockedAt g.coreCount.toNat 0 then do
          store (regionA g r + offOwner) freeEnclaveId
          clearLock g r
          pure monitorOk
        else do
          clearLock g r
          pure monitorInvalidState
      else if owner = metadataEnclaveId then do
        let pinned ← load (regionA g r + offPinned)
        if pinned = 0 then do
          store (regionA g r + offOwner) freeEnclaveId
          clearLock g r
          pure monitorOk
        else do
          clearLock g r
          pure monitorInvalidState
      else do
        clearLock g r
        pure monitorInvalidState

/-- `flush_cached_dram_regions`: src/monitor/dram_regions.cc:393-396. -/
def flushCachedDramRegions (g : Cfg) : Prog W := do
  dramRegionTlbFlush g
  pure monitorOk

end Sanctum
