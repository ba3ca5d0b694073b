import Verif.Model.Measure
/-
Model of src/monitor/metadata_inl.h and of `init_enclave_info` (src/monitor/enclave_inl.h:98-111).
-/
namespace Sanctum

/-- `metadata_page_info`: src/monitor/metadata_inl.h:29-32. -/
def metadataPageInfo (owner pageType : W) : W := owner ||| pageType

/-- `empty_metadata_page_info`: src/monitor/metadata_inl.h:37-38. -/
def emptyMetadataPageInfo : W := metadataPageInfo nullEnclaveId emptyPageType

/-- `metadata_page_info_type`: src/monitor/metadata_inl.h:41-44. -/
def metadataPageInfoType (info : W) : W := info &&& metadataPageTypeMask

/-- `init_metadata_region`: src/monitor/metadata_inl.h:52-59. -/
def initMetadataRegion (g : Cfg) (r : W) : Prog Unit := do
  store (regionA g r + offOwner) metadataEnclaveId
  store (regionA g r + offPinned) 0
  bzero (dramRegionStart g r) (g.metaStart <<< pageShift)

/-- `lock_metadata_region_for`: src/monitor/metadata_inl.h:69-84. Returns the result code and the
`dram_region` out-parameter (0 when the code leaves it unset). -/
def lockMetadataRegionFor (g : Cfg) (physAddr : W) : Prog (W × W) :=
  if !isPageAligned physAddr || !isDramAddress g physAddr then pure (monitorInvalidValue, 0)
  else do
    let r := dramRegionFor g physAddr
    if ← tasLock g r then pure (monitorConcurrentCall, r)
    else do
      let owner ← readOwner g r
      if owner != metadataEnclaveId then do
        clearLock g r
        pure (monitorInvalidState, r)
      else pure (monitorOk, r)

/-- `metadata_page_info_for`: src/monitor/metadata_inl.h:86-90. -/
def metadataPageInfoFor (g : Cfg) (physAddr : W) : W :=
  (physAddr &&& g.regionMask) + dramRegionPageFor g physAddr * 8

/-- First loop of `assign_metadata_pages`: src/monitor/metadata_inl.h:118-120; true if all the entries
read are zero. `n` entries left, next entry at `p`. -/
def pagesEmptyLoop : Nat → W → Prog Bool
  | 0, _ => pure true
  | n + 1, p => do
      let v ← load p
      if v != 0 then pure false else pagesEmptyLoop n (p + 8)

/-- Second loop: src/monitor/metadata_inl.h:126-127. The first store goes to `page_info` itself. -/
def innerPagesLoop : Nat → W → Prog Unit
  | 0, _ => pure ()
  | n + 1, p => do
      store p innerPageType
      innerPagesLoop n (p + 8)

/-- `assign_metadata_pages`: src/monitor/metadata_inl.h:111-129 (the parameter `free_info` is not used
by the code). -/
def assignMetadataPages (g : Cfg) (physAddr pageCount owner type _freeInfo : W) : Prog W :=
  if dramStripePageFor g physAddr + pageCount > g.stripePages then pure monitorInvalidValue
  else do
    let p := metadataPageInfoFor g physAddr
    if ← pagesEmptyLoop pageCount.toNat p then do
      store p (metadataPageInfo owner type)
      innerPagesLoop (pageCount.toNat - 1) p
      pure monitorOk
    else pure monitorInvalidState

/-- `reserve_metadata_pages`: src/monitor/metadata_inl.h:149-153. -/
def reserveMetadataPages (g : Cfg) (physAddr pageCount owner type : W) : Prog W :=
  assignMetadataPages g physAddr pageCount owner type emptyPageType

/-- `accept_metadata_pages`: src/monitor/metadata_inl.h:170-174. -/
def acceptMetadataPages (g : Cfg) (physAddr pageCount owner type : W) : Prog W :=
  assignMetadataPages g physAddr pageCount owner type (metadataPageInfo owner emptyPageType)

/-- `lock_enclave`: src/monitor/metadata_inl.h:184-207. -/
def lockEnclave (g : Cfg) (e : W) : Prog W :=
  if !isDramAddress g e || !isPageAligned e then pure monitorInvalidValue
  else do
    let (result, r) ← lockMetadataRegionFor g e
    if result != monitorOk then pure result
    else do
      let info ← load (metadataPageInfoFor g e)
      if info != metadataPageInfo e enclavePageType then do
        clearLock g r
        pure monitorInvalidValue
      else do
        let busy ← tas (e + offEnclaveLock)
        clearLock g r
        pure (if busy then monitorConcurrentCall else monitorOk)

/-- `unlock_enclave`: src/monitor/metadata_inl.h:216-219. -/
def unlockEnclave (e : W) : Prog Unit := store (e + offEnclaveLock) 0

/-- `enclave_region_bitmap`: src/monitor/metadata_inl.h:225-228. -/
def enclaveRegionBitmap (e : W) : W := e + enclaveInfoSize

/-- `enclave_mailboxes`: src/monitor/metadata_inl.h:230-233. -/
def enclaveMailboxes (g : Cfg) (e : W) : W := enclaveRegionBitmap e + g.bitmapWords * 8

/-- `enclave_mailbox`: src/monitor/metadata_inl.h:235-238. -/
def enclaveMailbox (g : Cfg) (e mailbox : W) : W := enclaveMailboxes g e + mailbox * mailboxSize

/-- `enclave_info_size`: src/monitor/metadata_inl.h:250-252. -/
def enclaveInfoTotal (g : Cfg) (mailboxCount : W) : W := enclaveMailbox g 0 mailboxCount

/-- `enclave_info_pages`: src/monitor/metadata_inl.h:257-259. -/
def enclaveInfoPages (g : Cfg) (mailboxCount : W) : W := pagesNeededFor (enclaveInfoTotal g mailboxCount)

/-- `thread_metadata_pages` (and `thread_metadata_size`): src/monitor/metadata_inl.h:262-269. -/
def threadMetadataPages : W := pagesNeededFor threadInfoSize

/-- `set_enclave_region_bitmap_bit`: src/monitor/metadata_inl.h:276-284. -/
def setEnclaveRegionBitmapBit (g : Cfg) (e r : W) (value : Bool) : Prog Unit :=
  if e = nullEnclaveId then setBitmapBit g.osBitmap r value
  else setBitmapBit (enclaveRegionBitmap e) r value

/-- `read_enclave_region_bitmap_bit`: src/monitor/metadata_inl.h:291-297. -/
def readEnclaveRegionBitmapBit (g : Cfg) (e r : W) : Prog Bool :=
  if e = nullEnclaveId then readBitmapBit g.osBitmap r
  else readBitmapBit (enclaveRegionBitmap e) r

/-- `is_valid_enclave_id`: src/monitor/metadata_inl.h:307-314. -/
def isValidEnclaveId (g : Cfg) (e : W) : Prog Bool := do
  let owner ← readOwner g (clampedDramRegionFor g e)
  pure (owner == e)

/-- `init_enclave_info`: src/monitor/enclave_inl.h:98-111. -/
def initEnclaveInfo (e evBase evMask mailboxCount : W) (debug : Bool) : Prog Unit := do
  store (e + offEnclaveLock) 0
  store (e + offMailboxCount) mailboxCount
  store (e + offIsInitialized) 0
  store (e + offIsDebug) (b2w debug)
  store (e + offEvBase) evBase
  store (e + offEvMask) evMask
  store (e + offLoadEptbr) 0
  store (e + offLastLoadAddr) 0
  store (e + offThreadCount) 0
  store (e + offDramRegionCount) 0
  initEnclaveHash e evBase evMask mailboxCount debug

/-- `is_enclave_virtual_address`: src/monitor/enclave_inl.h:30-35. -/
def isEnclaveVirtualAddress (virtualAddr e : W) : Prog Bool := do
  let mask ← load (e + offEvMask)
  let base ← load (e + offEvBase)
  pure ((virtualAddr &&& mask) == base)

end Sanctum
