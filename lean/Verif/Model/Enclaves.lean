import Verif.Model.Regions
/-
Model of the API functions of src/monitor/metadata.cc, src/monitor/enclave_init.cc, src/monitor/enclave.cc.
Code that is commented out in the source is not there.
-/
namespace Sanctum

/-- `create_enclave`: src/monitor/metadata.cc:71-101. -/
def createEnclave (g : Cfg) (e evBase evMask mailboxCount : W) (debug : Bool) : Prog W :=
  if !isValidRange evBase evMask then pure monitorInvalidValue
  else if evMask + 1 < pageSize then pure monitorInvalidValue
  else do
    let (result, r) ← lockMetadataRegionFor g e
    if result != monitorOk then pure result
    else do
      let owner ← readOwner g r
      if owner != metadataEnclaveId then do
        clearLock g r
        pure monitorInvalidValue
      else do
        let result ← reserveMetadataPages g e (enclaveInfoPages g mailboxCount) e enclavePageType
        if result != monitorOk then do
          clearLock g r
          pure result
        else do
          initEnclaveInfo e evBase evMask mailboxCount debug
          clearLock g r
          pure monitorOk

/-- `assign_thread`: src/monitor/metadata.cc:103-134. (`x += 1` on a `phys_ref` is a load and a store.) -/
def assignThread (g : Cfg) (e t : W) : Prog W := do
  let result ← lockEnclave g e
  if result != monitorOk then pure result
  else do
    let (result, r) ← lockMetadataRegionFor g t
    if result != monitorOk then do
      unlockEnclave e
      pure result
    else do
      let init ← load (e + offIsInitialized)
      let result ← (if init != 0 then reserveMetadataPages g e threadMetadataPages e threadPageType
                    else pure monitorInvalidState)
      if result != monitorOk then do
        clearLock g r
        unlockEnclave e
        pure result
      else do
        let n ← load (e + offThreadCount)
        store (e + offThreadCount) (n + 1)
        clearLock g r
        unlockEnclave e
        pure monitorOk

/-- `load_thread`: src/monitor/metadata.cc:136-182. -/
def loadThread (g : Cfg) (e t entryPc entryStack faultPc faultStack : W) : Prog W := do
  let result ← lockEnclave g e
  if result != monitorOk then pure result
  else do
    let (result, r) ← lockMetadataRegionFor g t
    if result != monitorOk then do
      unlockEnclave e
      pure result
    else do
      let init ← load (e + offIsInitialized)
      -- lines 149-150: `is_initialized || load_eptbr == 0`
      let eptbr ← (if init != 0 then pure 0 else load (e + offLoadEptbr))
      let result ← (if init != 0 || eptbr == 0 then pure monitorInvalidState
                    else reserveMetadataPages g e threadMetadataPages e threadPageType)
      if result != monitorOk then do
        clearLock g r
        unlockEnclave e
        pure result
      else do
        let n ← load (e + offThreadCount)
        store (e + offThreadCount) (n + 1)
        store (t + offThreadLock) 0
        store (t + offEntryPc) entryPc
        store (t + offEntryStack) entryStack
        store (t + offFaultPc) faultPc
        store (t + offFaultStack) faultStack
        let ptbr ← load (e + offLoadEptbr)
        store (t + offEptbr) ptbr
        extendHashWithThread e entryPc entryStack faultPc faultStack
        clearLock g r
        unlockEnclave e
        pure monitorOk

/-- `accept_thread`: src/monitor/metadata.cc:191-250. As in the code, the lock that is test-and-set is the
one indexed by the *address* `thread_info_addr` (line 198). -/
def acceptThread (g : Cfg) (t info : W) : Prog W :=
  if !isDramAddress g info || !isPageAligned info then pure monitorInvalidValue
  else do
    let e ← currentEnclave g
    let threadRegion := dramRegionFor g info
    if ← tasLock g info then pure monitorConcurrentCall
    else do
      let owner ← readOwner g threadRegion
      if owner != e then do
        clearLock g threadRegion
        pure monitorInvalidValue
      else do
        let enclaveRegion := dramRegionFor g e
        if ← tasLock g enclaveRegion then do
          clearLock g threadRegion
          pure monitorConcurrentCall
        else do
          let result ← acceptMetadataPages g t threadMetadataPages e threadPageType
          if result != monitorOk then do
            clearLock g enclaveRegion
            clearLock g threadRegion
            pure result
          else do
            store (t + offThreadLock) 0
            let entryPc ← load (info + offInitEntryPc)
            let entryStack ← load (info + offInitEntryStack)
            let faultPc ← load (info + offInitFaultPc)
            let faultStack ← load (info + offInitFaultStack)
            let eptbr ← load (info + offInitEptbr)
            store (t + offEntryPc) entryPc
            store (t + offEntryStack) entryStack
            store (t + offFaultPc) faultPc
            store (t + offFaultStack) faultStack
            store (t + offEptbr) eptbr
            clearLock g enclaveRegion
            clearLock g threadRegion
            pure monitorOk

/-- The common prefix of `load_page_table`, `load_page`, `init_enclave`, `delete_enclave` and
`enter_enclave` (src/monitor/enclave_init.cc:71-81,155-165,236-245; src/monitor/enclave.cc:69-78,142-151):
lock the region of the ID, validate the ID; `k` is the rest of the function. -/
def withLockedEnclave (g : Cfg) (e : W) (k : W → Prog W) : Prog W := do
  let r := clampedDramRegionFor g e
  if ← tasLock g r then pure monitorConcurrentCall
  else do
    -- `enclave_id == null_enclave_id || !is_valid_enclave_id(enclave_id)` (short-circuit)
    let valid ← (if e = nullEnclaveId then pure false else isValidEnclaveId g e)
    if !valid then do
      clearLock g r
      pure monitorInvalidValue
    else k r

/-- `page_table_levels()` of both architectures. -/
def pageTableLevels : W := 3

/-- `load_page_table`: src/monitor/enclave_init.cc:60-147. The page-table and measurement part of the
body is commented out in the source. -/
def loadPageTable (g : Cfg) (e physAddr virtualAddr level _acl : W) : Prog W :=
  if !isDramAddress g physAddr then pure monitorInvalidValue
  else if !isPageAligned physAddr then pure monitorInvalidValue
  else if level ≥ pageTableLevels then pure monitorInvalidValue
  else withLockedEnclave g e fun r => do
    let init ← load (e + offIsInitialized)
    if init != 0 then do
      clearLock g r
      pure monitorInvalidState
    else do
      let last ← load (e + offLastLoadAddr)
      if physAddr ≤ last then do
        clearLock g r
        pure monitorInvalidValue
      else do
        let inRange ← (if level != pageTableLevels - 1 then isEnclaveVirtualAddress virtualAddr e else pure true)
        if !inRange then do
          clearLock g r
          pure monitorInvalidValue
        else do
          clearLock g r
          pure monitorOk

/-- `load_page`: src/monitor/enclave_init.cc:149-233. The copying, mapping and measurement part of the
body is commented out in the source. -/
def loadPage (g : Cfg) (e physAddr virtualAddr osAddr _acl : W) : Prog W :=
  if !isDramAddress g physAddr || !isDramAddress g osAddr then pure monitorInvalidValue
  else if !isPageAligned physAddr || !isPageAligned osAddr then pure monitorInvalidValue
  else withLockedEnclave g e fun r => do
    let init ← load (e + offIsInitialized)
    if init != 0 then do
      clearLock g r
      pure monitorInvalidState
    else do
      let last ← load (e + offLastLoadAddr)
      if physAddr ≤ last then do
        clearLock g r
        pure monitorInvalidValue
      else do
        let inRange ← isEnclaveVirtualAddress virtualAddr e
        if !inRange then do
          clearLock g r
          pure monitorInvalidValue
        else do
          clearLock g r
          pure monitorOk

/-- `init_enclave`: src/monitor/enclave_init.cc:235-258. -/
def initEnclave (g : Cfg) (e : W) : Prog W :=
  withLockedEnclave g e fun r => do
    let init ← load (e + offIsInitialized)
    if init != 0 then do
      clearLock g r
      pure monitorInvalidState
    else do
      finalizeEnclaveHash e
      store (e + offIsInitialized) 1
      clearLock g r
      pure monitorOk

/-- First loop of `delete_enclave`: src/monitor/enclave.cc:87-95; returns `region_iterator`.
`n` regions left, current index `i`. -/
def deleteLockLoop (g : Cfg) (main bitmap : W) : Nat → W → Prog W
  | 0, i => pure i
  | n + 1, i =>
      if i = main then deleteLockLoop g main bitmap n (i + 1)
      else do
        if ← readBitmapBit bitmap i then do
          if ← tasLock g i then pure i
          else deleteLockLoop g main bitmap n (i + 1)
        else deleteLockLoop g main bitmap n (i + 1)

/-- The two unlocking loops of `delete_enclave`: src/monitor/enclave.cc:98-104,129-135. -/
def deleteUnlockLoop (g : Cfg) (main bitmap : W) : Nat → W → Prog Unit
  | 0, _ => pure ()
  | n + 1, i =>
      if i = main then deleteUnlockLoop g main bitmap n (i + 1)
      else do
        if ← readBitmapBit bitmap i then do
          clearLock g i
          deleteUnlockLoop g main bitmap n (i + 1)
        else deleteUnlockLoop g main bitmap n (i + 1)

/-- The freeing loop of `delete_enclave`: src/monitor/enclave.cc:112-127. As in the code, the bit that
is tested is `region_iterator` (`iter`), not `i`. -/
def deleteFreeLoop (g : Cfg) (iter bitmap : W) : Nat → W → Prog Unit
  | 0, _ => pure ()
  | n + 1, i => do
      if ← readBitmapBit bitmap iter then do
        store (regionA g i + offOwner) freeEnclaveId
        store (regionA g i + offPinned) 0
        bzeroDramRegion g i
        deleteFreeLoop g iter bitmap n (i + 1)
      else deleteFreeLoop g iter bitmap n (i + 1)

/-- `delete_enclave`: src/monitor/enclave.cc:68-138. -/
def deleteEnclave (g : Cfg) (e : W) : Prog W :=
  withLockedEnclave g e fun r => do
    let threads ← load (e + offThreadCount)
    if threads != 0 then do
      clearLock g r
      pure monitorInvalidState
    else do
      let bitmap := enclaveRegionBitmap e
      let iter ← deleteLockLoop g r bitmap g.regionCount.toNat 0
      if iter < g.regionCount then do
        deleteUnlockLoop g r bitmap iter.toNat 0
        clearLock g r
        pure monitorConcurrentCall
      else do
        deleteFreeLoop g iter bitmap g.regionCount.toNat 0
        deleteUnlockLoop g r bitmap g.regionCount.toNat 0
        clearLock g r
        pure monitorOk

/-- `enter_enclave`: src/monitor/enclave.cc:140-200. The success path does not release the lock (the
code that did is commented out). -/
def enterEnclave (g : Cfg) (e _t : W) : Prog W :=
  withLockedEnclave g e fun r => do
    let init ← load (e + offIsInitialized)
    if init = 0 then do
      clearLock g r
      pure monitorInvalidState
    else pure monitorOk

/-- The copy loops of `copy_debug_enclave_page`: src/monitor/enclave.cc:245-252; `n` words left. -/
def copyWords : Nat → W → W → Prog Unit
  | 0, _, _ => pure ()
  | n + 1, dst, src => do
      let v ← load src
      store dst v
      copyWords n (dst + 8) (src + 8)

/-- `copy_debug_enclave_page`: src/monitor/enclave.cc:202-259. -/
def copyDebugEnclavePage (g : Cfg) (e enclaveAddr osAddr : W) (readFromEnclave : Bool) : Prog W :=
  if !isPageAligned enclaveAddr || !isPageAligned osAddr then pure monitorInvalidValue
  else if !isDramAddress g enclaveAddr || !isDramAddress g osAddr then pure monitorInvalidValue
  else do
    let enclaveRegion := clampedDramRegionFor g e
    let enclaveAddrRegion := dramRegionFor g enclaveAddr
    let osRegion := dramRegionFor g osAddr
    if ← tasLock g enclaveRegion then pure monitorConcurrentCall
    else do
      if ← tasLock g osRegion then do
        clearLock g enclaveRegion
        pure monitorConcurrentCall
      else do
        let o1 ← readOwner g enclaveRegion
        let o2 ← readOwner g osRegion
        let bit ← readEnclaveRegionBitmapBit g e enclaveAddrRegion
        let dbg ← load (e + offIsDebug)
        let result := if dbg = 0 then monitorInvalidState
                      else if !bit then monitorInvalidValue
                      else if o2 ≠ nullEnclaveId then monitorInvalidValue
                      else if o1 ≠ e then monitorInvalidValue
                      else monitorOk
        (if result = monitorOk then
          (if readFromEnclave then copyWords 512 osAddr enclaveAddr else copyWords 512 enclaveAddr osAddr)
         else pure ())
        clearLock g osRegion
        clearLock g enclaveRegion
        pure result

/-- The page loop of `create_thread`: src/monitor/enclave.cc:294-302. `false` is the exit at lines 299-300. -/
def threadPagesLoop (g : Cfg) (region physEnd : W) : Nat → W → Prog Bool
  | 0, _ => .diverge
  | fuel + 1, page =>
      if page < physEnd then
        if dramRegionFor g page ≠ region then pure false else threadPagesLoop g region physEnd fuel (page + pageSize)
      else pure true

/-- `create_thread`: src/monitor/enclave.cc:269-350. The success path does not release the lock (the code
that did is commented out). -/
def createThread (g : Cfg) (_t physAddr : W) : Prog W :=
  if !isPageAligned physAddr then pure monitorInvalidValue
  else if !isDramAddress g physAddr then pure monitorInvalidValue
  else if !isDramAddress g (physAddr + threadInfoSize - 1) then pure monitorInvalidValue
  else do
    let e ← currentEnclave g
    let r := dramRegionFor g e
    if ← tasLock g r then pure monitorConcurrentCall
    else do
      let threadRegion := dramRegionFor g physAddr
      if ← readBitmapBit (enclaveRegionBitmap e) threadRegion then
        if ← threadPagesLoop g threadRegion (physAddr + threadInfoSize) (2 ^ 64) physAddr then pure monitorOk
        else do
          clearLock g r
          pure monitorUnsupported
      else do
        clearLock g r
        pure monitorInvalidState

/-- `delete_thread`: src/monitor/enclave.cc:352-399. Everything after the lock acquisition is commented
out, including the release. -/
def deleteThread (g : Cfg) (_t : W) : Prog W := do
  let e ← currentEnclave g
  let r := dramRegionFor g e
  if ← tasLock g r then pure monitorConcurrentCall else pure monitorOk

/-- `exit_enclave`: src/monitor/enclave.cc:401-435 (three reads of the core record, no effect). -/
def exitEnclave (g : Cfg) : Prog W := do
  let core ← act .curCore
  let _ ← load (coreA g core + offCoreEnclaveId)
  let _ ← load (coreA g core + offCoreThreadId)
  let _ ← load (coreA g core + offCoreThread)
  pure monitorOk

end Sanctum
