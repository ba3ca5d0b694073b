import Verif.Model.Machine
/-
Field offsets and sizes (LP64, natural alignment) of the monitor's structures.
-/
namespace Sanctum

/-! `core_info_t`: src/monitor/cpu_core.h:27-38. -/
/-- `sizeof(core_info_t)` -/ def coreInfoSize : W := 32
/-- `offsetof(core_info_t, enclave_id)` (cpu_core.h:28) -/ def offCoreEnclaveId : W := 0
/-- `offsetof(core_info_t, thread_id)` (cpu_core.h:29) -/ def offCoreThreadId : W := 8
/-- `offsetof(core_info_t, thread)` (cpu_core.h:33) -/ def offCoreThread : W := 16
/-- `offsetof(core_info_t, flushed_at)` (cpu_core.h:37) -/ def offFlushedAt : W := 24

/-! `dram_region_info_t`: src/monitor/dram_regions.h:41-47. -/
/-- `sizeof(dram_region_info_t)` -/ def regionInfoSize : W := 40
/-- `offsetof(dram_region_info_t, lock)` -/ def offLock : W := 0
/-- `offsetof(dram_region_info_t, owner)` -/ def offOwner : W := 8
/-- `offsetof(dram_region_info_t, previous_owner)` -/ def offPrevOwner : W := 16
/-- `offsetof(dram_region_info_t, pinned_pages)` -/ def offPinned : W := 24
/-- `offsetof(dram_region_info_t, blocked_at)` -/ def offBlockedAt : W := 32

/-! `enclave_info_t`: src/monitor/enclave.h:60-111; `hash_state_t`: src/crypto/hash.h:31-35. -/
/-- `sizeof(enclave_info_t)` -/ def enclaveInfoSize : W := 304
/-- `lock` -/ def offEnclaveLock : W := 0
/-- `mailbox_count` -/ def offMailboxCount : W := 8
/-- `is_initialized` -/ def offIsInitialized : W := 16
/-- `is_debug` -/ def offIsDebug : W := 24
/-- `thread_count` -/ def offThreadCount : W := 32
/-- `dram_region_count` -/ def offDramRegionCount : W := 40
/-- `ev_base` -/ def offEvBase : W := 48
/-- `ev_mask` -/ def offEvMask : W := 56
/-- `load_eptbr` -/ def offLoadEptbr : W := 64
/-- `last_load_addr` -/ def offLastLoadAddr : W := 72
/-- `hash` -/ def offHash : W := 80
/-- `hash_block` -/ def offHashBlock : W := 240

/-- `sizeof(hash_state_t)` -/ def hashStateSize : W := 160
/-- `offsetof(hash_state_t, work_area)` -/ def offWorkArea : W := 32
/-- `offsetof(hash_state_t, padding)` -/ def offPadding : W := 96

/-! `mailbox_t`: src/monitor/mailbox.h:15-32 (8 + 8 + 160 + 128). -/
/-- `sizeof(mailbox_t)` -/ def mailboxSize : W := 304

/-! `thread_info_t`: src/monitor/enclave.h:25-52 (6 words, two 31-word register states, 1 word). -/
/-- `sizeof(thread_info_t)` -/ def threadInfoSize : W := 552
/-- `lock` -/ def offThreadLock : W := 0
/-- `entry_pc` -/ def offEntryPc : W := 8
/-- `entry_stack` -/ def offEntryStack : W := 16
/-- `fault_pc` -/ def offFaultPc : W := 24
/-- `fault_stack` -/ def offFaultStack : W := 32
/-- `eptbr` -/ def offEptbr : W := 40

/-! `thread_init_info_t`: src/monitor/public/api.h:172-186. -/
/-- `entry_pc` -/ def offInitEntryPc : W := 0
/-- `entry_stack` -/ def offInitEntryStack : W := 8
/-- `fault_pc` -/ def offInitFaultPc : W := 16
/-- `fault_stack` -/ def offInitFaultStack : W := 24
/-- `eptbr` -/ def offInitEptbr : W := 32

/-! `measurement_block_t`: src/monitor/measure_inl.h:28-32. -/
/-- `opcode` -/ def offOpcode : W := 0
/-- `ptr1` -/ def offPtr1 : W := 8
/-- `ptr2` -/ def offPtr2 : W := 16
/-- `ptr3` -/ def offPtr3 : W := 24
/-- `ptr4` -/ def offPtr4 : W := 32
/-- `size1` -/ def offSize1 : W := 40
/-- `size2` -/ def offSize2 : W := 48

/-! Special owner values. -/
/-- `null_enclave_id` (src/monitor/public/api.h:19) -/ def nullEnclaveId : W := 0
/-- `blocked_enclave_id` (src/monitor/dram_regions.h:128) -/ def blockedEnclaveId : W := 1
/-- `metadata_enclave_id` (src/monitor/dram_regions.h:131) -/ def metadataEnclaveId : W := 2
/-- `free_enclave_id` (src/monitor/dram_regions.h:134) -/ def freeEnclaveId : W := 3

/-! Metadata page types (src/monitor/metadata.h:37-57). -/
/-- `metadata_page_type_mask` -/ def metadataPageTypeMask : W := 3
/-- `empty_metadata_page_type` -/ def emptyPageType : W := 0
/-- `inner_metadata_page_type` -/ def innerPageType : W := 1
/-- `enclave_metadata_page_type` -/ def enclavePageType : W := 2
/-- `thread_metadata_page_type` -/ def threadPageType : W := 3

/-! Result codes (src/monitor/public/api.h:28-78). -/
/-- `monitor_ok` -/ def monitorOk : W := 0
/-- `monitor_invalid_value` -/ def monitorInvalidValue : W := 1
/-- `monitor_invalid_state` -/ def monitorInvalidState : W := 2
/-- `monitor_concurrent_call` -/ def monitorConcurrentCall : W := 3
/-- `monitor_async_exit` -/ def monitorAsyncExit : W := 4
/-- `monitor_access_denied` -/ def monitorAccessDenied : W := 4
/-- `monitor_unsupported` -/ def monitorUnsupported : W := 5

/-! Region state codes (src/monitor/public/api.h:223-229). -/
/-- `dram_region_invalid` -/ def stateInvalid : W := 0
/-- `dram_region_free` -/ def stateFree : W := 1
/-- `dram_region_blocked` -/ def stateBlocked : W := 2
/-- `dram_region_locked` -/ def stateLocked : W := 3
/-- `dram_region_owned` -/ def stateOwned : W := 4

end Sanctum
