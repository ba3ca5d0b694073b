import Verif.Model.Hash
/-
Model of src/monitor/measure_inl.h: what is fed to an enclave's measurement.
-/
namespace Sanctum

/-- `enclave_init_opcode`: src/monitor/measure_inl.h:37. -/ def opInit : W := 0xAAAAAAAA
/-- `load_page_table_opcode`: src/monitor/measure_inl.h:38. -/ def opPageTable : W := 0xBBBBBBBB
/-- `load_page_opcode`: src/monitor/measure_inl.h:39. -/ def opPage : W := 0xCCCCCCCC
/-- `load_thread_opcode`: src/monitor/measure_inl.h:40. -/ def opThread : W := 0xDDDDDDDD
/-- `finalize_enclave_opcode`: src/monitor/measure_inl.h:41. -/ def opFinalize : W := 0xEEEEEEEE

/-- `init_enclave_hash`: src/monitor/measure_inl.h:55-79 (`e` is the address of the `enclave_info_t`). -/
def initEnclaveHash (e evBase evMask mailboxCount : W) (debug : Bool) : Prog Unit := do
  bzero (e + offHashBlock) 64
  initHash (e + offHash)
  store (e + offHashBlock + offOpcode) opInit
  store (e + offHashBlock + offPtr1) evBase
  store (e + offHashBlock + offPtr2) evMask
  store (e + offHashBlock + offSize1) mailboxCount
  store (e + offHashBlock + offSize2) (b2w debug)
  extendHash (e + offHash) (e + offHashBlock)
  store (e + offHashBlock + offPtr1) 0
  store (e + offHashBlock + offPtr2) 0
  store (e + offHashBlock + offSize1) 0
  store (e + offHashBlock + offSize2) 0

/-- `extend_enclave_hash_with_page_table`: src/monitor/measure_inl.h:84-99. -/
def extendHashWithPageTable (e virtualAddr level acl : W) : Prog Unit := do
  store (e + offHashBlock + offOpcode) opPageTable
  store (e + offHashBlock + offPtr1) virtualAddr
  store (e + offHashBlock + offPtr2) acl
  store (e + offHashBlock + offSize1) level
  extendHash (e + offHash) (e + offHashBlock)
  store (e + offHashBlock + offPtr1) 0
  store (e + offHashBlock + offPtr2) 0
  store (e + offHashBlock + offSize1) 0

/-- The loop over a page's blocks: src/monitor/measure_inl.h:121-125; `n` blocks left. -/
def extendHashPageLoop (e : W) : Nat → W → Prog Unit
  | 0, _ => pure ()
  | n + 1, p => do
      extendHash (e + offHash) p
      extendHashPageLoop e n (p + 64)

/-- `extend_enclave_hash_with_page`: src/monitor/measure_inl.h:107-126. The loop runs from `phys_addr`
to `phys_addr + page_size()` in steps of 64 bytes, i.e. exactly 64 times. -/
def extendHashWithPage (e virtualAddr acl physAddr : W) : Prog Unit := do
  store (e + offHashBlock + offOpcode) opPage
  store (e + offHashBlock + offPtr1) virtualAddr
  store (e + offHashBlock + offPtr2) acl
  extendHash (e + offHash) (e + offHashBlock)
  store (e + offHashBlock + offPtr1) 0
  store (e + offHashBlock + offPtr2) 0
  extendHashPageLoop e 64 physAddr

/-- `extend_enclave_hash_with_thread`: src/monitor/measure_inl.h:131-148. -/
def extendHashWithThread (e entryPc entryStack faultPc faultStack : W) : Prog Unit := do
  store (e + offHashBlock + offOpcode) opThread
  store (e + offHashBlock + offPtr1) entryPc
  store (e + offHashBlock + offPtr2) entryStack
  store (e + offHashBlock + offPtr3) faultPc
  store (e + offHashBlock + offPtr4) faultStack
  extendHash (e + offHash) (e + offHashBlock)
  store (e + offHashBlock + offPtr1) 0
  store (e + offHashBlock + offPtr2) 0
  store (e + offHashBlock + offPtr3) 0
  store (e + offHashBlock + offPtr4) 0

/-- `finalize_enclave_hash`: src/monitor/measure_inl.h:151-159. -/
def finalizeEnclaveHash (e : W) : Prog Unit := do
  store (e + offHashBlock + offOpcode) opFinalize
  extendHash (e + offHash) (e + offHashBlock)
  finalizeHash (e + offHash)

end Sanctum
