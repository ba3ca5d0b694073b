import Verif.Spec.Enclave
/-
The result code of every call, in the order in which the reasons for a failure are reported. Nothing here mentions the monitor's code.
api.h: `monitor_invalid_value` for bad arguments, `monitor_invalid_state` when a resource is in an unsuitable state,
`monitor_concurrent_call` when a lock is taken, `monitor_access_denied` when the caller does not own the resource.
-/
namespace Sanctum
open Classical

/-- `block_dram_region(r)` on core `c`. -/
noncomputable def blockCode (g : Cfg) (c : Nat) (m : Machine) (r : Nat) : W :=
  if r = 0 ∨ g.regions ≤ r then monitorInvalidValue
  else if m.locked g r then monitorConcurrentCall
  else if m.owner g r ≠ m.running c then monitorAccessDenied
  else if m.running c ≠ 0 ∧ m.pinned g r ≠ 0 then monitorInvalidState
  else if regionOf g (m.running c).toNat = r ∨ m.locked g (regionOf g (m.running c).toNat) then monitorConcurrentCall
  else if regionOf g (m.running c).toNat = 0 ∧ DmaTouches g m r then monitorInvalidState
  else monitorOk

/-- `assign_dram_region(r, e)`. -/
noncomputable def assignCode (g : Cfg) (m : Machine) (r : Nat) (e : W) : W :=
  if g.regions ≤ r then monitorInvalidValue
  else if m.locked g r then monitorConcurrentCall
  else if m.owner g r ≠ freeEnclaveId then monitorInvalidState
  else if regionOf g e.toNat = r ∨ m.locked g (regionOf g e.toNat) then monitorConcurrentCall
  else if m.owner g (idRegion g e) ≠ e then monitorInvalidValue
  else monitorOk

/-- `free_dram_region(r)`. -/
noncomputable def freeCode (g : Cfg) (m : Machine) (r : Nat) : W :=
  if g.regions ≤ r then monitorInvalidValue
  else if m.locked g r then monitorConcurrentCall
  else if (m.owner g r = blockedEnclaveId ∧ ∀ k, k < g.cores → m.blockedAt g r ≤ m.flushedAt k) ∨
    (m.owner g r = metadataEnclaveId ∧ m.pinned g r = 0) then monitorOk
  else monitorInvalidState

/-- `create_metadata_region(r)`. -/
noncomputable def metadataCode (g : Cfg) (m : Machine) (r : Nat) : W :=
  if g.regions ≤ r then monitorInvalidValue
  else if m.locked g r then monitorConcurrentCall
  else if m.owner g r ≠ freeEnclaveId then monitorInvalidState
  else monitorOk

/-- `set_dma_range(base, mask)`. -/
noncomputable def dmaCode (g : Cfg) (m : Machine) (base mask : W) : W :=
  if ¬ ((∃ k, k ≤ 64 ∧ mask.toNat = 2 ^ k - 1 ∧ 2 ^ k ∣ base.toNat) ∧ base.toNat + mask.toNat < g.dramSize.toNat) then monitorInvalidValue
  else if m.locked g 0 ∨ ∃ a, base.toNat ≤ a ∧ a ≤ base.toNat + mask.toNat ∧ m.locked g (regionOf g a) then monitorConcurrentCall
  else monitorOk

/-- `dram_region_check_ownership(r)` on core `c`. -/
noncomputable def ownershipCode (g : Cfg) (c : Nat) (m : Machine) (r : Nat) : W :=
  if r = 0 ∨ g.regions ≤ r then monitorInvalidValue
  else if m.locked g r then monitorConcurrentCall
  else if m.owner g r ≠ m.running c then monitorInvalidState
  else monitorOk

/-- A call that takes an enclave ID: the region of the ID is locked, then the ID is checked; `rest` otherwise. -/
noncomputable def idCode (g : Cfg) (m : Machine) (e rest : W) : W :=
  if m.locked g (idRegion g e) then monitorConcurrentCall
  else if ¬ ValidId g m e then monitorInvalidValue
  else rest

/-- `load_page_table(e, p, v, level, acl)`. -/
noncomputable def loadTableCode (g : Cfg) (m : Machine) (e p v level : W) : W :=
  if ¬ DramPage g p ∨ 3 ≤ level.toNat then monitorInvalidValue
  else idCode g m e (
    if m.initialized e ≠ 0 then monitorInvalidState
    else if p.toNat ≤ (m.lastLoad e).toNat then monitorInvalidValue
    else if level.toNat < 2 ∧ (v &&& m.evMask e) ≠ m.evBase e then monitorInvalidValue
    else monitorOk)

/-- `load_page(e, p, v, os, acl)`. -/
noncomputable def loadPageCode (g : Cfg) (m : Machine) (e p v os : W) : W :=
  if ¬ DramPage g p ∨ ¬ DramPage g os then monitorInvalidValue
  else idCode g m e (
    if m.initialized e ≠ 0 then monitorInvalidState
    else if p.toNat ≤ (m.lastLoad e).toNat then monitorInvalidValue
    else if (v &&& m.evMask e) ≠ m.evBase e then monitorInvalidValue
    else monitorOk)

/-- `init_enclave(e)`. -/
noncomputable def initCode (g : Cfg) (m : Machine) (e : W) : W :=
  idCode g m e (if m.initialized e ≠ 0 then monitorInvalidState else monitorOk)

/-- `enter_enclave(e, t)`. -/
noncomputable def enterCode (g : Cfg) (m : Machine) (e : W) : W :=
  idCode g m e (if m.initialized e = 0 then monitorInvalidState else monitorOk)

/-- `delete_enclave(e)`. -/
noncomputable def deleteCode (g : Cfg) (m : Machine) (e : W) : W :=
  idCode g m e (
    if m.threads e ≠ 0 then monitorInvalidState
    else if ∃ i, i < g.regions ∧ i ≠ idRegion g e ∧ m.bmBit g e i = true ∧ m.locked g i = true then monitorConcurrentCall
    else monitorOk)

/-- `copy_debug_enclave_page(e, a, os, _)`. -/
noncomputable def copyCode (g : Cfg) (m : Machine) (e a os : W) : W :=
  if ¬ DramPage g a ∨ ¬ DramPage g os then monitorInvalidValue
  else if m.locked g (idRegion g e) then monitorConcurrentCall
  else if regionOf g os.toNat = idRegion g e ∨ m.locked g (regionOf g os.toNat) then monitorConcurrentCall
  else if m.isDebug e = 0 then monitorInvalidState
  else if m.bmBit g e (regionOf g a.toNat) = false ∨ m.owner g (regionOf g os.toNat) ≠ 0 ∨ m.owner g (idRegion g e) ≠ e then monitorInvalidValue
  else monitorOk

/-- A call on the metadata page `a`; `rest` once the region is locked and known to be a metadata region. -/
noncomputable def metaCode (g : Cfg) (m : Machine) (a rest : W) : W :=
  if ¬ DramPage g a then monitorInvalidValue
  else if m.locked g (regionOf g a.toNat) then monitorConcurrentCall
  else if m.owner g (regionOf g a.toNat) ≠ metadataEnclaveId then monitorInvalidState
  else rest

/-- `create_enclave(e, base, mask, n, debug)`. -/
noncomputable def createCode (g : Cfg) (m : Machine) (e base mask n : W) : W :=
  if ¬ ∃ k, 12 ≤ k ∧ k < 64 ∧ mask.toNat = 2 ^ k - 1 ∧ 2 ^ k ∣ base.toNat then monitorInvalidValue
  else metaCode g m e (
    if 2 ^ g.sp < pageIndex g e.toNat + recordPages g n.toNat then monitorInvalidValue
    else if ∃ k, k < recordPages g n.toNat ∧ m.mem (entryA g e.toNat + 8 * k) ≠ 0 then monitorInvalidState
    else monitorOk)

/-- `assign_thread(e, t)` and `load_thread(e, t, …)`: as the pages that the code reserves are the enclave's own (see C41), all that is left in the
end is `monitor_invalid_state`. -/
noncomputable def threadCode (g : Cfg) (m : Machine) (e t : W) : W :=
  metaCode g m e (
    if m.mem (entryA g e.toNat) ≠ (e ||| enclavePageType) then monitorInvalidValue
    else if m.mem e.toNat ≠ 0 then monitorConcurrentCall
    else metaCode g m t monitorInvalidState)

/-- `create_thread(t, p)` on core `c`: the bit of `p`'s region in the bitmap of the caller (made by the OS, the code takes address 304 for the
bitmap, which can be in the lock table, hence the state in which the lock is taken). -/
noncomputable def createThreadCode (g : Cfg) (c : Nat) (m : Machine) (p : W) : W :=
  if ¬ DramPage g p then monitorInvalidValue
  else if m.locked g (regionOf g (m.running c).toNat) then monitorConcurrentCall
  else if ((m.st (lockA g (regionOf g (m.running c).toNat)) 1).mem ((m.running c).toNat + 304 + 8 * (regionOf g p.toNat / 64))).getLsbD (regionOf g p.toNat % 64) = false then monitorInvalidState
  else monitorOk

/-- `delete_thread(t)` on core `c`. -/
def deleteThreadCode (g : Cfg) (c : Nat) (m : Machine) : W :=
  if m.locked g (regionOf g (m.running c).toNat) then monitorConcurrentCall else monitorOk

end Sanctum
