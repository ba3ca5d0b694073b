import Verif.Props.Codes
import Verif.Props.System
import Verif.Props.Ids
/-
C61, C62 over histories from boot; what the tables of result codes imply; concrete cases.
-/
namespace Sanctum
open Machine

variable {g : Cfg}

/-- C61 in every state reached from boot: the result of each region call made by the OS is the one in its table. -/
theorem C61_reachable {m1 m : Machine} (hb : FromBoot g m1) {l : List Event} (hh : Hist g m1 l m) (hk : CoveredHist g l)
    {c : Nat} (hc : c < g.cores) (r e base mask : W) :
    (∃ m', call g c (.blockDramRegion r) m = some (blockCode g c m r.toNat, m')) ∧
    (∃ m', call g c (.assignDramRegion r e) m = some (assignCode g m r.toNat e, m')) ∧
    (∃ m', call g c (.freeDramRegion r) m = some (freeCode g m r.toNat, m')) ∧
    (∃ m', call g c (.createMetadataRegion r) m = some (metadataCode g m r.toNat, m')) ∧
    (∃ m', call g c (.dramRegionCheckOwnership r) m = some (ownershipCode g c m r.toNat, m')) ∧
    (∃ m', call g c (.setDmaRange base mask) m = some (dmaCode g m base mask, m')) ∧
    (∃ m', call g c .flushCachedDramRegions m = some (monitorOk, m')) := by
  have h := hb.wf
  have hi := hist_inv h hh hk hb.inv
  have hs := hi.stateOk h hc
  refine ⟨C61_block h hc r hs.locks hs.caller hs.dma, C61_assign h c r e hs.locks ?_, C61_free h c r hs.locks,
    C61_create_metadata h c r hs.locks (by rw [hs.region0]; decide), C61_check_ownership h hc r hs.locks,
    C61_set_dma h c base mask hs.locks, ⟨_, run_flush h hc m⟩⟩
  intro he
  by_cases h0 : e = nullEnclaveId
  · rw [h0]; exact recordOk_zero
  · exact (hs.ids e ⟨h0, he⟩).1

/-- C61. With no lock held, `monitor_concurrent_call` is only the answer to a call that names one region twice:
`block_dram_region` of the region of the caller's own record, `assign_dram_region` of the region to an enclave whose
record would be in it. -/
theorem C61_unlocked (h : g.WF) {c : Nat} {m : Machine} (hu : AllUnlocked g m) (r : Nat) (e base mask : W) :
    (blockCode g c m r = monitorConcurrentCall → regionOf g (m.running c).toNat = r) ∧
    (assignCode g m r e = monitorConcurrentCall → regionOf g e.toNat = r) ∧
    freeCode g m r ≠ monitorConcurrentCall ∧ metadataCode g m r ≠ monitorConcurrentCall ∧
    ownershipCode g c m r ≠ monitorConcurrentCall ∧ dmaCode g m base mask ≠ monitorConcurrentCall := by
  have hn : ∀ {i : Nat}, i < g.regions → m.locked g i ≠ true := fun hi => by rw [hu _ hi]; exact Bool.false_ne_true
  have hreg : ∀ a, m.locked g (regionOf g a) ≠ true := fun a => hn (regionOf_lt h a)
  refine ⟨?_, ?_, ?_, ?_, ?_, ?_⟩
  · unfold blockCode
    split
    · intro hh; exact absurd hh (by decide)
    · rename_i h1
      rw [if_neg (hn (by omega))]
      split
      · intro hh; exact absurd hh (by decide)
      · split
        · intro hh; exact absurd hh (by decide)
        · split
          · rename_i h4; intro _; exact h4.resolve_right (hreg _)
          · split <;> intro hh <;> exact absurd hh (by decide)
  · unfold assignCode
    split
    · intro hh; exact absurd hh (by decide)
    · rename_i h1
      rw [if_neg (hn (by omega))]
      split
      · intro hh; exact absurd hh (by decide)
      · split
        · rename_i h4; intro _; exact h4.resolve_right (hreg _)
        · split <;> intro hh <;> exact absurd hh (by decide)
  · unfold freeCode
    split
    · decide
    · rw [if_neg (hn (by omega))]
      split <;> decide
  · unfold metadataCode
    split
    · decide
    · rw [if_neg (hn (by omega))]
      split <;> decide
  · unfold ownershipCode
    split
    · decide
    · rw [if_neg (hn (by omega))]
      split <;> decide
  · unfold dmaCode
    split
    · decide
    · rw [if_neg]
      · decide
      · rintro (h0 | ⟨a, -, -, ha⟩)
        · exact hn (Nat.lt_of_le_of_lt (Nat.zero_le _) (regionOf_lt h 0)) h0
        · exact hreg a ha

/-- The hypotheses of C61 and C62 hold on the toy machine with an enclave. -/
example : StateOk toyG 0 enclM ∧ toyG.WF ∧ toyG.SingleStripe ∧ toyG.ShiftOk :=
  ⟨enclM_ok 0 (by decide +kernel), toy_wf, toy_single, toy_shiftOk⟩

/-- All the codes occur. -/
example : (call toyG 0 (.blockDramRegion 0) toyM).map (·.1) = some monitorInvalidValue ∧
    (call toyG 0 (.blockDramRegion 3) toyM).map (·.1) = some monitorOk ∧
    (call toyG 0 (.freeDramRegion 3) toyM).map (·.1) = some monitorInvalidState ∧
    (call toyG 0 (.blockDramRegion 3) (toyM.st (lockA toyG 3) 1)).map (·.1) = some monitorConcurrentCall ∧
    (call toyG 0 (.blockDramRegion 3) (toyM.st (ownerA toyG 3) 3)).map (·.1) = some monitorAccessDenied ∧
    (call toyG 0 (.initEnclave 0x9000) enclM).map (·.1) = some monitorOk ∧
    (call toyG 0 (.enterEnclave 0x9000 0) enclM).map (·.1) = some monitorInvalidState ∧
    (call toyG 0 (.deleteEnclave 0xa000) enclM).map (·.1) = some monitorInvalidValue := by
  decide +kernel

end Sanctum
