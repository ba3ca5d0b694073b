import Verif.Lemmas.Basic
/-
Addresses of the monitor's records in a well-formed configuration.
-/
namespace Sanctum
open Machine

variable {g : Cfg}

theorem Cfg.WF.stripe_le (h : g.WF) : g.stripeSize.toNat ≤ 1073741824 := by
  rw [h.stripeSize]
  calc 2 ^ (12 + g.sp) ≤ 2 ^ 30 := Nat.pow_le_pow_right (by decide) (by have := h.sp_lt; omega)
    _ = _ := by decide
theorem Cfg.WF.dram_ge (h : g.WF) : 2 * g.stripeSize.toNat ≤ g.dramSize.toNat := by
  rw [h.stripeSize, h.dramSize, show 2 * 2 ^ (12 + g.sp) = 2 ^ (12 + g.sp + 1) by rw [Nat.pow_succ]; omega]
  exact Nat.pow_le_pow_right (by decide) (by have := h.fits; have := h.rb_pos; omega)
theorem Cfg.WF.dram_le (h : g.WF) : g.dramSize.toNat ≤ 9223372036854775808 := by
  rw [h.dramSize]
  calc 2 ^ g.d ≤ 2 ^ 63 := Nat.pow_le_pow_right (by decide) h.d_le
    _ = _ := by decide
theorem Cfg.WF.stripe_ge (h : g.WF) : 4096 ≤ g.stripeSize.toNat := by
  rw [h.stripeSize]
  calc 4096 = 2 ^ 12 := by decide
    _ ≤ _ := Nat.pow_le_pow_right (by decide) (by omega)
theorem Cfg.WF.regions_le (h : g.WF) : g.regions ≤ 1073741824 := by
  rw [Cfg.regions, h.regionCount]
  calc 2 ^ g.rb ≤ 2 ^ 30 := Nat.pow_le_pow_right (by decide) (by have := h.rb_lt; omega)
    _ = _ := by decide
theorem Cfg.WF.regions_ge (h : g.WF) : 2 ≤ g.regions := by
  rw [Cfg.regions, h.regionCount]
  calc 2 = 2 ^ 1 := by decide
    _ ≤ _ := Nat.pow_le_pow_right (by decide) h.rb_pos
theorem Cfg.WF.words (h : g.WF) : g.bitmapWords.toNat = (g.regions + 63) / 64 := by
  rw [h.bitmapWords, Cfg.regions, h.regionCount]

/-- The linear facts about the layout that `omega` needs. -/
theorem Cfg.WF.layout (h : g.WF) :
    g.coreBase.toNat = 0 ∧ g.regionBase.toNat = 32 * g.cores ∧
    g.regionsBase.toNat = g.regionBase.toNat + 40 * g.regions ∧
    g.osBitmap.toNat = g.regionsBase.toNat + 8 ∧
    g.osBitmap.toNat + 8 * ((g.regions + 63) / 64) ≤ g.monitorTop.toNat ∧
    g.monitorTop.toNat ≤ g.stripeSize.toNat ∧ g.stripeSize.toNat ≤ 1073741824 ∧
    2 * g.stripeSize.toNat ≤ g.dramSize.toNat ∧ g.dramSize.toNat ≤ 9223372036854775808 ∧
    2 ≤ g.regions ∧ 1 ≤ g.cores ∧ 4096 ≤ g.stripeSize.toNat :=
  ⟨h.coreBase, h.regionBase, h.regionsBase, h.osBitmap, h.words ▸ h.arrays_le, h.top_le, h.stripe_le,
   h.dram_ge, h.dram_le, h.regions_ge, h.cores_pos, h.stripe_ge⟩

theorem okAddr_iff (a : W) : okAddr g a = true ↔ a.toNat % 8 = 0 ∧ a.toNat + 8 ≤ g.dramSize.toNat := by
  simp [okAddr]

section fields
variable (h : g.WF) {r : W} (hr : r.toNat < g.regions)
include h hr

theorem regionA_toNat : (regionA g r).toNat = g.regionBase.toNat + 40 * r.toNat := by
  obtain ⟨h1, h2, h3, h4, h5, h6, h7, h8, h9, h10, h11, h12⟩ := h.layout
  simp only [regionA, regionInfoSize, BitVec.toNat_add, BitVec.toNat_mul, show (40 : W).toNat = 40 from rfl]
  omega

theorem lockA_toNat : (regionA g r + offLock).toNat = lockA g r.toNat := by
  have := regionA_toNat h hr
  simp [offLock, lockA, this]

theorem field_toNat (off : W) (ho : off.toNat ≤ 32) :
    (regionA g r + off).toNat = g.regionBase.toNat + 40 * r.toNat + off.toNat := by
  obtain ⟨h1, h2, h3, h4, h5, h6, h7, h8, h9, h10, h11, h12⟩ := h.layout
  have := regionA_toNat h hr
  simp only [BitVec.toNat_add, this]
  omega

theorem field_ok (off : W) (ho : off.toNat ≤ 32) (h8 : off.toNat % 8 = 0) : okAddr g (regionA g r + off) = true := by
  obtain ⟨h1, h2, h3, h4, h5, h6, h7, h8, h9, h10, h11, h12⟩ := h.layout
  rw [okAddr_iff, field_toNat h hr off ho]
  omega

theorem ownerA_toNat : (regionA g r + offOwner).toNat = ownerA g r.toNat := by
  rw [field_toNat h hr] <;> simp [ownerA, offOwner]
theorem prevA_toNat : (regionA g r + offPrevOwner).toNat = prevA g r.toNat := by
  rw [field_toNat h hr] <;> simp [prevA, offPrevOwner]
theorem pinnedA_toNat : (regionA g r + offPinned).toNat = pinnedA g r.toNat := by
  rw [field_toNat h hr] <;> simp [pinnedA, offPinned]
theorem blockedA_toNat : (regionA g r + offBlockedAt).toNat = blockedA g r.toNat := by
  rw [field_toNat h hr] <;> simp [blockedA, offBlockedAt]

variable (c : Nat) (m : Machine)

theorem run_tasLock : run g c (tasLock g r) m = some (m.locked g r.toNat, m.st (lockA g r.toNat) 1) := by
  rw [tasLock, run_tas _ _ _ _ (field_ok h hr offLock (by decide) (by decide)), lockA_toNat h hr]; rfl
theorem run_clearLock : run g c (clearLock g r) m = some ((), m.st (lockA g r.toNat) 0) := by
  rw [clearLock, run_store _ _ _ _ _ (field_ok h hr offLock (by decide) (by decide)), lockA_toNat h hr]
theorem run_readOwner : run g c (readOwner g r) m = some (m.owner g r.toNat, m) := by
  rw [readOwner, run_load _ _ _ _ (field_ok h hr offOwner (by decide) (by decide)), ownerA_toNat h hr]; rfl
theorem run_loadPinned : run g c (load (regionA g r + offPinned)) m = some (m.pinned g r.toNat, m) := by
  rw [run_load _ _ _ _ (field_ok h hr offPinned (by decide) (by decide)), pinnedA_toNat h hr]; rfl
theorem run_loadBlocked : run g c (load (regionA g r + offBlockedAt)) m = some (m.blockedAt g r.toNat, m) := by
  rw [run_load _ _ _ _ (field_ok h hr offBlockedAt (by decide) (by decide)), blockedA_toNat h hr]; rfl
theorem run_storeOwner (v : W) : run g c (store (regionA g r + offOwner) v) m = some ((), m.st (ownerA g r.toNat) v) := by
  rw [run_store _ _ _ _ _ (field_ok h hr offOwner (by decide) (by decide)), ownerA_toNat h hr]
theorem run_storePrev (v : W) : run g c (store (regionA g r + offPrevOwner) v) m = some ((), m.st (prevA g r.toNat) v) := by
  rw [run_store _ _ _ _ _ (field_ok h hr offPrevOwner (by decide) (by decide)), prevA_toNat h hr]
theorem run_storePinned (v : W) : run g c (store (regionA g r + offPinned) v) m = some ((), m.st (pinnedA g r.toNat) v) := by
  rw [run_store _ _ _ _ _ (field_ok h hr offPinned (by decide) (by decide)), pinnedA_toNat h hr]
theorem run_storeBlocked (v : W) : run g c (store (regionA g r + offBlockedAt) v) m = some ((), m.st (blockedA g r.toNat) v) := by
  rw [run_store _ _ _ _ _ (field_ok h hr offBlockedAt (by decide) (by decide)), blockedA_toNat h hr]
end fields

section cores
variable (h : g.WF) {c : Nat} (hc : c < g.cores)
include h hc

theorem coreA_toNat (off : W) (ho : off.toNat ≤ 24) : (coreA g (BitVec.ofNat 64 c) + off).toNat = 32 * c + off.toNat := by
  obtain ⟨h1, h2, h3, h4, h5, h6, h7, h8, h9, h10, h11, h12⟩ := h.layout
  simp only [coreA, coreInfoSize, BitVec.toNat_add, BitVec.toNat_mul, BitVec.toNat_ofNat, show (32 : W).toNat = 32 from rfl]
  omega
theorem core_ok (off : W) (ho : off.toNat ≤ 24) (h8 : off.toNat % 8 = 0) :
    okAddr g (coreA g (BitVec.ofNat 64 c) + off) = true := by
  obtain ⟨h1, h2, h3, h4, h5, h6, h7, h8, h9, h10, h11, h12⟩ := h.layout
  rw [okAddr_iff, coreA_toNat h hc off ho]; omega

theorem run_currentEnclave (m : Machine) : run g c (currentEnclave g) m = some (m.running c, m) := by
  have h1 : okAddr g (coreA g (BitVec.ofNat 64 c) + offCoreEnclaveId) = true := core_ok h hc _ (by decide) (by decide)
  have h2 := coreA_toNat h hc offCoreEnclaveId (by decide)
  simp only [currentEnclave, run_bind, run_act, exec, Option.bind_some, run_load _ _ _ _ h1, h2]
  simp [offCoreEnclaveId, Machine.running, coreEnclaveA]

theorem run_loadFlushed (c' : Nat) (m : Machine) :
    run g c' (load (coreA g (BitVec.ofNat 64 c) + offFlushedAt)) m = some (m.flushedAt c, m) := by
  rw [run_load _ _ _ _ (core_ok h hc _ (by decide) (by decide)), coreA_toNat h hc _ (by decide)]; rfl
theorem run_storeFlushed (c' : Nat) (m : Machine) (v : W) :
    run g c' (store (coreA g (BitVec.ofNat 64 c) + offFlushedAt) v) m = some ((), m.st (flushedA c) v) := by
  rw [run_store _ _ _ _ _ (core_ok h hc _ (by decide) (by decide)), coreA_toNat h hc _ (by decide)]; rfl
end cores

theorem clock_ok (h : g.WF) : okAddr g g.regionsBase = true := by
  obtain ⟨h1, h2, h3, h4, h5, h6, h7, h8, h9, h10, h11, h12⟩ := h.layout
  rw [okAddr_iff]; omega

end Sanctum
