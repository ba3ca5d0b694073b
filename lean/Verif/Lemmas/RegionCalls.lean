import Verif.Lemmas.Snapshot
import Verif.Lemmas.Views
import Verif.Lemmas.Loops
import Verif.Spec.Regions
/-
Closed forms of the API functions of dram_regions.cc.
-/
namespace Sanctum
open Machine

variable {g : Cfg}

/-- The bitmap of `e` with the bit of region `i` replaced. -/
def Machine.setBmBit (m : Machine) (g : Cfg) (e : W) (i : Nat) (v : Bool) : Machine :=
  m.st (bmWordA g e i) (setBit (m.mem (bmWordA g e i)) (i % 64) v)

theorem setBmBit_zero (m : Machine) (i : Nat) (v : Bool) : m.setBmBit g 0 i v = m.setOsBit g i v := rfl
theorem bmBit_zero (m : Machine) (i : Nat) : m.bmBit g 0 i = m.osBit g i := rfl

theorem bmBit_setBmBit (m : Machine) (e : W) (i j : Nat) (v : Bool) :
    (m.setBmBit g e i v).bmBit g e j = if j = i then v else m.bmBit g e j := by
  unfold Machine.setBmBit Machine.bmBit
  rw [st_mem, upd_apply]
  by_cases hw : bmWordA g e j = bmWordA g e i
  · rw [if_pos hw, hw, getLsbD_setBit _ _ _ _ (Nat.mod_lt _ (by decide)) (Nat.mod_lt _ (by decide))]
    unfold bmWordA osWordA at hw
    by_cases hij : j = i
    · subst hij; simp
    · rw [if_neg hij, if_neg]
      split at hw <;> omega
  · rw [if_neg hw, if_neg]
    rintro rfl; exact hw rfl

/-- Where the bitmap words are: not on the clock, nor on any region record. -/
theorem bmWordA_cases (h : g.WF) {e : W} (he : RecordOk g e) {i : Nat} (hi : i < g.regions) :
    (e = 0 ∧ bmWordA g e i = osWordA g i) ∨ (e ≠ 0 ∧ g.monitorTop.toNat ≤ bmWordA g e i) := by
  unfold bmWordA
  by_cases h0 : e = 0
  · simp [h0]
  · rw [if_neg h0]; right; exact ⟨h0, by have := he h0; omega⟩

theorem bmWordA_ge (h : g.WF) {e : W} (he : RecordOk g e) (i : Nat) : g.osBitmap.toNat ≤ bmWordA g e i := by
  obtain ⟨h1, h2, h3, h4, h5, h6, h7, h8, h9, h10, h11, h12⟩ := h.layout
  unfold bmWordA osWordA
  by_cases h0 : e = 0
  · simp [h0]
  · rw [if_neg h0]; have := he h0; omega

/-- Loads the map of the bitmap of `e` on core `c`: the OS map goes to DRBMAP, an enclave's to EDRBMAP. -/
def Machine.loadMap (m : Machine) (g : Cfg) (c : Nat) (e : W) : Machine :=
  if e = 0 then { m with drb := upd m.drb c (snapshot m g.osBitmap.toNat g.bitmapWords.toNat) }
  else { m with edrb := upd m.edrb c (snapshot m (e.toNat + 304) g.bitmapWords.toNat) }

theorem record_toNat (h : g.WF) {e : W} (he : RecordOk g e) (h0 : e ≠ 0) : (enclaveRegionBitmap e).toNat = e.toNat + 304 := by
  obtain ⟨h1, h2, h3, h4, h5, h6, h7, h8, h9, h10, h11, h12⟩ := h.layout
  have := he h0
  rw [enclaveRegionBitmap, enclaveInfoSize, BitVec.toNat_add, show (304 : W).toNat = 304 from rfl]
  omega

theorem bmWord_addr (h : g.WF) {e r : W} (he : RecordOk g e) (h0 : e ≠ 0) (hr : r.toNat < g.regions) :
    (bitWordA (enclaveRegionBitmap e) r).toNat = bmWordA g e r.toNat ∧ okAddr g (bitWordA (enclaveRegionBitmap e) r) = true := by
  obtain ⟨h1, h2, h3, h4, h5, h6, h7, h8, h9, h10, h11, h12⟩ := h.layout
  have h13 := he h0
  have h14 := h.words
  have h15 := record_toNat h he h0
  have key : (bitWordA (enclaveRegionBitmap e) r).toNat = e.toNat + 304 + 8 * (r.toNat / 64) := by
    simp only [bitWordA, bitmapOffset, BitVec.toNat_add, BitVec.toNat_mul, div64_toNat, show (8 : W).toNat = 8 from rfl, h15]
    omega
  refine ⟨by rw [key, bmWordA, if_neg h0], ?_⟩
  rw [okAddr_iff, key]
  omega

theorem run_setEnclaveBit (h : g.WF) {e r : W} (he : RecordOk g e) (hr : r.toNat < g.regions) (c : Nat) (v : Bool) (m : Machine) :
    run g c (setEnclaveRegionBitmapBit g e r v) m = some ((), m.setBmBit g e r.toNat v) := by
  unfold setEnclaveRegionBitmapBit nullEnclaveId
  by_cases h0 : e = 0
  · rw [if_pos h0, run_setOsBit h hr, h0]; rfl
  · rw [if_neg h0]
    obtain ⟨h1, h2⟩ := bmWord_addr h he h0 hr
    rw [run_setBitmapBit _ _ _ _ _ _ h2, h1]; rfl

theorem osMap_ok (h : g.WF) : okRange g g.osBitmap g.bitmapWords.toNat = true := by
  obtain ⟨h1, h2, h3, h4, h5, h6, h7, h8, h9, h10, h11, h12⟩ := h.layout
  have h13 := h.words
  simp only [okRange, decide_eq_true_eq]
  omega

theorem run_loadMap (h : g.WF) {e : W} (he : RecordOk g e) (c : Nat) (m : Machine) :
    run g c (if e = 0 then setDrbMap g g.osBitmap else setEdrbMap g (enclaveRegionBitmap e)) m =
      some ((), m.loadMap g c e) := by
  unfold Machine.loadMap
  by_cases h0 : e = 0
  · rw [if_pos h0, if_pos h0, run_setDrbMap (osMap_ok h)]
  · rw [if_neg h0, if_neg h0]
    have h1 := record_toNat h he h0
    have h2 := he h0
    have h3 : okRange g (enclaveRegionBitmap e) g.bitmapWords.toNat = true := by
      simp only [okRange, decide_eq_true_eq, h1]; omega
    rw [run_setEdrbMap h3, h1]

/-! Lock stores move outwards. -/

theorem lock_setBmBit (h : g.WF) {e : W} (he : RecordOk g e) (m : Machine) (u : W) {i : Nat} (hi : i < g.regions) (r : Nat) (v : Bool) :
    (m.st (lockA g i) u).setBmBit g e r v = (m.setBmBit g e r v).st (lockA g i) u := by
  have h1 := bmWordA_ge h he r
  have h2 : lockA g i ≠ bmWordA g e r := by
    obtain ⟨h1, h2, h3, h4, h5, h6, h7, h8, h9, h10, h11, h12⟩ := h.layout
    unfold lockA; omega
  unfold Machine.setBmBit
  rw [st_comm _ _ _ h2, st_mem, upd_ne _ _ (Ne.symm h2)]

theorem snapshot_st (m : Machine) (a b words : Nat) (u : W) (hb : b + 8 ≤ a ∨ a + 8 * words ≤ b) :
    snapshot (m.st b u) a words = snapshot m a words := by
  unfold snapshot
  apply List.map_congr_left
  intro i hi
  rw [List.mem_range] at hi
  rw [st_mem, upd_ne]
  omega

theorem lock_loadMap (h : g.WF) {e : W} (he : RecordOk g e) (m : Machine) (u : W) {i : Nat} (hi : i < g.regions) (c : Nat) :
    (m.st (lockA g i) u).loadMap g c e = (m.loadMap g c e).st (lockA g i) u := by
  have hl : lockA g i + 8 ≤ g.osBitmap.toNat := by
    obtain ⟨h1, h2, h3, h4, h5, h6, h7, h8, h9, h10, h11, h12⟩ := h.layout
    unfold lockA; omega
  unfold Machine.loadMap
  by_cases h0 : e = 0
  · rw [if_pos h0, if_pos h0, snapshot_st _ _ _ _ _ (Or.inl hl)]; rfl
  · rw [if_neg h0, if_neg h0, snapshot_st]
    · rfl
    · obtain ⟨h1, h2, h3, h4, h5, h6, h7, h8, h9, h10, h11, h12⟩ := h.layout
      have := he h0; left; omega

theorem st_locked {m : Machine} (hl : LockWords g m) {i : Nat} (hi : i < g.regions) (h : m.locked g i = true) :
    m.st (lockA g i) 1 = m := by
  apply st_self
  rcases hl i hi with h1 | h1
  · rw [← not_locked, h] at h1; cases h1
  · exact h1

/-! ### Queries -/

theorem run_checkOwnership (h : g.WF) {c : Nat} (hc : c < g.cores) (r : W) {m : Machine} (hl : LockWords g m) :
    run g c (dramRegionCheckOwnership g r) m = some
      (if ¬ (r.toNat ≠ 0 ∧ r.toNat < g.regions) then monitorInvalidValue
       else if m.locked g r.toNat then monitorConcurrentCall
       else if m.owner g r.toNat = m.running c then monitorOk else monitorInvalidState, m) := by
  unfold dramRegionCheckOwnership
  by_cases hr : r.toNat ≠ 0 ∧ r.toNat < g.regions
  · rw [(isDynamicDramRegion_iff (g := g) r).2 hr]
    simp only [Bool.not_true, Bool.false_eq_true, if_false, run_bind, run_tasLock h hr.2, Option.bind_some]
    rw [if_neg (not_not_intro hr)]
    by_cases hlk : m.locked g r.toNat = true
    · simp only [hlk, if_true, run_pure, st_locked hl hr.2 hlk]
    · rw [Bool.not_eq_true] at hlk
      have hz := (not_locked m).1 hlk
      simp only [hlk, Bool.false_eq_true, if_false, run_bind, run_readOwner h hr.2, run_currentEnclave h hc, run_clearLock h hr.2,
        Option.bind_some, run_pure, lock_restore _ hz]
      have e1 : (m.st (lockA g r.toNat) 1).owner g r.toNat = m.owner g r.toNat := by simp [Machine.owner, mem_st]
      have e2 : (m.st (lockA g r.toNat) 1).running c = m.running c := by simp [Machine.running, mem_st, h, hc]
      simp only [e1, e2, beq_iff_eq]
  · have hd : isDynamicDramRegion g r = false := by
      rw [← Bool.not_eq_true, isDynamicDramRegion_iff]; exact hr
    simp only [hd, Bool.not_false, if_true, run_pure, hr, not_false_eq_true]

theorem run_state (h : g.WF) (c : Nat) (r : W) {m : Machine} (hl : LockWords g m) :
    run g c (dramRegionState g r) m = some
      (if ¬ r.toNat < g.regions then stateInvalid
       else if m.locked g r.toNat then stateLocked
       else if m.owner g r.toNat = nullEnclaveId then stateOwned
       else if m.owner g r.toNat = blockedEnclaveId then stateBlocked
       else if m.owner g r.toNat = freeEnclaveId then stateFree
       else stateOwned, m) := by
  unfold dramRegionState
  by_cases hr : r.toNat < g.regions
  · rw [(isValidDramRegion_iff (g := g) r).2 hr]
    simp only [Bool.not_true, Bool.false_eq_true, if_false, run_bind, run_tasLock h hr, Option.bind_some, hr, not_true_eq_false]
    by_cases hlk : m.locked g r.toNat = true
    · simp only [hlk, if_true, run_pure, st_locked hl hr hlk]
    · rw [Bool.not_eq_true] at hlk
      have hz := (not_locked m).1 hlk
      simp only [hlk, Bool.false_eq_true, if_false, run_bind, run_readOwner h hr, run_clearLock h hr,
        Option.bind_some, run_pure, lock_restore _ hz]
      have e1 : (m.st (lockA g r.toNat) 1).owner g r.toNat = m.owner g r.toNat := by simp [Machine.owner, mem_st]
      simp only [e1]
  · have hd : isValidDramRegion g r = false := by
      rw [← Bool.not_eq_true, isValidDramRegion_iff]; exact hr
    simp only [hd, Bool.not_false, if_true, run_pure, hr, not_false_eq_true]

theorem run_owner (h : g.WF) (c : Nat) (r : W) {m : Machine} (hl : LockWords g m) :
    run g c (dramRegionOwner g r) m = some
      (if ¬ r.toNat < g.regions then nullEnclaveId
       else if m.locked g r.toNat then nullEnclaveId
       else if m.owner g r.toNat = blockedEnclaveId ∨ m.owner g r.toNat = freeEnclaveId then nullEnclaveId
       else m.owner g r.toNat, m) := by
  unfold dramRegionOwner
  by_cases hr : r.toNat < g.regions
  · rw [(isValidDramRegion_iff (g := g) r).2 hr]
    simp only [Bool.not_true, Bool.false_eq_true, if_false, run_bind, run_tasLock h hr, Option.bind_some, hr, not_true_eq_false]
    by_cases hlk : m.locked g r.toNat = true
    · simp only [hlk, if_true, run_pure, st_locked hl hr hlk]
    · rw [Bool.not_eq_true] at hlk
      have hz := (not_locked m).1 hlk
      simp only [hlk, Bool.false_eq_true, if_false, run_bind, run_readOwner h hr, run_clearLock h hr,
        Option.bind_some, run_pure, lock_restore _ hz]
      have e1 : (m.st (lockA g r.toNat) 1).owner g r.toNat = m.owner g r.toNat := by simp [Machine.owner, mem_st]
      simp only [e1]
  · have hd : isValidDramRegion g r = false := by
      rw [← Bool.not_eq_true, isValidDramRegion_iff]; exact hr
    simp only [hd, Bool.not_false, if_true, run_pure, hr, not_false_eq_true]

/-! ### free_dram_region -/

theorem run_coresFlushedLoop (h : g.WF) (c : Nat) (b : W) (m : Machine) (n : Nat) : ∀ i : W, i.toNat + n ≤ g.cores →
    ∃ ok, run g c (coresFlushedLoop g b n i) m = some (ok, m) ∧
      (ok = true ↔ ∀ k, i.toNat ≤ k → k < i.toNat + n → b ≤ m.flushedAt k) := by
  induction n with
  | zero =>
      intro i _
      refine ⟨true, rfl, ?_⟩
      simp only [true_iff]
      intro k h1 h2; omega
  | succ n ih =>
      intro i hi
      have hlt : i.toNat < g.cores := by omega
      have hi1 : (i + 1).toNat = i.toNat + 1 := by
        have := i.isLt
        have : g.cores < 2 ^ 64 := g.coreCount.isLt
        rw [BitVec.toNat_add, show (1 : W).toNat = 1 from rfl]; omega
      have hload := run_loadFlushed h hlt c m
      rw [BitVec.ofNat_toNat, BitVec.setWidth_eq] at hload
      rw [coresFlushedLoop, run_bind, hload, Option.bind_some]
      simp only [run_ite, run_pure]
      by_cases hf : m.flushedAt i.toNat < b
      · rw [if_pos hf]
        refine ⟨false, rfl, ?_⟩
        simp only [Bool.false_eq_true, false_iff]
        intro hall
        have := hall i.toNat (Nat.le_refl _) (by omega)
        rw [W.lt_iff] at hf; rw [W.le_iff] at this; omega
      · rw [if_neg hf]
        obtain ⟨ok, h1, h2⟩ := ih (i + 1) (by omega)
        refine ⟨ok, h1, ?_⟩
        rw [h2, hi1]
        constructor
        · intro hall k h1 h2
          by_cases hk : k = i.toNat
          · subst hk; rw [W.lt_iff] at hf; rw [W.le_iff]; omega
          · exact hall k (by omega) (by omega)
        · intro hall k h1 h2
          exact hall k (by omega) (by omega)

open Classical in
theorem run_free (h : g.WF) (c : Nat) (r : W) {m : Machine} (hl : LockWords g m) :
    run g c (freeDramRegion g r) m = some
      (if FreeOk g m r.toNat then (monitorOk, m.st (ownerA g r.toNat) freeEnclaveId)
       else (if ¬ r.toNat < g.regions then monitorInvalidValue
             else if m.locked g r.toNat then monitorConcurrentCall else monitorInvalidState, m)) := by
  unfold freeDramRegion
  by_cases hr : r.toNat < g.regions
  · rw [(isValidDramRegion_iff (g := g) r).2 hr]
    simp only [Bool.not_true, Bool.false_eq_true, if_false, run_bind, run_tasLock h hr, Option.bind_some, hr, not_true_eq_false]
    by_cases hlk : m.locked g r.toNat = true
    · have hno : ¬ FreeOk g m r.toNat := by rintro ⟨_, h2, _⟩; rw [hlk] at h2; cases h2
      simp only [hlk, if_true, run_pure, st_locked hl hr hlk, hno, if_false]
    · rw [Bool.not_eq_true] at hlk
      have hz := (not_locked m).1 hlk
      have hown : (m.st (lockA g r.toNat) 1).owner g r.toNat = m.owner g r.toNat := by simp [Machine.owner, mem_st]
      have hblk : (m.st (lockA g r.toNat) 1).blockedAt g r.toNat = m.blockedAt g r.toNat := by simp [Machine.blockedAt, mem_st]
      have hpin : (m.st (lockA g r.toNat) 1).pinned g r.toNat = m.pinned g r.toNat := by simp [Machine.pinned, mem_st]
      have hfl : ∀ k, k < g.cores → (m.st (lockA g r.toNat) 1).flushedAt k = m.flushedAt k := by
        intro k hk; simp [Machine.flushedAt, mem_st, h, hk]
      have hcc : g.coreCount.toNat = g.cores := rfl
      obtain ⟨ok, hrun, hok⟩ := run_coresFlushedLoop h c (m.blockedAt g r.toNat) (m.st (lockA g r.toNat) 1) g.coreCount.toNat 0 (by simp [hcc])
      have hok : ok = true ↔ ∀ k, k < g.cores → m.blockedAt g r.toNat ≤ m.flushedAt k := by
        rw [hok]
        constructor
        · intro hall k hk
          rw [← hfl k hk]; exact hall k (by simp) (by simpa [hcc] using hk)
        · intro hall k _ hk
          have hk : k < g.cores := by simpa [hcc] using hk
          rw [hfl k hk]; exact hall k hk
      simp only [hlk, Bool.false_eq_true, if_false, run_bind, run_readOwner h hr, Option.bind_some, hown, run_ite,
        run_loadBlocked h hr, hblk, hrun, run_storeOwner h hr, run_clearLock h hr,
        run_pure, run_loadPinned h hr, lock_restore _ hz, hpin, lock_comm _ _ _ lockA_ne_ownerA]
      have hz2 : (m.st (ownerA g r.toNat) freeEnclaveId).mem (lockA g r.toNat) = 0 := by simp [mem_st, hz]
      rw [lock_restore _ hz2]
      by_cases h1 : m.owner g r.toNat = blockedEnclaveId
      · have h12 : blockedEnclaveId ≠ metadataEnclaveId := by decide
        by_cases h2 : ∀ k, k < g.cores → m.blockedAt g r.toNat ≤ m.flushedAt k
        · have hF : FreeOk g m r.toNat := ⟨hr, hlk, Or.inl ⟨h1, h2⟩⟩
          simp only [h1, if_true, hok.2 h2, hF]
        · have hF : ¬ FreeOk g m r.toNat := by
            rintro ⟨_, _, ⟨_, h3⟩ | ⟨h3, _⟩⟩
            · exact h2 h3
            · rw [h1] at h3; exact h12 h3
          have hd : ok = false := by rw [← Bool.not_eq_true, hok]; exact h2
          simp only [h1, if_true, hd, hF, Bool.false_eq_true, if_false]
      · by_cases h2 : m.owner g r.toNat = metadataEnclaveId
        · by_cases h3 : m.pinned g r.toNat = 0
          · have hF : FreeOk g m r.toNat := ⟨hr, hlk, Or.inr ⟨h2, h3⟩⟩
            simp only [h1, h2, h3, if_true, if_false, hF]
            have h12 : metadataEnclaveId ≠ blockedEnclaveId := by decide
            simp only [h12, if_false]
          · have hF : ¬ FreeOk g m r.toNat := by
              rintro ⟨_, _, ⟨h4, _⟩ | ⟨_, h4⟩⟩
              · exact h1 h4
              · exact h3 h4
            have h12 : metadataEnclaveId ≠ blockedEnclaveId := by decide
            simp only [h2, h3, if_true, if_false, hF, h12]
        · have hF : ¬ FreeOk g m r.toNat := by
            rintro ⟨_, _, ⟨h4, _⟩ | ⟨h4, _⟩⟩
            · exact h1 h4
            · exact h2 h4
          simp only [h1, h2, if_false, hF]
  · have hd : isValidDramRegion g r = false := by
      rw [← Bool.not_eq_true, isValidDramRegion_iff]; exact hr
    have hF : ¬ FreeOk g m r.toNat := fun hF => hr hF.1
    simp only [hd, Bool.not_false, if_true, run_pure, hr, not_false_eq_true, hF, if_false]

end Sanctum
