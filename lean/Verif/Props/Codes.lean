import Verif.Spec.Codes
import Verif.Props.RegionCalls
import Verif.Lemmas.DeleteCalls
/-
Properties C61, C62: which result code every call returns. The tables of codes are in Spec/Codes.lean.
-/
namespace Sanctum
open Machine Classical

variable {g : Cfg}

theorem with_code {x : Option (W × Machine)} {v v' : W} {m' : Machine} (h : x = some (v', m')) (hv : v' = v) : ∃ m', x = some (v, m') := by
  rw [← hv]; exact ⟨m', h⟩

/-! ### C61: calls on regions -/

/-- C61. `block_dram_region` reports exactly the first applicable reason. -/
theorem C61_block (h : g.WF) {c : Nat} (hc : c < g.cores) (r : W) {m : Machine} (hl : LockWords g m)
    (he : RecordOk g (m.running c)) (hd : m.dmaStart ≤ m.dmaEnd) : ∃ m', call g c (.blockDramRegion r) m = some (blockCode g c m r.toNat, m') := by
  have hrun : call g c (.blockDramRegion r) m = _ := run_block h hc r hl he hd
  by_cases hok : BlockOk g c m r.toNat
  · rw [if_pos hok] at hrun
    obtain ⟨h1, h2, h3, h4, h5, h6, h7, h8⟩ := hok
    refine with_code hrun ?_
    unfold blockCode
    rw [if_neg (by omega), if_neg (by rw [h3]; exact Bool.false_ne_true), if_neg (not_not_intro h4), if_neg (fun hh => hh.2 (h5 hh.1)),
      if_neg (fun hh => hh.elim h6 (fun h9 => by rw [h7] at h9; cases h9)), if_neg (fun hh => h8 hh.1 hh.2)]
  · rw [if_neg hok] at hrun
    refine with_code hrun ?_
    unfold blockError blockCode
    by_cases h1 : r.toNat ≠ 0 ∧ r.toNat < g.regions
    · rw [if_neg (not_not_intro h1), if_neg (show ¬ (r.toNat = 0 ∨ g.regions ≤ r.toNat) by omega)]
      by_cases h2 : m.locked g r.toNat = true
      · rw [if_pos h2, if_pos h2]
      rw [if_neg h2, if_neg h2]
      by_cases h3 : m.owner g r.toNat = m.running c
      · rw [if_neg (not_not_intro h3), if_neg (not_not_intro h3)]
        by_cases h4 : m.running c ≠ 0 ∧ m.pinned g r.toNat ≠ 0
        · rw [if_pos h4, if_pos h4]
        rw [if_neg h4, if_neg h4]
        by_cases h5 : regionOf g (m.running c).toNat = r.toNat ∨ m.locked g (regionOf g (m.running c).toNat) = true
        · rw [if_pos h5, if_pos h5]
        rw [if_neg h5, if_neg h5]
        by_cases h6 : regionOf g (m.running c).toNat = 0 ∧ DmaTouches g m r.toNat
        · rw [if_pos h6]
        · exact absurd ⟨h1.1, h1.2, by simpa using h2, h3, fun h7 => Classical.byContradiction fun h8 => h4 ⟨h7, h8⟩, fun h7 => h5 (Or.inl h7),
            by simpa using fun h7 => h5 (Or.inr h7), fun h7 h8 => h6 ⟨h7, h8⟩⟩ hok
      · rw [if_pos h3, if_pos h3]
    · rw [if_pos h1, if_pos (show r.toNat = 0 ∨ g.regions ≤ r.toNat by omega)]

/-- C61. `assign_dram_region`. -/
theorem C61_assign (h : g.WF) (c : Nat) (r e : W) {m : Machine} (hl : LockWords g m) (he : m.owner g (idRegion g e) = e → RecordOk g e) :
    ∃ m', call g c (.assignDramRegion r e) m = some (assignCode g m r.toNat e, m') := by
  have hrun : call g c (.assignDramRegion r e) m = _ := run_assign h c r e hl he
  by_cases hok : AssignOk g m r.toNat e
  · rw [if_pos hok] at hrun
    obtain ⟨h1, h2, h3, h4, h5, h6⟩ := hok
    refine with_code hrun ?_
    unfold assignCode
    rw [if_neg (by omega), if_neg (by rw [h2]; exact Bool.false_ne_true), if_neg (not_not_intro h3),
      if_neg (fun hh => hh.elim h4 (fun h9 => by rw [h5] at h9; cases h9)), if_neg (not_not_intro h6)]
  · rw [if_neg hok] at hrun
    refine with_code hrun ?_
    unfold assignError assignCode
    by_cases h1 : r.toNat < g.regions
    · rw [if_neg (not_not_intro h1), if_neg (show ¬ (g.regions ≤ r.toNat) by omega)]
      by_cases h2 : m.locked g r.toNat = true
      · rw [if_pos h2, if_pos h2]
      rw [if_neg h2, if_neg h2]
      by_cases h3 : m.owner g r.toNat = freeEnclaveId
      · rw [if_neg (not_not_intro h3), if_neg (not_not_intro h3)]
        by_cases h5 : regionOf g e.toNat = r.toNat ∨ m.locked g (regionOf g e.toNat) = true
        · rw [if_pos h5, if_pos h5]
        rw [if_neg h5, if_neg h5]
        by_cases h6 : m.owner g (idRegion g e) = e
        · exact absurd ⟨h1, by simpa using h2, h3, fun h7 => h5 (Or.inl h7), by simpa using fun h7 => h5 (Or.inr h7), h6⟩ hok
        · rw [if_pos h6]
      · rw [if_pos h3, if_pos h3]
    · rw [if_pos h1, if_pos (show g.regions ≤ r.toNat by omega)]

/-- C61. `free_dram_region`. -/
theorem C61_free (h : g.WF) (c : Nat) (r : W) {m : Machine} (hl : LockWords g m) :
    ∃ m', call g c (.freeDramRegion r) m = some (freeCode g m r.toNat, m') := by
  have hrun : call g c (.freeDramRegion r) m = _ := run_free h c r hl
  by_cases hok : FreeOk g m r.toNat
  · rw [if_pos hok] at hrun
    obtain ⟨h1, h2, h3⟩ := hok
    refine with_code hrun ?_
    unfold freeCode
    rw [if_neg (by omega), if_neg (by rw [h2]; exact Bool.false_ne_true), if_pos h3]
  · rw [if_neg hok] at hrun
    refine with_code hrun ?_
    unfold freeCode
    by_cases h1 : r.toNat < g.regions
    · rw [if_neg (not_not_intro h1), if_neg (show ¬ (g.regions ≤ r.toNat) by omega)]
      by_cases h2 : m.locked g r.toNat = true
      · rw [if_pos h2, if_pos h2]
      rw [if_neg h2, if_neg h2, if_neg (fun h3 => hok ⟨h1, by simpa using h2, h3⟩)]
    · rw [if_pos h1, if_pos (show g.regions ≤ r.toNat by omega)]

/-- C61. `create_metadata_region`. -/
theorem C61_create_metadata (h : g.WF) (c : Nat) (r : W) {m : Machine} (hl : LockWords g m) (h0 : m.owner g 0 ≠ freeEnclaveId) :
    ∃ m', call g c (.createMetadataRegion r) m = some (metadataCode g m r.toNat, m') := by
  have hrun : call g c (.createMetadataRegion r) m = _ := run_createMetadata h c r hl h0
  unfold metadataCode
  rw [hrun]
  by_cases h1 : r.toNat < g.regions
  · rw [if_neg (not_not_intro h1), if_neg (show ¬ (g.regions ≤ r.toNat) by omega)]
    by_cases h2 : m.locked g r.toNat = true
    · rw [if_pos h2, if_pos h2]; exact ⟨_, rfl⟩
    rw [if_neg h2, if_neg h2]
    by_cases h3 : m.owner g r.toNat = freeEnclaveId
    · rw [if_pos h3, if_neg (not_not_intro h3)]; exact ⟨_, rfl⟩
    · rw [if_neg h3, if_pos h3]; exact ⟨_, rfl⟩
  · rw [if_pos h1, if_pos (show g.regions ≤ r.toNat by omega)]; exact ⟨_, rfl⟩

/-- C61. `dram_region_check_ownership`. -/
theorem C61_check_ownership (h : g.WF) {c : Nat} (hc : c < g.cores) (r : W) {m : Machine} (hl : LockWords g m) :
    ∃ m', call g c (.dramRegionCheckOwnership r) m = some (ownershipCode g c m r.toNat, m') := by
  have hrun : call g c (.dramRegionCheckOwnership r) m = _ := run_checkOwnership h hc r hl
  refine with_code hrun ?_
  unfold ownershipCode
  by_cases h1 : r.toNat ≠ 0 ∧ r.toNat < g.regions
  · rw [if_neg (not_not_intro h1), if_neg (show ¬ (r.toNat = 0 ∨ g.regions ≤ r.toNat) by omega)]
    by_cases h2 : m.locked g r.toNat = true
    · rw [if_pos h2, if_pos h2]
    rw [if_neg h2, if_neg h2]
    by_cases h3 : m.owner g r.toNat = m.running c
    · rw [if_pos h3, if_neg (not_not_intro h3)]
    · rw [if_neg h3, if_pos h3]
  · rw [if_pos h1, if_pos (show r.toNat = 0 ∨ g.regions ≤ r.toNat by omega)]

/-- C61. `set_dma_range`. -/
theorem C61_set_dma (h : g.WF) (c : Nat) (base mask : W) {m : Machine} (hl : LockWords g m) :
    ∃ m', call g c (.setDmaRange base mask) m = some (dmaCode g m base mask, m') := by
  have hrun : call g c (.setDmaRange base mask) m = _ := run_setDma h c base mask hl
  unfold dmaCode
  rcases Classical.em ((∃ k, k ≤ 64 ∧ mask.toNat = 2 ^ k - 1 ∧ 2 ^ k ∣ base.toNat) ∧ base.toNat + mask.toNat < g.dramSize.toNat) with hv | hv
  · rw [if_neg (not_not_intro hv)]
    have hv' : isValidRange base mask = true := (C01_range_exact base mask).1.2 hv.1
    have hor : (base ||| mask).toNat = base.toNat + mask.toNat := ((C01_range_exact base mask).2 hv').1
    by_cases hok : DmaLoopOk g m base mask
    · rw [if_pos hok] at hrun
      have h2 := (dmaOk_iff h m base mask).1 hok
      rw [if_neg]
      · exact ⟨_, hrun⟩
      · rintro (h3 | ⟨a, h3, h4, h5⟩)
        · rw [h2.2.2.1] at h3; cases h3
        · rw [h2.2.2.2 a h3 h4] at h5; cases h5
    · rw [if_neg hok] at hrun
      have h2 : ¬ DmaOk g m base mask := fun hh => hok ((dmaOk_iff h m base mask).2 hh)
      rw [if_pos]
      · refine with_code hrun ?_
        unfold dmaError
        rw [if_pos ⟨hv', by rw [hor]; exact hv.2⟩]
      · refine Classical.byContradiction fun h3 => h2 ⟨hv.1, hv.2, ?_, ?_⟩
        · simpa using fun h4 => h3 (Or.inl h4)
        · intro a h4 h5
          simpa using fun h6 => h3 (Or.inr ⟨a, h4, h5, h6⟩)
  · rw [if_pos hv]
    have hno : ¬ DmaLoopOk g m base mask := fun hh => hv (by have := (dmaOk_iff h m base mask).1 hh; exact ⟨this.1, this.2.1⟩)
    rw [if_neg hno] at hrun
    refine with_code hrun ?_
    unfold dmaError
    rw [if_neg]
    rintro ⟨h1, h2⟩
    have hor : (base ||| mask).toNat = base.toNat + mask.toNat := ((C01_range_exact base mask).2 h1).1
    exact hv ⟨(C01_range_exact base mask).1.1 h1, by omega⟩

/-! ### C62: calls on enclaves -/

theorem run_withLocked_code (h : g.WF) (c : Nat) (e : W) {m : Machine} (hl : LockWords g m) (k : W → Prog W) (hn : ¬ IdReady g m e) (rest : W) :
    run g c (withLockedEnclave g e k) m = some (idCode g m e rest, m) := by
  unfold withLockedEnclave idCode
  have hr := clamped_lt h e
  dsimp only
  rw [run_bind, run_tasLock h hr, Option.bind_some, clamped_eq h]
  dsimp only
  by_cases hlk : m.locked g (idRegion g e) = true
  · rw [if_pos hlk, if_pos hlk, run_pure, st_locked hl (idRegion_lt h e) hlk]
  · rw [if_neg hlk, if_neg hlk]
    rw [Bool.not_eq_true] at hlk
    have hz := (not_locked m).1 hlk
    have hv : ¬ ValidId g m e := fun hh => hn ⟨hh, hlk⟩
    have hval : run g c (if e = nullEnclaveId then pure false else isValidEnclaveId g e) (m.st (lockA g (idRegion g e)) 1) =
        some (false, m.st (lockA g (idRegion g e)) 1) := by
      by_cases h0 : e = nullEnclaveId
      · rw [if_pos h0, run_pure]
      · rw [if_neg h0, run_isValidEnclaveId h, owner_lockSt]
        have : m.owner g (idRegion g e) ≠ e := fun hh => hn ⟨⟨h0, hh⟩, hlk⟩
        rw [beq_false_of_ne this]
    rw [run_bind, hval, Option.bind_some]
    dsimp only
    rw [if_pos (by decide), if_pos hv, run_bind, run_clearLock h hr, Option.bind_some, clamped_eq h, run_pure, lock_restore _ hz]

theorem idCode_ready {m : Machine} {e : W} (hr : IdReady g m e) (rest : W) : idCode g m e rest = rest := by
  unfold idCode
  rw [if_neg (by rw [hr.2]; exact Bool.false_ne_true), if_neg (not_not_intro hr.1)]

/-- C62. `load_page_table`. -/
theorem C62_load_page_table (h : g.WF) (c : Nat) (e p v level acl : W) {m : Machine} (hl : LockWords g m) (he : ValidId g m e → RecordOk g e) :
    call g c (.loadPageTable e p v level acl) m = some (loadTableCode g m e p v level, m) := by
  show run g c (loadPageTable g e p v level acl) m = _
  unfold loadPageTable loadTableCode
  by_cases h1 : isDramAddress g p = true
  · by_cases h2 : isPageAligned p = true
    · have hdp := (dramPage_iff p).2 ⟨h2, h1⟩
      rw [h1, h2, if_neg (by decide), if_neg (by decide)]
      by_cases h3 : level ≥ pageTableLevels
      · have h3' : 3 ≤ level.toNat := h3
        rw [if_pos h3, run_pure, if_pos (Or.inr h3')]
      · have h3' : ¬ 3 ≤ level.toNat := h3
        have h3n : ¬ (¬ DramPage g p ∨ 3 ≤ level.toNat) := fun hh => hh.elim (fun h5 => h5 hdp) h3'
        rw [if_neg h3, if_neg h3n]
        rcases Classical.em (IdReady g m e) with hr | hr
        · have hre := he hr.1
          rw [idCode_ready hr, run_withLocked_ok h c e _ hr, run_bind, run_loadRec h c hre hr _ (by decide) (by decide), Option.bind_some]
          dsimp only
          by_cases h4 : m.initialized e = 0
          · have h4' : m.mem (e.toNat + offIsInitialized.toNat) = 0 := h4
            rw [h4', if_neg (by decide), if_neg (not_not_intro h4), run_bind, run_loadRec h c hre hr _ (by decide) (by decide), Option.bind_some]
            dsimp only
            by_cases h5 : p.toNat ≤ (m.lastLoad e).toNat
            · have h5' : p ≤ m.mem (e.toNat + offLastLoadAddr.toNat) := by rw [W.le_iff]; exact h5
              rw [if_pos h5', if_pos h5, run_finish h c hr]
            · have h5' : ¬ p ≤ m.mem (e.toNat + offLastLoadAddr.toNat) := by rw [W.le_iff]; exact h5
              rw [if_neg h5', if_neg h5]
              by_cases h6 : level.toNat < 2
              · have h6' : (level != pageTableLevels - 1) = true := by
                  rw [bne_iff_ne]; intro hh; rw [hh] at h6; exact absurd h6 (by decide)
                rw [if_pos h6', run_bind, run_inRange h c hre hr, Option.bind_some]
                dsimp only
                by_cases h7 : (v &&& m.evMask e) = m.evBase e
                · have h8 : ¬ (level.toNat < 2 ∧ (v &&& m.evMask e) ≠ m.evBase e) := fun hh => hh.2 h7
                  rw [if_neg h8, h7, beq_self_eq_true, if_neg (by decide), run_finish h c hr]
                · have h8 : level.toNat < 2 ∧ (v &&& m.evMask e) ≠ m.evBase e := ⟨h6, h7⟩
                  rw [if_pos h8, beq_false_of_ne h7, if_pos (by decide), run_finish h c hr]
              · have h6' : ¬ (level != pageTableLevels - 1) = true := by
                  rw [bne_iff_ne, ne_eq, Decidable.not_not, W.eq_iff, show (pageTableLevels - 1).toNat = 2 from rfl]; omega
                rw [if_neg h6', run_bind, run_pure, Option.bind_some]
                dsimp only
                have h8 : ¬ (level.toNat < 2 ∧ (v &&& m.evMask e) ≠ m.evBase e) := fun hh => h6 hh.1
                rw [if_neg (by decide), if_neg h8, run_finish h c hr]
          · have h4' : (m.mem (e.toNat + offIsInitialized.toNat) != 0) = true := bne_iff_ne.2 h4
            rw [if_pos h4', if_pos h4, run_finish h c hr]
        · exact run_withLocked_code h c e hl (fun r => _) hr _
    · rw [if_pos (Or.inl (fun hh => h2 ((dramPage_iff p).1 hh).1))]
      rw [Bool.not_eq_true] at h2
      rw [h1, h2, if_neg (by decide), if_pos (by decide), run_pure]
  · rw [if_pos (Or.inl (fun hh => h1 ((dramPage_iff p).1 hh).2))]
    rw [Bool.not_eq_true] at h1
    rw [h1, if_pos (by decide), run_pure]

/-- C62. `load_page`. -/
theorem C62_load_page (h : g.WF) (c : Nat) (e p v os acl : W) {m : Machine} (hl : LockWords g m) (he : ValidId g m e → RecordOk g e) :
    call g c (.loadPage e p v os acl) m = some (loadPageCode g m e p v os, m) := by
  show run g c (loadPage g e p v os acl) m = _
  unfold loadPage loadPageCode
  by_cases h1 : isDramAddress g p = true ∧ isDramAddress g os = true
  · by_cases h2 : isPageAligned p = true ∧ isPageAligned os = true
    · have hdp := (dramPage_iff p).2 ⟨h2.1, h1.1⟩
      have hdo := (dramPage_iff os).2 ⟨h2.2, h1.2⟩
      have h3n : ¬ (¬ DramPage g p ∨ ¬ DramPage g os) := fun hh => hh.elim (fun h5 => h5 hdp) (fun h5 => h5 hdo)
      rw [h1.1, h1.2, h2.1, h2.2, if_neg (by decide), if_neg (by decide), if_neg h3n]
      rcases Classical.em (IdReady g m e) with hr | hr
      · have hre := he hr.1
        rw [idCode_ready hr, run_withLocked_ok h c e _ hr, run_bind, run_loadRec h c hre hr _ (by decide) (by decide), Option.bind_some]
        dsimp only
        by_cases h4 : m.initialized e = 0
        · have h4' : m.mem (e.toNat + offIsInitialized.toNat) = 0 := h4
          rw [h4', if_neg (by decide), if_neg (not_not_intro h4), run_bind, run_loadRec h c hre hr _ (by decide) (by decide), Option.bind_some]
          dsimp only
          by_cases h5 : p.toNat ≤ (m.lastLoad e).toNat
          · have h5' : p ≤ m.mem (e.toNat + offLastLoadAddr.toNat) := by rw [W.le_iff]; exact h5
            rw [if_pos h5', if_pos h5, run_finish h c hr]
          · have h5' : ¬ p ≤ m.mem (e.toNat + offLastLoadAddr.toNat) := by rw [W.le_iff]; exact h5
            rw [if_neg h5', if_neg h5, run_bind, run_inRange h c hre hr, Option.bind_some]
            dsimp only
            by_cases h7 : (v &&& m.evMask e) = m.evBase e
            · rw [if_neg (not_not_intro h7), h7, beq_self_eq_true, if_neg (by decide), run_finish h c hr]
            · rw [if_pos h7, beq_false_of_ne h7, if_pos (by decide), run_finish h c hr]
        · have h4' : (m.mem (e.toNat + offIsInitialized.toNat) != 0) = true := bne_iff_ne.2 h4
          rw [if_pos h4', if_pos h4, run_finish h c hr]
      · exact run_withLocked_code h c e hl (fun r => _) hr _
    · have hbad : (!isPageAligned p || !isPageAligned os) = true := by
        cases ha : isPageAligned p <;> cases hb : isPageAligned os <;> simp_all
      rw [h1.1, h1.2, if_neg (by decide), if_pos hbad, run_pure, if_pos]
      refine Classical.byContradiction fun hh => h2 ?_
      rw [not_or, Classical.not_not, Classical.not_not] at hh
      exact ⟨((dramPage_iff p).1 hh.1).1, ((dramPage_iff os).1 hh.2).1⟩
  · have hbad : (!isDramAddress g p || !isDramAddress g os) = true := by
      cases ha : isDramAddress g p <;> cases hb : isDramAddress g os <;> simp_all
    rw [if_pos hbad, run_pure, if_pos]
    refine Classical.byContradiction fun hh => h1 ?_
    rw [not_or, Classical.not_not, Classical.not_not] at hh
    exact ⟨((dramPage_iff p).1 hh.1).2, ((dramPage_iff os).1 hh.2).2⟩

/-- C62. `init_enclave`. -/
theorem C62_init_enclave (h : g.WF) (c : Nat) (e : W) {m : Machine} (hl : LockWords g m) (he : ValidId g m e → RecordOk g e) :
    ∃ m', call g c (.initEnclave e) m = some (initCode g m e, m') := by
  unfold initCode
  rcases Classical.em (IdReady g m e) with hr | hr
  · rw [idCode_ready hr]
    by_cases h4 : m.initialized e = 0
    · obtain ⟨mem', h1, -⟩ := (run_initEnclave h c e hl he).1 ⟨hr, h4⟩
      rw [if_neg (not_not_intro h4)]; exact ⟨_, h1⟩
    · rw [if_pos h4]
      have h4' : (m.mem (e.toNat + offIsInitialized.toNat) != 0) = true := bne_iff_ne.2 h4
      refine ⟨m, ?_⟩
      show run g c (initEnclave g e) m = _
      unfold initEnclave
      rw [run_withLocked_ok h c e _ hr, run_bind, run_loadRec h c (he hr.1) hr _ (by decide) (by decide), Option.bind_some]
      dsimp only
      rw [if_pos h4', run_finish h c hr]
  · refine ⟨m, ?_⟩
    show run g c (initEnclave g e) m = _
    unfold initEnclave
    exact run_withLocked_code h c e hl _ hr _

/-- C62. `enter_enclave`. -/
theorem C62_enter_enclave (h : g.WF) (c : Nat) (e t : W) {m : Machine} (hl : LockWords g m) (he : ValidId g m e → RecordOk g e) :
    ∃ m', call g c (.enterEnclave e t) m = some (enterCode g m e, m') := by
  unfold enterCode
  rcases Classical.em (IdReady g m e) with hr | hr
  · rw [idCode_ready hr]
    by_cases h4 : m.initialized e = 0
    · rw [if_pos h4]
      have h4' : m.mem (e.toNat + offIsInitialized.toNat) = 0 := h4
      refine ⟨m, ?_⟩
      show run g c (enterEnclave g e t) m = _
      unfold enterEnclave
      rw [run_withLocked_ok h c e _ hr, run_bind, run_loadRec h c (he hr.1) hr _ (by decide) (by decide), Option.bind_some]
      dsimp only
      rw [if_pos h4', run_finish h c hr]
    · rw [if_neg h4]
      exact ⟨_, (run_enterEnclave h c e t hl he).1 ⟨hr, h4⟩⟩
  · refine ⟨m, ?_⟩
    show run g c (enterEnclave g e t) m = _
    unfold enterEnclave
    exact run_withLocked_code h c e hl _ hr _

/-- C62. `delete_enclave` (with the bit after the region bitmap clear, see C40). -/
theorem C62_delete_enclave (h : g.WF) (c : Nat) (e : W) {m : Machine} (hl : LockWords g m) (he : ValidId g m e → RecordOk g e)
    (hd : ValidId g m e → e.toNat + 304 + 8 * (g.regions / 64) + 8 ≤ g.dramSize.toNat) (hb : m.afterBit g e = false) :
    call g c (.deleteEnclave e) m = some (deleteCode g m e, m) := by
  obtain ⟨x, h1, h2, h3⟩ := run_deleteEnclave_code h c e hl he hd hb
  unfold deleteCode
  rcases Classical.em (IdReady g m e) with hr | hr
  · rw [idCode_ready hr]
    by_cases h4 : m.threads e = 0
    · rw [if_neg (not_not_intro h4)]
      by_cases h5 : ∃ i, i < g.regions ∧ i ≠ idRegion g e ∧ m.bmBit g e i = true ∧ m.locked g i = true
      · rw [if_pos h5]
        have hno : ¬ DeleteOk g m e := fun hh => by
          obtain ⟨i, i1, i2, i3, i4⟩ := h5
          rw [hh.2.2 i i1 i2 i3] at i4; cases i4
        rw [← h3 hr h4 (fun hx => hno (h2.1 hx))]
        exact h1
      · rw [if_neg h5]
        have hx : x = monitorOk := h2.2 ⟨hr, h4, fun i i1 i2 i3 => by
          rw [← Bool.not_eq_true]; exact fun i4 => h5 ⟨i, i1, i2, i3, i4⟩⟩
        rw [← hx]; exact h1
    · rw [if_pos h4]
      have h4' : (m.mem (e.toNat + offThreadCount.toNat) != 0) = true := bne_iff_ne.2 h4
      show run g c (deleteEnclave g e) m = _
      unfold deleteEnclave
      rw [run_withLocked_ok h c e _ hr, run_bind, run_loadRec h c (he hr.1) hr _ (by decide) (by decide), Option.bind_some]
      dsimp only
      rw [if_pos h4', run_finish h c hr]
  · show run g c (deleteEnclave g e) m = _
    unfold deleteEnclave
    exact run_withLocked_code h c e hl _ hr _

/-- C62. `copy_debug_enclave_page` of pages outside the monitor's memory. -/
theorem C62_copy_debug (h : g.WF) (c : Nat) (e a os : W) (dir : Bool) {m : Machine} (hl : LockWords g m) (he : RecordOk g e)
    (ha : g.monitorTop.toNat ≤ a.toNat) (hos : g.monitorTop.toNat ≤ os.toNat) :
    ∃ m', call g c (.copyDebugEnclavePage e a os dir) m = some (copyCode g m e a os, m') := by
  obtain ⟨h1, h2⟩ := run_copyDebug_code h c e a os dir hl he
  rcases Classical.em (CopyOk g m e a os) with hok | hok
  · rw [(copyCode_iff m e a os).2 hok]
    exact ⟨_, h2 hok ha hos⟩
  · exact ⟨_, h1 hok⟩

/-! ### C62: calls on metadata -/

/-- C62. `create_enclave`. -/
theorem C62_create_enclave (h : g.WF) (hs : g.SingleStripe) (hsh : g.ShiftOk) (c : Nat) (e base mask n : W) (debug : Bool) {m : Machine}
    (hl : LockWords g m) (h0 : m.owner g 0 = nullEnclaveId) :
    ∃ m', call g c (.createEnclave e base mask n debug) m = some (createCode g m e base mask n, m') := by
  have hM : g.MetaOk := ⟨h, hs, hsh⟩
  rcases Classical.em (CreateOk g m e base mask n) with hok | hok
  · obtain ⟨mem', h1, -⟩ := (run_createEnclave hM c e base mask n debug hl h0).1 hok
    refine with_code h1 ?_
    obtain ⟨c1, c2, c3, c4⟩ := hok
    unfold createCode
    rw [if_neg (not_not_intro c1), metaCode_page c2, if_neg (by omega), if_neg]
    rintro ⟨k, k1, k2⟩
    exact k2 (c4 k k1)
  · show ∃ m', run g c (createEnclave g e base mask n debug) m = _
    have hev := evRange_iff base mask
    unfold createEnclave createCode
    by_cases hv : isValidRange base mask = true
    rotate_left
    · rw [if_pos (fun hh => hv (hev.2 hh).1)]
      rw [Bool.not_eq_true] at hv
      rw [hv]; exact ⟨m, rfl⟩
    by_cases hp : mask + 1 < pageSize
    · rw [if_pos (fun hh => (hev.2 hh).2 hp), hv, if_neg (by decide), if_pos hp]; exact ⟨m, rfl⟩
    have hex := hev.1 ⟨hv, hp⟩
    rw [if_neg (not_not_intro hex), hv, if_neg (by decide), if_neg hp]
    refine ⟨m, ?_⟩
    rcases Classical.em (MetaPage g m e.toNat) with hm | hm
    rotate_left
    · obtain ⟨r, h1⟩ := run_lockMeta_err h c hl hm
      rw [metaCode_err hm, run_bind, h1, Option.bind_some]
      dsimp only
      rw [if_pos (bne_iff_ne.2 (metaLockError_ne g m e)), run_pure]
    rw [metaCode_page hm]
    obtain ⟨hm1, hm2, hm3, hm4⟩ := id hm
    obtain ⟨hab0, hab⟩ := meta_above hM h0 hm4
    obtain ⟨b1, b2, b3, b4, b5, b6⟩ := entry_bounds hM hm2
    have hr := dramRegionFor_lt h e
    have hrl := regionOf_lt h e.toNat
    have hlk : lockA g (regionOf g e.toNat) < g.monitorTop.toNat := by have := lockA_lt h hrl; omega
    rw [Nat.succ_mul] at b6
    have hz := (not_locked m).1 hm3
    have hown : (m.st (lockA g (regionOf g e.toNat)) 1).owner g (regionOf g e.toNat) = metadataEnclaveId := by
      rw [← hm4]; simp [Machine.owner, mem_st]
    have hpf : PagesFree g (m.st (lockA g (regionOf g e.toNat)) 1) e.toNat (enclaveInfoPages g n).toNat ↔
        (pageIndex g e.toNat + recordPages g n.toNat ≤ 2 ^ g.sp ∧ ∀ k, k < recordPages g n.toNat → m.mem (entryA g e.toNat + 8 * k) = 0) := by
      unfold PagesFree
      rw [enclaveInfoPages_toNat]
      refine and_congr_right fun _ => forall_congr' fun j => ?_
      rw [mem_st, if_neg (by omega)]
    have hnf : ¬ (pageIndex g e.toNat + recordPages g n.toNat ≤ 2 ^ g.sp ∧ ∀ k, k < recordPages g n.toNat → m.mem (entryA g e.toNat + 8 * k) = 0) :=
      fun hh => hok ⟨hex, hm, hh.1, hh.2⟩
    have hap := run_assignPages_code hM c (n := enclaveInfoPages g n) hm2 (by rw [enclaveInfoPages_toNat]; exact recordPages_lt _) e enclavePageType
      emptyPageType (m.st (lockA g (regionOf g e.toNat)) 1) (fun hh => hnf (hpf.1 hh))
    rw [enclaveInfoPages_toNat] at hap
    rw [run_bind, run_lockMeta_ok h c hm, Option.bind_some]
    dsimp only
    rw [if_neg (by decide), run_bind, run_readOwner h hr, Option.bind_some]
    dsimp only
    rw [dramRegionFor_toNat h, hown, if_neg (by decide), run_bind]
    unfold reserveMetadataPages
    rw [hap, Option.bind_some]
    dsimp only
    by_cases hfit : 2 ^ g.sp < pageIndex g e.toNat + recordPages g n.toNat
    · simp only [if_pos hfit]
      rw [if_pos (show (monitorInvalidValue != monitorOk) = true by decide), run_bind, run_clearLock h hr, Option.bind_some, dramRegionFor_toNat h, run_pure,
        lock_restore _ hz]
    · have hx : ∃ k, k < recordPages g n.toNat ∧ m.mem (entryA g e.toNat + 8 * k) ≠ 0 :=
        Classical.byContradiction fun hh => hnf ⟨by omega, fun k hk => Classical.byContradiction fun h2 => hh ⟨k, hk, h2⟩⟩
      simp only [if_neg hfit, if_pos hx]
      rw [if_pos (show (monitorInvalidState != monitorOk) = true by decide), run_bind, run_clearLock h hr, Option.bind_some, dramRegionFor_toNat h, run_pure,
        lock_restore _ hz]

/-- C62. `assign_thread`. -/
theorem C62_assign_thread (h : g.WF) (hs : g.SingleStripe) (hsh : g.ShiftOk) (c : Nat) (e t : W) {m : Machine} (hl : LockWords g m)
    (h0 : m.owner g 0 = nullEnclaveId) : ∃ m', call g c (.assignThread e t) m = some (threadCode g m e t, m') := by
  obtain ⟨m', h1, -⟩ := run_assignThread_code ⟨h, hs, hsh⟩ c e t hl h0
  exact ⟨m', h1⟩

/-- C62. `load_thread`. -/
theorem C62_load_thread (h : g.WF) (hs : g.SingleStripe) (hsh : g.ShiftOk) (c : Nat) (e t pc sp fpc fsp : W) {m : Machine} (hl : LockWords g m)
    (h0 : m.owner g 0 = nullEnclaveId) : ∃ m', call g c (.loadThread e t pc sp fpc fsp) m = some (threadCode g m e t, m') := by
  obtain ⟨m', h1, -⟩ := run_loadThread_code ⟨h, hs, hsh⟩ c e t pc sp fpc fsp hl h0
  exact ⟨m', h1⟩

/-! ### C62: calls of the running enclave -/

/-- C62. `create_thread`. -/
theorem C62_create_thread (h : g.WF) {c : Nat} (hc : c < g.cores) (t p : W) {m : Machine} (hl : LockWords g m) (he : RecordOk g (m.running c)) :
    ∃ m', call g c (.createThread t p) m = some (createThreadCode g c m p, m') := ⟨_, run_createThread_code h hc t p hl he⟩

/-- C62. `delete_thread`. -/
theorem C62_delete_thread (h : g.WF) {c : Nat} (hc : c < g.cores) (t : W) {m : Machine} (hl : LockWords g m) :
    ∃ m', call g c (.deleteThread t) m = some (deleteThreadCode g c m, m') := ⟨_, run_deleteThread h hc t hl⟩

/-- C62. `exit_enclave` always succeeds. -/
theorem C62_exit_enclave (h : g.WF) {c : Nat} (hc : c < g.cores) (m : Machine) :
    call g c .exitEnclave m = some (monitorOk, m) := run_exitEnclave h hc m

end Sanctum
