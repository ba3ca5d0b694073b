import Verif.Lemmas.EnclaveCalls
import Verif.Spec.Codes
/-
Closed forms of the calls that take an enclave ID.
-/
namespace Sanctum
open Machine

variable {g : Cfg}

theorem clamped_eq (h : g.WF) (e : W) : (clampedDramRegionFor g e).toNat = idRegion g e := clampedDramRegionFor_toNat h e

theorem run_isValidEnclaveId (h : g.WF) (c : Nat) (e : W) (m : Machine) :
    run g c (isValidEnclaveId g e) m = some (m.owner g (idRegion g e) == e, m) := by
  unfold isValidEnclaveId
  rw [run_bind, run_readOwner h (clamped_lt h e), Option.bind_some, clamped_eq h]; rfl

theorem owner_lockSt (m : Machine) (i j : Nat) (v : W) : (m.st (lockA g i) v).owner g j = m.owner g j := by simp [Machine.owner, mem_st]

/-- The common prefix: not ready. -/
theorem run_withLocked_err (h : g.WF) (c : Nat) (e : W) {m : Machine} (hl : LockWords g m) (k : W → Prog W) (hn : ¬ IdReady g m e) :
    ∃ v, run g c (withLockedEnclave g e k) m = some (v, m) ∧ v ≠ monitorOk := by
  unfold withLockedEnclave
  have hr := clamped_lt h e
  dsimp only
  rw [run_bind, run_tasLock h hr, Option.bind_some, clamped_eq h]
  dsimp only
  by_cases hlk : m.locked g (idRegion g e) = true
  · rw [if_pos hlk, run_pure, st_locked hl (idRegion_lt h e) hlk]; exact ⟨_, rfl, by decide⟩
  · rw [if_neg hlk]
    rw [Bool.not_eq_true] at hlk
    have hz := (not_locked m).1 hlk
    have hval : run g c (if e = nullEnclaveId then pure false else isValidEnclaveId g e) (m.st (lockA g (idRegion g e)) 1) =
        some (false, m.st (lockA g (idRegion g e)) 1) := by
      by_cases h0 : e = nullEnclaveId
      · rw [if_pos h0, run_pure]
      · rw [if_neg h0, run_isValidEnclaveId h, owner_lockSt]
        have : m.owner g (idRegion g e) ≠ e := fun hh => hn ⟨⟨h0, hh⟩, hlk⟩
        rw [beq_false_of_ne this]
    rw [run_bind, hval, Option.bind_some]
    dsimp only
    rw [if_pos (by decide), run_bind, run_clearLock h hr, Option.bind_some, clamped_eq h, run_pure, lock_restore _ hz]
    exact ⟨_, rfl, by decide⟩

theorem run_withLocked_ok (h : g.WF) (c : Nat) (e : W) {m : Machine} (k : W → Prog W) (hn : IdReady g m e) :
    run g c (withLockedEnclave g e k) m = run g c (k (clampedDramRegionFor g e)) (m.st (lockA g (idRegion g e)) 1) := by
  obtain ⟨⟨h0, hown⟩, hlk⟩ := hn
  unfold withLockedEnclave
  have hr := clamped_lt h e
  have h0' : ¬ e = nullEnclaveId := h0
  dsimp only
  rw [run_bind, run_tasLock h hr, Option.bind_some, clamped_eq h]
  dsimp only
  rw [hlk, if_neg Bool.false_ne_true, if_neg h0', run_bind, run_isValidEnclaveId h, owner_lockSt, hown, Option.bind_some]
  dsimp only
  rw [beq_self_eq_true, if_neg (by decide)]

section
variable (h : g.WF) (c : Nat) {e : W} (he : RecordOk g e) {m : Machine} (hr : IdReady g m e)
include h he hr

/-- Reads of the record under the lock. -/
theorem run_loadRec (off : W) (ho : off.toNat % 8 = 0) (hl : off.toNat ≤ 296) :
    run g c (load (e + off)) (m.st (lockA g (idRegion g e)) 1) = some (m.mem (e.toNat + off.toNat), m.st (lockA g (idRegion g e)) 1) := by
  obtain ⟨h1, h2, h3⟩ := he hr.1.1
  rw [run_loadOff c _ h1 ho (by omega), mem_st, if_neg]
  have := lockA_lt h (idRegion_lt h e); omega

omit he in
/-- Releasing the lock. -/
theorem run_finish (v : W) : run g c (do clearLock g (clampedDramRegionFor g e); pure v) (m.st (lockA g (idRegion g e)) 1) = some (v, m) := by
  rw [run_bind, run_clearLock h (clamped_lt h e), Option.bind_some, clamped_eq h, run_pure, lock_restore _ ((not_locked m).1 hr.2)]

theorem run_inRange (v : W) : run g c (isEnclaveVirtualAddress v e) (m.st (lockA g (idRegion g e)) 1) =
    some ((v &&& m.evMask e) == m.evBase e, m.st (lockA g (idRegion g e)) 1) := by
  unfold isEnclaveVirtualAddress
  rw [run_bind, run_loadRec h c he hr _ (by decide) (by decide), Option.bind_some]
  dsimp only
  rw [run_bind, run_loadRec h c he hr _ (by decide) (by decide), Option.bind_some]
  rfl
end

theorem dramPage_iff (a : W) : DramPage g a ↔ isPageAligned a = true ∧ isDramAddress g a = true := by
  rw [isPageAligned_iff, isDramAddress_iff]; rfl

theorem run_loadPageTable (h : g.WF) (c : Nat) (e p v level acl : W) {m : Machine} (hl : LockWords g m) (he : ValidId g m e → RecordOk g e) :
    ∃ x, run g c (loadPageTable g e p v level acl) m = some (x, m) ∧ (x = monitorOk ↔ LoadTableOk g m e p v level) := by
  have hno : ∀ x, x ≠ monitorOk → ¬ LoadTableOk g m e p v level → ∃ y, some (x, m) = some (y, m) ∧ (y = monitorOk ↔ LoadTableOk g m e p v level) :=
    fun x h1 h2 => ⟨x, rfl, iff_of_false h1 h2⟩
  unfold loadPageTable
  by_cases h1 : isDramAddress g p = true
  · by_cases h2 : isPageAligned p = true
    · have hdp := (dramPage_iff p).2 ⟨h2, h1⟩
      rw [h1, h2, if_neg (by decide), if_neg (by decide)]
      by_cases h3 : level ≥ pageTableLevels
      · rw [if_pos h3, run_pure]
        have h3' : 3 ≤ level.toNat := h3
        exact hno _ (by decide) (fun hh => by have := hh.2.1; omega)
      · rw [if_neg h3]
        have h3' : level.toNat < 3 := by
          have : ¬ 3 ≤ level.toNat := h3
          omega
        rcases Classical.em (IdReady g m e) with hr | hr
        · have hre := he hr.1
          rw [run_withLocked_ok h c e _ hr, run_bind, run_loadRec h c hre hr _ (by decide) (by decide), Option.bind_some]
          dsimp only
          by_cases h4 : m.initialized e = 0
          · have h4' : m.mem (e.toNat + offIsInitialized.toNat) = 0 := h4
            rw [h4', if_neg (by decide), run_bind, run_loadRec h c hre hr _ (by decide) (by decide), Option.bind_some]
            dsimp only
            by_cases h5 : (m.lastLoad e).toNat < p.toNat
            · have h5' : ¬ p ≤ m.mem (e.toNat + offLastLoadAddr.toNat) := by rw [W.le_iff]; exact Nat.not_le.2 h5
              rw [if_neg h5']
              by_cases h6 : level.toNat < 2
              · have h6' : (level != pageTableLevels - 1) = true := by
                  rw [bne_iff_ne]; intro hh; rw [hh] at h6; exact absurd h6 (by decide)
                rw [if_pos h6', run_bind, run_inRange h c hre hr, Option.bind_some]
                dsimp only
                by_cases h7 : (v &&& m.evMask e) = m.evBase e
                · rw [h7, beq_self_eq_true, if_neg (by decide), run_finish h c hr]
                  exact ⟨_, rfl, iff_of_true rfl ⟨hdp, h3', hr, h4, h5, fun _ => h7⟩⟩
                · rw [beq_false_of_ne h7, if_pos (by decide), run_finish h c hr]
                  exact hno _ (by decide) (fun hh => h7 (hh.2.2.2.2.2 h6))
              · have h6' : ¬ (level != pageTableLevels - 1) = true := by
                  rw [bne_iff_ne, ne_eq, Decidable.not_not, W.eq_iff, show (pageTableLevels - 1).toNat = 2 from rfl]; omega
                rw [if_neg h6', run_bind, run_pure, Option.bind_some]
                dsimp only
                rw [if_neg (by decide), run_finish h c hr]
                exact ⟨_, rfl, iff_of_true rfl ⟨hdp, h3', hr, h4, h5, fun hh => absurd hh h6⟩⟩
            · have h5' : p ≤ m.mem (e.toNat + offLastLoadAddr.toNat) := by rw [W.le_iff]; exact Nat.not_lt.1 h5
              rw [if_pos h5', run_finish h c hr]
              exact hno _ (by decide) (fun hh => h5 hh.2.2.2.2.1)
          · have h4' : (m.mem (e.toNat + offIsInitialized.toNat) != 0) = true := bne_iff_ne.2 h4
            rw [if_pos h4', run_finish h c hr]
            exact hno _ (by decide) (fun hh => h4 hh.2.2.2.1)
        · obtain ⟨x, h4, h5⟩ := run_withLocked_err h c e hl (fun r => _) hr
          rw [h4]
          exact hno _ h5 (fun hh => hr hh.2.2.1)
    · rw [Bool.not_eq_true] at h2
      rw [h1, h2, if_neg (by decide), if_pos (by decide), run_pure]
      exact hno _ (by decide) (fun hh => by have := ((dramPage_iff p).1 hh.1).1; rw [h2] at this; cases this)
  · rw [Bool.not_eq_true] at h1
    rw [h1, if_pos (by decide), run_pure]
    exact hno _ (by decide) (fun hh => by have := ((dramPage_iff p).1 hh.1).2; rw [h1] at this; cases this)

theorem run_loadPage (h : g.WF) (c : Nat) (e p v os acl : W) {m : Machine} (hl : LockWords g m) (he : ValidId g m e → RecordOk g e) :
    ∃ x, run g c (loadPage g e p v os acl) m = some (x, m) ∧ (x = monitorOk ↔ LoadPageOk g m e p v os) := by
  have hno : ∀ x, x ≠ monitorOk → ¬ LoadPageOk g m e p v os → ∃ y, some (x, m) = some (y, m) ∧ (y = monitorOk ↔ LoadPageOk g m e p v os) :=
    fun x h1 h2 => ⟨x, rfl, iff_of_false h1 h2⟩
  unfold loadPage
  by_cases h1 : isDramAddress g p = true ∧ isDramAddress g os = true
  · by_cases h2 : isPageAligned p = true ∧ isPageAligned os = true
    · have hdp := (dramPage_iff p).2 ⟨h2.1, h1.1⟩
      have hdo := (dramPage_iff os).2 ⟨h2.2, h1.2⟩
      rw [h1.1, h1.2, h2.1, h2.2, if_neg (by decide), if_neg (by decide)]
      rcases Classical.em (IdReady g m e) with hr | hr
      · have hre := he hr.1
        rw [run_withLocked_ok h c e _ hr, run_bind, run_loadRec h c hre hr _ (by decide) (by decide), Option.bind_some]
        dsimp only
        by_cases h4 : m.initialized e = 0
        · have h4' : m.mem (e.toNat + offIsInitialized.toNat) = 0 := h4
          rw [h4', if_neg (by decide), run_bind, run_loadRec h c hre hr _ (by decide) (by decide), Option.bind_some]
          dsimp only
          by_cases h5 : (m.lastLoad e).toNat < p.toNat
          · have h5' : ¬ p ≤ m.mem (e.toNat + offLastLoadAddr.toNat) := by rw [W.le_iff]; exact Nat.not_le.2 h5
            rw [if_neg h5', run_bind, run_inRange h c hre hr, Option.bind_some]
            dsimp only
            by_cases h7 : (v &&& m.evMask e) = m.evBase e
            · rw [h7, beq_self_eq_true, if_neg (by decide), run_finish h c hr]
              exact ⟨_, rfl, iff_of_true rfl ⟨hdp, hdo, hr, h4, h5, h7⟩⟩
            · rw [beq_false_of_ne h7, if_pos (by decide), run_finish h c hr]
              exact hno _ (by decide) (fun hh => h7 hh.2.2.2.2.2)
          · have h5' : p ≤ m.mem (e.toNat + offLastLoadAddr.toNat) := by rw [W.le_iff]; exact Nat.not_lt.1 h5
            rw [if_pos h5', run_finish h c hr]
            exact hno _ (by decide) (fun hh => h5 hh.2.2.2.2.1)
        · have h4' : (m.mem (e.toNat + offIsInitialized.toNat) != 0) = true := bne_iff_ne.2 h4
          rw [if_pos h4', run_finish h c hr]
          exact hno _ (by decide) (fun hh => h4 hh.2.2.2.1)
      · obtain ⟨x, h4, h5⟩ := run_withLocked_err h c e hl (fun r => _) hr
        rw [h4]
        exact hno _ h5 (fun hh => hr hh.2.2.1)
    · have hbad : (!isPageAligned p || !isPageAligned os) = true := by
        cases ha : isPageAligned p <;> cases hb : isPageAligned os <;> simp_all
      rw [h1.1, h1.2, if_neg (by decide), if_pos hbad, run_pure]
      exact hno _ (by decide) (fun hh => h2 ⟨((dramPage_iff p).1 hh.1).1, ((dramPage_iff os).1 hh.2.1).1⟩)
  · have hbad : (!isDramAddress g p || !isDramAddress g os) = true := by
      cases ha : isDramAddress g p <;> cases hb : isDramAddress g os <;> simp_all
    rw [if_pos hbad, run_pure]
    exact hno _ (by decide) (fun hh => h1 ⟨((dramPage_iff p).1 hh.1).2, ((dramPage_iff os).1 hh.2.1).2⟩)

theorem run_initEnclave (h : g.WF) (c : Nat) (e : W) {m : Machine} (hl : LockWords g m) (he : ValidId g m e → RecordOk g e) :
    (IdReady g m e ∧ m.initialized e = 0 → ∃ mem', run g c (initEnclave g e) m = some (monitorOk, { m with mem := mem' }) ∧
      mem' (e.toNat + 16) = 1 ∧ ∀ x, x ≠ e.toNat + 16 → ¬ (e.toNat + 80 ≤ x ∧ x < e.toNat + 304) → mem' x = m.mem x) ∧
    (¬ (IdReady g m e ∧ m.initialized e = 0) → ∃ x, run g c (initEnclave g e) m = some (x, m) ∧ x ≠ monitorOk) := by
  unfold initEnclave
  rcases Classical.em (IdReady g m e) with hr | hr
  · have hre := he hr.1
    obtain ⟨r1, r2, r3⟩ := hre hr.1.1
    have hlk := lockA_lt h (idRegion_lt h e)
    rw [run_withLocked_ok h c e _ hr, run_bind, run_loadRec h c hre hr _ (by decide) (by decide), Option.bind_some]
    dsimp only
    by_cases h4 : m.initialized e = 0
    · have h4' : m.mem (e.toNat + offIsInitialized.toNat) = 0 := h4
      refine ⟨fun _ => ?_, fun hh => absurd ⟨hr, h4⟩ hh⟩
      obtain ⟨u, mem1, c1, c2⟩ := Within.run c (within_finalizeEnclaveHash (g := g) (e := e) r1 (by omega)) (m.st (lockA g (idRegion g e)) 1)
      rw [h4', if_neg (by decide), run_bind, c1, Option.bind_some]
      dsimp only
      rw [run_bind, run_storeOff c _ _ r1 (by decide) (by show _ + 16 + 8 ≤ _; omega), Option.bind_some]
      dsimp only
      rw [run_bind, run_clearLock h (clamped_lt h e), Option.bind_some, clamped_eq h, run_pure]
      refine ⟨upd (upd mem1 (e.toNat + 16) 1) (lockA g (idRegion g e)) 0, rfl, ?_, ?_⟩
      · rw [upd_ne _ _ (by omega), upd_same]
      · intro x hx1 hx2
        by_cases hxl : x = lockA g (idRegion g e)
        · subst hxl; rw [upd_same, (not_locked m).1 hr.2]
        · rw [upd_ne _ _ hxl, upd_ne _ _ hx1, c2 x hx2, mem_st, if_neg hxl]
    · have h4' : (m.mem (e.toNat + offIsInitialized.toNat) != 0) = true := bne_iff_ne.2 h4
      refine ⟨fun hh => absurd hh.2 h4, fun _ => ?_⟩
      rw [if_pos h4', run_finish h c hr]
      exact ⟨_, rfl, by decide⟩
  · refine ⟨fun hh => absurd hh.1 hr, fun _ => ?_⟩
    obtain ⟨x, h4, h5⟩ := run_withLocked_err h c e hl (fun r => _) hr
    rw [h4]
    exact ⟨x, rfl, h5⟩

theorem run_enterEnclave (h : g.WF) (c : Nat) (e t : W) {m : Machine} (hl : LockWords g m) (he : ValidId g m e → RecordOk g e) :
    (IdReady g m e ∧ m.initialized e ≠ 0 → run g c (enterEnclave g e t) m = some (monitorOk, m.st (lockA g (idRegion g e)) 1)) ∧
    (¬ (IdReady g m e ∧ m.initialized e ≠ 0) → ∃ x, run g c (enterEnclave g e t) m = some (x, m) ∧ x ≠ monitorOk) := by
  unfold enterEnclave
  rcases Classical.em (IdReady g m e) with hr | hr
  · have hre := he hr.1
    rw [run_withLocked_ok h c e _ hr, run_bind, run_loadRec h c hre hr _ (by decide) (by decide), Option.bind_some]
    dsimp only
    by_cases h4 : m.initialized e = 0
    · have h4' : m.mem (e.toNat + offIsInitialized.toNat) = 0 := h4
      refine ⟨fun hh => absurd h4 hh.2, fun _ => ?_⟩
      rw [if_pos h4', run_finish h c hr]
      exact ⟨_, rfl, by decide⟩
    · have h4' : ¬ m.mem (e.toNat + offIsInitialized.toNat) = 0 := h4
      refine ⟨fun _ => ?_, fun hh => absurd ⟨hr, h4⟩ hh⟩
      rw [if_neg h4', run_pure]
  · refine ⟨fun hh => absurd hh.1 hr, fun _ => ?_⟩
    obtain ⟨x, h4, h5⟩ := run_withLocked_err h c e hl (fun r => _) hr
    rw [h4]
    exact ⟨x, rfl, h5⟩

/-! ### copy_debug_enclave_page -/

/-- Memory after copying the `n` words from `s` to `d`. -/
def copied (mem : Nat → W) (n d s : Nat) : Nat → W := fun x => if d ≤ x ∧ x < d + 8 * n ∧ x % 8 = 0 then mem (s + (x - d)) else mem x

theorem run_copyWords (c : Nat) (n : Nat) : ∀ (d s : W) (m : Machine), d.toNat % 8 = 0 → s.toNat % 8 = 0 →
    d.toNat + 8 * n ≤ g.dramSize.toNat → s.toNat + 8 * n ≤ g.dramSize.toNat → (d.toNat ≤ s.toNat ∨ s.toNat + 8 * n ≤ d.toNat) →
    run g c (copyWords n d s) m = some ((), { m with mem := copied m.mem n d.toNat s.toNat }) := by
  have hlt := g.dramSize.isLt
  induction n with
  | zero =>
      intro d s m _ _ _ _ _
      have : copied m.mem 0 d.toNat s.toNat = m.mem := by
        funext x; unfold copied; rw [if_neg]; omega
      rw [copyWords, run_pure, this]
  | succ n ih =>
      intro d s m hd hs hdd hsd hov
      rw [copyWords, run_bind, run_load _ _ _ _ (by rw [okAddr_iff]; omega), Option.bind_some]
      dsimp only
      rw [run_bind, run_store _ _ _ _ _ (by rw [okAddr_iff]; omega), Option.bind_some]
      dsimp only
      by_cases hn : n = 0
      · subst hn
        rw [copyWords, run_pure]
        have : (m.st d.toNat (m.mem s.toNat)).mem = copied m.mem 1 d.toNat s.toNat := by
          funext x; unfold copied; rw [mem_st]
          by_cases hx : x = d.toNat
          · rw [if_pos hx, if_pos (by omega), hx, Nat.sub_self]; rfl
          · rw [if_neg hx, if_neg (by omega)]
        rw [← this]; rfl
      have h1 : (d + 8).toNat = d.toNat + 8 := add_off (by show _ + 8 < _; omega)
      have h2 : (s + 8).toNat = s.toNat + 8 := add_off (by show _ + 8 < _; omega)
      rw [ih (d + 8) (s + 8) _ (by omega) (by omega) (by omega) (by omega) (by omega)]
      have : copied (m.st d.toNat (m.mem s.toNat)).mem n (d + 8).toNat (s + 8).toNat = copied m.mem (n + 1) d.toNat s.toNat := by
        funext x; unfold copied; rw [h1, h2]
        by_cases hx : x = d.toNat
        · rw [if_neg (by omega), if_pos (by omega), mem_st, if_pos hx, hx, Nat.sub_self]; rfl
        · by_cases hr : d.toNat + 8 ≤ x ∧ x < d.toNat + 8 + 8 * n ∧ x % 8 = 0
          · rw [if_pos hr, if_pos (by omega), mem_st, if_neg (by omega), show s.toNat + 8 + (x - (d.toNat + 8)) = s.toNat + (x - d.toNat) by omega]
          · rw [if_neg hr, if_neg (by omega), mem_st, if_neg hx]
      rw [this]; rfl

theorem run_readBmBit (h : g.WF) (c : Nat) {e r : W} (he : RecordOk g e) (hr : r.toNat < g.regions) (m : Machine) :
    run g c (readEnclaveRegionBitmapBit g e r) m = some (m.bmBit g e r.toNat, m) := by
  unfold readEnclaveRegionBitmapBit Machine.bmBit
  by_cases h0 : e = nullEnclaveId
  · rw [if_pos h0, run_readBitmapBit _ _ _ _ _ (osWord_ok h hr), osWordA_toNat h hr]
    unfold bmWordA
    rw [if_pos (show e = 0 from h0)]
  · rw [if_neg h0]
    obtain ⟨h1, h2⟩ := bmWord_addr h he h0 hr
    rw [run_readBitmapBit _ _ _ _ _ h2, h1]

open Classical in
theorem run_copyDebug_code (h : g.WF) (c : Nat) (e a os : W) (dir : Bool) {m : Machine} (hl : LockWords g m) (he : RecordOk g e) :
    (¬ CopyOk g m e a os → run g c (copyDebugEnclavePage g e a os dir) m = some (copyCode g m e a os, m)) ∧
    (CopyOk g m e a os → g.monitorTop.toNat ≤ a.toNat → g.monitorTop.toNat ≤ os.toNat →
      run g c (copyDebugEnclavePage g e a os dir) m = some (monitorOk,
        { m with mem := if dir then copied m.mem 512 os.toNat a.toNat else copied m.mem 512 a.toNat os.toNat })) := by
  have hno : ∀ x, copyCode g m e a os = x → ¬ CopyOk g m e a os →
      (¬ CopyOk g m e a os → some (x, m) = some (copyCode g m e a os, m)) ∧
      (CopyOk g m e a os → g.monitorTop.toNat ≤ a.toNat → g.monitorTop.toNat ≤ os.toNat →
      some (x, m) = some (monitorOk, { m with mem := if dir then copied m.mem 512 os.toNat a.toNat else copied m.mem 512 a.toNat os.toNat })) :=
    fun x h1 h2 => ⟨fun _ => by rw [h1], fun hh => absurd hh h2⟩
  unfold copyDebugEnclavePage
  by_cases h1 : isPageAligned a = true ∧ isPageAligned os = true
  · by_cases h2 : isDramAddress g a = true ∧ isDramAddress g os = true
    · have hda := (dramPage_iff a).2 ⟨h1.1, h2.1⟩
      have hdo := (dramPage_iff os).2 ⟨h1.2, h2.2⟩
      have hpp : ¬ (¬ DramPage g a ∨ ¬ DramPage g os) := fun hh => hh.elim (fun h5 => h5 hda) (fun h5 => h5 hdo)
      rw [h2.1, h2.2, h1.1, h1.2, if_neg (by decide), if_neg (by decide)]
      dsimp only
      have hcl := clamped_lt h e
      have hol := dramRegionFor_lt h os
      have hid := idRegion_lt h e
      have hor := regionOf_lt h os.toNat
      rw [run_bind, run_tasLock h hcl, Option.bind_some, clamped_eq h]
      dsimp only
      by_cases h3 : m.locked g (idRegion g e) = true
      · rw [if_pos h3, run_pure, st_locked hl hid h3]
        exact hno _ (by unfold copyCode; rw [if_neg hpp, if_pos h3]) (fun hh => by rw [hh.2.2.1] at h3; cases h3)
      · rw [if_neg h3]
        have h3b := h3
        rw [Bool.not_eq_true] at h3
        have hz1 := (not_locked m).1 h3
        rw [run_bind, run_tasLock h hol, Option.bind_some, dramRegionFor_toNat h]
        dsimp only
        by_cases h4 : regionOf g os.toNat = idRegion g e
        · have : (m.st (lockA g (idRegion g e)) 1).locked g (regionOf g os.toNat) = true := by
            unfold Machine.locked; rw [h4, mem_st, if_pos rfl]; rfl
          rw [if_pos this, h4, st_st, run_bind, run_clearLock h hcl, Option.bind_some, clamped_eq h, run_pure, lock_restore _ hz1]
          exact hno _ (by unfold copyCode; rw [if_neg hpp, if_neg h3b, if_pos (Or.inl h4)]) (fun hh => hh.2.2.2.1 h4)
        · have hlk2 : (m.st (lockA g (idRegion g e)) 1).locked g (regionOf g os.toNat) = m.locked g (regionOf g os.toNat) := by
            unfold Machine.locked; rw [mem_st, if_neg (by simpa using h4)]
          rw [hlk2]
          by_cases h5 : m.locked g (regionOf g os.toNat) = true
          · have hst : (m.st (lockA g (idRegion g e)) 1).st (lockA g (regionOf g os.toNat)) 1 = m.st (lockA g (idRegion g e)) 1 := by
              apply st_self
              rw [mem_st, if_neg (by simpa using h4)]
              rcases hl _ hor with hh | hh
              · rw [(not_locked m).2 hh] at h5; cases h5
              · exact hh
            rw [if_pos h5, hst, run_bind, run_clearLock h hcl, Option.bind_some, clamped_eq h, run_pure, lock_restore _ hz1]
            exact hno _ (by unfold copyCode; rw [if_neg hpp, if_neg h3b, if_pos (Or.inr h5)]) (fun hh => by rw [hh.2.2.2.2.1] at h5; cases h5)
          · rw [if_neg h5]
            have h5b : ¬ (regionOf g os.toNat = idRegion g e ∨ m.locked g (regionOf g os.toNat) = true) := fun hh => hh.elim h4 h5
            rw [Bool.not_eq_true] at h5
            have hz2 := (not_locked m).1 h5
            generalize hm2 : (m.st (lockA g (idRegion g e)) 1).st (lockA g (regionOf g os.toNat)) 1 = m2
            have hmem2 : ∀ x, m2.mem x = if x = lockA g (regionOf g os.toNat) then 1 else if x = lockA g (idRegion g e) then 1 else m.mem x := by
              intro x; rw [← hm2]; rfl
            have hown : ∀ i, m2.owner g i = m.owner g i := by
              intro i; rw [← hm2, owner_lockSt, owner_lockSt]
            have hbit : m2.bmBit g e (regionOf g a.toNat) = m.bmBit g e (regionOf g a.toNat) := by
              have hb := bmWordA_ge h he (regionOf g a.toNat)
              obtain ⟨l1, l2, l3, l4, l5, l6, l7, l8, l9, l10, l11, l12⟩ := h.layout
              unfold Machine.bmBit
              rw [hmem2, if_neg (by unfold lockA; omega), if_neg (by unfold lockA; omega)]
            have hsz := h.dram_ge
            have hsz2 := h.stripe_ge
            have hdbg : run g c (load (e + offIsDebug)) m2 = some (m.isDebug e, m2) := by
              have h8 : e.toNat % 8 = 0 ∧ e.toNat + 32 ≤ g.dramSize.toNat ∧ (e.toNat = 0 ∨ g.monitorTop.toNat ≤ e.toNat) := by
                by_cases h0 : e = 0
                · subst h0; refine ⟨rfl, ?_, Or.inl rfl⟩; show 0 + 32 ≤ _; omega
                · obtain ⟨r1, r2, r3⟩ := he h0; exact ⟨r1, by omega, Or.inr r2⟩
              have l1 := lockA_lt h hid
              have l2 := lockA_lt h hor
              have l3 : ∀ i, 32 ≤ lockA g i := by
                intro i; have := h.cores_pos; have := h.regionBase; unfold lockA; omega
              have l4 := l3 (idRegion g e)
              have l5 := l3 (regionOf g os.toNat)
              rw [run_loadOff c _ h8.1 (by decide) (by show _ + 24 + 8 ≤ _; omega), hmem2, show offIsDebug.toNat = 24 from rfl,
                if_neg (by omega), if_neg (by omega)]; rfl
            have hfin : ∀ (x : W) (m1 : Machine), run g c (do clearLock g (dramRegionFor g os); clearLock g (clampedDramRegionFor g e); pure x) m1 =
                some (x, (m1.st (lockA g (regionOf g os.toNat)) 0).st (lockA g (idRegion g e)) 0) := by
              intro x m1
              rw [run_bind, run_clearLock h hol, Option.bind_some, dramRegionFor_toNat h]
              dsimp only
              rw [run_bind, run_clearLock h hcl, Option.bind_some, clamped_eq h, run_pure]
            have hback : (m2.st (lockA g (regionOf g os.toNat)) 0).st (lockA g (idRegion g e)) 0 = m := by
              rw [← hm2, st_st, st_comm _ _ _ (by simpa using h4), lock_restore _ hz1, st_self _ _ _ hz2]
            rw [run_bind, run_readOwner h hcl, Option.bind_some]
            dsimp only
            rw [run_bind, run_readOwner h hol, Option.bind_some]
            dsimp only
            rw [run_bind, run_readBmBit h c he (dramRegionFor_lt h a), Option.bind_some]
            dsimp only
            rw [run_bind, hdbg, Option.bind_some]
            dsimp only
            rw [clamped_eq h, dramRegionFor_toNat h, dramRegionFor_toNat h, hown, hown, hbit]
            by_cases h6 : m.isDebug e = 0
            · rw [if_pos h6, if_neg (by decide), run_bind, run_pure, Option.bind_some]
              dsimp only
              rw [hfin, hback]
              exact hno _ (by unfold copyCode; rw [if_neg hpp, if_neg h3b, if_neg h5b, if_pos h6]) (fun hh => hh.2.2.2.2.2.1 h6)
            · rw [if_neg h6]
              by_cases h7 : m.bmBit g e (regionOf g a.toNat) = true
              · rw [h7, if_neg (show ¬ (!true) = true by decide)]
                by_cases h8 : m.owner g (regionOf g os.toNat) = nullEnclaveId
                · rw [if_neg (not_not_intro h8)]
                  by_cases h9 : m.owner g (idRegion g e) = e
                  · rw [if_neg (not_not_intro h9), if_pos rfl]
                    refine ⟨fun hh => absurd ⟨hda, hdo, h3, h4, h5, h6, h7, h8, h9⟩ hh, fun _ ta to => ?_⟩
                    have pa : a.toNat + 4096 ≤ g.dramSize.toNat := by
                      have := hda.1; have := hda.2
                      have : g.dramSize.toNat % 4096 = 0 := by
                        rw [h.dramSize, show (4096 : Nat) = 2 ^ 12 from rfl]
                        exact Nat.mod_eq_zero_of_dvd (Nat.pow_dvd_pow 2 (by have := h.fits; omega))
                      omega
                    have po : os.toNat + 4096 ≤ g.dramSize.toNat := by
                      have := hdo.1; have := hdo.2
                      have : g.dramSize.toNat % 4096 = 0 := by
                        rw [h.dramSize, show (4096 : Nat) = 2 ^ 12 from rfl]
                        exact Nat.mod_eq_zero_of_dvd (Nat.pow_dvd_pow 2 (by have := h.fits; omega))
                      omega
                    have hda1 := hda.1
                    have hdo1 := hdo.1
                    have l1 := lockA_lt h hid
                    have l2 := lockA_lt h hor
                    have key : ∀ (d s : W), d.toNat % 4096 = 0 → s.toNat % 4096 = 0 → d.toNat + 4096 ≤ g.dramSize.toNat → s.toNat + 4096 ≤ g.dramSize.toNat →
                        g.monitorTop.toNat ≤ d.toNat → g.monitorTop.toNat ≤ s.toNat →
                        run g c (copyWords 512 d s) m2 = some ((), { m2 with mem := copied m2.mem 512 d.toNat s.toNat }) ∧
                        ((({ m2 with mem := copied m2.mem 512 d.toNat s.toNat } : Machine).st (lockA g (regionOf g os.toNat)) 0).st (lockA g (idRegion g e)) 0)
                          = { m with mem := copied m.mem 512 d.toNat s.toNat } := by
                      intro d s hd hs hdd hss htd hts
                      refine ⟨run_copyWords c 512 d s m2 (by omega) (by omega) (by omega) (by omega) (by omega), ?_⟩
                      have hregs : m2 = { m with mem := m2.mem } := by rw [← hm2]; rfl
                      rw [hregs]
                      simp only [Machine.st]
                      congr 1
                      funext x
                      simp only [upd]
                      unfold copied
                      by_cases hx1 : x = lockA g (idRegion g e)
                      · rw [if_pos hx1, if_neg (by omega), hx1, hz1]
                      · rw [if_neg hx1]
                        by_cases hx2 : x = lockA g (regionOf g os.toNat)
                        · rw [if_pos hx2, if_neg (by omega), hx2, hz2]
                        · rw [if_neg hx2]
                          split
                          · rw [hmem2, if_neg (by omega), if_neg (by omega)]
                          · rw [hmem2, if_neg hx2, if_neg hx1]
                    cases dir with
                    | true =>
                        obtain ⟨k1, k2⟩ := key os a hdo1 hda1 po pa to ta
                        rw [if_pos rfl, run_bind, k1, Option.bind_some]
                        dsimp only
                        rw [hfin, k2]; rfl
                    | false =>
                        obtain ⟨k1, k2⟩ := key a os hda1 hdo1 pa po ta to
                        rw [if_neg (by decide), run_bind, k1, Option.bind_some]
                        dsimp only
                        rw [hfin, k2]; rfl
                  · rw [if_pos h9, if_neg (by decide), run_bind, run_pure, Option.bind_some]
                    dsimp only
                    rw [hfin, hback]
                    exact hno _ (by unfold copyCode; rw [if_neg hpp, if_neg h3b, if_neg h5b, if_neg h6, if_pos (Or.inr (Or.inr h9))]) (fun hh => h9 hh.2.2.2.2.2.2.2.2)
                · rw [if_pos h8, if_neg (by decide), run_bind, run_pure, Option.bind_some]
                  dsimp only
                  rw [hfin, hback]
                  exact hno _ (by unfold copyCode; rw [if_neg hpp, if_neg h3b, if_neg h5b, if_neg h6, if_pos (Or.inr (Or.inl (show m.owner g (regionOf g os.toNat) ≠ 0 from h8)))]) (fun hh => h8 hh.2.2.2.2.2.2.2.1)
              · have h7' : (!m.bmBit g e (regionOf g a.toNat)) = true := by
                  rw [Bool.not_eq_true] at h7; rw [h7]; rfl
                rw [if_pos h7', if_neg (by decide), run_bind, run_pure, Option.bind_some]
                dsimp only
                rw [hfin, hback]
                exact hno _ (by unfold copyCode; rw [if_neg hpp, if_neg h3b, if_neg h5b, if_neg h6, if_pos (Or.inl (by simpa using h7))]) (fun hh => h7 hh.2.2.2.2.2.2.1)
    · have hbad : (!isDramAddress g a || !isDramAddress g os) = true := by
        cases ha : isDramAddress g a <;> cases hb : isDramAddress g os <;> simp_all
      rw [h1.1, h1.2, if_neg (by decide), if_pos hbad, run_pure]
      exact hno _ (by unfold copyCode; rw [if_pos (Classical.byContradiction fun hh => h2 (by rw [not_or, Classical.not_not, Classical.not_not] at hh; exact ⟨((dramPage_iff a).1 hh.1).2, ((dramPage_iff os).1 hh.2).2⟩))]) (fun hh => h2 ⟨((dramPage_iff a).1 hh.1).2, ((dramPage_iff os).1 hh.2.1).2⟩)
  · have hbad : (!isPageAligned a || !isPageAligned os) = true := by
      cases ha : isPageAligned a <;> cases hb : isPageAligned os <;> simp_all
    rw [if_pos hbad, run_pure]
    exact hno _ (by unfold copyCode; rw [if_pos (Classical.byContradiction fun hh => h1 (by rw [not_or, Classical.not_not, Classical.not_not] at hh; exact ⟨((dramPage_iff a).1 hh.1).1, ((dramPage_iff os).1 hh.2).1⟩))]) (fun hh => h1 ⟨((dramPage_iff a).1 hh.1).1, ((dramPage_iff os).1 hh.2.1).1⟩)

open Classical in
theorem copyCode_iff (m : Machine) (e a os : W) : copyCode g m e a os = monitorOk ↔ CopyOk g m e a os := by
  unfold copyCode CopyOk
  by_cases h1 : ¬ DramPage g a ∨ ¬ DramPage g os
  · rw [if_pos h1]
    exact iff_of_false (by decide) (fun hh => h1.elim (fun h2 => h2 hh.1) (fun h2 => h2 hh.2.1))
  rw [if_neg h1]
  rw [not_or, Classical.not_not, Classical.not_not] at h1
  by_cases h2 : m.locked g (idRegion g e) = true
  · rw [if_pos h2]
    exact iff_of_false (by decide) (fun hh => by rw [hh.2.2.1] at h2; cases h2)
  rw [if_neg h2]
  by_cases h3 : regionOf g os.toNat = idRegion g e ∨ m.locked g (regionOf g os.toNat) = true
  · rw [if_pos h3]
    exact iff_of_false (by decide) (fun hh => h3.elim hh.2.2.2.1 (fun h4 => by rw [hh.2.2.2.2.1] at h4; cases h4))
  rw [if_neg h3]
  rw [not_or] at h3
  by_cases h4 : m.isDebug e = 0
  · rw [if_pos h4]
    exact iff_of_false (by decide) (fun hh => hh.2.2.2.2.2.1 h4)
  rw [if_neg h4]
  by_cases h5 : m.bmBit g e (regionOf g a.toNat) = false ∨ m.owner g (regionOf g os.toNat) ≠ 0 ∨ m.owner g (idRegion g e) ≠ e
  · rw [if_pos h5]
    refine iff_of_false (by decide) (fun hh => ?_)
    obtain ⟨_, _, _, _, _, _, c1, c2, c3⟩ := hh
    rcases h5 with h5 | h5 | h5
    · rw [c1] at h5; cases h5
    · exact h5 c2
    · exact h5 c3
  · rw [if_neg h5]
    rw [not_or, not_or, Classical.not_not, Classical.not_not] at h5
    exact iff_of_true rfl ⟨h1.1, h1.2, by simpa using h2, h3.1, by simpa using h3.2, h4, by simpa using h5.1, h5.2.1, h5.2.2⟩

theorem run_copyDebug (h : g.WF) (c : Nat) (e a os : W) (dir : Bool) {m : Machine} (hl : LockWords g m) (he : RecordOk g e) :
    (¬ CopyOk g m e a os → ∃ x, run g c (copyDebugEnclavePage g e a os dir) m = some (x, m) ∧ x ≠ monitorOk) ∧
    (CopyOk g m e a os → g.monitorTop.toNat ≤ a.toNat → g.monitorTop.toNat ≤ os.toNat →
      run g c (copyDebugEnclavePage g e a os dir) m = some (monitorOk,
        { m with mem := if dir then copied m.mem 512 os.toNat a.toNat else copied m.mem 512 a.toNat os.toNat })) :=
  ⟨fun hn => ⟨_, (run_copyDebug_code h c e a os dir hl he).1 hn, fun hh => hn ((copyCode_iff m e a os).1 hh)⟩, (run_copyDebug_code h c e a os dir hl he).2⟩

end Sanctum
