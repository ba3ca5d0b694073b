import Verif.Props.System
/-
C22 (failed calls are no-ops) and C23 (calls release the locks they take).
-/
namespace Sanctum
open Machine

variable {g : Cfg}

theorem Inv.stateOk (h : g.WF) {m : Machine} (hi : Inv g m) {c : Nat} (hc : c < g.cores) : StateOk g c m :=
  ⟨hi.locks, hi.region0, hi.recordOk hc, fun e hv => absurd hv (hi.not_valid h e), hi.dma⟩

/-- `delete_enclave` changes nothing if it fails, whatever the bitmap says. -/
theorem deleteEnclave_fail (h : g.WF) (c : Nat) (e : W) {m m' : Machine} {v : W} (hl : LockWords g m) (he : ValidId g m e → RecordOk g e)
    (hr : run g c (deleteEnclave g e) m = some (v, m')) (hv : v ≠ monitorOk) : m' = m := by
  have hsame : ∀ {x : W}, some (x, m) = some (v, m') → m' = m := by
    intro x hx; injection hx with hx; injection hx with _ hx; exact hx.symm
  unfold deleteEnclave at hr
  rcases Classical.em (IdReady g m e) with hid | hid
  · have hre := he hid.1
    have h0 := hid.1.1
    rw [run_withLocked_ok h c e _ hid, run_bind, run_loadRec h c hre hid _ (by decide) (by decide), Option.bind_some] at hr
    dsimp only at hr
    by_cases h4 : m.threads e = 0
    · have h4' : m.mem (e.toNat + offThreadCount.toNat) = 0 := h4
      rw [h4', if_neg (by decide)] at hr
      generalize hm0 : m.st (lockA g (idRegion g e)) 1 = m0 at hr
      have hl0 : LockWords g m0 := by
        intro i hi; rw [← hm0, mem_st]; split
        · exact Or.inr rfl
        · exact hl i hi
      obtain ⟨j, a1, a2, a3, a4, a5⟩ := run_deleteLockLoop h c hre h0 (clampedDramRegionFor g e) g.regionCount.toNat 0 m0 hl0 (by simp; rfl)
      rw [clamped_eq h] at a1 a4 a5
      rw [show (0 : W).toNat = 0 from rfl] at a1 a2 a4
      have hPm : ∀ v, InBitmap g (m0.lockMany g (InBitmap g m0 e (idRegion g e)) 0 j.toNat v) e (idRegion g e) = InBitmap g m0 e (idRegion g e) := by
        intro v; funext k; unfold InBitmap; rw [bmBit_lockMany h hre _ _ _ a3]
      have hz : ∀ i, 0 ≤ i → i < j.toNat → InBitmap g m0 e (idRegion g e) i → m0.mem (lockA g i) = 0 := by
        intro i b1 b2 b3; exact (not_locked _).1 (a4 i b1 b2 b3)
      have hlast : run g c (clearLock g (clampedDramRegionFor g e)) m0 = some ((), m) := by
        rw [run_clearLock h (clamped_lt h e), clamped_eq h, ← hm0, lock_restore _ ((not_locked m).1 hid.2)]
      rw [run_bind, a1, Option.bind_some] at hr
      dsimp only at hr
      by_cases hj : j < g.regionCount
      · rw [if_pos hj, run_bind, run_deleteUnlockLoop h c hre h0 _ _ _ _ (by show 0 + _ ≤ _; omega), Option.bind_some] at hr
        dsimp only at hr
        rw [clamped_eq h, show (0 : W).toNat = 0 from rfl, Nat.zero_add, hPm, lockMany_restore _ _ _ _ hz, run_bind, hlast, Option.bind_some, run_pure] at hr
        exact hsame hr
      · rw [if_neg hj, run_bind] at hr
        generalize run g c (deleteFreeLoop g j (enclaveRegionBitmap e) g.regionCount.toNat 0) _ = x1 at hr
        cases x1 with
        | none => cases hr
        | some x1 =>
            rw [Option.bind_some, run_bind] at hr
            generalize run g c (deleteUnlockLoop _ _ _ _ _) _ = x2 at hr
            cases x2 with
            | none => cases hr
            | some x2 =>
                rw [Option.bind_some, run_bind, run_clearLock h (clamped_lt h e), Option.bind_some, run_pure] at hr
                injection hr with hr; injection hr with hr _
                exact absurd hr.symm hv
    · have h4' : (m.mem (e.toNat + offThreadCount.toNat) != 0) = true := bne_iff_ne.2 h4
      rw [if_pos h4', run_finish h c hid] at hr
      exact hsame hr
  · obtain ⟨x, h4, h5⟩ := run_withLocked_err h c e hl (fun r => _) hid
    rw [h4] at hr
    exact hsame hr

/-! ### C22 -/

/-- C22, in full. -/
def C22_statement (g : Cfg) : Prop :=
  ∀ c k m v m', c < g.cores → call g c k m = some (v, m') → v ≠ monitorOk → m' = m

/-- C22 for the covered calls, in every state the monitor's code expects. -/
theorem C22_failure_is_noop_partial (h : g.WF) {c : Nat} (hc : c < g.cores) {k : Call} {m m' : Machine} {v : W} (hs : StateOk g c m)
    (hk : NoopOnFailure g m k) (hr : call g c k m = some (v, m')) (hv : v ≠ monitorOk) : m' = m := by
  have hof : (∃ v m1, call g c k m = some (v, m1) ∧ (v ≠ monitorOk → m1 = m)) → m' = m := by
    rintro ⟨v1, m1, q1, q2⟩
    rw [q1] at hr
    injection hr with hr; injection hr with r1 r2
    subst r1; subst r2; exact q2 hv
  have hsame : (∃ v, call g c k m = some (v, m)) → m' = m := fun ⟨v1, q1⟩ => hof ⟨v1, m, q1, fun _ => rfl⟩
  have hids : ∀ e, ValidId g m e → RecordOk g e := fun e hv => (hs.ids e hv).1
  have hlt : ∀ {e : W}, LockTried g m m' e → (EnclavePage g m e → m.mem e.toNat = 0 ∨ m.mem e.toNat = 1) → m' = m := by
    rintro e (rfl | ⟨q1, q2, q3, -⟩) hw
    · rfl
    · exact absurd (hw q1) (fun hh => hh.elim q2 q3)
  cases k with
  | dramSize => exact hsame ⟨_, rfl⟩
  | dramRegionMask => exact hsame ⟨_, rfl⟩
  | blockDramRegion r =>
      obtain ⟨v, m1, q1, -, -, q4⟩ := C15_block_exact h hc r hs.locks hs.caller hs.dma
      exact hof ⟨v, m1, q1, q4⟩
  | dramRegionCheckOwnership r => exact hsame ⟨_, (C19_check_ownership h hc r hs.locks).choose_spec.1⟩
  | acceptThread t i => exact absurd hk id
  | exitEnclave => exact hsame ⟨_, run_exitEnclave h hc m⟩
  | setDmaRange b n =>
      obtain ⟨v, m1, q1, -, -, q4⟩ := C49_set_dma_exact h c b n hs.locks
      exact hof ⟨v, m1, q1, q4⟩
  | dramRegionState r => exact hsame ⟨_, (C19_state h c r hs.locks).choose_spec.1⟩
  | dramRegionOwner r => exact hsame ⟨_, (C19_owner h c r hs.locks).choose_spec.1⟩
  | assignDramRegion r e =>
      obtain ⟨v, m1, q1, -, -, q4⟩ := C16_assign_exact h c r e hs.locks (fun ho => by
        by_cases h0 : e = 0
        · rw [h0]; exact recordOk_zero
        · exact hids e ⟨h0, ho⟩)
      exact hof ⟨v, m1, q1, q4⟩
  | freeDramRegion r =>
      obtain ⟨v, m1, q1, -, -, q4⟩ := C17_free_exact h c r hs.locks
      exact hof ⟨v, m1, q1, q4⟩
  | flushCachedDramRegions =>
      obtain ⟨m1, q1, -⟩ := C50_flush_exact h hc m
      exact hof ⟨_, m1, q1, fun hn => absurd rfl hn⟩
  | createMetadataRegion r =>
      obtain ⟨v, m1, q1, -, -, q4⟩ := C18_create_metadata_exact h c r hs.locks (by rw [hs.region0]; decide)
      exact hof ⟨v, m1, q1, q4⟩
  | metadataRegionPages => exact hsame ⟨_, rfl⟩
  | metadataRegionStart => exact hsame ⟨_, rfl⟩
  | threadMetadataPages => exact hsame ⟨_, rfl⟩
  | enclaveMetadataPages n => exact hsame ⟨_, rfl⟩
  | createEnclave e b k n d =>
      obtain ⟨q1, q2⟩ := run_createEnclave ⟨h, hk.1, hk.2⟩ c e b k n d hs.locks hs.region0
      rcases Classical.em (CreateOk g m e b k n) with hok | hok
      · obtain ⟨mem', q3, -⟩ := q1 hok
        exact hof ⟨_, _, q3, fun hn => absurd rfl hn⟩
      · obtain ⟨x, q3, -⟩ := q2 hok
        exact hsame ⟨x, q3⟩
  | loadPageTable e p v l a => obtain ⟨x, q, -⟩ := run_loadPageTable h c e p v l a hs.locks (hids e); exact hsame ⟨x, q⟩
  | loadPage e p v o a => obtain ⟨x, q, -⟩ := run_loadPage h c e p v o a hs.locks (hids e); exact hsame ⟨x, q⟩
  | loadThread e t a b p q =>
      obtain ⟨v1, m1, q1, -, q3⟩ := run_loadThread ⟨h, hk.1, hk.2.1⟩ c e t a b p q hs.locks hs.region0
      have q1 : call g c (.loadThread e t a b p q) m = _ := q1
      rw [q1] at hr; injection hr with hr; injection hr with r1 r2
      subst r2; exact hlt q3 hk.2.2
  | assignThread e t =>
      obtain ⟨v1, m1, q1, -, q3⟩ := run_assignThread ⟨h, hk.1, hk.2.1⟩ c e t hs.locks hs.region0
      have q1 : call g c (.assignThread e t) m = _ := q1
      rw [q1] at hr; injection hr with hr; injection hr with r1 r2
      subst r2; exact hlt q3 hk.2.2
  | initEnclave e =>
      obtain ⟨q1, q2⟩ := run_initEnclave h c e hs.locks (hids e)
      rcases Classical.em (IdReady g m e ∧ m.initialized e = 0) with hok | hok
      · obtain ⟨mem', q3, -⟩ := q1 hok
        exact hof ⟨_, _, q3, fun hn => absurd rfl hn⟩
      · obtain ⟨x, q3, -⟩ := q2 hok
        exact hsame ⟨x, q3⟩
  | enterEnclave e t =>
      obtain ⟨q1, q2⟩ := run_enterEnclave h c e t hs.locks (hids e)
      rcases Classical.em (IdReady g m e ∧ m.initialized e ≠ 0) with hok | hok
      · exact hof ⟨_, _, q1 hok, fun hn => absurd rfl hn⟩
      · obtain ⟨x, q3, -⟩ := q2 hok
        exact hsame ⟨x, q3⟩
  | createThread t p =>
      rcases run_createThread h hc t p hs.locks hs.caller with ⟨x, q, -⟩ | ⟨q, -⟩
      · exact hsame ⟨x, q⟩
      · exact hof ⟨_, _, q, fun hn => absurd rfl hn⟩
  | deleteThread t =>
      refine hof ⟨_, _, run_deleteThread h hc t hs.locks, fun hn => ?_⟩
      cases hlk : m.locked g (regionOf g (m.running c).toNat)
      · rw [hlk] at hn; exact absurd rfl hn
      · exact st_locked hs.locks (regionOf_lt h _) hlk
  | deleteEnclave e => exact deleteEnclave_fail h c e hs.locks (hids e) hr hv
  | copyDebugEnclavePage e a o d => exact (run_copyDebug_any h c e a o d hs.locks hr).1 hv

/-- In particular, in every state reached from boot by covered calls. -/
theorem C22_reachable_partial {m1 : Machine} (hb : FromBoot g m1) {l : List Event} {m2 : Machine} (hh : Hist g m1 l m2) (hcov : CoveredHist g l)
    {c : Nat} (hc : c < g.cores) {k : Call} (hk : NoopOnFailure g m2 k) {v : W} {m3 : Machine} (hr : call g c k m2 = some (v, m3))
    (hv : v ≠ monitorOk) : m3 = m2 :=
  C22_failure_is_noop_partial hb.wf hc ((hist_inv hb.wf hh hcov hb.inv).stateOk hb.wf hc) hk hr hv

/-- The hypotheses are met by calls that fail. -/
example : StateOk toyG 0 toyM ∧ NoopOnFailure toyG toyM (.freeDramRegion 3) ∧
    (call toyG 0 (.freeDramRegion 3) toyM).map Prod.fst = some monitorInvalidState := by
  refine ⟨toy_fromBoot.inv.stateOk toy_wf (by set_option maxRecDepth 100000 in decide +kernel), trivial, ?_⟩
  set_option maxRecDepth 100000 in decide +kernel

set_option maxRecDepth 100000 in
/-- `accept_thread`, called by the OS with the address of page 1 and a page that is in use, fails, but leaves a "lock" set somewhere in memory. -/
theorem accept_leaves_trace : (call toyG 0 (.acceptThread 0x9000 0x1000) (toyM.st 0x8008 5)).map (fun x =>
    (x.1 == monitorOk, (toyM.st 0x8008 5).mem 163968, x.2.mem 163968)) = some (false, 0, 1) := by decide +kernel

theorem C22_statement_false : ∃ g, g.WF ∧ ¬ C22_statement g := by
  refine ⟨toyG, toy_wf, fun hst => ?_⟩
  have ht := accept_leaves_trace
  cases hc : call toyG 0 (.acceptThread 0x9000 0x1000) (toyM.st 0x8008 5) with
  | none => rw [hc] at ht; cases ht
  | some x =>
      rw [hc] at ht
      simp only [Option.map_some, Option.some.injEq, Prod.mk.injEq, beq_eq_false_iff_ne] at ht
      have := hst 0 _ _ x.1 x.2 (by set_option maxRecDepth 100000 in decide +kernel) hc ht.1
      rw [this, ht.2.1] at ht
      exact absurd ht.2.2 (by decide)

/-! ### C23 -/

/-- C23, in full, for the region locks. -/
def C23_statement (g : Cfg) (m1 : Machine) : Prop :=
  ∀ l m2 c k v m3, Hist g m1 l m2 → c < g.cores → call g c k m2 = some (v, m3) → ∀ i, i < g.regions → m3.mem (lockA g i) = m2.mem (lockA g i)

/-- C23 for the covered calls: every region lock has the value it had when the call started. -/
theorem C23_locks_released_partial (h : g.WF) {c : Nat} (hc : c < g.cores) {k : Call} {m m' : Machine} {v : W} (hs : StateOk g c m)
    (hk : Releases g m v k) (hr : call g c k m = some (v, m')) : ∀ i, i < g.regions → m'.mem (lockA g i) = m.mem (lockA g i) := by
  intro i hi
  have hof : (∃ v1 m1, call g c k m = some (v1, m1) ∧ (v1 = v → m1.mem (lockA g i) = m.mem (lockA g i))) → m'.mem (lockA g i) = m.mem (lockA g i) := by
    rintro ⟨v1, m1, q1, q2⟩
    rw [q1] at hr
    injection hr with hr; injection hr with r1 r2
    subst r1; subst r2; exact q2 rfl
  have hsame : (∃ v, call g c k m = some (v, m)) → m'.mem (lockA g i) = m.mem (lockA g i) := fun ⟨v1, q1⟩ => hof ⟨v1, m, q1, fun _ => rfl⟩
  have hids : ∀ e, ValidId g m e → RecordOk g e := fun e hv => (hs.ids e hv).1
  have hlk := lockA_lt h hi
  have hbm : ∀ e r, RecordOk g e → lockA g i ≠ bmWordA g e r := by
    intro e r he
    have hb := bmWordA_ge h he r
    obtain ⟨l1, l2, l3, l4, l5, l6, l7, l8, l9, l10, l11, l12⟩ := h.layout
    unfold lockA; omega
  have hlt : ∀ {e : W} {m' : Machine}, g.MetaOk → LockTried g m m' e → m'.mem (lockA g i) = m.mem (lockA g i) := by
    intro e m' hm ht
    exact (lockTried_top hm hs.region0 ht).1 _ (by omega)
  cases k with
  | dramSize => exact hsame ⟨_, rfl⟩
  | dramRegionMask => exact hsame ⟨_, rfl⟩
  | blockDramRegion r =>
      obtain ⟨v, m1, q1, q2, q3, q4⟩ := C15_block_exact h hc r hs.locks hs.caller hs.dma
      refine hof ⟨v, m1, q1, fun _ => ?_⟩
      by_cases hv : v = monitorOk
      · exact (q3 hv).mem _ (fun hh => hh.elim (by simp) (fun hh => hh.elim (by simp) (fun hh => hh.elim (by simp) (fun hh =>
          hh.elim (lockA_ne_clockA h hi) (hbm _ _ hs.caller)))))
      · rw [q4 hv]
  | dramRegionCheckOwnership r => exact hsame ⟨_, (C19_check_ownership h hc r hs.locks).choose_spec.1⟩
  | acceptThread t i => exact absurd hk id
  | exitEnclave => exact hsame ⟨_, run_exitEnclave h hc m⟩
  | setDmaRange b n =>
      obtain ⟨v, m1, q1, -, q3, q4⟩ := C49_set_dma_exact h c b n hs.locks
      refine hof ⟨v, m1, q1, fun _ => ?_⟩
      by_cases hv : v = monitorOk
      · rw [(q3 hv).mem]
      · rw [q4 hv]
  | dramRegionState r => exact hsame ⟨_, (C19_state h c r hs.locks).choose_spec.1⟩
  | dramRegionOwner r => exact hsame ⟨_, (C19_owner h c r hs.locks).choose_spec.1⟩
  | assignDramRegion r e =>
      have hrec : m.owner g (idRegion g e) = e → RecordOk g e := (fun ho => by
        by_cases h0 : e = 0
        · rw [h0]; exact recordOk_zero
        · exact hids e ⟨h0, ho⟩)
      obtain ⟨v, m1, q1, q2, q3, q4⟩ := C16_assign_exact h c r e hs.locks hrec
      refine hof ⟨v, m1, q1, fun _ => ?_⟩
      by_cases hv : v = monitorOk
      · exact (q3 hv).mem _ (fun hh => hh.elim (by simp) (hbm _ _ (hrec (q2.1 hv).2.2.2.2.2)))
      · rw [q4 hv]
  | freeDramRegion r =>
      obtain ⟨v, m1, q1, -, q3, q4⟩ := C17_free_exact h c r hs.locks
      refine hof ⟨v, m1, q1, fun _ => ?_⟩
      by_cases hv : v = monitorOk
      · exact (q3 hv).mem _ (by simp)
      · rw [q4 hv]
  | flushCachedDramRegions =>
      obtain ⟨m1, q1, q2⟩ := C50_flush_exact h hc m
      exact hof ⟨_, m1, q1, fun _ => q2.mem _ (lockA_ne_flushedA h hc)⟩
  | createMetadataRegion r =>
      obtain ⟨v, m1, q1, q2, q3, q4⟩ := C18_create_metadata_exact h c r hs.locks (by rw [hs.region0]; decide)
      refine hof ⟨v, m1, q1, fun _ => ?_⟩
      by_cases hv : v = monitorOk
      · have hro := (q2.1 hv).2.2
        have hr0 : r.toNat ≠ 0 := by intro hh; rw [hh, hs.region0] at hro; exact absurd hro (by decide)
        have h1 := region_start_ge g hr0
        have h2 := h.top_le
        exact (q3 hv).mem _ (fun hh => hh.elim (by simp) (fun hh => hh.elim (by simp) (fun hh => by omega)))
      · rw [q4 hv]
  | metadataRegionPages => exact hsame ⟨_, rfl⟩
  | metadataRegionStart => exact hsame ⟨_, rfl⟩
  | threadMetadataPages => exact hsame ⟨_, rfl⟩
  | enclaveMetadataPages n => exact hsame ⟨_, rfl⟩
  | createEnclave e b k n d =>
      have hm : g.MetaOk := ⟨h, hk.1, hk.2⟩
      obtain ⟨q1, q2⟩ := run_createEnclave hm c e b k n d hs.locks hs.region0
      rcases Classical.em (CreateOk g m e b k n) with hok | hok
      · obtain ⟨mem', q3, -, -, q5⟩ := q1 hok
        exact hof ⟨_, _, q3, fun _ => q5 _ (fun hh => by have := create_above hm hs.region0 hok hh; omega)⟩
      · obtain ⟨x, q3, -⟩ := q2 hok
        exact hsame ⟨x, q3⟩
  | loadPageTable e p v l a => obtain ⟨x, q, -⟩ := run_loadPageTable h c e p v l a hs.locks (hids e); exact hsame ⟨x, q⟩
  | loadPage e p v o a => obtain ⟨x, q, -⟩ := run_loadPage h c e p v o a hs.locks (hids e); exact hsame ⟨x, q⟩
  | loadThread e t a b p q =>
      have hm : g.MetaOk := ⟨h, hk.1, hk.2⟩
      obtain ⟨v1, m1, q1, -, q3⟩ := run_loadThread hm c e t a b p q hs.locks hs.region0
      exact hof ⟨v1, m1, q1, fun _ => hlt hm q3⟩
  | assignThread e t =>
      have hm : g.MetaOk := ⟨h, hk.1, hk.2⟩
      obtain ⟨v1, m1, q1, -, q3⟩ := run_assignThread hm c e t hs.locks hs.region0
      exact hof ⟨v1, m1, q1, fun _ => hlt hm q3⟩
  | initEnclave e =>
      obtain ⟨q1, q2⟩ := run_initEnclave h c e hs.locks (hids e)
      rcases Classical.em (IdReady g m e ∧ m.initialized e = 0) with hok | hok
      · obtain ⟨mem', q3, -, q5⟩ := q1 hok
        obtain ⟨r1, r2, r3⟩ := hids e hok.1.1 hok.1.1.1
        exact hof ⟨_, _, q3, fun _ => q5 _ (by omega) (by omega)⟩
      · obtain ⟨x, q3, -⟩ := q2 hok
        exact hsame ⟨x, q3⟩
  | enterEnclave e t =>
      obtain ⟨q1, q2⟩ := run_enterEnclave h c e t hs.locks (hids e)
      rcases Classical.em (IdReady g m e ∧ m.initialized e ≠ 0) with hok | hok
      · exact hof ⟨_, _, q1 hok, fun hn => absurd hn.symm hk⟩
      · obtain ⟨x, q3, -⟩ := q2 hok
        exact hsame ⟨x, q3⟩
  | createThread t p =>
      rcases run_createThread h hc t p hs.locks hs.caller with ⟨x, q, -⟩ | ⟨q, -⟩
      · exact hsame ⟨x, q⟩
      · exact hof ⟨_, _, q, fun hn => absurd hn.symm hk⟩
  | deleteThread t =>
      refine hof ⟨_, _, run_deleteThread h hc t hs.locks, fun hn => ?_⟩
      cases hlk : m.locked g (regionOf g (m.running c).toNat)
      · rw [hlk] at hn; exact absurd hn.symm hk
      · rw [st_locked hs.locks (regionOf_lt h _) hlk]
  | deleteEnclave e =>
      obtain ⟨x, q, -⟩ := run_deleteEnclave h c e hs.locks (hids e) (fun hv => (hs.ids e hv).2) hk
      exact hsame ⟨x, q⟩
  | copyDebugEnclavePage e a o d =>
      obtain ⟨k1, k2, k3⟩ := hk
      obtain ⟨q1, q2⟩ := run_copyDebug h c e a o d hs.locks k1
      rcases Classical.em (CopyOk g m e a o) with hok | hok
      · refine hof ⟨_, _, q2 hok k2 k3, fun _ => ?_⟩
        cases d
        · show copied m.mem 512 a.toNat o.toNat _ = _
          unfold copied; rw [if_neg (by omega)]
        · show copied m.mem 512 o.toNat a.toNat _ = _
          unfold copied; rw [if_neg (by omega)]
      · obtain ⟨x, q3, -⟩ := q1 hok
        exact hsame ⟨x, q3⟩

/-- C23 for the enclave locks: the two calls that take one give it back (lock words hold 0 or 1). -/
theorem C23_enclave_lock (h : g.WF) (hss : g.SingleStripe) (hso : g.ShiftOk) {c : Nat} (hc : c < g.cores) {e : W} {k : Call}
    (hk : (∃ t, k = .assignThread e t) ∨ ∃ t p1 p2 p3 p4, k = .loadThread e t p1 p2 p3 p4) {m m' : Machine} {v : W}
    (hs : StateOk g c m) (hw : m.mem e.toNat = 0 ∨ m.mem e.toNat = 1) (hr : call g c k m = some (v, m')) : m' = m := by
  have hgen : v ≠ monitorOk → m' = m := by
    rcases hk with ⟨t, rfl⟩ | ⟨t, p1, p2, p3, p4, rfl⟩
    · exact C22_failure_is_noop_partial h hc hs (k := .assignThread e t) ⟨hss, hso, fun _ => hw⟩ hr
    · exact C22_failure_is_noop_partial h hc hs (k := .loadThread e t p1 p2 p3 p4) ⟨hss, hso, fun _ => hw⟩ hr
  apply hgen
  rcases hk with ⟨t, rfl⟩ | ⟨t, p1, p2, p3, p4, rfl⟩
  · obtain ⟨v1, m1, q1, q2, -⟩ := run_assignThread ⟨h, hss, hso⟩ c e t hs.locks hs.region0
    have q1 : call g c (.assignThread e t) m = _ := q1
    rw [q1] at hr; injection hr with hr; injection hr with r1 r2
    rw [← r1]; exact q2
  · obtain ⟨v1, m1, q1, q2, -⟩ := run_loadThread ⟨h, hss, hso⟩ c e t p1 p2 p3 p4 hs.locks hs.region0
    have q1 : call g c (.loadThread e t p1 p2 p3 p4) m = _ := q1
    rw [q1] at hr; injection hr with hr; injection hr with r1 r2
    rw [← r1]; exact q2

/-- The hypotheses are met by calls that succeed, on several locks. -/
example : StateOk toyG 0 toyM ∧ Releases toyG toyM monitorOk (.setDmaRange 0x10000 0xffff) ∧
    (call toyG 0 (.setDmaRange 0x10000 0xffff) toyM).map Prod.fst = some monitorOk := by
  refine ⟨toy_fromBoot.inv.stateOk toy_wf (by set_option maxRecDepth 100000 in decide +kernel), trivial, ?_⟩
  set_option maxRecDepth 100000 in decide +kernel

set_option maxRecDepth 100000 in
theorem deleteThread_keeps_lock : (call toyG 0 (.deleteThread 0) toyM).map (fun x => (x.1, x.2.mem (lockA toyG 0), toyM.mem (lockA toyG 0))) =
    some (monitorOk, 1, 0) := by decide +kernel

/-- C23 is false of the code: `delete_thread` returns `monitor_ok` and keeps the lock of region 0. -/
theorem C23_statement_false : ∃ g m, FromBoot g m ∧ ¬ C23_statement g m := by
  refine ⟨toyG, toyM, toy_fromBoot, fun hst => ?_⟩
  have ht := deleteThread_keeps_lock
  cases hc : call toyG 0 (.deleteThread 0) toyM with
  | none => rw [hc] at ht; cases ht
  | some x =>
      rw [hc] at ht
      simp only [Option.map_some, Option.some.injEq, Prod.mk.injEq] at ht
      have := hst [] toyM 0 _ x.1 x.2 (.nil _) (by set_option maxRecDepth 100000 in decide +kernel) hc 0 (by set_option maxRecDepth 100000 in decide +kernel)
      rw [ht.2.1, ht.2.2] at this
      exact absurd this (by decide)

end Sanctum
