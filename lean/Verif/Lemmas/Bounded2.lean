import Verif.Lemmas.Bounded
import Verif.Lemmas.ThreadPages
/-
Every call makes at most `stepBound g` actions: the calls.
-/
namespace Sanctum

variable {g : Cfg}

theorem bnd_initHash (a : W) : Bnd 17 (initHash a) := by
  unfold initHash
  refine .bind (bnd_store32 _ _) (by omega) (fun _ => .bind (bnd_store32 _ _) (by omega) (fun _ => .bind (bnd_store32 _ _) (by omega) (fun _ =>
    .bind (bnd_store32 _ _) (by omega) (fun _ => .bind (bnd_store32 _ _) (by omega) (fun _ => .bind (bnd_store32 _ _) (by omega) (fun _ =>
    .bind (bnd_store32 _ _) (by omega) (fun _ => .bind (bnd_store32 _ _) (by omega) (fun _ => ?_))))))))
  exact .bind (bnd_bzero _ _) (by decide) (fun _ => (bnd_store32 _ _).mono (by decide))

theorem bnd_initEnclaveHash (e b k n : W) (d : Bool) : Bnd 444 (initEnclaveHash e b k n d) := by
  unfold initEnclaveHash
  refine .bind (bnd_bzero _ _) (by decide) (fun _ => .bind (bnd_initHash _) (by decide) (fun _ => ?_))
  rw [show (444 - BitVec.toNat (64 : W) / 8 - 17) = 419 from rfl]
  refine .bind (bnd_store _ _) (by omega) (fun _ => .bind (bnd_store _ _) (by omega) (fun _ => .bind (bnd_store _ _) (by omega) (fun _ =>
    .bind (bnd_store _ _) (by omega) (fun _ => .bind (bnd_store _ _) (by omega) (fun _ => .bind (bnd_extendHash _ _) (by omega) (fun _ =>
    .bind (bnd_store _ _) (by omega) (fun _ => .bind (bnd_store _ _) (by omega) (fun _ => .bind (bnd_store _ _) (by omega) (fun _ => ?_)))))))))
  exact (bnd_store _ _).mono (by omega)

theorem bnd_hashThread (e a b c d : W) : Bnd 419 (extendHashWithThread e a b c d) := by
  unfold extendHashWithThread
  refine .bind (bnd_store _ _) (by omega) (fun _ => .bind (bnd_store _ _) (by omega) (fun _ => .bind (bnd_store _ _) (by omega) (fun _ =>
    .bind (bnd_store _ _) (by omega) (fun _ => .bind (bnd_store _ _) (by omega) (fun _ => .bind (bnd_extendHash _ _) (by omega) (fun _ =>
    .bind (bnd_store _ _) (by omega) (fun _ => .bind (bnd_store _ _) (by omega) (fun _ => .bind (bnd_store _ _) (by omega) (fun _ => ?_)))))))))
  exact (bnd_store _ _).mono (by omega)

theorem bnd_finalizeEnclaveHash (e : W) : Bnd 821 (finalizeEnclaveHash e) := by
  unfold finalizeEnclaveHash
  exact .bind (bnd_store _ _) (by omega) (fun _ => .bind (bnd_extendHash _ _) (by omega) (fun _ => (bnd_extendHash _ _).mono (by omega)))

theorem bnd_initEnclaveInfo (e b k n : W) (d : Bool) : Bnd 454 (initEnclaveInfo e b k n d) := by
  unfold initEnclaveInfo
  refine .bind (bnd_store _ _) (by omega) (fun _ => .bind (bnd_store _ _) (by omega) (fun _ => .bind (bnd_store _ _) (by omega) (fun _ =>
    .bind (bnd_store _ _) (by omega) (fun _ => .bind (bnd_store _ _) (by omega) (fun _ => .bind (bnd_store _ _) (by omega) (fun _ =>
    .bind (bnd_store _ _) (by omega) (fun _ => .bind (bnd_store _ _) (by omega) (fun _ => .bind (bnd_store _ _) (by omega) (fun _ =>
    .bind (bnd_store _ _) (by omega) (fun _ => ?_))))))))))
  exact (bnd_initEnclaveHash _ _ _ _ _).mono (by omega)

theorem bnd_lockMeta (a : W) : Bnd 3 (lockMetadataRegionFor g a) := by unfold lockMetadataRegionFor; bnd

theorem bnd_lockEnclave (e : W) : Bnd 6 (lockEnclave g e) := by
  unfold lockEnclave
  refine .ite (fun _ => .pure _) (fun _ => .bind (bnd_lockMeta _) (by omega) (fun x => ?_))
  obtain ⟨a, b⟩ := x
  dsimp only
  bnd

theorem bnd_assignPages (h : g.WF) (a n o t f : W) (hn : n.toNat < 2 ^ 52) : Bnd (2 * g.stripePages.toNat + 1) (assignMetadataPages g a n o t f) := by
  unfold assignMetadataPages
  refine .ite (fun _ => .pure _) (fun hle => ?_)
  have hle' : n.toNat ≤ g.stripePages.toNat := by
    have h1 : (dramStripePageFor g a).toNat < 2 ^ 52 := by
      unfold dramStripePageFor
      rw [BitVec.toNat_ushiftRight, Nat.shiftRight_eq_div_pow]
      have := BitVec.isLt (a &&& g.stripePageMask)
      simp only [pageShift]
      omega
    have h2 : ¬ (g.stripePages.toNat < (dramStripePageFor g a + n).toNat) := by
      intro hh; exact hle (by rw [gt_iff_lt, W.lt_iff]; exact hh)
    rw [BitVec.toNat_add, Nat.mod_eq_of_lt (by omega)] at h2
    omega
  refine .bind (bnd_pagesEmpty _ _) (by omega) (fun _ => .ite (fun _ => ?_) (fun _ => .pure _))
  rcases Nat.eq_zero_or_pos n.toNat with h0 | h0
  · rw [h0]
    exact .bind (bnd_store _ _) (by omega) (fun _ => .bind (bnd_innerPages _ _) (by omega) (fun _ => .pure _))
  · exact .bind (bnd_store _ _) (by omega) (fun _ => .bind (bnd_innerPages _ _) (by omega) (fun _ => .pure _))

theorem bnd_withLocked {n : Nat} (e : W) (k : W → Prog W) (h1 : 1 ≤ n) (hk : ∀ r, Bnd n (k r)) : Bnd (n + 2) (withLockedEnclave g e k) := by
  unfold withLockedEnclave
  dsimp only
  refine .bind (bnd_tasLock _) (by omega) (fun _ => .ite (fun _ => .pure _) (fun _ => ?_))
  refine .bind (n1 := 1) (.ite (fun _ => .pure _) (fun _ => bnd_isValidEnclaveId _)) (by omega) (fun _ => .ite (fun _ => ?_) (fun _ => (hk _).mono (by omega)))
  exact .bind (bnd_clearLock _) (by omega) (fun _ => .pure _)

theorem bnd_block (r : W) : Bnd (23 + g.bitmapWords.toNat) (blockDramRegion g r) := by
  unfold blockDramRegion
  refine .ite (fun _ => .pure _) (fun _ => ?_)
  refine .bind (bnd_tasLock _) (by omega) (fun _ => .ite (fun _ => .pure _) (fun _ => ?_))
  refine .bind (bnd_readOwner _) (by omega) (fun owner => .bind bnd_currentEnclave (by omega) (fun cur => .ite (fun _ => by bnd) (fun _ => ?_)))
  refine .bind (n1 := 1) (by bnd1) (by omega) (fun _ => .ite (fun _ => by bnd) (fun _ => ?_))
  dsimp only
  refine .bind (bnd_tasLock _) (by omega) (fun _ => .ite (fun _ => by bnd) (fun _ => ?_))
  refine .bind (n1 := 8) (.ite (fun _ => bnd_dmaRangeCrossed _) (fun _ => .pure _)) (by omega) (fun _ => .ite (fun _ => by bnd) (fun _ => ?_))
  have e : 23 + g.bitmapWords.toNat - 1 - 1 - 2 - 1 - 1 - 8 = 9 + g.bitmapWords.toNat := by omega
  rw [e]
  refine .bind (bnd_store _ _) (by omega) (fun _ => .bind (bnd_store _ _) (by omega) (fun _ => .bind (bnd_act _) (by omega) (fun _ => .bind (bnd_store _ _) (by omega) (fun _ =>
    .bind (bnd_setEnclaveBit _ _ _) (by omega) (fun _ => .bind (n1 := g.bitmapWords.toNat + 1) (.ite (fun _ => bnd_setDrbMap _) (fun _ => bnd_setEdrbMap _)) (by omega) (fun _ => ?_))))))
  exact .bind (bnd_clearLock _) (by omega) (fun _ => .bind (bnd_clearLock _) (by omega) (fun _ => .pure _))

theorem bnd_setDma (h : g.WF) (b k : W) : Bnd (3 * (g.dramSize.toNat / g.stripeSize.toNat + 1) + 6) (setDmaRange g b k) := by
  unfold setDmaRange
  refine .ite (fun _ => .pure _) (fun _ => .ite (fun _ => .pure _) (fun hd => ?_))
  have hd' : (b ||| k).toNat < g.dramSize.toNat := (isDramAddress_iff _).1 (by simpa using hd)
  have hdl := h.dram_le
  have hS : 0 < g.stripeSize.toNat := by have := h.stripe_ge; omega
  have he : ((b ||| k) + 1).toNat ≤ g.dramSize.toNat := by
    rw [BitVec.toNat_add, show (1 : W).toNat = 1 from rfl]; omega
  refine .bind (bnd_tasLock _) (by omega) (fun _ => .ite (fun _ => .pure _) (fun _ => ?_))
  dsimp only
  refine .bind (bnd_dmaLoop h _ he (2 ^ 64) (g.dramSize.toNat / g.stripeSize.toNat + 1) b true ?_ ?_) (by omega) (fun x => ?_)
  · have h1 := Nat.div_add_mod g.dramSize.toNat g.stripeSize.toNat
    have h2 := Nat.mod_lt g.dramSize.toNat hS
    rw [Nat.add_mul, Nat.one_mul, Nat.mul_comm (g.dramSize.toNat / _)]
    omega
  · have := Nat.div_le_self g.dramSize.toNat g.stripeSize.toNat
    omega
  · cases x with
    | none => exact .pure _
    | some o => dsimp only; bnd

theorem bnd_createMeta (r : W) : Bnd (512 * g.metaStart.toNat + 5) (createMetadataRegion g r) := by
  unfold createMetadataRegion
  refine .ite (fun _ => .pure _) (fun _ => .bind (bnd_tasLock _) (by omega) (fun _ => .ite (fun _ => .pure _) (fun _ => ?_)))
  refine .bind (bnd_readOwner _) (by omega) (fun _ => .ite (fun _ => by bnd) (fun _ => ?_))
  refine .bind (n1 := 512 * g.metaStart.toNat + 2) ?_ (by omega) (fun _ => by bnd)
  unfold initMetadataRegion
  refine .bind (bnd_store _ _) (by omega) (fun _ => .bind (bnd_store _ _) (by omega) (fun _ => (bnd_bzero _ _).mono ?_))
  rw [BitVec.toNat_shiftLeft, Nat.shiftLeft_eq]
  have := Nat.mod_le (g.metaStart.toNat * 2 ^ pageShift) (2 ^ 64)
  simp only [pageShift] at this ⊢
  omega

theorem bnd_free (r : W) : Bnd (g.cores + 5) (freeDramRegion g r) := by
  unfold freeDramRegion
  refine .ite (fun _ => .pure _) (fun _ => .bind (bnd_tasLock _) (by omega) (fun _ => .ite (fun _ => .pure _) (fun _ => ?_)))
  refine .bind (bnd_readOwner _) (by omega) (fun _ => .ite (fun _ => ?_) (fun _ => by bnd))
  refine .bind (bnd_load _) (by omega) (fun _ => ?_)
  exact .bind (bnd_coresFlushed _ _ _) (by unfold Cfg.cores; omega) (fun _ => by unfold Cfg.cores; bnd)

theorem bnd_createEnclave (h : g.WF) (e b k n : W) (d : Bool) : Bnd (2 * g.stripePages.toNat + 460) (createEnclave g e b k n d) := by
  unfold createEnclave
  refine .ite (fun _ => .pure _) (fun _ => .ite (fun _ => .pure _) (fun _ => .bind (bnd_lockMeta _) (by omega) (fun x => ?_)))
  obtain ⟨x, y⟩ := x
  dsimp only
  refine .ite (fun _ => .pure _) (fun _ => .bind (bnd_readOwner _) (by omega) (fun _ => .ite (fun _ => by bnd) (fun _ => ?_)))
  refine .bind (bnd_assignPages h _ _ _ _ _ (by rw [enclaveInfoPages_toNat]; exact recordPages_lt _)) (by omega) (fun _ => .ite (fun _ => by bnd) (fun _ => ?_))
  exact .bind (bnd_initEnclaveInfo _ _ _ _ _) (by omega) (fun _ => by bnd)

theorem bnd_reserveThread (h : g.WF) (e : W) : Bnd (2 * g.stripePages.toNat + 1) (reserveMetadataPages g e threadMetadataPages e threadPageType) :=
  bnd_assignPages h _ _ _ _ _ (by decide)

theorem bnd_assignThread (h : g.WF) (e t : W) : Bnd (2 * g.stripePages.toNat + 20) (assignThread g e t) := by
  unfold assignThread
  refine .bind (bnd_lockEnclave _) (by omega) (fun _ => .ite (fun _ => .pure _) (fun _ => .bind (bnd_lockMeta _) (by omega) (fun x => ?_)))
  obtain ⟨x, y⟩ := x
  dsimp only
  refine .ite (fun _ => by bnd) (fun _ => .bind (bnd_load _) (by omega) (fun _ => ?_))
  refine .bind (n1 := 2 * g.stripePages.toNat + 1) (.ite (fun _ => bnd_reserveThread h _) (fun _ => .pure _)) (by omega) (fun _ => ?_)
  bnd

theorem bnd_loadThread (h : g.WF) (e t a b c d : W) : Bnd (2 * g.stripePages.toNat + 460) (loadThread g e t a b c d) := by
  unfold loadThread
  refine .bind (bnd_lockEnclave _) (by omega) (fun _ => .ite (fun _ => .pure _) (fun _ => .bind (bnd_lockMeta _) (by omega) (fun x => ?_)))
  obtain ⟨x, y⟩ := x
  dsimp only
  refine .ite (fun _ => by bnd) (fun _ => .bind (bnd_load _) (by omega) (fun _ => ?_))
  refine .bind (n1 := 1) (by bnd1) (by omega) (fun _ => ?_)
  refine .bind (n1 := 2 * g.stripePages.toNat + 1) (.ite (fun _ => .pure _) (fun _ => bnd_reserveThread h _)) (by omega) (fun _ => ?_)
  refine .ite (fun _ => by bnd) (fun _ => ?_)
  refine .bind (bnd_load _) (by omega) (fun _ => .bind (bnd_store _ _) (by omega) (fun _ => .bind (bnd_store _ _) (by omega) (fun _ =>
    .bind (bnd_store _ _) (by omega) (fun _ => .bind (bnd_store _ _) (by omega) (fun _ => .bind (bnd_store _ _) (by omega) (fun _ =>
    .bind (bnd_store _ _) (by omega) (fun _ => .bind (bnd_load _) (by omega) (fun _ => .bind (bnd_store _ _) (by omega) (fun _ => ?_)))))))))
  exact .bind (bnd_hashThread _ _ _ _ _) (by omega) (fun _ => by bnd)

theorem bnd_acceptThread (h : g.WF) (t i : W) : Bnd (2 * g.stripePages.toNat + 30) (acceptThread g t i) := by
  unfold acceptThread
  refine .ite (fun _ => .pure _) (fun _ => .bind bnd_currentEnclave (by omega) (fun _ => ?_))
  dsimp only
  refine .bind (bnd_tasLock _) (by omega) (fun _ => .ite (fun _ => .pure _) (fun _ => ?_))
  refine .bind (bnd_readOwner _) (by omega) (fun _ => .ite (fun _ => by bnd) (fun _ => ?_))
  refine .bind (bnd_tasLock _) (by omega) (fun _ => .ite (fun _ => by bnd) (fun _ => ?_))
  refine .bind (bnd_assignPages h _ _ _ _ _ (by decide)) (by omega) (fun _ => .ite (fun _ => by bnd) (fun _ => by bnd))

theorem bnd_deleteEnclave (h : g.WF) (e : W) : Bnd (g.regions * (g.dramSize.toNat / 8 + 7) + 4) (deleteEnclave g e) := by
  have hsum : g.regions * (g.dramSize.toNat / 8 + 7) = g.regions * (g.dramSize.toNat / 8 + 3) + 4 * g.regions := by
    rw [show g.dramSize.toNat / 8 + 7 = (g.dramSize.toNat / 8 + 3) + 4 from rfl, Nat.mul_add, Nat.mul_comm g.regions 4]
  unfold deleteEnclave
  refine bnd_withLocked (n := g.regions * (g.dramSize.toNat / 8 + 7) + 2) e _ (by omega) (fun r => ?_)
  rw [hsum]
  refine .bind (bnd_load _) (by omega) (fun _ => .ite (fun _ => by bnd) (fun _ => ?_))
  dsimp only
  refine .bind (bnd_deleteLock _ _ _ _) (by show 2 * g.regions ≤ _; omega) (fun it => .ite (fun hlt => ?_) (fun _ => ?_))
  · rw [W.lt_iff] at hlt
    have hlt : it.toNat < g.regions := hlt
    refine .bind (bnd_deleteUnlock _ _ _ _) (by show _ ≤ _ - 2 * g.regions; omega) (fun _ => ?_)
    refine .bind (bnd_clearLock _) (by show _ ≤ _ - 2 * g.regions - _; omega) (fun _ => .pure _)
  · refine .bind (bnd_deleteFree h _ _ _ _) (by show g.regions * _ ≤ _ - 2 * g.regions; omega) (fun _ => ?_)
    refine .bind (bnd_deleteUnlock _ _ _ _) (by show 2 * g.regions ≤ _ - 2 * g.regions - g.regions * _; omega) (fun _ => ?_)
    exact .bind (bnd_clearLock _) (by show _ ≤ _ - 2 * g.regions - g.regions * _ - 2 * g.regions; omega) (fun _ => .pure _)

theorem bnd_copyDebug (e a o : W) (d : Bool) : Bnd 1032 (copyDebugEnclavePage g e a o d) := by
  unfold copyDebugEnclavePage
  refine .ite (fun _ => .pure _) (fun _ => .ite (fun _ => .pure _) (fun _ => ?_))
  dsimp only
  refine .bind (bnd_tasLock _) (by omega) (fun _ => .ite (fun _ => .pure _) (fun _ => ?_))
  refine .bind (bnd_tasLock _) (by omega) (fun _ => .ite (fun _ => by bnd) (fun _ => ?_))
  refine .bind (bnd_readOwner _) (by omega) (fun _ => .bind (bnd_readOwner _) (by omega) (fun _ => .bind (bnd_readEnclaveBit _ _) (by omega) (fun _ =>
    .bind (bnd_load _) (by omega) (fun _ => ?_))))
  refine .bind (n1 := 1024) (.ite (fun _ => .ite (fun _ => bnd_copyWords 512 _ _) (fun _ => bnd_copyWords 512 _ _)) (fun _ => .pure _)) (by omega) (fun _ => ?_)
  bnd

theorem bnd_check (r : W) : Bnd 10 (dramRegionCheckOwnership g r) := by unfold dramRegionCheckOwnership; bnd
theorem bnd_exit : Bnd 10 (exitEnclave g) := by unfold exitEnclave; bnd
theorem bnd_state (r : W) : Bnd 10 (dramRegionState g r) := by unfold dramRegionState; bnd
theorem bnd_owner (r : W) : Bnd 10 (dramRegionOwner g r) := by unfold dramRegionOwner; bnd
theorem bnd_assign (r e : W) : Bnd (20 + g.bitmapWords.toNat) (assignDramRegion g r e) := by
  unfold assignDramRegion
  refine .ite (fun _ => .pure _) (fun _ => ?_)
  refine .bind (bnd_tasLock _) (by omega) (fun _ => .ite (fun _ => .pure _) (fun _ => ?_))
  refine .bind (bnd_readOwner _) (by omega) (fun _ => .ite (fun _ => by bnd) (fun _ => ?_))
  dsimp only
  refine .bind (bnd_tasLock _) (by omega) (fun _ => .ite (fun _ => by bnd) (fun _ => ?_))
  refine .bind (bnd_isValidEnclaveId _) (by omega) (fun _ => .ite (fun _ => ?_) (fun _ => by bnd))
  refine .bind (bnd_store _ _) (by omega) (fun _ => .bind (bnd_setEnclaveBit _ _ _) (by omega) (fun _ =>
    .bind (n1 := g.bitmapWords.toNat + 1) (.ite (fun _ => bnd_setDrbMap _) (fun _ => .pure _)) (by omega) (fun _ => ?_)))
  exact .bind (bnd_clearLock _) (by omega) (fun _ => .bind (bnd_clearLock _) (by omega) (fun _ => .pure _))
theorem bnd_createThread (h : g.WF) (t p : W) : Bnd 20 (createThread g t p) := by
  unfold createThread
  refine .ite (fun _ => .pure _) (fun hp => .ite (fun _ => .pure _) (fun hd => .ite (fun _ => .pure _) (fun _ => ?_)))
  dsimp only
  rw [threadPagesLoop_ok h (by simpa using hp) (by simpa using hd)]
  refine .bind bnd_currentEnclave (by omega) (fun _ => ?_)
  refine .bind (bnd_tasLock _) (by omega) (fun _ => .ite (fun _ => .pure _) (fun _ => ?_))
  refine .bind (bnd_readBitmapBit _ _) (by omega) (fun _ => .ite (fun _ => .bind (n1 := 0) (.pure _) (by omega) (fun _ => .ite (fun _ => .pure _) (fun _ => ?_))) (fun _ => ?_))
  · exact .bind (bnd_clearLock _) (by omega) (fun _ => .pure _)
  · exact .bind (bnd_clearLock _) (by omega) (fun _ => .pure _)
theorem bnd_deleteThread (t : W) : Bnd 20 (deleteThread g t) := by unfold deleteThread; bnd

/-- Every call, in every configuration produced by boot, makes at most `stepBound g` actions. -/
theorem bnd_call (h : g.WF) (k : Call) : Bnd (stepBound g) (k.prog g) := by
  unfold stepBound
  have hbw : g.bitmapWords.toNat ≤ g.regions * (g.dramSize.toNat / 8 + 7) := by
    refine Nat.le_trans ?_ (Nat.le_mul_of_pos_right g.regions (by omega))
    rw [h.words]; omega
  cases k with
  | dramSize => exact .pure _
  | dramRegionMask => exact .pure _
  | blockDramRegion r => exact (bnd_block r).mono (by omega)
  | dramRegionCheckOwnership r => exact (bnd_check r).mono (by omega)
  | acceptThread t info => exact (bnd_acceptThread h t info).mono (by omega)
  | exitEnclave => exact bnd_exit.mono (by omega)
  | setDmaRange base mask => exact (bnd_setDma h base mask).mono (by omega)
  | dramRegionState r => exact (bnd_state r).mono (by omega)
  | dramRegionOwner r => exact (bnd_owner r).mono (by omega)
  | assignDramRegion r e => exact (bnd_assign r e).mono (by omega)
  | freeDramRegion r => exact (bnd_free r).mono (by omega)
  | flushCachedDramRegions =>
      show Bnd _ (Sanctum.flushCachedDramRegions g)
      exact bnd_flush.mono (by omega)
  | createMetadataRegion r => exact (bnd_createMeta r).mono (by omega)
  | metadataRegionPages => exact .pure _
  | metadataRegionStart => exact .pure _
  | threadMetadataPages => exact .pure _
  | enclaveMetadataPages n => exact .pure _
  | createEnclave e b k n d => exact (bnd_createEnclave h e b k n d).mono (by omega)
  | loadPageTable e p v l a =>
      show Bnd _ (Sanctum.loadPageTable g e p v l a); unfold Sanctum.loadPageTable
      refine .ite (fun _ => .pure _) (fun _ => .ite (fun _ => .pure _) (fun _ => .ite (fun _ => .pure _) (fun _ => ?_)))
      refine Bnd.mono (n := 7) (bnd_withLocked (n := 5) e _ (by omega) (fun r => by bnd)) (by omega)
  | loadPage e p v o a =>
      show Bnd _ (Sanctum.loadPage g e p v o a); unfold Sanctum.loadPage
      refine .ite (fun _ => .pure _) (fun _ => .ite (fun _ => .pure _) (fun _ => ?_))
      refine Bnd.mono (n := 7) (bnd_withLocked (n := 5) e _ (by omega) (fun r => by bnd)) (by omega)
  | loadThread e t a b c d => exact (bnd_loadThread h e t a b c d).mono (by omega)
  | assignThread e t => exact (bnd_assignThread h e t).mono (by omega)
  | initEnclave e =>
      show Bnd _ (Sanctum.initEnclave g e); unfold Sanctum.initEnclave
      refine Bnd.mono (n := 830) (bnd_withLocked (n := 828) e _ (by omega) (fun r => ?_)) (by omega)
      refine .bind (bnd_load _) (by omega) (fun _ => .ite (fun _ => by bnd) (fun _ => .bind (bnd_finalizeEnclaveHash _) (by omega) (fun _ => by bnd)))
  | enterEnclave e t =>
      show Bnd _ (Sanctum.enterEnclave g e t); unfold Sanctum.enterEnclave
      refine Bnd.mono (n := 4) (bnd_withLocked (n := 2) e _ (by omega) (fun r => by bnd)) (by omega)
  | createThread t p => exact (bnd_createThread h t p).mono (by omega)
  | deleteThread t => exact (bnd_deleteThread t).mono (by omega)
  | deleteEnclave e => exact (bnd_deleteEnclave h e).mono (by omega)
  | copyDebugEnclavePage e a o d => exact (bnd_copyDebug e a o d).mono (by omega)

end Sanctum
