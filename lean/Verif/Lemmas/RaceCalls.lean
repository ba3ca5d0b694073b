import Verif.Lemmas.Race
/-
The calls in the logic of protecting locks.
-/
namespace Sanctum
open Machine

variable {g : Cfg} {c : Nat} {α β : Type} {H : Nat → Prop}

theorem steady_osWord (hw : g.WF) {r : W} (hr : r.toNat < g.regions) (hH : H 0) : (load (bitWordA g.osBitmap r)).Steady g c H := by
  refine steady_load (Or.inr (Or.inl ⟨0, Or.inr ⟨rfl, r.toNat, hr, ?_⟩, hH⟩))
  exact osWordA_toNat hw hr

theorem steady_setOsBit (hw : g.WF) {r : W} (hr : r.toNat < g.regions) (b : Bool) (hH : H 0) : (setBitmapBit g.osBitmap r b).Steady g c H := by
  obtain ⟨h1, h2⟩ := osWord_quiet hw hr
  have hst : ∀ v, (store (bitWordA g.osBitmap r) v).Steady g c H := fun v =>
    steady_store (Or.inr ⟨0, Or.inr ⟨rfl, r.toNat, hr, osWordA_toNat hw hr⟩, hH⟩) fun i hi => (h2 i hi).1
  unfold setBitmapBit
  exact Steady.bind (steady_osWord hw hr hH) fun w => Steady.ite (fun _ => hst _) fun _ => hst _

theorem steady_snapshotLoop (hw : g.WF) (hH : H 0) (n : Nat) : ∀ (p : W) (k : Nat), p.toNat = g.osBitmap.toNat + 8 * k → k + n ≤ g.bitmapWords.toNat →
    (snapshotLoop n p).Steady g c H := by
  induction n with
  | zero => intro p k _ _; exact Steady.pure _
  | succ n ih =>
      intro p k h1 h2
      obtain ⟨l1, l2, l3, l4, l5, l6, l7, l8, l9, l10, l11, l12⟩ := hw.layout
      have := hw.arrays_le; have := hw.top_le; have := hw.dram_ge; have := g.dramSize.isLt
      have hww := hw.words
      have hreg : 64 * k < g.regions := by
        have := hw.bitmapWords
        have := hw.regionCount
        unfold Cfg.regions
        omega
      refine Steady.bind (steady_load (Or.inr (Or.inl ⟨0, Or.inr ⟨rfl, 64 * k, hreg, ?_⟩, hH⟩))) fun _ => Steady.bind (ih _ (k + 1) ?_ (by omega)) fun _ => Steady.pure _
      · rw [h1]; unfold osWordA; omega
      · rw [BitVec.toNat_add, show (8 : W).toNat = 8 from rfl]; omega

theorem steady_setDrb (hw : g.WF) (hH : H 0) : (setDrbMap g g.osBitmap).Steady g c H :=
  Steady.bind (steady_snapshotLoop hw hH _ _ 0 rfl (by omega)) fun _ => steady_own (fun _ hh => hh) fun hh => hh

theorem steady_dmaTest {o1 o2 : Op} (p q : W → Bool) (hH : H 0) (h1 : o1 = .getDmaStart ∨ o1 = .getDmaEnd) (h2 : o2 = .getDmaStart ∨ o2 = .getDmaEnd) :
    (dmaTest o1 p o2 q).Steady g c H := by
  have ha : ∀ {o : Op}, o = .getDmaStart ∨ o = .getDmaEnd → (act o).Steady g c H := by
    rintro o (rfl | rfl) <;> exact steady_dma trivial hH
  unfold dmaTest
  exact Steady.bind (ha h1) fun _ => Steady.ite (fun _ => Steady.bind (ha h2) fun _ => Steady.pure _) fun _ => Steady.pure _

theorem steady_dmaRangeCrossed (hH : H 0) {r : W} : (dmaRangeCrossed g r).Steady g c H := by
  unfold dmaRangeCrossed
  exact Steady.bind (steady_dmaTest _ _ hH (Or.inl rfl) (Or.inr rfl)) fun _ => Steady.bind (steady_dmaTest _ _ hH (Or.inr rfl) (Or.inr rfl)) fun _ =>
    Steady.bind (steady_dmaTest _ _ hH (Or.inl rfl) (Or.inr rfl)) fun _ => Steady.bind (steady_dmaTest _ _ hH (Or.inl rfl) (Or.inr rfl)) fun _ => Steady.pure _

section
variable (hw : g.WF)
include hw

theorem grd_block (hc : c < g.cores) (r : W) : (blockDramRegion g r).Grd g c Any noL := by
  unfold blockDramRegion
  refine Prog.Grd.ite (fun _ => grd_done _) fun hd => ?_
  obtain ⟨hr0, hr⟩ := (isDynamicDramRegion_iff r).1 (by simpa using hd)
  refine grd_tasLock hw hr (by rw [if_pos rfl]; exact grd_done _) fun _ => ?_
  rw [if_neg (by decide)]
  refine grd_readOwner hw hr (fun _ => one_self _) fun owner _ _ => ?_
  refine grd_currentEnclave hw hc (one_lt hr) ?_
  refine Prog.Grd.ite (fun _ => grd_rel1 hw hr _) fun ho => ?_
  have ho : owner = nullEnclaveId := by simpa using ho
  rw [ho]
  have hnn : (nullEnclaveId != nullEnclaveId) = false := rfl
  rw [hnn, if_neg (by decide)]
  refine Prog.Grd.bind (Q1 := fun _ H' => H' = addL noL r.toNat) rfl ?_
  rintro _ _ rfl
  rw [Bool.false_and, if_neg (by decide), show nullEnclaveId = (0 : W) from rfl, dramRegionFor_zero hw]
  have h0 := zero_lt hw
  refine grd_tasLock hw h0 (by rw [if_pos rfl]; exact grd_rel1 hw hr _) fun _ => ?_
  rw [if_neg (by decide), if_pos rfl]
  have hH2 := two_lt (g := g) hr h0
  have hHr : addL (addL noL r.toNat) (0 : W).toNat r.toNat := two_fst _ _
  have hH0 : addL (addL noL r.toNat) (0 : W).toNat 0 := two_snd _ _
  refine grd_steady_bind hH2 (steady_dmaRangeCrossed hH0) fun crossed => ?_
  refine Prog.Grd.ite (fun _ => grd_rel2 hw h0 hr _) fun _ => ?_
  refine grd_steady_bind hH2 (steady_rec hw hr0 hr hHr (Or.inr (Or.inl rfl)) (prevA_toNat hw hr)) fun _ => ?_
  refine grd_steady_bind hH2 (steady_rec hw hr0 hr hHr (Or.inl rfl) (ownerA_toNat hw hr)) fun _ => ?_
  refine grd_steady_bind hH2 (p := act (.fetchAdd g.regionsBase 1)) ⟨⟨fun x _ hx => Or.inl (Or.inr (Or.inl ?_)), fun hh => hh.elim⟩, fun i hi => ?_, fun _ _ => trivial⟩ fun clk => ?_
  · have hx : clockA g = x := hx
    rw [hx]
  · intro hh; have hh : clockA g = lockA g i := hh; simp [hw, hi] at hh
  refine grd_steady_bind hH2 (steady_rec hw hr0 hr hHr (Or.inr (Or.inr (Or.inr rfl))) (blockedA_toNat hw hr)) fun _ => ?_
  unfold setEnclaveRegionBitmapBit
  rw [if_pos rfl]
  refine grd_steady_bind hH2 (steady_setOsBit hw hr false hH0) fun _ => ?_
  refine grd_steady_bind hH2 (steady_setDrb hw hH0) fun _ => ?_
  exact grd_rel2 hw h0 hr _

theorem grd_check (hc : c < g.cores) (r : W) : (dramRegionCheckOwnership g r).Grd g c Any noL := by
  unfold dramRegionCheckOwnership
  refine Prog.Grd.ite (fun _ => grd_done _) fun hd => ?_
  obtain ⟨hr0, hr⟩ := (isDynamicDramRegion_iff r).1 (by simpa using hd)
  refine grd_tasLock hw hr (by rw [if_pos rfl]; exact grd_done _) fun _ => ?_
  rw [if_neg (by decide)]
  refine grd_readOwner hw hr (fun _ => one_self _) fun owner _ _ => ?_
  refine grd_currentEnclave hw hc (one_lt hr) ?_
  exact grd_rel1 hw hr _

theorem grd_state (r : W) : (dramRegionState g r).Grd g c Any noL := by
  unfold dramRegionState
  refine Prog.Grd.ite (fun _ => grd_done _) fun hd => ?_
  have hr := (isValidDramRegion_iff (g := g) r).1 (by simpa using hd)
  refine grd_tasLock hw hr (by rw [if_pos rfl]; exact grd_done _) fun _ => ?_
  rw [if_neg (by decide)]
  exact grd_readOwner hw hr (fun _ => one_self _) fun owner _ _ => grd_rel1 hw hr _

theorem grd_owner (r : W) : (dramRegionOwner g r).Grd g c Any noL := by
  unfold dramRegionOwner
  refine Prog.Grd.ite (fun _ => grd_done _) fun hd => ?_
  have hr := (isValidDramRegion_iff (g := g) r).1 (by simpa using hd)
  refine grd_tasLock hw hr (by rw [if_pos rfl]; exact grd_done _) fun _ => ?_
  rw [if_neg (by decide)]
  exact grd_readOwner hw hr (fun _ => one_self _) fun owner _ _ => grd_rel1 hw hr _

theorem grd_dmaLoop (e : W) {f : Option Bool → Prog β} (hn : (f none).Grd g c Any noL) (hs : ∀ b, (f (some b)).Grd g c Any (addL noL 0)) :
    ∀ (fuel : Nat) (a : W) (owns : Bool), (dmaRangeLoop g e fuel a owns >>= f).Grd g c Any (addL noL 0) := by
  have h0 := zero_lt hw
  intro fuel
  induction fuel with
  | zero => intros; trivial
  | succ n ih =>
      intro a owns
      unfold dmaRangeLoop
      by_cases hlt : a < e
      · rw [if_pos hlt]
        have hn' := dramRegionFor_lt hw a
        dsimp only
        by_cases hz : dramRegionFor g a = 0
        · have hb0 : (dramRegionFor g a != 0) = false := by rw [hz]; rfl
          rw [hb0]
          show Prog.Grd g c Any _ ((readOwner g (dramRegionFor g a) >>= fun owner => dmaRangeLoop g e n (a + g.stripeSize) (owns && owner == 0)) >>= f)
          rw [prog_assoc hw]
          exact grd_readOwner hw hn' (fun hh => absurd (by rw [hz]; rfl) hh) fun owner _ _ => ih _ _
        · have hb0 : (dramRegionFor g a != 0) = true := bne_iff_ne.2 hz
          rw [hb0]
          simp only [if_true]
          rw [prog_assoc hw]
          refine grd_tasLock hw hn' ?_ fun _ => ?_
          · rw [if_pos rfl, prog_assoc hw]
            exact grd_release hw (r := 0) h0 hn
          · rw [if_neg (by decide), prog_assoc hw]
            refine grd_readOwner hw hn' (fun _ => two_snd _ _) fun owner _ _ => ?_
            rw [prog_assoc hw]
            refine grd_clearLock hw hn' ((ih _ _).weaken fun i hi => ⟨Or.inl hi, fun hh => ?_⟩)
            have h1 : i = 0 := hi.elim (fun h => h.elim) id
            exact hz ((W.eq_iff _ _).2 (by rw [← hh, h1]; rfl))
      · rw [if_neg hlt]; exact hs _

theorem grd_setDmaRange (base mask : W) : (setDmaRange g base mask).Grd g c Any noL := by
  have h0 := zero_lt hw
  unfold setDmaRange
  refine Prog.Grd.ite (fun _ => grd_done _) fun _ => Prog.Grd.ite (fun _ => grd_done _) fun _ => ?_
  refine grd_tasLock hw h0 (by rw [if_pos rfl]; exact grd_done _) fun _ => ?_
  rw [if_neg (by decide)]
  dsimp only
  have hz : ∀ i, addL noL 0 i → i < g.regions := one_lt h0
  have hH : addL noL 0 0 := one_self _
  refine grd_dmaLoop hw _ (f := fun x => match x with
      | none => pure monitorConcurrentCall
      | some _ => do
          act_ (.setDmaStart base)
          act_ (.setDmaEnd ((base ||| mask) + 1))
          act_ (.setDmarBase base)
          act_ (.setDmarMask (~~~ mask))
          clearLock g 0
          pure monitorOk) (grd_done _) (fun b => ?_) _ _ _
  dsimp only
  exact grd_steady_bind hz (steady_dma_ trivial hH) fun _ => grd_steady_bind hz (steady_dma_ trivial hH) fun _ =>
    grd_steady_bind hz (steady_dma_ trivial hH) fun _ => grd_steady_bind hz (steady_dma_ trivial hH) fun _ => grd_rel1 hw h0 _

theorem grd_createMeta (r : W) : (createMetadataRegion g r).Grd g c Any noL := by
  unfold createMetadataRegion
  refine Prog.Grd.ite (fun _ => grd_done _) fun hd => ?_
  have hr := (isValidDramRegion_iff (g := g) r).1 (by simpa using hd)
  refine grd_tasLock hw hr (by rw [if_pos rfl]; exact grd_done _) fun _ => ?_
  rw [if_neg (by decide)]
  refine grd_readOwner hw hr (fun _ => one_self _) fun owner _ hz => ?_
  refine Prog.Grd.ite (fun _ => grd_rel1 hw hr _) fun ho => ?_
  have ho : owner = freeEnclaveId := by simpa using ho
  have hr0 : r.toNat ≠ 0 := fun hh => by rw [hz hh] at ho; exact absurd ho (by decide)
  unfold initMetadataRegion
  rw [prog_assoc hw]
  refine grd_steady_bind (one_lt hr) (steady_rec hw hr0 hr (one_self _) (Or.inl rfl) (ownerA_toNat hw hr)) fun _ => ?_
  rw [prog_assoc hw]
  refine grd_steady_bind (one_lt hr) (steady_rec hw hr0 hr (one_self _) (Or.inr (Or.inr (Or.inl rfl))) (pinnedA_toNat hw hr)) fun _ => ?_
  have hst := region_start_ge g hr0
  obtain ⟨h1, h2, h3', h4, h5, h6, h7, h8, h9, h10, h11, h12⟩ := hw.layout
  have hend := hw.region_end_le hr
  have hmb := mapBytes_le hw
  have hstart := dramRegionStart_toNat hw r (Nat.le_of_lt hr)
  have hbytes := mapBytes_toNat hw
  have hsl := g.dramSize.isLt
  refine grd_steady_bind (one_lt hr) ?_ fun _ => grd_rel1 hw hr _
  unfold bzero
  refine Prog.High.steady hw (S := fun _ => True) ?_
  refine in_bzeroWords hw (lo := r.toNat * g.stripeSize.toNat) (hi := (r.toNat + 1) * g.stripeSize.toNat) (by omega)
    (fun x x1 x2 => trivial) _ _ (by rw [hstart]; exact Nat.le_refl _) ?_ (by omega)
  rw [hstart, hbytes]
  have : (r.toNat + 1) * g.stripeSize.toNat = r.toNat * g.stripeSize.toNat + g.stripeSize.toNat := Nat.succ_mul _ _
  omega

/-- The region of an ID that is looked up is the region whose lock is held, or region 0. -/
theorem clamped_held (e : W) : (clampedDramRegionFor g e).toNat ≠ 0 → (clampedDramRegionFor g e).toNat = (dramRegionFor g e).toNat := by
  rw [clamped_eq hw, dramRegionFor_toNat hw]
  unfold idRegion
  split
  · exact fun _ => rfl
  · exact fun hh => absurd rfl hh

theorem grd_assign (r e : W) : (assignDramRegion g r e).Grd g c Any noL := by
  unfold assignDramRegion
  refine Prog.Grd.ite (fun _ => grd_done _) fun hd => ?_
  have hr := (isValidDramRegion_iff (g := g) r).1 (by simpa using hd)
  refine grd_tasLock hw hr (by rw [if_pos rfl]; exact grd_done _) fun _ => ?_
  rw [if_neg (by decide)]
  refine grd_readOwner hw hr (fun _ => one_self _) fun owner _ hz => ?_
  refine Prog.Grd.ite (fun _ => grd_rel1 hw hr _) fun ho => ?_
  have ho : owner = freeEnclaveId := by simpa using ho
  have hr0 : r.toNat ≠ 0 := fun hh => by rw [hz hh] at ho; exact absurd ho (by decide)
  have hs := dramRegionFor_lt hw e
  dsimp only
  refine grd_tasLock hw hs (by rw [if_pos rfl]; exact grd_rel1 hw hr _) fun _ => ?_
  rw [if_neg (by decide)]
  unfold isValidEnclaveId
  show Prog.Grd g c Any _ (readOwner g (clampedDramRegionFor g e) >>= fun owner => if (owner == e) = true then _ else _)
  refine grd_readOwner hw (clamped_lt hw e) (fun hh => by rw [clamped_held hw e hh]; exact two_snd _ _) fun o ov oz => ?_
  refine Prog.Grd.ite (fun hq => ?_) fun _ => grd_rel2 hw hs hr _
  have hq : o = e := by simpa using hq
  have he0 : e = 0 := Classical.byContradiction fun h0 => owner_ne_id hw ov oz h0 hq
  have hH2 := two_lt (g := g) hr hs
  have hH0 : addL (addL noL r.toNat) (dramRegionFor g e).toNat 0 := by
    have : (dramRegionFor g e).toNat = 0 := by rw [he0, dramRegionFor_zero hw]; rfl
    rw [this]; exact two_snd _ _
  refine grd_steady_bind hH2 (steady_rec hw hr0 hr (two_fst _ _) (Or.inl rfl) (ownerA_toNat hw hr)) fun _ => ?_
  unfold setEnclaveRegionBitmapBit
  rw [if_pos (show e = nullEnclaveId from he0), if_pos he0]
  refine grd_steady_bind hH2 (steady_setOsBit hw hr true hH0) fun _ => ?_
  refine grd_steady_bind hH2 (steady_setDrb hw hH0) fun _ => ?_
  exact grd_rel2 hw hs hr _

theorem steady_coresFlushed (b : W) : ∀ (n i : Nat), i + n ≤ g.cores → (coresFlushedLoop g b n (BitVec.ofNat 64 i)).Steady g c H := by
  intro n
  induction n with
  | zero => intro i _; exact Steady.pure _
  | succ n ih =>
      intro i hi
      unfold coresFlushedLoop
      have hcc : (coreA g (BitVec.ofNat 64 i) + offFlushedAt).toNat = flushedA i := coreA_toNat hw (by omega) _ (by decide)
      refine Steady.bind (steady_load (Or.inl (Or.inr (Or.inr ⟨i, by omega, by rw [hcc]⟩)))) fun v => Steady.ite (fun _ => Steady.pure _) fun _ => ?_
      have : BitVec.ofNat 64 i + 1 = BitVec.ofNat 64 (i + 1) := by
        rw [W.eq_iff]; simp
      rw [this]; exact ih (i + 1) (by omega)

theorem steady_recLoad {r x : Nat} {a : W} (h0 : r ≠ 0) (hr : r < g.regions) (hH : H r) (hx : RecordWord g r x) (ha : a.toNat = x) :
    (load a).Steady g c H := steady_load (Or.inr (Or.inl ⟨_, shields_record h0 hr (ha ▸ hx), hH⟩))

theorem grd_free (r : W) : (freeDramRegion g r).Grd g c Any noL := by
  unfold freeDramRegion
  refine Prog.Grd.ite (fun _ => grd_done _) fun hd => ?_
  have hr := (isValidDramRegion_iff (g := g) r).1 (by simpa using hd)
  refine grd_tasLock hw hr (by rw [if_pos rfl]; exact grd_done _) fun _ => ?_
  rw [if_neg (by decide)]
  refine grd_readOwner hw hr (fun _ => one_self _) fun owner _ hz => ?_
  have hfin : r.toNat ≠ 0 → (store (regionA g r + offOwner) freeEnclaveId >>= fun _ => clearLock g r >>= fun _ => pure monitorOk).Grd g c Any (addL noL r.toNat) :=
    fun hr0 => grd_steady_bind (one_lt hr) (steady_rec hw hr0 hr (one_self _) (Or.inl rfl) (ownerA_toNat hw hr)) fun _ => grd_rel1 hw hr _
  refine Prog.Grd.ite (fun ho => ?_) fun _ => Prog.Grd.ite (fun ho => ?_) fun _ => grd_rel1 hw hr _
  · have hr0 : r.toNat ≠ 0 := fun hh => by rw [hz hh] at ho; exact absurd ho (by decide)
    refine grd_steady_bind (one_lt hr) (steady_recLoad hw hr0 hr (one_self _) (Or.inr (Or.inr (Or.inr rfl))) (blockedA_toNat hw hr)) fun b => ?_
    refine grd_steady_bind (one_lt hr) (steady_coresFlushed hw b g.coreCount.toNat 0 (by unfold Cfg.cores; omega)) fun ok => ?_
    exact Prog.Grd.ite (fun _ => hfin hr0) fun _ => grd_rel1 hw hr _
  · have hr0 : r.toNat ≠ 0 := fun hh => by rw [hz hh] at ho; exact absurd ho (by decide)
    refine grd_steady_bind (one_lt hr) (steady_recLoad hw hr0 hr (one_self _) (Or.inr (Or.inr (Or.inl rfl))) (pinnedA_toNat hw hr)) fun b => ?_
    exact Prog.Grd.ite (fun _ => hfin hr0) fun _ => grd_rel1 hw hr _

theorem grd_flush (hc : c < g.cores) : (flushCachedDramRegions g).Grd g c Any noL := by
  unfold flushCachedDramRegions dramRegionTlbFlush
  refine grd_steady_bind noL_lt ?_ fun _ => grd_done _
  refine Steady.bind (steady_own (fun _ hh => hh) fun hh => hh) fun _ => ?_
  refine ⟨⟨fun x _ hx => hx.elim, fun hh => hh.elim⟩, fun _ _ hh => hh, fun v hv => ?_⟩
  rw [hv.core rfl]
  have hcc : (coreA g (BitVec.ofNat 64 c) + offFlushedAt).toNat = flushedA c := coreA_toNat hw hc _ (by decide)
  show Prog.Steady g c _ (load g.regionsBase >>= fun clock => store (coreA g (BitVec.ofNat 64 c) + offFlushedAt) clock)
  refine Steady.bind (steady_load (Or.inl (Or.inr (Or.inl rfl)))) fun clk => steady_store (Or.inl (Or.inr (Or.inr ⟨c, hc, by rw [hcc]⟩))) fun i hi => ?_
  rw [hcc]
  intro hh; simp [hw, hc] at hh

theorem grd_exitEnclave (hc : c < g.cores) : (exitEnclave g).Grd g c Any noL := by
  have hno : ∀ off : W, off.toNat ≤ 24 → (load (coreA g (BitVec.ofNat 64 c) + off)).Steady g c noL := by
    intro off h1
    refine steady_load (Or.inr (Or.inr ?_))
    rw [coreA_toNat hw hc _ h1]
    exact core_free hw hc (by omega)
  unfold exitEnclave
  refine ⟨⟨fun x _ hx => hx.elim, fun hh => hh.elim⟩, fun v hv => ?_⟩
  rw [hv.core rfl]
  show Prog.Grd g c Any noL (load (coreA g (BitVec.ofNat 64 c) + offCoreEnclaveId) >>= fun _ => load (coreA g (BitVec.ofNat 64 c) + offCoreThreadId) >>= fun _ =>
    load (coreA g (BitVec.ofNat 64 c) + offCoreThread) >>= fun _ => pure monitorOk)
  exact grd_steady_bind noL_lt (hno _ (by decide)) fun _ => grd_steady_bind noL_lt (hno _ (by decide)) fun _ => grd_steady_bind noL_lt (hno _ (by decide)) fun _ => grd_done _

theorem grd_lockMeta {a : W} {f : W × W → Prog β} (herr : ∀ v r, v ≠ monitorOk → (f (v, r)).Grd g c Any noL)
    (hok : a.toNat % 4096 = 0 → a.toNat < g.dramSize.toNat → regionOf g a.toNat ≠ 0 →
      (f (monitorOk, dramRegionFor g a)).Grd g c Any (addL noL (regionOf g a.toNat))) :
    (lockMetadataRegionFor g a >>= f).Grd g c Any noL := by
  unfold lockMetadataRegionFor
  by_cases hd : (!isPageAligned a || !isDramAddress g a) = true
  · rw [if_pos hd]; exact herr _ _ (by decide)
  · rw [if_neg hd]
    have hd : isPageAligned a = true ∧ isDramAddress g a = true := by simpa using hd
    have h1 := (isPageAligned_iff a).1 hd.1
    have h2 := (isDramAddress_iff a).1 hd.2
    have hr := dramRegionFor_lt hw a
    have hrr := dramRegionFor_toNat hw a
    dsimp only
    rw [prog_assoc hw]
    refine grd_tasLock hw hr (by rw [if_pos rfl]; exact herr _ _ (by decide)) fun _ => ?_
    rw [if_neg (by decide), prog_assoc hw]
    refine grd_readOwner hw hr (fun _ => one_self _) fun o ov oz => ?_
    by_cases ho : (o != metadataEnclaveId) = true
    · rw [if_pos ho, prog_assoc hw]
      exact grd_release hw hr (herr _ _ (by decide))
    · rw [if_neg ho]
      have ho : o = metadataEnclaveId := by simpa using ho
      rw [hrr] at oz ⊢
      exact hok h1 h2 fun hh => by rw [oz hh] at ho; exact absurd ho (by decide)

omit hw in
theorem grd_createEnclave (h : g.MetaOk) (e b k n : W) (d : Bool) : (createEnclave g e b k n d).Grd g c Any noL := by
  unfold createEnclave
  refine Prog.Grd.ite (fun _ => grd_done _) fun _ => Prog.Grd.ite (fun _ => grd_done _) fun _ => ?_
  refine grd_lockMeta h.wf (fun v r hv => ?_) fun h1 h2 h3 => ?_
  · dsimp only; rw [if_pos (bne_iff_ne.2 hv)]; exact grd_done _
  dsimp only
  rw [if_neg (by decide)]
  have hr := dramRegionFor_lt h.wf e
  have hrr := dramRegionFor_toNat h.wf e
  have hrl := regionOf_lt h.wf e.toNat
  obtain ⟨p1, p2, p3⟩ := page_high h.wf h1 h2 h3
  have hsl := g.dramSize.isLt
  refine grd_readOwner h.wf hr (fun _ => by rw [hrr]; exact one_self _) fun o _ _ => ?_
  refine Prog.Grd.ite (fun _ => grd_rel1 h.wf hr _) fun _ => ?_
  refine grd_steady_bind (one_lt hrl) ((in_reserve h h2 h3 (by rw [enclaveInfoPages_toNat]; exact recordPages_lt _) _ _).steady h.wf) fun res => ?_
  refine Prog.Grd.ite (fun _ => grd_rel1 h.wf hr _) fun _ => ?_
  refine grd_steady_bind (one_lt hrl) ((in_initEnclaveInfo h.wf (S := fun _ => True) (lo := e.toNat) (hi := e.toNat + 4096) p3
    (fun x x1 x2 => trivial) p1 (Nat.le_refl _) (by omega) (by omega) _ _ _ _).steady h.wf) fun _ => ?_
  exact grd_rel1 h.wf hr _

theorem grd_withLocked (e : W) (k : W → Prog W) : (withLockedEnclave g e k).Grd g c Any noL := by
  unfold withLockedEnclave
  dsimp only
  have hr := clamped_lt hw e
  refine grd_tasLock hw hr (by rw [if_pos rfl]; exact grd_done _) fun _ => ?_
  rw [if_neg (by decide)]
  by_cases he : e = nullEnclaveId
  · rw [if_pos he]
    refine Prog.Grd.bind (Q1 := fun a _ => a = false) rfl ?_
    rintro _ _ rfl
    rw [if_pos (by decide)]
    exact grd_rel1 hw hr _
  · rw [if_neg he]
    unfold isValidEnclaveId
    show Prog.Grd g c Any _ (readOwner g (clampedDramRegionFor g e) >>= fun owner => if (!(owner == e)) = true then _ else _)
    refine grd_readOwner hw hr (fun _ => one_self _) fun o ov hz => ?_
    have hne := owner_ne_id hw ov hz he
    rw [if_pos (by simpa using hne)]
    exact grd_rel1 hw hr _

theorem grd_copyDebug (a os : W) (dir : Bool) (ha : g.monitorTop.toNat ≤ a.toNat) :
    (copyDebugEnclavePage g 0 a os dir).Grd g c Any noL := by
  unfold copyDebugEnclavePage
  refine Prog.Grd.ite (fun _ => grd_done _) fun hal => Prog.Grd.ite (fun _ => grd_done _) fun hdr => ?_
  have hal : isPageAligned a = true ∧ isPageAligned os = true := by simpa using hal
  have hdr : isDramAddress g a = true ∧ isDramAddress g os = true := by simpa using hdr
  have a1 := (isPageAligned_iff a).1 hal.1
  have a2 := (isDramAddress_iff a).1 hdr.1
  have o1 := (isPageAligned_iff os).1 hal.2
  have o2 := (isDramAddress_iff os).1 hdr.2
  have hr := clamped_lt hw (0 : W)
  have hs := dramRegionFor_lt hw os
  dsimp only
  refine grd_tasLock hw hr (by rw [if_pos rfl]; exact grd_done _) fun _ => ?_
  rw [if_neg (by decide)]
  refine grd_tasLock hw hs (by rw [if_pos rfl]; exact grd_rel1 hw hr _) fun hn => ?_
  rw [if_neg (by decide)]
  have hne : (clampedDramRegionFor g 0).toNat ≠ (dramRegionFor g os).toNat := fun hh => hn (Or.inr hh.symm)
  have hcl : (clampedDramRegionFor g 0).toNat = 0 := by
    rw [clamped_eq hw]; unfold idRegion; split
    · unfold regionOf; simp
    · rfl
  have hreg : regionOf g os.toNat ≠ 0 := fun hh => hne (by rw [hcl, dramRegionFor_toNat hw, hh])
  obtain ⟨p1, p2, p3⟩ := page_high hw o1 o2 hreg
  have hdm := dram_mod hw
  have hsl := g.dramSize.isLt
  have hH2 := two_lt (g := g) hr hs
  have hH0 : addL (addL noL (clampedDramRegionFor g 0).toNat) (dramRegionFor g os).toNat 0 := by
    rw [← hcl]; exact two_fst _ _
  refine grd_readOwner hw hr (fun _ => two_fst _ _) fun oe _ _ => grd_readOwner hw hs (fun _ => two_snd _ _) fun oo _ _ => ?_
  refine grd_steady_bind hH2 ?_ fun bit => ?_
  · unfold readEnclaveRegionBitmapBit
    rw [if_pos (show (0 : W) = nullEnclaveId from rfl)]
    exact Steady.bind (steady_osWord hw (dramRegionFor_lt hw a) hH0) fun _ => Steady.pure _
  refine grd_steady_bind hH2 (steady_load (Or.inl (Or.inr (Or.inr ⟨0, hw.cores_pos, ?_⟩)))) fun dbg => ?_
  · rfl
  refine grd_steady_bind hH2 (Steady.ite (fun _ => ?_) fun _ => Steady.pure _) fun _ => grd_rel2 hw hs hr _
  have hin1 : ∀ x, os.toNat ≤ x → x < os.toNat + 8 * 512 → g.monitorTop.toNat ≤ x ∧ True := fun x x1 x2 => ⟨by omega, trivial⟩
  have hin2 : ∀ x, a.toNat ≤ x → x < a.toNat + 8 * 512 → g.monitorTop.toNat ≤ x ∧ True := fun x x1 x2 => ⟨by omega, trivial⟩
  refine Prog.High.steady hw (S := fun _ => True) (High.ite (fun _ => ?_) fun _ => ?_)
  · exact in_copyWords _ _ _ (by omega) (by omega) hin1 hin2
  · exact in_copyWords _ _ _ (by omega) (by omega) hin2 hin1

theorem grd_deleteThread (hc : c < g.cores) (t : W) : (deleteThread g t).Grd g c Any noL := by
  unfold deleteThread
  refine grd_currentEnclave hw hc noL_lt ?_
  dsimp only
  rw [show nullEnclaveId = (0 : W) from rfl, dramRegionFor_zero hw]
  refine grd_tasLock hw (zero_lt hw) (by rw [if_pos rfl]; trivial) fun _ => ?_
  rw [if_neg (by decide)]; trivial

/-- The calls access the tables under the locks that protect them. -/
theorem grd_call (c : Nat) (k : Call) (hc : c < g.cores) (hk : CoveredC g k) (ho : Orderly k) : (k.prog g).Grd g c Any noL := by
  obtain ⟨hcov, hrec⟩ := hk
  cases k
  case acceptThread => exact hcov.elim
  case blockDramRegion r => exact grd_block hw hc r
  case dramRegionCheckOwnership r => exact grd_check hw hc r
  case exitEnclave => exact grd_exitEnclave hw hc
  case setDmaRange b n => exact grd_setDmaRange hw b n
  case dramRegionState r => exact grd_state hw r
  case dramRegionOwner r => exact grd_owner hw r
  case assignDramRegion r e => exact grd_assign hw r e
  case freeDramRegion r => exact grd_free hw r
  case flushCachedDramRegions => exact grd_flush hw hc
  case createMetadataRegion r => exact grd_createMeta hw r
  case createEnclave e b k n d => exact grd_createEnclave ⟨hw, hcov.1, hcov.2⟩ e b k n d
  case loadPageTable e p v l a =>
      show (loadPageTable g e p v l a).Grd g c Any noL
      unfold loadPageTable
      exact Prog.Grd.ite (fun _ => grd_done _) fun _ => Prog.Grd.ite (fun _ => grd_done _) fun _ => Prog.Grd.ite (fun _ => grd_done _) fun _ => grd_withLocked hw _ _
  case loadPage e p v o a =>
      show (loadPage g e p v o a).Grd g c Any noL
      unfold loadPage
      exact Prog.Grd.ite (fun _ => grd_done _) fun _ => Prog.Grd.ite (fun _ => grd_done _) fun _ => grd_withLocked hw _ _
  case loadThread e t w x y z => exact ho.elim
  case assignThread e t => exact ho.elim
  case initEnclave e => show (initEnclave g e).Grd g c Any noL; unfold initEnclave; exact grd_withLocked hw _ _
  case enterEnclave e t => show (enterEnclave g e t).Grd g c Any noL; unfold enterEnclave; exact grd_withLocked hw _ _
  case createThread t p => exact ho.elim
  case deleteThread t => exact grd_deleteThread hw hc t
  case deleteEnclave e => show (deleteEnclave g e).Grd g c Any noL; unfold deleteEnclave; exact grd_withLocked hw _ _
  case copyDebugEnclavePage e a os d =>
      obtain rfl : e = nullEnclaveId := ho
      exact grd_copyDebug hw a os d (hcov.resolve_left fun hh => hh rfl)
  all_goals exact grd_done _

end
end Sanctum
