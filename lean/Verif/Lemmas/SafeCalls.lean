import Verif.Lemmas.SafePrim
/-
The calls on regions in the rely-guarantee logic.
-/
namespace Sanctum
open Machine

variable {g : Cfg} {c : Nat} {α β : Type} {D : Prop} {H : Nat → Prop} {m : Machine}

/-- No lock is held. -/
def noL : Nat → Prop := fun _ => False

/-- The program ends without locks. -/
def Done (_g : Cfg) : α → (Nat → Prop) → Machine → Prop := fun _ H _ => ∀ i, ¬ H i

theorem noL_lt : ∀ i, noL i → i < g.regions := fun _ hh => hh.elim
theorem one_lt {r : Nat} (hr : r < g.regions) : ∀ i, addL noL r i → i < g.regions := addL_lt noL_lt hr
theorem two_lt {r s : Nat} (hr : r < g.regions) (hs : s < g.regions) : ∀ i, addL (addL noL r) s i → i < g.regions := addL_lt (one_lt hr) hs

theorem one_self (r : Nat) : addL noL r r := Or.inr rfl
theorem two_fst (r s : Nat) : addL (addL noL r) s r := Or.inl (Or.inr rfl)
theorem two_snd (r s : Nat) : addL (addL noL r) s s := Or.inr rfl

theorem sub_one (r : Nat) : subL (addL noL r) r = noL := by
  funext i; exact propext ⟨fun hh => (hh.1.elim id fun h1 => absurd h1 hh.2), fun hh => hh.elim⟩
theorem sub_two {r s : Nat} (hne : r ≠ s) : subL (addL (addL noL r) s) s = addL noL r := by
  funext i
  refine propext ⟨fun hh => (hh.1.elim id fun h1 => absurd h1 hh.2), fun hh => ⟨Or.inl hh, ?_⟩⟩
  rintro rfl; exact hh.elim id fun h1 => hne h1.symm

theorem done_pure (v : α) : Safe g D c (Done g) noL m (pure v) := fun _ hh => hh

/-- Releasing the only lock and returning. -/
theorem release1 (hw : g.WF) {r : W} (hr : r.toNat < g.regions) (hb : Bit g m r.toNat) (v : α) :
    Safe g D c (Done g) (addL noL r.toNat) m (clearLock g r >>= fun _ => pure v) :=
  safe_clearLock hw hr (one_self _) hb fun m' _ => by rw [sub_one]; exact done_pure v

/-- Releasing two locks and returning. -/
theorem release2 (hw : g.WF) {r s : W} (hr : r.toNat < g.regions) (hs : s.toNat < g.regions) (hne : r.toNat ≠ s.toNat)
    (hbr : Bit g m r.toNat) (hbs : Bit g m s.toNat) (v : α) :
    Safe g D c (Done g) (addL (addL noL r.toNat) s.toNat) m (clearLock g s >>= fun _ => clearLock g r >>= fun _ => pure v) :=
  safe_clearLock hw hs (two_snd _ _) hbs fun m' h1 => by
    rw [sub_two hne]; exact release1 hw hr (h1.bit hr (two_fst _ _) hbr) v

/-- The caller is the OS. -/
theorem safe_currentEnclave (hw : g.WF) (hc : c < g.cores) (hH : ∀ i, H i → i < g.regions) {f : W → Prog β} {Q : β → (Nat → Prop) → Machine → Prop}
    (hf : ∀ m', Same g H m m' → Safe g D c Q H m' (f nullEnclaveId)) : Safe g D c Q H m (currentEnclave g >>= f) := by
  have hcc : (coreA g (BitVec.ofNat 64 c) + offCoreEnclaveId).toNat = coreEnclaveA c := coreA_toNat hw hc _ (by decide)
  show Safe g D c Q H m (.op .curCore fun core => .op (.load (coreA g core + offCoreEnclaveId)) f)
  refine safe_op_frame hw hH (o := .curCore) hc fun v m1 h1 h2 _ => ?_
  rw [h2 rfl]
  refine safe_op_frame hw hH ⟨core_ok hw hc _ (by decide) (by decide), ?_⟩ fun v m2 h3 _ h4 => ?_
  · intro _ i hi hx
    rw [hcc] at hx
    rcases hx with hx | hx | hx | hx <;> simp [hw, hc] at hx
  · obtain ⟨m0, _, hinv, rfl⟩ := h4 _ rfl
    have : m0.mem (coreA g (BitVec.ofNat 64 c) + offCoreEnclaveId).toNat = nullEnclaveId := by rw [hcc]; exact hinv.os c hc
    rw [this]
    exact hf m2 (h1.trans h3)

theorem dramRegionFor_zero (h : g.WF) : dramRegionFor g 0 = 0 := by
  rw [W.eq_iff, dramRegionFor_toNat h]; unfold regionOf; simp

theorem zero_lt (h : g.WF) : (0 : W).toNat < g.regions := by have := h.regions_ge; show 0 < _; omega

/-- Frame actions. -/
theorem frame_load {a : W} (hok : okAddr g a = true) (hx : D → ∀ i, i < g.regions → ¬ RecordWord g i a.toNat) : (load a).Frame g D c :=
  ⟨⟨hok, hx⟩, fun _ _ => trivial⟩
theorem frame_store {a v : W} (hok : okAddr g a = true) (hx : FreeWord g c a.toNat) : (store a v).Frame g D c := ⟨⟨hok, hx⟩, fun _ _ => trivial⟩

theorem high_not_record (hw : g.WF) {a : Nat} (ha : g.monitorTop.toNat ≤ a) : ∀ i, i < g.regions → ¬ RecordWord g i a := by
  intro i hi hx
  have := record_lt hw hi hx
  omega

/-! ### block -/

theorem frame_snapshotLoop (hw : g.WF) (n : Nat) : ∀ (p : W) (k : Nat), p.toNat = g.osBitmap.toNat + 8 * k → k + n ≤ g.bitmapWords.toNat → (snapshotLoop n p).Frame g D c := by
  induction n with
  | zero => intro p k _ _; exact Frame.pure _
  | succ n ih =>
      intro p k h1 h2
      obtain ⟨l1, l2, l3, l4, l5, l6, l7, l8, l9, l10, l11, l12⟩ := hw.layout
      have := hw.arrays_le; have := hw.top_le; have := hw.dram_ge; have := g.dramSize.isLt
      refine Frame.bind (frame_load (by rw [okAddr_iff]; omega) fun _ i hi hx => osBitmap_not_record hw hi hx h1) fun _ => Frame.bind (ih _ (k + 1) ?_ (by omega)) fun _ => Frame.pure _
      rw [BitVec.toNat_add, show (8 : W).toNat = 8 from rfl]; omega

theorem frame_setDrbMap (hw : g.WF) (hc : c < g.cores) : (setDrbMap g g.osBitmap).Frame g D c :=
  Frame.bind (frame_snapshotLoop hw _ _ 0 rfl (by omega)) fun _ => ⟨hc, fun _ _ => trivial⟩

theorem frame_dmaTest {o1 o2 : Op} (p q : W → Bool) (h1 : o1 = .getDmaStart ∨ o1 = .getDmaEnd) (h2 : o2 = .getDmaStart ∨ o2 = .getDmaEnd) :
    (dmaTest o1 p o2 q).Frame g D c := by
  have ha : ∀ {o : Op}, o = .getDmaStart ∨ o = .getDmaEnd → (act o).Frame g D c := by
    rintro o (rfl | rfl) <;> exact ⟨trivial, fun _ _ => trivial⟩
  unfold dmaTest
  exact Frame.bind (ha h1) fun _ => Frame.ite (fun _ => Frame.bind (ha h2) fun _ => Frame.pure _) fun _ => Frame.pure _

theorem frame_dmaRangeCrossed {r : W} : (dmaRangeCrossed g r).Frame g D c := by
  unfold dmaRangeCrossed
  exact Frame.bind (frame_dmaTest _ _ (Or.inl rfl) (Or.inr rfl)) fun _ => Frame.bind (frame_dmaTest _ _ (Or.inr rfl) (Or.inr rfl)) fun _ =>
    Frame.bind (frame_dmaTest _ _ (Or.inl rfl) (Or.inr rfl)) fun _ => Frame.bind (frame_dmaTest _ _ (Or.inl rfl) (Or.inr rfl)) fun _ => Frame.pure _

theorem safe_block (hw : g.WF) (hc : c < g.cores) (r : W) : Safe g D c (Done g) noL m (blockDramRegion g r) := by
  unfold blockDramRegion
  refine Safe.ite (fun _ => done_pure _) fun hd => ?_
  obtain ⟨hr0, hr⟩ := (isDynamicDramRegion_iff r).1 (by simpa using hd)
  refine safe_tasLock hw noL_lt hr (fun _ _ => by rw [if_pos rfl]; exact done_pure _) fun m1 _ _ hb1 => ?_
  rw [if_neg (by decide)]
  refine safe_readOwner hw hr (one_self _) fun m2 h2 _ _ => ?_
  have hb2 := h2.bit hr (one_self _) hb1
  refine safe_currentEnclave hw hc (one_lt hr) fun m3 h3 => ?_
  have hb3 := h3.bit hr (one_self _) hb2
  refine Safe.ite (fun _ => release1 hw hr hb3 _) fun ho => ?_
  have ho : m1.owner g r.toNat = nullEnclaveId := by simpa using ho
  have ho3 : m3.owner g r.toNat = nullEnclaveId := by rw [(h3 _ hr (one_self _)).1, (h2 _ hr (one_self _)).1]; exact ho
  rw [ho]
  have hnn : (nullEnclaveId != nullEnclaveId) = false := rfl
  rw [hnn, if_neg (by decide)]
  refine Safe.bind (Q1 := fun a H' m' => a = 0 ∧ H' = addL noL r.toNat ∧ m' = m3) (Safe.pure ⟨rfl, rfl, rfl⟩) ?_
  rintro _ _ _ ⟨rfl, rfl, rfl⟩
  rw [Bool.false_and, if_neg (by decide), show nullEnclaveId = (0 : W) from rfl, dramRegionFor_zero hw]
  have h0 := zero_lt hw
  refine safe_tasLock hw (one_lt hr) h0 (fun m4 h4 => by rw [if_pos rfl]; exact release1 hw hr (h4.bit hr (one_self _) hb3) _) fun m4 h4 hn4 hz4 => ?_
  have hne : r.toNat ≠ (0 : W).toNat := hr0
  have hb4 := h4.bit hr (one_self _) hb3
  have ho4 : m4.owner g r.toNat = nullEnclaveId := ((h4 _ hr (one_self _)).1).trans ho3
  rw [if_neg (by decide), if_pos rfl]
  have hH2 := two_lt (g := g) hr h0
  refine safe_frame_bind hw hH2 frame_dmaRangeCrossed fun crossed m5 h5 => ?_
  have hb5 := h5.bit hr (two_fst _ _) hb4
  have hz5 := h5.bit h0 (two_snd _ _) hz4
  have ho5 : m5.owner g r.toNat = nullEnclaveId := ((h5 _ hr (two_fst _ _)).1).trans ho4
  refine Safe.ite (fun _ => release2 hw hr h0 hne hb5 hz5 _) fun _ => ?_
  have hrec : ∀ {off : W}, off.toNat ≤ 32 → off.toNat % 8 = 0 → okAddr g (regionA g r + off) = true := fun h1 h2 => field_ok hw hr _ h1 h2
  refine safe_storeRec hw hr (hrec (by decide) (by decide)) (Or.inr (Or.inl (prevA_toNat hw hr))) (by rw [prevA_toNat hw hr]; simp) (two_fst _ _) hH2
    fun m6 h6 => ?_
  have ho6 : m6.owner g r.toNat = nullEnclaveId := ((h6 _ hr (two_fst _ _)).1).trans ho5
  have hz6 := h6.bit h0 (two_snd _ _) hz5
  refine safe_storeOwner hw hr (two_fst _ _) hr0 (Or.inr (Or.inl rfl)) (by rw [ho6]; exact LegalEdge.block _ (by decide) (by decide) (by decide)) hH2
    fun m7 h7 ho7 _ => ?_
  have hs0 : subL (addL (addL noL r.toNat) (0 : W).toNat) r.toNat (0 : W).toNat := ⟨two_snd _ _, Ne.symm hne⟩
  have hz7 := h7.bit h0 hs0 hz6
  refine safe_frame_bind hw hH2 (p := act (.fetchAdd g.regionsBase 1)) ⟨⟨clock_ok hw, Or.inr (Or.inl ⟨hc, rfl⟩)⟩, fun _ _ => trivial⟩ fun clk m8 h8 => ?_
  have ho8 : m8.owner g r.toNat = blockedEnclaveId := ((h8 _ hr (two_fst _ _)).1).trans ho7
  have hz8 := h8.bit h0 (two_snd _ _) hz7
  refine safe_storeRec hw hr (hrec (by decide) (by decide)) (Or.inr (Or.inr (Or.inr (blockedA_toNat hw hr)))) (by rw [blockedA_toNat hw hr]; simp) (two_fst _ _) hH2
    fun m9 h9 => ?_
  have ho9 : m9.owner g r.toNat = blockedEnclaveId := ((h9 _ hr (two_fst _ _)).1).trans ho8
  have hz9 := h9.bit h0 (two_snd _ _) hz8
  unfold setEnclaveRegionBitmapBit
  rw [if_pos rfl]
  refine safe_setOsBit hw hr (two_snd _ _) (two_fst _ _) hH2 false fun m10 h10 ho10 hx10 => ?_
  have hz10 := h10.bit h0 hs0 hz9
  have hb10 : Bit g m10 r.toNat := by
    unfold Bit; rw [hx10, ho10, ho9]; decide
  refine safe_frame_bind hw hH2 (frame_setDrbMap hw hc) fun _ m11 h11 => ?_
  exact release2 hw hr h0 hne (h11.bit hr (two_fst _ _) hb10) (h11.bit h0 (two_snd _ _) hz10) _

/-! ### queries -/

theorem safe_check (hw : g.WF) (hc : c < g.cores) (r : W) : Safe g D c (Done g) noL m (dramRegionCheckOwnership g r) := by
  unfold dramRegionCheckOwnership
  refine Safe.ite (fun _ => done_pure _) fun hd => ?_
  obtain ⟨hr0, hr⟩ := (isDynamicDramRegion_iff r).1 (by simpa using hd)
  refine safe_tasLock hw noL_lt hr (fun _ _ => by rw [if_pos rfl]; exact done_pure _) fun m1 _ _ hb1 => ?_
  rw [if_neg (by decide)]
  refine safe_readOwner hw hr (one_self _) fun m2 h2 _ _ => ?_
  refine safe_currentEnclave hw hc (one_lt hr) fun m3 h3 => ?_
  exact release1 hw hr (h3.bit hr (one_self _) (h2.bit hr (one_self _) hb1)) _

theorem safe_state (hw : g.WF) (r : W) : Safe g D c (Done g) noL m (dramRegionState g r) := by
  unfold dramRegionState
  refine Safe.ite (fun _ => done_pure _) fun hd => ?_
  have hr := (isValidDramRegion_iff (g := g) r).1 (by simpa using hd)
  refine safe_tasLock hw noL_lt hr (fun _ _ => by rw [if_pos rfl]; exact done_pure _) fun m1 _ _ hb1 => ?_
  rw [if_neg (by decide)]
  refine safe_readOwner hw hr (one_self _) fun m2 h2 _ _ => ?_
  exact release1 hw hr (h2.bit hr (one_self _) hb1) _

theorem safe_owner (hw : g.WF) (r : W) : Safe g D c (Done g) noL m (dramRegionOwner g r) := by
  unfold dramRegionOwner
  refine Safe.ite (fun _ => done_pure _) fun hd => ?_
  have hr := (isValidDramRegion_iff (g := g) r).1 (by simpa using hd)
  refine safe_tasLock hw noL_lt hr (fun _ _ => by rw [if_pos rfl]; exact done_pure _) fun m1 _ _ hb1 => ?_
  rw [if_neg (by decide)]
  refine safe_readOwner hw hr (one_self _) fun m2 h2 _ _ => ?_
  exact release1 hw hr (h2.bit hr (one_self _) hb1) _

/-! ### set_dma_range -/

theorem safe_dmaLoop (hw : g.WF) (e : W) (he : e.toNat ≤ g.dramSize.toNat) : ∀ (fuel : Nat) (a : W) (owns : Bool) (m : Machine),
    e.toNat < a.toNat + fuel → 1 ≤ fuel → a.toNat ≤ g.dramSize.toNat + g.stripeSize.toNat → Bit g m 0 →
    Safe g D c (fun res H' m' => (res = none ∧ H' = noL) ∨ (res ≠ none ∧ H' = addL noL 0 ∧ Bit g m' 0)) (addL noL 0) m (dmaRangeLoop g e fuel a owns) := by
  have h9 := hw.dram_le
  have h10 := hw.stripe_le
  have h11 := hw.stripe_ge
  have h0 := zero_lt hw
  intro fuel
  induction fuel with
  | zero => intro a owns m _ h1; omega
  | succ n ih =>
      intro a owns m hf _ ha hb
      unfold dmaRangeLoop
      refine Safe.ite (fun hlt => ?_) fun _ => Safe.pure (Or.inr ⟨by simp, rfl, hb⟩)
      rw [W.lt_iff] at hlt
      have hn := dramRegionFor_lt hw a
      have hnext : (a + g.stripeSize).toNat = a.toNat + g.stripeSize.toNat := by
        rw [BitVec.toNat_add]; omega
      have hrec : ∀ m' owns', Bit g m' 0 → Safe g D c (fun res H' m' => (res = none ∧ H' = noL) ∨ (res ≠ none ∧ H' = addL noL 0 ∧ Bit g m' 0)) (addL noL 0) m'
          (dmaRangeLoop g e n (a + g.stripeSize) owns') := by
        intro m' owns' hb'
        exact ih _ owns' m' (by omega) (by omega) (by omega) hb'
      by_cases hz : dramRegionFor g a = 0
      · have hb0 : (dramRegionFor g a != 0) = false := by rw [hz]; rfl
        dsimp only
        rw [hb0]
        show Safe g D c _ _ m (readOwner g (dramRegionFor g a) >>= fun owner => dmaRangeLoop g e n (a + g.stripeSize) (owns && owner == 0))
        have hz' : (dramRegionFor g a).toNat = 0 := by rw [hz]; rfl
        refine safe_readOwner hw hn (by rw [hz']; exact one_self 0) fun m1 h1 _ _ => ?_
        exact hrec m1 _ (h1.bit h0 (one_self 0) hb)
      · have hb0 : (dramRegionFor g a != 0) = true := bne_iff_ne.2 hz
        dsimp only
        rw [hb0]
        have hne : (0 : Nat) ≠ (dramRegionFor g a).toNat := fun hh => hz (by rw [W.eq_iff, ← hh]; rfl)
        simp only [if_true]
        refine safe_tasLock hw (one_lt h0) hn (fun m1 h1 => ?_) fun m1 h1 _ hb1 => ?_
        · rw [if_pos rfl]
          refine safe_clearLock hw (r := 0) h0 (one_self 0) (h1.bit h0 (one_self 0) hb) fun m2 _ => ?_
          exact Safe.pure (Or.inl ⟨rfl, sub_one 0⟩)
        · rw [if_neg (by decide)]
          have hb01 := h1.bit h0 (one_self 0) hb
          refine safe_readOwner hw hn (two_snd _ _) fun m2 h2 _ _ => ?_
          have hbm := h2.bit hn (two_snd _ _) hb1
          have hb02 := h2.bit h0 (two_fst _ _) hb01
          refine safe_clearLock hw hn (two_snd _ _) hbm fun m3 h3 => ?_
          rw [show subL (addL (addL noL (0 : W).toNat) (dramRegionFor g a).toNat) (dramRegionFor g a).toNat = addL noL 0 from sub_two hne]
          exact hrec m3 _ (h3.bit h0 (two_fst _ _) hb02)

/-- Changing the DMA window, holding the lock of region 0. -/
theorem safe_setDma (hw : g.WF) {o : Op} {f : Unit → Prog β} {Q : β → (Nat → Prop) → Machine → Prop} (hH0 : H 0)
    (ho : ∃ v, o = .setDmaStart v ∨ o = .setDmaEnd v)
    (hf : ∀ m', Same g H m m' → Safe g D c Q H m' (f ())) : Safe g D c Q H m (act_ o >>= f) := by
  intro m' hag hinv hheld
  have key : ∃ m1, exec g c o m' = some (0, m1) ∧ m1.mem = m'.mem := by
    rcases ho with ⟨v, rfl | rfl⟩ <;> exact ⟨_, rfl, rfl⟩
  have hst : heldStep g o 0 H = H := by rcases ho with ⟨v, rfl | rfl⟩ <;> rfl
  obtain ⟨m1, h1, h2⟩ := key
  have hown : ∀ i, m1.owner g i = m'.owner g i := fun i => by unfold Machine.owner; rw [h2]
  have hbit : ∀ i, m1.osBit g i = m'.osBit g i := fun i => by unfold Machine.osBit; rw [h2]
  refine ⟨0, m1, h1, ?_, ?_, ?_⟩
  · rcases ho with ⟨v, rfl | rfl⟩ <;> exact ⟨fun _ _ _ _ _ hh => hh.elim, fun _ _ hh => hh.elim⟩
  · rw [hst]
    refine ⟨?_, fun i hi _ => ⟨fun x _ => by rw [h2], hbit i⟩, fun hn => absurd hH0 hn, ⟨⟨?_, ?_, ?_⟩, ?_, ?_⟩, ?_⟩
    · intro i hi
      rw [h2]
      rcases Classical.em (H i) with hh | hh
      · exact Or.inl ⟨hh, hheld i hi hh⟩
      · exact Or.inr (Or.inr ⟨hh, hh, rfl⟩)
    · intro i hi; rw [hown]; exact hinv.owners i hi
    · rw [hown]; exact hinv.region0
    · intro i hi hu; rw [hown, hbit]; refine hinv.bitmap i hi ?_; unfold Machine.locked at hu ⊢; rw [← h2]; exact hu
    · intro i hi; rw [h2]; exact hinv.locks i hi
    · intro c' hc'; have := hinv.os c' hc'; unfold Machine.running at this ⊢; rw [h2]; exact this
    · intro i hi; rw [hown]; exact LegalEdge.same _
  · rw [hst]
    exact hf m1 (hag.same.trans fun i hi hh => ⟨hown i, hbit i⟩)

theorem safe_setDmaRange (hw : g.WF) (hc : c < g.cores) (base mask : W) : Safe g D c (Done g) noL m (setDmaRange g base mask) := by
  have h9 := hw.dram_le
  have h0 := zero_lt hw
  unfold setDmaRange
  refine Safe.ite (fun _ => done_pure _) fun _ => Safe.ite (fun _ => done_pure _) fun hd => ?_
  have hd : (base ||| mask).toNat < g.dramSize.toNat := (isDramAddress_iff _).1 (by simpa using hd)
  have hend : ((base ||| mask) + 1).toNat = (base ||| mask).toNat + 1 := by
    rw [BitVec.toNat_add, show (1 : W).toNat = 1 from rfl]; omega
  have hbase : base.toNat ≤ (base ||| mask).toNat := by
    rw [BitVec.toNat_or]; exact Nat.left_le_or
  refine safe_tasLock hw noL_lt h0 (fun _ _ => by rw [if_pos rfl]; exact done_pure _) fun m1 _ _ hb1 => ?_
  rw [if_neg (by decide)]
  dsimp only
  refine Safe.bind (safe_dmaLoop hw ((base ||| mask) + 1) (by rw [hend]; omega) (2 ^ 64) base true m1 (by rw [hend]; omega) Nat.one_le_two_pow (by omega) hb1) ?_
  rintro res H' m2 (⟨rfl, rfl⟩ | ⟨hres, rfl, hb2⟩)
  · exact done_pure _
  · cases res with
    | none => exact absurd rfl hres
    | some b =>
        dsimp only
        refine safe_setDma hw (one_self 0) ⟨_, Or.inl rfl⟩ fun m3 h3 => ?_
        refine safe_setDma hw (one_self 0) ⟨_, Or.inr rfl⟩ fun m4 h4 => ?_
        refine safe_frame_bind hw (one_lt h0) (p := act_ _) ⟨hc, fun _ _ => trivial⟩ fun _ m5 h5 => ?_
        refine safe_frame_bind hw (one_lt h0) (p := act_ _) ⟨hc, fun _ _ => trivial⟩ fun _ m6 h6 => ?_
        exact release1 hw h0 (h6.bit h0 (one_self 0) (h5.bit h0 (one_self 0) (h4.bit h0 (one_self 0) (h3.bit h0 (one_self 0) hb2)))) _

/-! ### create_metadata_region, assign, free, flush -/

theorem frame_bzeroWords (hw : g.WF) : ∀ (n : Nat) (s : W), s.toNat % 8 = 0 → s.toNat + 8 * n ≤ g.dramSize.toNat → g.monitorTop.toNat ≤ s.toNat →
    (bzeroWords s n).Frame g D c := by
  have hlt := g.dramSize.isLt
  intro n
  induction n with
  | zero => intro s _ _ _; exact Frame.pure _
  | succ n ih =>
      intro s h8 hd hs
      unfold bzeroWords
      refine Frame.bind (frame_store (by rw [okAddr_iff]; omega) (Or.inl hs)) fun _ => ?_
      by_cases hn : n = 0
      · subst hn; exact Frame.pure _
      · have h1 : (s + 8).toNat = s.toNat + 8 := add_off (by show s.toNat + 8 < _; omega)
        exact ih _ (by omega) (by omega) (by omega)

theorem safe_createMeta (hw : g.WF) (r : W) : Safe g D c (Done g) noL m (createMetadataRegion g r) := by
  unfold createMetadataRegion
  refine Safe.ite (fun _ => done_pure _) fun hd => ?_
  have hr := (isValidDramRegion_iff (g := g) r).1 (by simpa using hd)
  refine safe_tasLock hw noL_lt hr (fun _ _ => by rw [if_pos rfl]; exact done_pure _) fun m1 _ _ hb1 => ?_
  rw [if_neg (by decide)]
  refine safe_readOwner hw hr (one_self _) fun m2 h2 _ hz => ?_
  have hb2 := h2.bit hr (one_self _) hb1
  refine Safe.ite (fun _ => release1 hw hr hb2 _) fun ho => ?_
  have ho : m1.owner g r.toNat = freeEnclaveId := by simpa using ho
  have hr0 : r.toNat ≠ 0 := fun hh => by rw [hz hh] at ho; exact absurd ho (by decide)
  have ho2 : m2.owner g r.toNat = freeEnclaveId := (h2 _ hr (one_self _)).1.trans ho
  have hx2 : m2.osBit g r.toNat = false := by
    cases hx : m2.osBit g r.toNat with
    | false => rfl
    | true => have := hb2.1 hx; rw [ho2] at this; exact absurd this (by decide)
  unfold initMetadataRegion
  have hassoc : ∀ (p : Prog Unit) (q : Unit → Prog Unit) (f : Unit → Prog W), ((p >>= q) >>= f) = (p >>= fun w => q w >>= f) := by
    intro p q f
    show (p.bind q).bind f = p.bind (fun w => (q w).bind f)
    induction p with
    | ret a => rfl
    | op o k ih => simp only [Prog.bind]; congr 1; funext v; exact ih v
    | fault => rfl
    | diverge => rfl
  rw [hassoc]
  refine safe_storeOwner hw hr (one_self _) hr0 (Or.inr (Or.inr (Or.inl rfl))) (by rw [ho2]; exact LegalEdge.metadata) (one_lt hr) fun m3 h3 ho3 hx3 => ?_
  have hb3 : Bit g m3 r.toNat := by unfold Bit; rw [ho3, hx3, hx2]; decide
  rw [hassoc]
  refine safe_storeRec hw hr (field_ok hw hr _ (by decide) (by decide)) (Or.inr (Or.inr (Or.inl (pinnedA_toNat hw hr)))) (by rw [pinnedA_toNat hw hr]; simp)
    (one_self _) (one_lt hr) fun m4 h4 => ?_
  have hb4 := h4.bit hr (one_self _) hb3
  refine safe_frame_bind hw (one_lt hr) ?_ fun _ m5 h5 => release1 hw hr (h5.bit hr (one_self _) hb4) _
  have hst := region_start_ge g hr0
  obtain ⟨h1, h2, h3', h4, h5, h6, h7, h8, h9, h10, h11, h12⟩ := hw.layout
  have hal : g.stripeSize.toNat % 8 = 0 := by rw [hw.stripeSize, Nat.pow_add]; omega
  have hal2 : (r.toNat * g.stripeSize.toNat) % 8 = 0 := by rw [Nat.mul_mod, hal]; simp
  have hend := hw.region_end_le hr
  rw [Nat.succ_mul] at hend
  have hmb := mapBytes_le hw
  have hstart := dramRegionStart_toNat hw r (Nat.le_of_lt hr)
  have hbytes := mapBytes_toNat hw
  unfold bzero
  exact frame_bzeroWords hw _ _ (by rw [hstart]; exact hal2) (by rw [hstart, hbytes]; omega) (by rw [hstart]; omega)

theorem safe_assign (hw : g.WF) (hc : c < g.cores) (r e : W) (hD : D → e.toNat < g.dramSize.toNat) : Safe g D c (Done g) noL m (assignDramRegion g r e) := by
  unfold assignDramRegion
  refine Safe.ite (fun _ => done_pure _) fun hd => ?_
  have hr := (isValidDramRegion_iff (g := g) r).1 (by simpa using hd)
  refine safe_tasLock hw noL_lt hr (fun _ _ => by rw [if_pos rfl]; exact done_pure _) fun m1 _ _ hb1 => ?_
  rw [if_neg (by decide)]
  refine safe_readOwner hw hr (one_self _) fun m2 h2 _ hz => ?_
  have hb2 := h2.bit hr (one_self _) hb1
  refine Safe.ite (fun _ => release1 hw hr hb2 _) fun ho => ?_
  have ho : m1.owner g r.toNat = freeEnclaveId := by simpa using ho
  have hr0 : r.toNat ≠ 0 := fun hh => by rw [hz hh] at ho; exact absurd ho (by decide)
  have ho2 : m2.owner g r.toNat = freeEnclaveId := (h2 _ hr (one_self _)).1.trans ho
  have hs := dramRegionFor_lt hw e
  dsimp only
  refine safe_tasLock hw (one_lt hr) hs (fun m3 h3 => by rw [if_pos rfl]; exact release1 hw hr (h3.bit hr (one_self _) hb2) _) fun m3 h3 hn3 hb3 => ?_
  rw [if_neg (by decide)]
  have hne : r.toNat ≠ (dramRegionFor g e).toNat := fun hh => hn3 (Or.inr hh.symm)
  have hbr3 := h3.bit hr (one_self _) hb2
  have ho3 : m3.owner g r.toNat = freeEnclaveId := (h3 _ hr (one_self _)).1.trans ho2
  have hfail : ∀ m', Same g (addL (addL noL r.toNat) (dramRegionFor g e).toNat) m3 m' →
      Safe g D c (Done g) (addL (addL noL r.toNat) (dramRegionFor g e).toNat) m'
        (clearLock g (dramRegionFor g e) >>= fun _ => clearLock g r >>= fun _ => pure monitorInvalidValue) :=
    fun m' h' => release2 hw hr hs hne (h'.bit hr (two_fst _ _) hbr3) (h'.bit hs (two_snd _ _) hb3) _
  have hH2 := two_lt (g := g) hr hs
  by_cases hde : e.toNat < g.dramSize.toNat
  · have hcl : clampedDramRegionFor g e = dramRegionFor g e := by
      unfold clampedDramRegionFor; rw [if_pos ((isDramAddress_iff e).2 hde)]
    unfold isValidEnclaveId
    rw [hcl]
    show Safe g D c (Done g) _ m3 (readOwner g (dramRegionFor g e) >>= fun owner => if (owner == e) = true then _ else _)
    refine safe_readOwner hw hs (two_snd _ _) fun m4 h4 hv4 hz4 => ?_
    refine Safe.ite (fun hq => ?_) fun _ => hfail m4 h4
    have hq : m3.owner g (dramRegionFor g e).toNat = e := by simpa using hq
    have he0 : e = 0 := by
      have hsmall : e.toNat ≤ 3 → e = 0 := by
        intro hle
        have h11 := hw.stripe_ge
        have : (dramRegionFor g e).toNat = 0 := by
          rw [dramRegionFor_toNat hw]; unfold regionOf
          rw [← hw.stripeSize, Nat.div_eq_of_lt (by omega)]; rfl
        rw [← hq]; exact hz4 this
      rw [hq] at hv4
      rcases hv4 with hv | hv | hv | hv
      · exact hv
      · exact hsmall (by rw [hv]; decide)
      · exact hsmall (by rw [hv]; decide)
      · exact hsmall (by rw [hv]; decide)
    subst he0
    have hf0 := dramRegionFor_zero hw
    rw [hf0] at hne hb3 h4 hs hH2 ⊢
    have hb4 := h4.bit hs (two_snd _ _) hb3
    have ho4 : m4.owner g r.toNat = freeEnclaveId := (h4 _ hr (two_fst _ _)).1.trans ho3
    have hs0 : subL (addL (addL noL r.toNat) (0 : W).toNat) r.toNat (0 : W).toNat := ⟨two_snd _ _, Ne.symm hne⟩
    refine safe_storeOwner hw hr (two_fst _ _) hr0 (Or.inl rfl) (by rw [ho4]; exact LegalEdge.assign _ (by decide) (by decide) (by decide)) hH2 fun m5 h5 ho5 _ => ?_
    have hb5 := h5.bit hs hs0 hb4
    unfold setEnclaveRegionBitmapBit
    rw [if_pos rfl]
    refine safe_setOsBit hw hr (two_snd _ _) (two_fst _ _) hH2 true fun m6 h6 ho6 hx6 => ?_
    have hb6 := h6.bit hs hs0 hb5
    have hbr6 : Bit g m6 r.toNat := by unfold Bit; rw [ho6, hx6, ho5]; decide
    refine safe_frame_bind hw hH2 (frame_setDrbMap hw hc) fun _ m7 h7 => ?_
    exact release2 hw hr hs hne (h7.bit hr (two_fst _ _) hbr6) (h7.bit hs (two_snd _ _) hb6) _
  · -- the owner of region 0 is read without its lock
    have hcl : clampedDramRegionFor g e = 0 := by
      unfold clampedDramRegionFor; rw [if_neg]; rw [isDramAddress_iff]; exact hde
    have h0 := zero_lt hw
    unfold isValidEnclaveId
    rw [hcl]
    show Safe g D c (Done g) _ m3 (.op (.load (regionA g 0 + offOwner)) fun owner => if (owner == e) = true then _ else _)
    refine safe_op_frame hw hH2 ⟨field_ok hw h0 _ (by decide) (by decide), fun hd => absurd (hD hd) hde⟩ fun v m4 h4 _ h5 => ?_
    obtain ⟨m0, _, hinv, rfl⟩ := h5 _ rfl
    have : m0.mem (regionA g 0 + offOwner).toNat = nullEnclaveId := by rw [ownerA_toNat hw h0]; exact hinv.region0
    rw [this]
    have hne0 : ¬ (nullEnclaveId == e) = true := by
      rw [beq_iff_eq]; rintro rfl
      have := hw.dram_ge; have := hw.stripe_ge
      exact hde (by show 0 < _; omega)
    rw [if_neg hne0]
    exact hfail m4 h4

theorem frame_coresFlushed (hw : g.WF) (b : W) : ∀ (n i : Nat), i + n ≤ g.cores → (coresFlushedLoop g b n (BitVec.ofNat 64 i)).Frame g D c := by
  intro n
  induction n with
  | zero => intro i _; exact Frame.pure _
  | succ n ih =>
      intro i hi
      unfold coresFlushedLoop
      refine Frame.bind (frame_load (core_ok hw (by omega) _ (by decide) (by decide)) ?_) fun v => Frame.ite (fun _ => Frame.pure _) fun _ => ?_
      · intro _ j hj hx
        have hcc : (coreA g (BitVec.ofNat 64 i) + offFlushedAt).toNat = flushedA i := coreA_toNat hw (by omega) _ (by decide)
        rw [hcc] at hx
        have hilt : i < g.cores := by omega
        rcases hx with hx | hx | hx | hx <;> simp [hw, hilt] at hx
      · have : BitVec.ofNat 64 i + 1 = BitVec.ofNat 64 (i + 1) := by
          rw [W.eq_iff]; simp
        rw [this]; exact ih (i + 1) (by omega)

theorem safe_free (hw : g.WF) (r : W) : Safe g D c (Done g) noL m (freeDramRegion g r) := by
  unfold freeDramRegion
  refine Safe.ite (fun _ => done_pure _) fun hd => ?_
  have hr := (isValidDramRegion_iff (g := g) r).1 (by simpa using hd)
  refine safe_tasLock hw noL_lt hr (fun _ _ => by rw [if_pos rfl]; exact done_pure _) fun m1 _ _ hb1 => ?_
  rw [if_neg (by decide)]
  refine safe_readOwner hw hr (one_self _) fun m2 h2 _ hz => ?_
  have hb2 := h2.bit hr (one_self _) hb1
  have hfin : ∀ (o : W) (m' : Machine), m'.owner g r.toNat = o → o ≠ nullEnclaveId → LegalEdge o freeEnclaveId → Bit g m' r.toNat → r.toNat ≠ 0 →
      Safe g D c (Done g) (addL noL r.toNat) m' (store (regionA g r + offOwner) freeEnclaveId >>= fun _ => clearLock g r >>= fun _ => pure monitorOk) := by
    intro o m' ho hnz hleg hb hr0
    have hx : m'.osBit g r.toNat = false := by
      cases hx : m'.osBit g r.toNat with
      | false => rfl
      | true => have := hb.1 hx; rw [ho] at this; exact absurd this hnz
    refine safe_storeOwner hw hr (one_self _) hr0 (Or.inr (Or.inr (Or.inr rfl))) (by rw [ho]; exact hleg) (one_lt hr) fun m3 h3 ho3 hx3 => ?_
    refine release1 hw hr ?_ _
    unfold Bit; rw [ho3, hx3, hx]; decide
  refine Safe.ite (fun ho => ?_) fun _ => Safe.ite (fun ho => ?_) fun _ => release1 hw hr hb2 _
  · have hr0 : r.toNat ≠ 0 := fun hh => by rw [hz hh] at ho; exact absurd ho (by decide)
    have ho2 : m2.owner g r.toNat = blockedEnclaveId := (h2 _ hr (one_self _)).1.trans ho
    refine safe_loadRec hw hr (field_ok hw hr _ (by decide) (by decide)) (Or.inr (Or.inr (Or.inr (blockedA_toNat hw hr)))) (one_self _) fun b m3 h3 _ => ?_
    have hb3 := h3.bit hr (one_self _) hb2
    have ho3 : m3.owner g r.toNat = blockedEnclaveId := (h3 _ hr (one_self _)).1.trans ho2
    refine safe_frame_bind hw (one_lt hr) (frame_coresFlushed hw b g.coreCount.toNat 0 (by unfold Cfg.cores; omega)) fun ok m4 h4 => ?_
    have hb4 := h4.bit hr (one_self _) hb3
    refine Safe.ite (fun _ => ?_) fun _ => release1 hw hr hb4 _
    exact hfin _ m4 ((h4 _ hr (one_self _)).1.trans ho3) (by decide) LegalEdge.unblock hb4 hr0
  · have hr0 : r.toNat ≠ 0 := fun hh => by rw [hz hh] at ho; exact absurd ho (by decide)
    have ho2 : m2.owner g r.toNat = metadataEnclaveId := (h2 _ hr (one_self _)).1.trans ho
    refine safe_loadRec hw hr (field_ok hw hr _ (by decide) (by decide)) (Or.inr (Or.inr (Or.inl (pinnedA_toNat hw hr)))) (one_self _) fun b m3 h3 _ => ?_
    have hb3 := h3.bit hr (one_self _) hb2
    refine Safe.ite (fun _ => ?_) fun _ => release1 hw hr hb3 _
    exact hfin _ m3 ((h3 _ hr (one_self _)).1.trans ho2) (by decide) LegalEdge.reclaim hb3 hr0

theorem safe_flush (hw : g.WF) (hc : c < g.cores) : Safe g D c (Done g) noL m (flushCachedDramRegions g) := by
  unfold flushCachedDramRegions dramRegionTlbFlush
  refine safe_frame_bind hw noL_lt ?_ fun _ _ _ => done_pure _
  refine Frame.bind ⟨trivial, fun _ _ => trivial⟩ fun _ => ?_
  refine ⟨hc, fun v hv => ?_⟩
  rw [hv rfl]
  show Prog.Frame g D c (load g.regionsBase >>= fun clock => store (coreA g (BitVec.ofNat 64 c) + offFlushedAt) clock)
  refine Frame.bind (frame_load (clock_ok hw) ?_) fun clk => frame_store (core_ok hw hc offFlushedAt (by decide) (by decide)) ?_
  · intro _ j hj hx
    have hx : RecordWord g j (clockA g) := hx
    rcases hx with hx | hx | hx | hx <;> simp [hw, hj] at hx
  · have hcc : (coreA g (BitVec.ofNat 64 c) + offFlushedAt).toNat = flushedA c := coreA_toNat hw hc _ (by decide)
    rw [hcc]; exact Or.inr (Or.inr ⟨hc, rfl⟩)

end Sanctum
