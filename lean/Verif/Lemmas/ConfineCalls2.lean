import Verif.Lemmas.ConfineCalls
/-
The calls in the confinement logic (continued).
-/
namespace Sanctum
open Machine

variable {g : Cfg} {c : Nat} {α β : Type} {A H T S : Nat → Prop}

theorem no_S : ∀ x, noL x → A x ∨ T (regionOf g x) := fun _ hh => hh.elim

theorem conf_done (v : α) : (pure v : Prog α).Cfn g c A Top H T := trivial

/-- Releasing a lock and returning. -/
theorem conf_rel1 (hw : g.WF) {r : W} (hr : r.toNat < g.regions) (v : α) : (clearLock g r >>= fun _ => pure v).Cfn g c A Top H T :=
  conf_release hw hr (conf_done v)

theorem conf_rel2 (hw : g.WF) {r s : W} (hr : r.toNat < g.regions) (hs : s.toNat < g.regions) (v : α) :
    (clearLock g r >>= fun _ => clearLock g s >>= fun _ => pure v).Cfn g c A Top H T :=
  conf_release hw hr (conf_rel1 hw hs v)

/-- Reading an owner, when the value does not matter for the accesses. -/
theorem conf_readOwner' (hw : g.WF) {r : W} (hr : r.toNat < g.regions) (hT : ∀ i, T i → i < g.regions) {f : W → Prog β}
    (hf : ∀ v, OwnerVal v → (r.toNat = 0 → v = nullEnclaveId) → (f v).Cfn g c A Top H T) : (readOwner g r >>= f).Cfn g c A Top H T :=
  conf_readOwner hw hr hT fun v h1 h2 => (hf v h1 h2).weaken (fun _ hh => hh) fun _ hh => Or.inl hh

theorem conf_currentEnclave (hw : g.WF) (hc : c < g.cores) (hH : ∀ i, H i → i < g.regions) (hT : ∀ i, T i → i < g.regions) {f : W → Prog β}
    (hf : (f nullEnclaveId).Cfn g c A Top H T) : (currentEnclave g >>= f).Cfn g c A Top H T := by
  have hcc : (coreA g (BitVec.ofNat 64 c) + offCoreEnclaveId).toNat = coreEnclaveA c := coreA_toNat hw hc _ (by decide)
  have hlt := coreEnclaveA_lt hw hc
  show Prog.Cfn g c A Top H T (.op .curCore fun core => .op (.load (coreA g core + offCoreEnclaveId)) f)
  refine conf_op hH hT (S := noL) ⟨fun x hx => hx.elim, fun _ _ => ⟨fun hh => hh, fun hh => hh⟩⟩ no_S fun v hv => ?_
  rw [hv.core rfl]
  refine conf_op hH hT (S := noL) ⟨fun x hx => Or.inl ?_, fun _ _ => ⟨fun hh => hh, fun hh => hh⟩⟩ no_S fun v hv => ?_
  · have hx : (coreA g (BitVec.ofNat 64 c) + offCoreEnclaveId).toNat = x := hx
    omega
  · rw [hv.os _ c rfl hc hcc]
    exact hf

theorem osWord_quiet (hw : g.WF) {r : W} (hr : r.toNat < g.regions) : (bitWordA g.osBitmap r).toNat < g.monitorTop.toNat ∧
    ∀ i, i < g.regions → (bitWordA g.osBitmap r).toNat ≠ lockA g i ∧ (bitWordA g.osBitmap r).toNat ≠ ownerA g i := by
  rw [osWordA_toNat hw hr]
  refine ⟨by have := osWordA_lt hw hr; omega, fun i hi => ?_⟩
  constructor
  · intro hh; simp [hw, hi, hr] at hh
  · intro hh
    exact osBitmap_not_record hw hi (x := osWordA g r.toNat) (Or.inl hh) (k := r.toNat / 64) rfl

theorem quiet_setOsBit (hw : g.WF) {r : W} (hr : r.toNat < g.regions) (b : Bool) : (setBitmapBit g.osBitmap r b).Quiet g c S := by
  obtain ⟨h1, h2⟩ := osWord_quiet hw hr
  unfold setBitmapBit
  refine Quiet.bind (quiet_load (Or.inl h1)) fun w => Quiet.ite (fun _ => quiet_store (Or.inl h1) h2) fun _ => quiet_store (Or.inl h1) h2

theorem quiet_snapshotLoop (hw : g.WF) (n : Nat) : ∀ (p : W) (k : Nat), p.toNat = g.osBitmap.toNat + 8 * k → k + n ≤ g.bitmapWords.toNat → (snapshotLoop n p).Quiet g c S := by
  induction n with
  | zero => intro p k _ _; exact Quiet.pure _
  | succ n ih =>
      intro p k h1 h2
      obtain ⟨l1, l2, l3, l4, l5, l6, l7, l8, l9, l10, l11, l12⟩ := hw.layout
      have := hw.arrays_le; have := hw.top_le; have := hw.dram_ge; have := g.dramSize.isLt
      refine Quiet.bind (quiet_load (Or.inl (by omega))) fun _ => Quiet.bind (ih _ (k + 1) ?_ (by omega)) fun _ => Quiet.pure _
      rw [BitVec.toNat_add, show (8 : W).toNat = 8 from rfl]; omega

theorem quiet_setDrb (hw : g.WF) : (setDrbMap g g.osBitmap).Quiet g c S :=
  Quiet.bind (quiet_snapshotLoop hw _ _ 0 rfl (by omega)) fun _ => ⟨⟨fun _ hx => hx.elim, fun _ _ => ⟨fun hh => hh, fun hh => hh⟩⟩, fun _ _ => trivial⟩

theorem quiet_dmaTest {S : Nat → Prop} {o1 o2 : Op} (p q : W → Bool) (h1 : o1 = .getDmaStart ∨ o1 = .getDmaEnd) (h2 : o2 = .getDmaStart ∨ o2 = .getDmaEnd) :
    (dmaTest o1 p o2 q).Quiet g c S := by
  have ha : ∀ {o : Op}, o = .getDmaStart ∨ o = .getDmaEnd → (act o).Quiet g c S := by
    rintro o (rfl | rfl) <;> exact quiet_act' (fun _ hh => hh) fun _ hh => hh
  unfold dmaTest
  exact Quiet.bind (ha h1) fun _ => Quiet.ite (fun _ => Quiet.bind (ha h2) fun _ => Quiet.pure _) fun _ => Quiet.pure _

theorem quiet_dmaRangeCrossed {S : Nat → Prop} {r : W} : (dmaRangeCrossed g r).Quiet g c S := by
  unfold dmaRangeCrossed
  exact Quiet.bind (quiet_dmaTest _ _ (Or.inl rfl) (Or.inr rfl)) fun _ => Quiet.bind (quiet_dmaTest _ _ (Or.inr rfl) (Or.inr rfl)) fun _ =>
    Quiet.bind (quiet_dmaTest _ _ (Or.inl rfl) (Or.inr rfl)) fun _ => Quiet.bind (quiet_dmaTest _ _ (Or.inl rfl) (Or.inr rfl)) fun _ => Quiet.pure _

section
variable (hw : g.WF)
include hw

theorem conf_block (hc : c < g.cores) (r : W) : (blockDramRegion g r).Cfn g c A Top noL noL := by
  unfold blockDramRegion
  refine Prog.Cfn.ite (fun _ => conf_done _) fun hd => ?_
  obtain ⟨hr0, hr⟩ := (isDynamicDramRegion_iff r).1 (by simpa using hd)
  refine conf_tasLock hw noL_lt noL_lt hr (by rw [if_pos rfl]; exact conf_done _) fun _ => ?_
  rw [if_neg (by decide)]
  refine conf_readOwner' hw hr noL_lt fun owner _ _ => ?_
  refine conf_currentEnclave hw hc (one_lt hr) noL_lt ?_
  refine Prog.Cfn.ite (fun _ => conf_rel1 hw hr _) fun ho => ?_
  have ho : owner = nullEnclaveId := by simpa using ho
  rw [ho]
  have hnn : (nullEnclaveId != nullEnclaveId) = false := rfl
  rw [hnn, if_neg (by decide)]
  refine Prog.Cfn.bind (Q1 := fun _ H' T' => H' = addL noL r.toNat ∧ T' = noL) ⟨rfl, rfl⟩ ?_
  rintro _ _ _ ⟨rfl, rfl⟩
  rw [Bool.false_and, if_neg (by decide), show nullEnclaveId = (0 : W) from rfl, dramRegionFor_zero hw]
  have h0 := zero_lt hw
  refine conf_tasLock hw (one_lt hr) noL_lt h0 (by rw [if_pos rfl]; exact conf_rel1 hw hr _) fun _ => ?_
  rw [if_neg (by decide), if_pos rfl]
  have hH2 := two_lt (g := g) hr h0
  refine conf_quiet_bind hH2 noL_lt (S := noL) quiet_dmaRangeCrossed no_S fun crossed => ?_
  refine Prog.Cfn.ite (fun _ => conf_rel2 hw h0 hr _) fun _ => ?_
  refine conf_quiet_bind hH2 noL_lt (S := noL) (quiet_recStore hw hr (by decide) (by decide) (by decide)
    ⟨_, Or.inr (Or.inl rfl), prevA_toNat hw hr, by simp⟩) no_S fun _ => ?_
  refine conf_storeOwner hw hr (Prog.Cfn.weaken (H := addL (addL noL r.toNat) (0 : W).toNat) (T := noL) ?_ (fun _ hh => hh) fun _ hh => hh.elim)
  refine conf_quiet_bind hH2 noL_lt (S := noL) (p := act (.fetchAdd g.regionsBase 1)) ⟨⟨fun x hx => Or.inl ?_, fun i hi => ?_⟩, fun _ _ => trivial⟩ no_S fun clk => ?_
  · have hx : clockA g = x := hx
    have := clockA_lt hw
    omega
  · constructor
    · intro hh; have hh : clockA g = lockA g i := hh; simp [hw, hi] at hh
    · intro hh; have hh : clockA g = ownerA g i := hh; simp [hw, hi] at hh
  refine conf_quiet_bind hH2 noL_lt (S := noL) (quiet_recStore hw hr (by decide) (by decide) (by decide)
    ⟨_, Or.inr (Or.inr (Or.inr rfl)), blockedA_toNat hw hr, by simp⟩) no_S fun _ => ?_
  unfold setEnclaveRegionBitmapBit
  rw [if_pos rfl]
  refine conf_quiet_bind hH2 noL_lt (S := noL) (quiet_setOsBit hw hr false) no_S fun _ => ?_
  refine conf_quiet_bind hH2 noL_lt (S := noL) (quiet_setDrb hw) no_S fun _ => ?_
  exact conf_rel2 hw h0 hr _

theorem conf_check (hc : c < g.cores) (r : W) : (dramRegionCheckOwnership g r).Cfn g c A Top noL noL := by
  unfold dramRegionCheckOwnership
  refine Prog.Cfn.ite (fun _ => conf_done _) fun hd => ?_
  obtain ⟨hr0, hr⟩ := (isDynamicDramRegion_iff r).1 (by simpa using hd)
  refine conf_tasLock hw noL_lt noL_lt hr (by rw [if_pos rfl]; exact conf_done _) fun _ => ?_
  rw [if_neg (by decide)]
  refine conf_readOwner' hw hr noL_lt fun owner _ _ => ?_
  refine conf_currentEnclave hw hc (one_lt hr) noL_lt ?_
  exact conf_rel1 hw hr _

theorem conf_state (r : W) : (dramRegionState g r).Cfn g c A Top noL noL := by
  unfold dramRegionState
  refine Prog.Cfn.ite (fun _ => conf_done _) fun hd => ?_
  have hr := (isValidDramRegion_iff (g := g) r).1 (by simpa using hd)
  refine conf_tasLock hw noL_lt noL_lt hr (by rw [if_pos rfl]; exact conf_done _) fun _ => ?_
  rw [if_neg (by decide)]
  exact conf_readOwner' hw hr noL_lt fun owner _ _ => conf_rel1 hw hr _

theorem conf_owner (r : W) : (dramRegionOwner g r).Cfn g c A Top noL noL := by
  unfold dramRegionOwner
  refine Prog.Cfn.ite (fun _ => conf_done _) fun hd => ?_
  have hr := (isValidDramRegion_iff (g := g) r).1 (by simpa using hd)
  refine conf_tasLock hw noL_lt noL_lt hr (by rw [if_pos rfl]; exact conf_done _) fun _ => ?_
  rw [if_neg (by decide)]
  exact conf_readOwner' hw hr noL_lt fun owner _ _ => conf_rel1 hw hr _

theorem conf_dmaLoop (e : W) : ∀ (fuel : Nat) (a : W) (owns : Bool), (dmaRangeLoop g e fuel a owns).Cfn g c A Top noL noL := by
  have h0 := zero_lt hw
  intro fuel
  induction fuel with
  | zero => intros; trivial
  | succ n ih =>
      intro a owns
      unfold dmaRangeLoop
      refine Prog.Cfn.ite (fun _ => ?_) fun _ => conf_done _
      have hn := dramRegionFor_lt hw a
      dsimp only
      by_cases hz : dramRegionFor g a = 0
      · have hb0 : (dramRegionFor g a != 0) = false := by rw [hz]; rfl
        rw [hb0]
        show Prog.Cfn g c A Top _ _ (readOwner g (dramRegionFor g a) >>= fun owner => dmaRangeLoop g e n (a + g.stripeSize) (owns && owner == 0))
        exact conf_readOwner' hw hn noL_lt fun owner _ _ => ih _ _
      · have hb0 : (dramRegionFor g a != 0) = true := bne_iff_ne.2 hz
        rw [hb0]
        simp only [if_true]
        refine conf_tasLock hw noL_lt noL_lt hn ?_ fun _ => ?_
        · rw [if_pos rfl]; exact conf_rel1 hw (r := 0) h0 _
        · rw [if_neg (by decide)]
          exact conf_readOwner' hw hn noL_lt fun owner _ _ => conf_release hw hn (ih _ _)

theorem conf_setDmaRange (base mask : W) : (setDmaRange g base mask).Cfn g c A Top noL noL := by
  have h0 := zero_lt hw
  unfold setDmaRange
  refine Prog.Cfn.ite (fun _ => conf_done _) fun _ => Prog.Cfn.ite (fun _ => conf_done _) fun _ => ?_
  refine conf_tasLock hw noL_lt noL_lt h0 (by rw [if_pos rfl]; exact conf_done _) fun _ => ?_
  rw [if_neg (by decide)]
  dsimp only
  refine Prog.Cfn.bind (Q1 := Top) ((conf_dmaLoop hw _ _ _ _).weaken (fun _ hh => hh.elim) fun _ hh => hh) ?_
  rintro res H' T' _
  cases res with
  | none => exact conf_done _
  | some b =>
      dsimp only
      refine Prog.Cfn.weaken (H := noL) (T := noL) ?_ (fun _ hh => hh.elim) fun _ hh => hh.elim
      have hq : ∀ (o : Op) (f : Unit → Prog W), (∀ x, ¬ o.accesses g x) → (∀ x, ¬ o.mutates x) → (f ()).Cfn g c A Top noL noL →
          (act_ o >>= f).Cfn g c A Top noL noL :=
        fun o f h1 h2 h3 => conf_quiet_bind noL_lt noL_lt (S := noL) (quiet_act h1 h2) no_S fun _ => h3
      exact hq _ _ (fun _ hh => hh) (fun _ hh => hh) (hq _ _ (fun _ hh => hh) (fun _ hh => hh) (hq _ _ (fun _ hh => hh) (fun _ hh => hh)
        (hq _ _ (fun _ hh => hh) (fun _ hh => hh) (conf_rel1 hw h0 _))))

theorem prog_assoc {γ : Type} (p : Prog α) (q : α → Prog β) (f : β → Prog γ) : ((p >>= q) >>= f) = (p >>= fun w => q w >>= f) := by
  show (p.bind q).bind f = p.bind (fun w => (q w).bind f)
  induction p with
  | ret a => rfl
  | op o k ih => simp only [Prog.bind]; congr 1; funext v; exact ih v
  | fault => rfl
  | diverge => rfl

theorem conf_createMeta (r : W) : (createMetadataRegion g r).Cfn g c A Top noL noL := by
  unfold createMetadataRegion
  refine Prog.Cfn.ite (fun _ => conf_done _) fun hd => ?_
  have hr := (isValidDramRegion_iff (g := g) r).1 (by simpa using hd)
  refine conf_tasLock hw noL_lt noL_lt hr (by rw [if_pos rfl]; exact conf_done _) fun _ => ?_
  rw [if_neg (by decide)]
  refine conf_readOwner' hw hr noL_lt fun owner _ hz => ?_
  refine Prog.Cfn.ite (fun _ => conf_rel1 hw hr _) fun ho => ?_
  have ho : owner = freeEnclaveId := by simpa using ho
  have hr0 : r.toNat ≠ 0 := fun hh => by rw [hz hh] at ho; exact absurd ho (by decide)
  unfold initMetadataRegion
  rw [prog_assoc hw]
  refine conf_storeOwner hw hr (Prog.Cfn.weaken (H := addL noL r.toNat) (T := addL noL r.toNat) ?_ (fun _ hh => hh)
    fun i hh => Or.inr ⟨hh, hh.elim (fun h1 => h1.elim) id, rfl⟩)
  rw [prog_assoc hw]
  refine conf_quiet_bind (one_lt hr) (one_lt hr) (S := noL) (quiet_recStore hw hr (by decide) (by decide) (by decide)
    ⟨_, Or.inr (Or.inr (Or.inl rfl)), pinnedA_toNat hw hr, by simp⟩) no_S fun _ => ?_
  have hst := region_start_ge g hr0
  obtain ⟨h1, h2, h3', h4, h5, h6, h7, h8, h9, h10, h11, h12⟩ := hw.layout
  have hend := hw.region_end_le hr
  have hmb := mapBytes_le hw
  have hstart := dramRegionStart_toNat hw r (Nat.le_of_lt hr)
  have hbytes := mapBytes_toNat hw
  have hsl := g.dramSize.isLt
  refine conf_quiet_bind (one_lt hr) (one_lt hr) (S := fun x => regionOf g x = r.toNat) ?_ (fun x hx => Or.inr (by rw [hx]; exact one_self _)) fun _ => conf_rel1 hw hr _
  unfold bzero
  refine Prog.High.quiet ?_ hw
  refine in_bzeroWords hw (lo := r.toNat * g.stripeSize.toNat) (hi := (r.toNat + 1) * g.stripeSize.toNat) (by omega)
    (fun x x1 x2 => regionOf_span hw hr x1 x2) _ _ (by rw [hstart]; exact Nat.le_refl _) ?_ (by omega)
  rw [hstart, hbytes]
  have : (r.toNat + 1) * g.stripeSize.toNat = r.toNat * g.stripeSize.toNat + g.stripeSize.toNat := Nat.succ_mul _ _
  omega

theorem conf_assign (r e : W) : (assignDramRegion g r e).Cfn g c A Top noL noL := by
  unfold assignDramRegion
  refine Prog.Cfn.ite (fun _ => conf_done _) fun hd => ?_
  have hr := (isValidDramRegion_iff (g := g) r).1 (by simpa using hd)
  refine conf_tasLock hw noL_lt noL_lt hr (by rw [if_pos rfl]; exact conf_done _) fun _ => ?_
  rw [if_neg (by decide)]
  refine conf_readOwner' hw hr noL_lt fun owner _ _ => ?_
  refine Prog.Cfn.ite (fun _ => conf_rel1 hw hr _) fun _ => ?_
  have hs := dramRegionFor_lt hw e
  dsimp only
  refine conf_tasLock hw (one_lt hr) noL_lt hs (by rw [if_pos rfl]; exact conf_rel1 hw hr _) fun _ => ?_
  rw [if_neg (by decide)]
  unfold isValidEnclaveId
  show Prog.Cfn g c A Top _ _ (readOwner g (clampedDramRegionFor g e) >>= fun owner => if (owner == e) = true then _ else _)
  refine conf_readOwner' hw (clamped_lt hw e) noL_lt fun o ov oz => ?_
  refine Prog.Cfn.ite (fun hq => ?_) fun _ => conf_rel2 hw hs hr _
  have hq : o = e := by simpa using hq
  have he0 : e = 0 := Classical.byContradiction fun h0 => owner_ne_id hw ov oz h0 hq
  have hH2 := two_lt (g := g) hr hs
  refine conf_storeOwner hw hr (Prog.Cfn.weaken (H := addL (addL noL r.toNat) (dramRegionFor g e).toNat) (T := noL) ?_ (fun _ hh => hh) fun _ hh => hh.elim)
  unfold setEnclaveRegionBitmapBit
  rw [if_pos (show e = nullEnclaveId from he0), if_pos he0]
  refine conf_quiet_bind hH2 noL_lt (S := noL) (quiet_setOsBit hw hr true) no_S fun _ => ?_
  refine conf_quiet_bind hH2 noL_lt (S := noL) (quiet_setDrb hw) no_S fun _ => ?_
  exact conf_rel2 hw hs hr _

theorem quiet_coresFlushed (b : W) : ∀ (n i : Nat), i + n ≤ g.cores → (coresFlushedLoop g b n (BitVec.ofNat 64 i)).Quiet g c S := by
  intro n
  induction n with
  | zero => intro i _; exact Quiet.pure _
  | succ n ih =>
      intro i hi
      unfold coresFlushedLoop
      have hcc : (coreA g (BitVec.ofNat 64 i) + offFlushedAt).toNat = flushedA i := coreA_toNat hw (by omega) _ (by decide)
      have hlt := flushedA_lt hw (c := i) (by omega)
      refine Quiet.bind (quiet_load (Or.inl (by omega))) fun v => Quiet.ite (fun _ => Quiet.pure _) fun _ => ?_
      have : BitVec.ofNat 64 i + 1 = BitVec.ofNat 64 (i + 1) := by
        rw [W.eq_iff]; simp
      rw [this]; exact ih (i + 1) (by omega)

theorem conf_free (r : W) : (freeDramRegion g r).Cfn g c A Top noL noL := by
  unfold freeDramRegion
  refine Prog.Cfn.ite (fun _ => conf_done _) fun hd => ?_
  have hr := (isValidDramRegion_iff (g := g) r).1 (by simpa using hd)
  refine conf_tasLock hw noL_lt noL_lt hr (by rw [if_pos rfl]; exact conf_done _) fun _ => ?_
  rw [if_neg (by decide)]
  refine conf_readOwner' hw hr noL_lt fun owner _ _ => ?_
  have hfin : (store (regionA g r + offOwner) freeEnclaveId >>= fun _ => clearLock g r >>= fun _ => pure monitorOk).Cfn g c A Top (addL noL r.toNat) noL :=
    conf_storeOwner hw hr (conf_rel1 hw hr _)
  have hrec : ∀ {x : Nat}, RecordWord g r.toNat x → x < g.monitorTop.toNat := fun hx => record_lt hw hr hx
  refine Prog.Cfn.ite (fun _ => ?_) fun _ => Prog.Cfn.ite (fun _ => ?_) fun _ => conf_rel1 hw hr _
  · refine conf_quiet_bind (one_lt hr) noL_lt (S := noL) (quiet_load (Or.inl (by rw [blockedA_toNat hw hr]; exact hrec (Or.inr (Or.inr (Or.inr rfl)))))) no_S fun b => ?_
    refine conf_quiet_bind (one_lt hr) noL_lt (S := noL) (quiet_coresFlushed hw b g.coreCount.toNat 0 (by unfold Cfg.cores; omega)) no_S fun ok => ?_
    exact Prog.Cfn.ite (fun _ => hfin) fun _ => conf_rel1 hw hr _
  · refine conf_quiet_bind (one_lt hr) noL_lt (S := noL) (quiet_load (Or.inl (by rw [pinnedA_toNat hw hr]; exact hrec (Or.inr (Or.inr (Or.inl rfl)))))) no_S fun b => ?_
    exact Prog.Cfn.ite (fun _ => hfin) fun _ => conf_rel1 hw hr _

theorem conf_flush (hc : c < g.cores) : (flushCachedDramRegions g).Cfn g c A Top noL noL := by
  unfold flushCachedDramRegions dramRegionTlbFlush
  refine conf_quiet_bind noL_lt noL_lt (S := noL) ?_ no_S fun _ => conf_done _
  refine Quiet.bind (quiet_act (fun _ hh => hh) fun _ hh => hh) fun _ => ?_
  refine ⟨⟨fun x hx => hx.elim, fun _ _ => ⟨fun hh => hh, fun hh => hh⟩⟩, fun v hv => ?_⟩
  rw [hv.core rfl]
  have hcc : (coreA g (BitVec.ofNat 64 c) + offFlushedAt).toNat = flushedA c := coreA_toNat hw hc _ (by decide)
  have hlt := flushedA_lt hw hc
  show Prog.Quiet g c _ (load g.regionsBase >>= fun clock => store (coreA g (BitVec.ofNat 64 c) + offFlushedAt) clock)
  refine Quiet.bind (quiet_load (Or.inl (show clockA g < _ by have := clockA_lt hw; omega))) fun clk => quiet_store (Or.inl (by omega)) fun i hi => ?_
  rw [hcc]
  constructor
  · intro hh; simp [hw, hi, hc] at hh
  · intro hh; simp [hw, hi, hc] at hh

theorem conf_exitEnclave (hc : c < g.cores) : (exitEnclave g).Cfn g c A Top noL noL := by
  have hno : ∀ off : W, off.toNat ≤ 24 → (load (coreA g (BitVec.ofNat 64 c) + off)).Quiet g c noL := by
    intro off h1
    refine quiet_load (Or.inl ?_)
    rw [coreA_toNat hw hc _ h1]
    obtain ⟨l1, l2, l3, l4, l5, l6, l7, l8, l9, l10, l11, l12⟩ := hw.layout
    have := hw.arrays_le
    omega
  unfold exitEnclave
  refine conf_op noL_lt noL_lt (S := noL) ⟨fun x hx => hx.elim, fun _ _ => ⟨fun hh => hh, fun hh => hh⟩⟩ no_S fun v hv => ?_
  rw [hv.core rfl]
  refine conf_quiet (S := noL) noL_lt noL_lt ?_ no_S
  show Prog.Quiet g c _ (load (coreA g (BitVec.ofNat 64 c) + offCoreEnclaveId) >>= fun _ => load (coreA g (BitVec.ofNat 64 c) + offCoreThreadId) >>= fun _ =>
    load (coreA g (BitVec.ofNat 64 c) + offCoreThread) >>= fun _ => pure monitorOk)
  exact Quiet.bind (hno _ (by decide)) fun _ => Quiet.bind (hno _ (by decide)) fun _ => Quiet.bind (hno _ (by decide)) fun _ => Quiet.pure _

/-! ### Metadata -/

theorem conf_lockMeta {a : W} {f : W × W → Prog β} (herr : ∀ v r, v ≠ monitorOk → (f (v, r)).Cfn g c A Top noL noL)
    (hok : a.toNat % 4096 = 0 → a.toNat < g.dramSize.toNat → regionOf g a.toNat ≠ 0 →
      (f (monitorOk, dramRegionFor g a)).Cfn g c A Top (addL noL (regionOf g a.toNat)) (addL noL (regionOf g a.toNat))) :
    (lockMetadataRegionFor g a >>= f).Cfn g c A Top noL noL := by
  unfold lockMetadataRegionFor
  by_cases hd : (!isPageAligned a || !isDramAddress g a) = true
  · rw [if_pos hd]; exact herr _ _ (by decide)
  · rw [if_neg hd]
    have hd : isPageAligned a = true ∧ isDramAddress g a = true := by simpa using hd
    have h1 := (isPageAligned_iff a).1 hd.1
    have h2 := (isDramAddress_iff a).1 hd.2
    have hr := dramRegionFor_lt hw a
    have hrr := dramRegionFor_toNat hw a
    dsimp only
    rw [prog_assoc hw]
    refine conf_tasLock hw noL_lt noL_lt hr (by rw [if_pos rfl]; exact herr _ _ (by decide)) fun _ => ?_
    rw [if_neg (by decide), prog_assoc hw]
    refine conf_readOwner hw hr noL_lt fun o ov oz => ?_
    by_cases ho : (o != metadataEnclaveId) = true
    · rw [if_pos ho, prog_assoc hw]
      exact conf_release hw hr (herr _ _ (by decide))
    · rw [if_neg ho]
      have ho : o = metadataEnclaveId := by simpa using ho
      rw [hrr] at oz ⊢
      refine (hok h1 h2 fun hh => by rw [oz hh] at ho; exact absurd ho (by decide)).weaken (fun _ hh => hh) fun i hh => Or.inr ⟨hh, hh.elim (fun h => h.elim) id, ho⟩


/-- The words of a page of region `r` are in region `r`. -/
theorem page_region {a x : Nat} (h4 : a % 4096 = 0) (h1 : a ≤ x) (h2 : x < a + 4096) : regionOf g x = regionOf g a := by
  unfold regionOf
  have : x / 2 ^ (12 + g.sp) = a / 2 ^ (12 + g.sp) := by
    rw [Nat.pow_add, show 2 ^ 12 = 4096 from rfl, ← Nat.div_div_eq_div_mul, ← Nat.div_div_eq_div_mul]
    have : x / 4096 = a / 4096 := by omega
    rw [this]
  rw [this]
omit hw

theorem in_reserve (h : g.MetaOk) {a n : W} (ha : a.toNat < g.dramSize.toNat) (hr : regionOf g a.toNat ≠ 0) (hn : n.toNat < 2 ^ 52) (o t : W) :
    (reserveMetadataPages g a n o t).High g (fun x => regionOf g x = regionOf g a.toNat) := by
  obtain ⟨b1, b2, b3, b4, b5, b6⟩ := entry_bounds h ha
  have hst := region_start_ge g hr
  have htop := h.wf.top_le
  have hrl := regionOf_lt h.wf a.toNat
  have hidx : (dramStripePageFor g a).toNat = pageIndex g a.toNat := by
    rw [dramStripePageFor_toNat h.wf]; rfl
  have hsp := h.wf.stripe_le
  have hgt : (dramStripePageFor g a + n > g.stripePages) ↔ 2 ^ g.sp < pageIndex g a.toNat + n.toNat := by
    show g.stripePages < _ ↔ _
    rw [W.lt_iff, h.wf.stripePages, add_off (by rw [hidx]; omega), hidx]
  have hp := entry_toNat h ha
  have hsl := g.dramSize.isLt
  have hsm : (regionOf g a.toNat + 1) * g.stripeSize.toNat = regionOf g a.toNat * g.stripeSize.toNat + g.stripeSize.toNat := Nat.succ_mul _ _
  unfold reserveMetadataPages assignMetadataPages
  refine High.ite (fun _ => High.pure _) fun hfit => ?_
  rw [hgt] at hfit
  dsimp only
  have hS : ∀ x, regionOf g a.toNat * g.stripeSize.toNat ≤ x → x < (regionOf g a.toNat + 1) * g.stripeSize.toNat → regionOf g x = regionOf g a.toNat :=
    fun x x1 x2 => regionOf_span h.wf hrl x1 x2
  refine High.bind (in_pagesEmptyLoop h.wf (by omega) hS _ _ (by omega) (by omega) (by omega)) fun ok => High.ite (fun _ => ?_) fun _ => High.pure _
  exact High.bind (in_store h.wf (by omega) hS (by omega) (by omega)) fun _ =>
    High.bind (in_innerPagesLoop h.wf (by omega) hS _ _ (by omega) (by omega) (by omega)) fun _ => High.pure _

theorem conf_createEnclave (h : g.MetaOk) (e b k n : W) (d : Bool) : (createEnclave g e b k n d).Cfn g c A Top noL noL := by
  unfold createEnclave
  refine Prog.Cfn.ite (fun _ => conf_done _) fun _ => Prog.Cfn.ite (fun _ => conf_done _) fun _ => ?_
  refine conf_lockMeta h.wf (fun v r hv => ?_) fun h1 h2 h3 => ?_
  · dsimp only; rw [if_pos (bne_iff_ne.2 hv)]; exact conf_done _
  dsimp only
  rw [if_neg (by decide)]
  have hr := dramRegionFor_lt h.wf e
  have hrl := regionOf_lt h.wf e.toNat
  obtain ⟨p1, p2, p3⟩ := page_high h.wf h1 h2 h3
  have hsl := g.dramSize.isLt
  have hS : ∀ x, regionOf g x = regionOf g e.toNat → A x ∨ addL noL (regionOf g e.toNat) (regionOf g x) := fun x hx => Or.inr (by rw [hx]; exact one_self _)
  refine conf_readOwner' h.wf hr (one_lt hrl) fun o _ _ => ?_
  refine Prog.Cfn.ite (fun _ => conf_rel1 h.wf hr _) fun _ => ?_
  refine conf_quiet_bind (one_lt hrl) (one_lt hrl) ((in_reserve h h2 h3 (by rw [enclaveInfoPages_toNat]; exact recordPages_lt _) _ _).quiet h.wf) hS fun res => ?_
  refine Prog.Cfn.ite (fun _ => conf_rel1 h.wf hr _) fun _ => ?_
  refine conf_quiet_bind (one_lt hrl) (one_lt hrl) ((in_initEnclaveInfo h.wf (lo := e.toNat) (hi := e.toNat + 4096) p3
    (fun x x1 x2 => page_region h.wf h1 x1 x2) p1 (Nat.le_refl _) (by omega) (by omega) _ _ _ _).quiet h.wf) hS fun _ => ?_
  exact conf_rel1 h.wf hr _

theorem conf_withLocked (hw : g.WF) (e : W) (k : W → Prog W) : (withLockedEnclave g e k).Cfn g c A Top noL noL := by
  unfold withLockedEnclave
  dsimp only
  have hr := clamped_lt hw e
  refine conf_tasLock hw noL_lt noL_lt hr (by rw [if_pos rfl]; exact conf_done _) fun _ => ?_
  rw [if_neg (by decide)]
  by_cases he : e = nullEnclaveId
  · rw [if_pos he]
    refine Prog.Cfn.bind (Q1 := fun a _ _ => a = false) rfl ?_
    rintro _ _ _ rfl
    rw [if_pos (by decide)]
    exact conf_rel1 hw hr _
  · rw [if_neg he]
    unfold isValidEnclaveId
    show Prog.Cfn g c A Top _ _ (readOwner g (clampedDramRegionFor g e) >>= fun owner => if (!(owner == e)) = true then _ else _)
    refine conf_readOwner' hw hr noL_lt fun o ov hz => ?_
    have hne := owner_ne_id hw ov hz he
    rw [if_pos (by simpa using hne)]
    exact conf_rel1 hw hr _

theorem conf_copyDebug (hw : g.WF) (hc : c < g.cores) (a os : W) (dir : Bool) (ha : g.monitorTop.toNat ≤ a.toNat) :
    (copyDebugEnclavePage g 0 a os dir).Cfn g c (ArgWord (.copyDebugEnclavePage 0 a os dir)) Top noL noL := by
  unfold copyDebugEnclavePage
  refine Prog.Cfn.ite (fun _ => conf_done _) fun hal => Prog.Cfn.ite (fun _ => conf_done _) fun hdr => ?_
  have hal : isPageAligned a = true ∧ isPageAligned os = true := by simpa using hal
  have hdr : isDramAddress g a = true ∧ isDramAddress g os = true := by simpa using hdr
  have a1 := (isPageAligned_iff a).1 hal.1
  have a2 := (isDramAddress_iff a).1 hdr.1
  have o1 := (isPageAligned_iff os).1 hal.2
  have o2 := (isDramAddress_iff os).1 hdr.2
  have hr := clamped_lt hw (0 : W)
  have hs := dramRegionFor_lt hw os
  dsimp only
  refine conf_tasLock hw noL_lt noL_lt hr (by rw [if_pos rfl]; exact conf_done _) fun _ => ?_
  rw [if_neg (by decide)]
  refine conf_tasLock hw (one_lt hr) noL_lt hs (by rw [if_pos rfl]; exact conf_rel1 hw hr _) fun hn => ?_
  rw [if_neg (by decide)]
  have hne : (clampedDramRegionFor g 0).toNat ≠ (dramRegionFor g os).toNat := fun hh => hn (Or.inr hh.symm)
  have hcl : (clampedDramRegionFor g 0).toNat = 0 := by
    rw [clamped_eq hw]; unfold idRegion; split
    · unfold regionOf; simp
    · rfl
  have hreg : regionOf g os.toNat ≠ 0 := fun hh => hne (by rw [hcl, dramRegionFor_toNat hw, hh])
  obtain ⟨p1, p2, p3⟩ := page_high hw o1 o2 hreg
  have hdm := dram_mod hw
  have hsl := g.dramSize.isLt
  have hH2 := two_lt (g := g) hr hs
  refine conf_readOwner' hw hr noL_lt fun oe _ _ => conf_readOwner' hw hs noL_lt fun oo _ _ => ?_
  refine conf_quiet_bind hH2 noL_lt (S := noL) ?_ no_S fun bit => ?_
  · unfold readEnclaveRegionBitmapBit
    rw [if_pos (show (0 : W) = nullEnclaveId from rfl)]
    exact Quiet.bind (quiet_load (Or.inl (osWord_quiet hw (dramRegionFor_lt hw a)).1)) fun _ => Quiet.pure _
  refine conf_quiet_bind hH2 noL_lt (S := noL) (quiet_load (Or.inl ?_)) no_S fun dbg => ?_
  · obtain ⟨l1, l2, l3, l4, l5, l6, l7, l8, l9, l10, l11, l12⟩ := hw.layout
    have := hw.arrays_le
    show 24 < _
    omega
  refine conf_quiet_bind hH2 noL_lt (S := ArgWord (.copyDebugEnclavePage 0 a os dir)) (Quiet.ite (fun _ => ?_) fun _ => Quiet.pure _) (fun x hx => Or.inl hx) fun _ =>
    conf_rel2 hw hs hr _
  have hin1 : ∀ x, os.toNat ≤ x → x < os.toNat + 8 * 512 → g.monitorTop.toNat ≤ x ∧ ArgWord (.copyDebugEnclavePage 0 a os dir) x :=
    fun x x1 x2 => ⟨by omega, Or.inr ⟨x1, by omega⟩⟩
  have hin2 : ∀ x, a.toNat ≤ x → x < a.toNat + 8 * 512 → g.monitorTop.toNat ≤ x ∧ ArgWord (.copyDebugEnclavePage 0 a os dir) x :=
    fun x x1 x2 => ⟨by omega, Or.inl ⟨x1, by omega⟩⟩
  refine Prog.High.quiet (High.ite (fun _ => ?_) fun _ => ?_) hw
  · exact in_copyWords _ _ _ (by omega) (by omega) hin1 hin2
  · exact in_copyWords _ _ _ (by omega) (by omega) hin2 hin1

theorem conf_createThread (hw : g.WF) (hc : c < g.cores) (t p : W) (hk : 304 + 8 * g.bitmapWords.toNat ≤ g.monitorTop.toNat) :
    (createThread g t p).Cfn g c A Top noL noL := by
  unfold createThread
  refine Prog.Cfn.ite (fun _ => trivial) fun hp => Prog.Cfn.ite (fun _ => trivial) fun hd => Prog.Cfn.ite (fun _ => trivial) fun _ => ?_
  dsimp only
  rw [threadPagesLoop_ok hw (by simpa using hp) (by simpa using hd)]
  refine conf_currentEnclave hw hc noL_lt noL_lt ?_
  rw [show nullEnclaveId = (0 : W) from rfl, dramRegionFor_zero hw]
  have h0 := zero_lt hw
  refine conf_tasLock hw noL_lt noL_lt h0 (by rw [if_pos rfl]; trivial) fun _ => ?_
  rw [if_neg (by decide)]
  have hpr := regionOf_lt hw p.toNat
  have hww := hw.words
  have hwa : (bitWordA (enclaveRegionBitmap 0) (dramRegionFor g p)).toNat = 304 + 8 * (regionOf g p.toNat / 64) := by
    have hbl := hw.layout
    simp only [bitWordA, bitmapOffset, enclaveRegionBitmap, enclaveInfoSize, BitVec.toNat_add, BitVec.toNat_mul, div64_toNat,
      show (8 : W).toNat = 8 from rfl, show (304 : W).toNat = 304 from rfl, dramRegionFor_toNat hw, show (0 : W).toNat = 0 from rfl]
    omega
  refine conf_quiet_bind (one_lt h0) noL_lt (S := noL) (Quiet.bind (quiet_load (Or.inl ?_)) fun _ => Quiet.pure _) no_S fun bit => ?_
  · show (bitWordA (enclaveRegionBitmap 0) (dramRegionFor g p)).toNat < _
    rw [hwa]; omega
  · refine Prog.Cfn.ite (fun _ => trivial) fun _ => ?_
    exact conf_rel1 hw h0 _

theorem conf_deleteThread (hw : g.WF) (hc : c < g.cores) (t : W) : (deleteThread g t).Cfn g c A Top noL noL := by
  unfold deleteThread
  refine conf_currentEnclave hw hc noL_lt noL_lt ?_
  dsimp only
  rw [show nullEnclaveId = (0 : W) from rfl, dramRegionFor_zero hw]
  refine conf_tasLock hw noL_lt noL_lt (zero_lt hw) (by rw [if_pos rfl]; trivial) fun _ => ?_
  rw [if_neg (by decide)]; trivial

/-- The calls are confined. -/
theorem conf_call (hw : g.WF) (c : Nat) (k : Call) (hc : c < g.cores) (hk : CoveredC g k) (hcf : Confined g k) :
    (k.prog g).Cfn g c (ArgWord k) Top noL noL := by
  obtain ⟨hcov, hrec⟩ := hk
  cases k
  case acceptThread => exact hcov.elim
  case blockDramRegion r => exact conf_block hw hc r
  case dramRegionCheckOwnership r => exact conf_check hw hc r
  case exitEnclave => exact conf_exitEnclave hw hc
  case setDmaRange b n => exact conf_setDmaRange hw b n
  case dramRegionState r => exact conf_state hw r
  case dramRegionOwner r => exact conf_owner hw r
  case assignDramRegion r e => exact conf_assign hw r e
  case freeDramRegion r => exact conf_free hw r
  case flushCachedDramRegions => exact conf_flush hw hc
  case createMetadataRegion r => exact conf_createMeta hw r
  case createEnclave e b k n d => exact conf_createEnclave ⟨hw, hcov.1, hcov.2⟩ e b k n d
  case loadPageTable e p v l a =>
      show (loadPageTable g e p v l a).Cfn g c _ Top noL noL
      unfold loadPageTable
      exact Prog.Cfn.ite (fun _ => conf_done _) fun _ => Prog.Cfn.ite (fun _ => conf_done _) fun _ => Prog.Cfn.ite (fun _ => conf_done _) fun _ => conf_withLocked hw _ _
  case loadPage e p v o a =>
      show (loadPage g e p v o a).Cfn g c _ Top noL noL
      unfold loadPage
      exact Prog.Cfn.ite (fun _ => conf_done _) fun _ => Prog.Cfn.ite (fun _ => conf_done _) fun _ => conf_withLocked hw _ _
  case loadThread e t w x y z => exact hcf.elim
  case assignThread e t => exact hcf.elim
  case initEnclave e => show (initEnclave g e).Cfn g c _ Top noL noL; unfold initEnclave; exact conf_withLocked hw _ _
  case enterEnclave e t => show (enterEnclave g e t).Cfn g c _ Top noL noL; unfold enterEnclave; exact conf_withLocked hw _ _
  case createThread t p => exact conf_createThread hw hc t p hcf
  case deleteThread t => exact conf_deleteThread hw hc t
  case deleteEnclave e => show (deleteEnclave g e).Cfn g c _ Top noL noL; unfold deleteEnclave; exact conf_withLocked hw _ _
  case copyDebugEnclavePage e a os d =>
      obtain rfl : e = nullEnclaveId := hcf
      exact conf_copyDebug hw hc a os d (hcov.resolve_left fun hh => hh rfl)
  all_goals exact conf_done _

end
end Sanctum
