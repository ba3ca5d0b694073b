import Verif.Spec.Ordered
import Verif.Lemmas.Civil
/-
A logic for the order in which a program asks for locks: in descending order, none after the first release and none after a refusal.
-/
namespace Sanctum
open Machine

variable {g : Cfg} {c : Nat} {α β : Type} {H : Nat → Prop} {b : Option W}

/-- The program asks for no region lock, and returns values that satisfy `P`. -/
def Prog.NoTas (g : Cfg) (c : Nat) (P : W → Prop) : Prog W → Prop
  | .ret v => P v
  | .op o f => (∀ a i, o = .tas a → i < g.regions → a.toNat ≠ lockA g i) ∧ ∀ v, RespOk g c (fun _ => False) o v → Prog.NoTas g c P (f v)
  | .fault => True
  | .diverge => True

/-- The program, which holds `H`, asks for locks of regions with smaller indices than those it holds, and returns `b` only after a refusal. -/
def Prog.Desc (g : Cfg) (c : Nat) (b : Option W) : (Nat → Prop) → Prog W → Prop
  | _, .ret v => b ≠ some v
  | H, .op o f => (∀ a i, o = .tas a → i < g.regions → a.toNat = lockA g i → ∀ j, H j → i < j) ∧
      ∀ v, RespOk g c H o v →
        (∃ a i, o = .tas a ∧ i < g.regions ∧ a.toNat = lockA g i ∧ v ≠ 0 ∧ (f v).NoTas g c fun _ => True) ∨
        ((∀ a, o ≠ .tas a) ∧ (f v).NoTas g c fun w => b ≠ some w) ∨
        ((∀ j, H j → heldStep g o v H j) ∧ (∀ a i, o = .tas a → i < g.regions → a.toNat = lockA g i → v = 0) ∧ Prog.Desc g c b (heldStep g o v H) (f v))
  | _, .fault => True
  | _, .diverge => True

theorem noTas_pure {P : W → Prop} {v : W} (h : P v) : (pure v : Prog W).NoTas g c P := h

theorem noTas_clearLock {P : W → Prop} {r : W} {f : Unit → Prog W} (hf : (f ()).NoTas g c P) : (clearLock g r >>= f).NoTas g c P :=
  ⟨fun _ _ h1 => (Op.noConfusion h1), fun _ _ => hf⟩

theorem desc_still {P : α → Prop} {p : Prog α} {f : α → Prog W} (hH : ∀ i, H i → i < g.regions) (hp : p.Still g c P)
    (hf : ∀ a, P a → (f a).Desc g c b H) : (p >>= f).Desc g c b H := by
  show (p.bind f).Desc g c b H
  induction p with
  | ret a => exact hf a hp
  | op o k ih =>
      have hno : ∀ a i, o = .tas a → i < g.regions → a.toNat ≠ lockA g i := fun a i h1 h2 h3 => hp.1 i h2 (by rw [h1]; exact h3)
      refine ⟨fun a i h1 h2 h3 => absurd h3 (hno a i h1 h2), fun v hv => Or.inr (Or.inr ?_)⟩
      have hst : heldStep g o v H = H := by
        refine heldStep_frame ?_ hH v
        rintro i hi a w (rfl | rfl) hh
        · exact hp.1 i hi hh
        · exact hp.1 i hi hh
      refine ⟨fun j hj => by rw [hst]; exact hj, fun a i h1 h2 h3 => absurd h3 (hno a i h1 h2), ?_⟩
      rw [hst]
      exact ih v (hp.2 v (hv.mono fun _ hh => hh.elim))
  | fault => trivial
  | diverge => trivial

theorem desc_ite {q : Prop} [Decidable q] {p1 p2 : Prog W} (h1 : q → p1.Desc g c b H) (h2 : ¬ q → p2.Desc g c b H) :
    (if q then p1 else p2).Desc g c b H := by
  split
  · exact h1 ‹_›
  · exact h2 ‹_›

theorem desc_pure {v : W} (h : b ≠ some v) : (pure v : Prog W).Desc g c b H := h

theorem desc_tasLock (hw : g.WF) {r : W} (hr : r.toNat < g.regions) {f : Bool → Prog W} (hn : ∀ j, H j → r.toNat < j)
    (hb : (f true).NoTas g c fun _ => True) (hf : (f false).Desc g c b (addL H r.toNat)) : (tasLock g r >>= f).Desc g c b H := by
  have ha := lockA_toNat hw hr
  refine ⟨fun a i h1 h2 h3 => ?_, fun v hv => ?_⟩
  · cases h1
    rw [ha] at h3
    rw [← lockA_inj.1 h3]
    exact hn
  · by_cases hz : v = 0
    · right; right
      have hst : heldStep g (.tas (regionA g r + offLock)) v H = addL H r.toNat := by
        funext i
        simp only [heldStep, addL, ha, lockA_inj]
        refine propext ⟨fun hh => hh.imp id fun h1 => h1.2.2.symm, fun hh => hh.imp id fun h1 => ⟨by rw [h1]; exact hr, hz, h1.symm⟩⟩
      rw [hst]
      subst hz
      exact ⟨fun j hj => Or.inl hj, fun _ _ _ _ _ => rfl, hf⟩
    · refine Or.inl ⟨_, _, rfl, hr, ha, hz, ?_⟩
      show (f (v != 0)).NoTas g c _
      rw [bne_iff_ne.2 hz]
      exact hb

theorem desc_clearLock {r : W} {f : Unit → Prog W} (hf : (f ()).NoTas g c fun w => b ≠ some w) : (clearLock g r >>= f).Desc g c b H :=
  ⟨fun _ _ h1 => (Op.noConfusion h1), fun _ _ => Or.inr (Or.inl ⟨fun _ h1 => (Op.noConfusion h1), hf⟩)⟩

theorem desc_rel1 {r v : W} (hv : b ≠ some v) : (clearLock g r >>= fun _ => pure v).Desc g c b H := desc_clearLock (noTas_pure hv)

theorem desc_rel2 {r s v : W} (hv : b ≠ some v) : (clearLock g r >>= fun _ => clearLock g s >>= fun _ => pure v).Desc g c b H :=
  desc_clearLock (noTas_clearLock (noTas_pure hv))

theorem desc_load {a : W} {f : W → Prog W} (hf : ∀ v, (f v).Desc g c b H) : (load a >>= f).Desc g c b H :=
  ⟨fun _ _ h1 => (Op.noConfusion h1), fun v _ => Or.inr (Or.inr ⟨fun _ hj => hj, fun _ _ h1 => (Op.noConfusion h1), hf v⟩)⟩

theorem desc_readOwner (hw : g.WF) {r : W} (hr : r.toNat < g.regions) {f : W → Prog W}
    (hf : ∀ v, OwnerVal v → (r.toNat = 0 → v = nullEnclaveId) → (f v).Desc g c b H) : (readOwner g r >>= f).Desc g c b H := by
  refine ⟨fun a i h1 => (Op.noConfusion h1), fun v hv => Or.inr (Or.inr ⟨fun _ hj => hj, fun _ _ h1 => (Op.noConfusion h1), ?_⟩)⟩
  obtain ⟨h1, h2⟩ := hv.owner _ _ rfl hr (ownerA_toNat hw hr)
  exact hf v h1 h2

theorem desc_currentEnclave (hw : g.WF) (hc : c < g.cores) {f : W → Prog W} (hf : (f nullEnclaveId).Desc g c b H) :
    (currentEnclave g >>= f).Desc g c b H := by
  have hcc : (coreA g (BitVec.ofNat 64 c) + offCoreEnclaveId).toNat = coreEnclaveA c := coreA_toNat hw hc _ (by decide)
  show Prog.Desc g c b H (.op .curCore fun core => .op (.load (coreA g core + offCoreEnclaveId)) f)
  refine ⟨fun a i h1 => (Op.noConfusion h1), fun v hv => Or.inr (Or.inr ⟨fun _ hj => hj, fun _ _ h1 => (Op.noConfusion h1), ?_⟩)⟩
  rw [hv.core rfl]
  refine ⟨fun a i h1 => (Op.noConfusion h1), fun v hv => Or.inr (Or.inr ⟨fun _ hj => hj, fun _ _ h1 => (Op.noConfusion h1), ?_⟩)⟩
  rw [hv.os _ c rfl hc hcc]
  exact hf

/-- Having no lock, one may ask for any. -/
theorem noL_down (i : Nat) : ∀ j, noL j → i < j := fun _ hh => hh.elim

section
variable (hw : g.WF)
include hw

theorem desc_block (hc : c < g.cores) (r : W) : (blockDramRegion g r).Desc g c (some monitorConcurrentCall) noL := by
  unfold blockDramRegion
  refine desc_ite (fun _ => desc_pure (by decide)) fun hd => ?_
  obtain ⟨hr0, hr⟩ := (isDynamicDramRegion_iff r).1 (by simpa using hd)
  refine desc_tasLock hw hr (noL_down _) (by rw [if_pos rfl]; exact noTas_pure trivial) ?_
  rw [if_neg (by decide)]
  refine desc_readOwner hw hr fun owner _ _ => ?_
  refine desc_currentEnclave hw hc ?_
  refine desc_ite (fun _ => desc_rel1 (by decide)) fun ho => ?_
  have ho : owner = nullEnclaveId := by simpa using ho
  rw [ho]
  have hnn : (nullEnclaveId != nullEnclaveId) = false := rfl
  rw [hnn, if_neg (by decide)]
  refine desc_still (one_lt hr) (P := fun _ => True) (p := pure 0) trivial fun _ _ => ?_
  rw [Bool.false_and, if_neg (by decide), show nullEnclaveId = (0 : W) from rfl, dramRegionFor_zero hw]
  have h0 := zero_lt hw
  refine desc_tasLock hw h0 (fun j hj => hj.elim (fun h => h.elim) fun h => ?_) (by rw [if_pos rfl]; exact noTas_clearLock (noTas_pure trivial)) ?_
  · show 0 < j
    rw [h]; omega
  rw [if_neg (by decide), if_pos rfl]
  have hH2 := two_lt (g := g) hr h0
  refine desc_still hH2 (steady_dmaRangeCrossed (H := fun _ => True) trivial).still fun crossed _ => ?_
  refine desc_ite (fun _ => desc_rel2 (by decide)) fun _ => ?_
  refine desc_still hH2 (steady_rec hw (H := fun _ => True) hr0 hr trivial (Or.inr (Or.inl rfl)) (prevA_toNat hw hr)).still fun _ _ => ?_
  refine desc_still hH2 (steady_rec hw (H := fun _ => True) hr0 hr trivial (Or.inl rfl) (ownerA_toNat hw hr)).still fun _ _ => ?_
  refine desc_still hH2 (P := fun _ => True) (p := act (.fetchAdd g.regionsBase 1)) ⟨fun i hi => ?_, fun _ _ => trivial⟩ fun clk _ => ?_
  · intro hh; have hh : clockA g = lockA g i := hh; simp [hw, hi] at hh
  refine desc_still hH2 (steady_rec hw (H := fun _ => True) hr0 hr trivial (Or.inr (Or.inr (Or.inr rfl))) (blockedA_toNat hw hr)).still fun _ _ => ?_
  unfold setEnclaveRegionBitmapBit
  rw [if_pos rfl]
  refine desc_still hH2 (steady_setOsBit hw hr (H := fun _ => True) false trivial).still fun _ _ => ?_
  refine desc_still hH2 (steady_setDrb hw (H := fun _ => True) trivial).still fun _ _ => ?_
  exact desc_rel2 (by decide)

theorem desc_check (hc : c < g.cores) (r : W) : (dramRegionCheckOwnership g r).Desc g c (some monitorConcurrentCall) noL := by
  unfold dramRegionCheckOwnership
  refine desc_ite (fun _ => desc_pure (by decide)) fun hd => ?_
  obtain ⟨hr0, hr⟩ := (isDynamicDramRegion_iff r).1 (by simpa using hd)
  refine desc_tasLock hw hr (noL_down _) (by rw [if_pos rfl]; exact noTas_pure trivial) ?_
  rw [if_neg (by decide)]
  refine desc_readOwner hw hr fun owner _ _ => ?_
  refine desc_currentEnclave hw hc ?_
  refine desc_rel1 ?_
  split <;> decide

theorem desc_state (r : W) : (dramRegionState g r).Desc g c (some stateLocked) noL := by
  unfold dramRegionState
  refine desc_ite (fun _ => desc_pure (by decide)) fun hd => ?_
  have hr := (isValidDramRegion_iff (g := g) r).1 (by simpa using hd)
  refine desc_tasLock hw hr (noL_down _) (by rw [if_pos rfl]; exact noTas_pure trivial) ?_
  rw [if_neg (by decide)]
  refine desc_readOwner hw hr fun owner _ _ => desc_rel1 ?_
  split
  · decide
  · split
    · decide
    · split <;> decide

theorem desc_owner (r : W) : (dramRegionOwner g r).Desc g c none noL := by
  unfold dramRegionOwner
  refine desc_ite (fun _ => desc_pure (fun h => by cases h)) fun hd => ?_
  have hr := (isValidDramRegion_iff (g := g) r).1 (by simpa using hd)
  refine desc_tasLock hw hr (noL_down _) (by rw [if_pos rfl]; exact noTas_pure trivial) ?_
  rw [if_neg (by decide)]
  exact desc_readOwner hw hr fun owner _ _ => desc_rel1 (fun h => by cases h)

theorem desc_createMeta (r : W) : (createMetadataRegion g r).Desc g c (some monitorConcurrentCall) noL := by
  unfold createMetadataRegion
  refine desc_ite (fun _ => desc_pure (by decide)) fun hd => ?_
  have hr := (isValidDramRegion_iff (g := g) r).1 (by simpa using hd)
  refine desc_tasLock hw hr (noL_down _) (by rw [if_pos rfl]; exact noTas_pure trivial) ?_
  rw [if_neg (by decide)]
  refine desc_readOwner hw hr fun owner _ hz => ?_
  refine desc_ite (fun _ => desc_rel1 (by decide)) fun ho => ?_
  have ho : owner = freeEnclaveId := by simpa using ho
  have hr0 : r.toNat ≠ 0 := fun hh => by rw [hz hh] at ho; exact absurd ho (by decide)
  unfold initMetadataRegion
  rw [prog_assoc hw]
  refine desc_still (one_lt hr) (steady_rec hw (H := fun _ => True) hr0 hr trivial (Or.inl rfl) (ownerA_toNat hw hr)).still fun _ _ => ?_
  rw [prog_assoc hw]
  refine desc_still (one_lt hr) (steady_rec hw (H := fun _ => True) hr0 hr trivial (Or.inr (Or.inr (Or.inl rfl))) (pinnedA_toNat hw hr)).still fun _ _ => ?_
  have hst := region_start_ge g hr0
  obtain ⟨h1, h2, h3', h4, h5, h6, h7, h8, h9, h10, h11, h12⟩ := hw.layout
  have hend := hw.region_end_le hr
  have hmb := mapBytes_le hw
  have hstart := dramRegionStart_toNat hw r (Nat.le_of_lt hr)
  have hbytes := mapBytes_toNat hw
  have hsl := g.dramSize.isLt
  refine desc_still (one_lt hr) (P := fun _ => True) ?_ fun _ _ => desc_rel1 (by decide)
  unfold bzero
  refine (Prog.High.steady (H := fun _ => True) hw (S := fun _ => True) ?_).still
  refine in_bzeroWords hw (lo := r.toNat * g.stripeSize.toNat) (hi := (r.toNat + 1) * g.stripeSize.toNat) (by omega)
    (fun x x1 x2 => trivial) _ _ (by rw [hstart]; exact Nat.le_refl _) ?_ (by omega)
  rw [hstart, hbytes]
  have : (r.toNat + 1) * g.stripeSize.toNat = r.toNat * g.stripeSize.toNat + g.stripeSize.toNat := Nat.succ_mul _ _
  omega

theorem desc_assign (r e : W) (hA : regionOf g e.toNat < r.toNat) : (assignDramRegion g r e).Desc g c (some monitorConcurrentCall) noL := by
  unfold assignDramRegion
  refine desc_ite (fun _ => desc_pure (by decide)) fun hd => ?_
  have hr := (isValidDramRegion_iff (g := g) r).1 (by simpa using hd)
  refine desc_tasLock hw hr (noL_down _) (by rw [if_pos rfl]; exact noTas_pure trivial) ?_
  rw [if_neg (by decide)]
  refine desc_readOwner hw hr fun owner _ hz => ?_
  refine desc_ite (fun _ => desc_rel1 (by decide)) fun ho => ?_
  have ho : owner = freeEnclaveId := by simpa using ho
  have hr0 : r.toNat ≠ 0 := fun hh => by rw [hz hh] at ho; exact absurd ho (by decide)
  have hs := dramRegionFor_lt hw e
  have hss := dramRegionFor_toNat hw e
  dsimp only
  refine desc_tasLock hw hs (fun j hj => hj.elim (fun h => h.elim) fun h => ?_) (by rw [if_pos rfl]; exact noTas_clearLock (noTas_pure trivial)) ?_
  · rw [h, hss]; exact hA
  rw [if_neg (by decide)]
  unfold isValidEnclaveId
  show Prog.Desc g c _ _ (readOwner g (clampedDramRegionFor g e) >>= fun owner => if (owner == e) = true then _ else _)
  refine desc_readOwner hw (clamped_lt hw e) fun o ov oz => ?_
  refine desc_ite (fun hq => ?_) fun _ => desc_rel2 (by decide)
  have hq : o = e := by simpa using hq
  have he0 : e = 0 := Classical.byContradiction fun h0 => owner_ne_id hw ov oz h0 hq
  have hH2 := two_lt (g := g) hr hs
  refine desc_still hH2 (steady_rec hw (H := fun _ => True) hr0 hr trivial (Or.inl rfl) (ownerA_toNat hw hr)).still fun _ _ => ?_
  unfold setEnclaveRegionBitmapBit
  rw [if_pos (show e = nullEnclaveId from he0), if_pos he0]
  refine desc_still hH2 (steady_setOsBit hw hr (H := fun _ => True) true trivial).still fun _ _ => ?_
  refine desc_still hH2 (steady_setDrb hw (H := fun _ => True) trivial).still fun _ _ => ?_
  exact desc_rel2 (by decide)

theorem desc_free (r : W) : (freeDramRegion g r).Desc g c (some monitorConcurrentCall) noL := by
  unfold freeDramRegion
  refine desc_ite (fun _ => desc_pure (by decide)) fun hd => ?_
  have hr := (isValidDramRegion_iff (g := g) r).1 (by simpa using hd)
  refine desc_tasLock hw hr (noL_down _) (by rw [if_pos rfl]; exact noTas_pure trivial) ?_
  rw [if_neg (by decide)]
  refine desc_readOwner hw hr fun owner _ hz => ?_
  have hfin : r.toNat ≠ 0 → (store (regionA g r + offOwner) freeEnclaveId >>= fun _ => clearLock g r >>= fun _ => pure monitorOk).Desc g c (some monitorConcurrentCall) (addL noL r.toNat) :=
    fun hr0 => desc_still (one_lt hr) (steady_rec hw (H := fun _ => True) hr0 hr trivial (Or.inl rfl) (ownerA_toNat hw hr)).still fun _ _ => desc_rel1 (by decide)
  have hlow : (clearLock g r >>= fun _ => pure monitorInvalidState).Desc g c (some monitorConcurrentCall) (addL noL r.toNat) := desc_rel1 (by decide)
  refine desc_ite (fun ho => ?_) fun _ => desc_ite (fun ho => ?_) fun _ => hlow
  · have hr0 : r.toNat ≠ 0 := fun hh => by rw [hz hh] at ho; exact absurd ho (by decide)
    refine desc_load fun bl => ?_
    refine desc_still (one_lt hr) (steady_coresFlushed (H := fun _ => True) hw bl g.coreCount.toNat 0 (by unfold Cfg.cores; omega)).still fun ok _ => ?_
    exact desc_ite (fun _ => hfin hr0) fun _ => hlow
  · have hr0 : r.toNat ≠ 0 := fun hh => by rw [hz hh] at ho; exact absurd ho (by decide)
    refine desc_load fun p => ?_
    exact desc_ite (fun _ => hfin hr0) fun _ => hlow

theorem desc_flush (hc : c < g.cores) : (flushCachedDramRegions g).Desc g c (some monitorConcurrentCall) noL := by
  unfold flushCachedDramRegions dramRegionTlbFlush
  refine desc_still noL_lt (P := fun _ => True) ?_ fun _ _ => desc_pure (by decide)
  refine ⟨fun _ _ hh => hh, fun _ _ => ⟨fun _ _ hh => hh, fun v hv => ?_⟩⟩
  rw [hv.core rfl]
  have hcc : (coreA g (BitVec.ofNat 64 c) + offFlushedAt).toNat = flushedA c := coreA_toNat hw hc _ (by decide)
  refine ⟨fun _ _ hh => hh, fun clk _ => ⟨fun i hi hh => ?_, fun _ _ => trivial⟩⟩
  have hh : (coreA g (BitVec.ofNat 64 c) + offFlushedAt).toNat = lockA g i := hh
  rw [hcc] at hh
  simp [hw, hc] at hh

omit hw in
theorem desc_exitEnclave : (exitEnclave g).Desc g c (some monitorConcurrentCall) noL := by
  unfold exitEnclave
  refine ⟨fun _ _ h1 => (Op.noConfusion h1), fun v hv => Or.inr (Or.inr ⟨fun _ hj => hj, fun _ _ h1 => (Op.noConfusion h1), ?_⟩)⟩
  show Prog.Desc g c _ noL (load (coreA g v + offCoreEnclaveId) >>= fun _ => load (coreA g v + offCoreThreadId) >>= fun _ =>
    load (coreA g v + offCoreThread) >>= fun _ => pure monitorOk)
  exact desc_load fun _ => desc_load fun _ => desc_load fun _ => desc_pure (by decide)

/-- The loop of `set_dma_range` over a range in region 0 asks for no lock. -/
theorem desc_dmaLoop {e : W} (he : e.toNat ≤ g.stripeSize.toNat) {f : Option Bool → Prog W} (hs : ∀ x, (f (some x)).Desc g c b (addL noL 0)) :
    ∀ (fuel : Nat) (a : W) (owns : Bool), (dmaRangeLoop g e fuel a owns >>= f).Desc g c b (addL noL 0) := by
  intro fuel
  induction fuel with
  | zero => intros; trivial
  | succ n ih =>
      intro a owns
      unfold dmaRangeLoop
      by_cases hlt : a < e
      · rw [if_pos hlt]
        have hn' := dramRegionFor_lt hw a
        have hz : dramRegionFor g a = 0 := by
          rw [W.eq_iff, dramRegionFor_toNat hw]
          have := (W.lt_iff _ _).1 hlt
          rcases Classical.em (regionOf g a.toNat = 0) with h | h
          · exact h
          · have := stripe_le_of_regionOf hw h
            omega
        dsimp only
        have hb0 : (dramRegionFor g a != 0) = false := by rw [hz]; rfl
        rw [hb0]
        show Prog.Desc g c b _ ((readOwner g (dramRegionFor g a) >>= fun owner => dmaRangeLoop g e n (a + g.stripeSize) (owns && owner == 0)) >>= f)
        rw [prog_assoc hw]
        exact desc_readOwner hw hn' fun owner _ _ => ih _ _
      · rw [if_neg hlt]; exact hs _

theorem desc_setDmaRange (base mask : W) (hd : (base ||| mask).toNat < g.stripeSize.toNat) : (setDmaRange g base mask).Desc g c (some monitorConcurrentCall) noL := by
  have h0 := zero_lt hw
  unfold setDmaRange
  refine desc_ite (fun _ => desc_pure (by decide)) fun _ => desc_ite (fun _ => desc_pure (by decide)) fun _ => ?_
  refine desc_tasLock hw h0 (noL_down _) (by rw [if_pos rfl]; exact noTas_pure trivial) ?_
  rw [if_neg (by decide)]
  dsimp only
  have hz : ∀ i, addL noL 0 i → i < g.regions := one_lt h0
  have hend : ((base ||| mask) + 1).toNat ≤ g.stripeSize.toNat := by
    have := g.stripeSize.isLt
    rw [BitVec.toNat_add]
    show ((base ||| mask).toNat + 1) % 2 ^ 64 ≤ _
    have : (base ||| mask).toNat + 1 < 2 ^ 64 := by omega
    rw [Nat.mod_eq_of_lt this]
    exact hd
  refine desc_dmaLoop hw hend (f := fun x => match x with
      | none => pure monitorConcurrentCall
      | some _ => do
          act_ (.setDmaStart base)
          act_ (.setDmaEnd ((base ||| mask) + 1))
          act_ (.setDmarBase base)
          act_ (.setDmarMask (~~~ mask))
          clearLock g 0
          pure monitorOk) (fun x => ?_) _ _ _
  dsimp only
  have hd : ∀ {o : Op}, o.IsDma → (act_ o).Still g c fun _ => True := fun ho => (steady_dma_ (H := fun _ => True) ho trivial).still
  exact desc_still hz (hd trivial) fun _ _ => desc_still hz (hd trivial) fun _ _ =>
    desc_still hz (hd trivial) fun _ _ => desc_still hz (hd trivial) fun _ _ => desc_rel1 (by decide)

theorem desc_withLocked (e : W) (k : W → Prog W) : (withLockedEnclave g e k).Desc g c (some monitorConcurrentCall) noL := by
  unfold withLockedEnclave
  dsimp only
  have hr := clamped_lt hw e
  refine desc_tasLock hw hr (noL_down _) (by rw [if_pos rfl]; exact noTas_pure trivial) ?_
  rw [if_neg (by decide)]
  by_cases he : e = nullEnclaveId
  · rw [if_pos he]
    exact desc_rel1 (by decide)
  · rw [if_neg he]
    unfold isValidEnclaveId
    show Prog.Desc g c _ _ (readOwner g (clampedDramRegionFor g e) >>= fun owner => if (!(owner == e)) = true then _ else _)
    refine desc_readOwner hw hr fun o ov hz => ?_
    have hne := owner_ne_id hw ov hz he
    rw [if_pos (by simpa using hne)]
    exact desc_rel1 (by decide)

theorem desc_createEnclave (h : g.MetaOk) (e x k n : W) (d : Bool) : (createEnclave g e x k n d).Desc g c (some monitorConcurrentCall) noL := by
  unfold createEnclave
  refine desc_ite (fun _ => desc_pure (by decide)) fun _ => desc_ite (fun _ => desc_pure (by decide)) fun _ => ?_
  unfold lockMetadataRegionFor
  by_cases hd : (!isPageAligned e || !isDramAddress g e) = true
  · rw [if_pos hd]; exact desc_pure (by decide)
  rw [if_neg hd]
  have hd : isPageAligned e = true ∧ isDramAddress g e = true := by simpa using hd
  have h1 := (isPageAligned_iff e).1 hd.1
  have h2 := (isDramAddress_iff e).1 hd.2
  have hr := dramRegionFor_lt h.wf e
  have hrr := dramRegionFor_toNat h.wf e
  dsimp only
  rw [prog_assoc hw]
  refine desc_tasLock hw hr (noL_down _) (by rw [if_pos rfl]; exact noTas_pure trivial) ?_
  rw [if_neg (by decide), prog_assoc hw]
  refine desc_readOwner hw hr fun o ov oz => ?_
  by_cases ho : (o != metadataEnclaveId) = true
  · rw [if_pos ho, prog_assoc hw]
    exact desc_clearLock (noTas_pure fun h => absurd (Option.some.inj h) (by show monitorConcurrentCall ≠ monitorInvalidState; decide))
  rw [if_neg ho]
  have ho : o = metadataEnclaveId := by simpa using ho
  have h3 : regionOf g e.toNat ≠ 0 := fun hh => by rw [oz (by rw [hrr]; exact hh)] at ho; exact absurd ho (by decide)
  obtain ⟨p1, p2, p3⟩ := page_high h.wf h1 h2 h3
  refine desc_still (one_lt hr) (P := fun x => x = (monitorOk, dramRegionFor g e)) (p := pure (monitorOk, dramRegionFor g e)) rfl fun x hx => ?_
  subst hx
  dsimp only
  rw [if_neg (show ¬ (monitorOk != monitorOk) = true by decide)]
  refine desc_readOwner h.wf hr fun o _ _ => ?_
  refine desc_ite (fun _ => desc_rel1 (by decide)) fun _ => ?_
  refine desc_still (one_lt hr) ((frame_calm (D := True) h.wf (high_reserve h h2 h3 (by rw [enclaveInfoPages_toNat]; exact recordPages_lt _) _ _)).still.rets (rets_reserve hw _ _ _ _)) fun res hres => ?_
  refine desc_ite (fun _ => desc_rel1 (by rcases hres with rfl | rfl | rfl <;> decide)) fun _ => ?_
  refine desc_still (one_lt hr) (frame_calm (D := True) h.wf (high_initEnclaveInfo h.wf p1 (by omega) p3 _ _ _ _)).still fun _ _ => ?_
  exact desc_rel1 (by decide)

theorem desc_copyDebug (e a os : W) (dir : Bool) (ha : e ≠ 0 ∨ g.monitorTop.toNat ≤ a.toNat) (hA : regionOf g os.toNat < idRegion g e) :
    (copyDebugEnclavePage g e a os dir).Desc g c (some monitorConcurrentCall) noL := by
  unfold copyDebugEnclavePage
  refine desc_ite (fun _ => desc_pure (by decide)) fun hal => desc_ite (fun _ => desc_pure (by decide)) fun hdr => ?_
  have hr := clamped_lt hw e
  have hs := dramRegionFor_lt hw os
  dsimp only
  refine desc_tasLock hw hr (noL_down _) (by rw [if_pos rfl]; exact noTas_pure trivial) ?_
  rw [if_neg (by decide)]
  refine desc_tasLock hw hs (fun j hj => hj.elim (fun h => h.elim) fun h => ?_) (by rw [if_pos rfl]; exact noTas_clearLock (noTas_pure trivial)) ?_
  · rw [h, clamped_eq hw, dramRegionFor_toNat hw]; exact hA
  rw [if_neg (by decide)]
  have hH2 := two_lt (g := g) hr hs
  refine desc_readOwner hw hr fun oe ov3 hz3 => ?_
  refine desc_readOwner hw hs fun oo _ _ => ?_
  refine desc_still hH2 (P := fun _ => True) (p := readEnclaveRegionBitmapBit g e (dramRegionFor g a)) ?_ fun bit _ => ?_
  · unfold readEnclaveRegionBitmapBit
    exact (Calm.ite (fun _ => Calm.bind (calm_load _) fun _ => Calm.pure _) fun _ => Calm.bind (calm_load _) fun _ => Calm.pure _).still
  refine desc_load fun dbg => ?_
  have he0 : e ≠ 0 := fun hh => by
    rw [hh] at hA
    have : idRegion g 0 = 0 := by
      unfold idRegion; split
      · unfold regionOf; simp
      · rfl
    omega
  have hne : oe ≠ e := owner_ne_id hw ov3 hz3 he0
  generalize hres : (if dbg = 0 then monitorInvalidState else if (!bit) = true then monitorInvalidValue else if oo ≠ nullEnclaveId then monitorInvalidValue
    else if oe ≠ e then monitorInvalidValue else monitorOk) = res
  have hne3 : res ≠ monitorConcurrentCall ∧ res ≠ monitorOk := by
    rw [← hres]
    refine ⟨?_, ?_⟩
    · repeat' split
      all_goals decide
    · rw [if_pos hne]
      repeat' split
      all_goals decide
  rw [if_neg hne3.2]
  refine desc_still hH2 (P := fun _ => True) (p := pure ()) trivial fun _ _ => ?_
  exact desc_rel2 fun h => hne3.1 (Option.some.inj h).symm

/-- Calls that ask downward. -/
theorem desc_call (c : Nat) (k : Call) (hc : c < g.cores) (hk : CoveredC g k) (hd : AsksDownward g k) : (k.prog g).Desc g c k.busyCode noL := by
  obtain ⟨hcov, hrec⟩ := hk
  cases k <;> first | exact hd.elim | skip
  case blockDramRegion r => exact desc_block hw hc r
  case dramRegionCheckOwnership r => exact desc_check hw hc r
  case exitEnclave => exact desc_exitEnclave
  case setDmaRange b n => exact desc_setDmaRange hw b n hd
  case dramRegionState r => exact desc_state hw r
  case dramRegionOwner r => exact desc_owner hw r
  case assignDramRegion r e => exact desc_assign hw r e hd
  case freeDramRegion r => exact desc_free hw r
  case flushCachedDramRegions => exact desc_flush hw hc
  case createMetadataRegion r => exact desc_createMeta hw r
  case createEnclave e b k n d => exact desc_createEnclave hw ⟨hw, hcov.1, hcov.2⟩ e b k n d
  case loadPageTable e p v l a =>
      show (loadPageTable g e p v l a).Desc g c (some monitorConcurrentCall) noL
      unfold loadPageTable
      exact desc_ite (fun _ => desc_pure (by decide)) fun _ => desc_ite (fun _ => desc_pure (by decide)) fun _ => desc_ite (fun _ => desc_pure (by decide)) fun _ => desc_withLocked hw _ _
  case loadPage e p v o a =>
      show (loadPage g e p v o a).Desc g c (some monitorConcurrentCall) noL
      unfold loadPage
      exact desc_ite (fun _ => desc_pure (by decide)) fun _ => desc_ite (fun _ => desc_pure (by decide)) fun _ => desc_withLocked hw _ _
  case initEnclave e => show (initEnclave g e).Desc g c _ noL; unfold initEnclave; exact desc_withLocked hw _ _
  case enterEnclave e t => show (enterEnclave g e t).Desc g c _ noL; unfold enterEnclave; exact desc_withLocked hw _ _
  case deleteEnclave e => show (deleteEnclave g e).Desc g c _ noL; unfold deleteEnclave; exact desc_withLocked hw _ _
  case copyDebugEnclavePage e a os d => exact desc_copyDebug hw e a os d hcov hd
  all_goals exact fun h => by cases h

end

end Sanctum
