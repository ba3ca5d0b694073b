import Verif.Spec.Contention
import Verif.Lemmas.LinTame
import Verif.Lemmas.RaceCalls
/-
A logic for the reasons of refusals: a program returns the refusal code only after a test-and-set found a lock word set, and asks for a
lock it holds only if its arguments make it.
-/
namespace Sanctum
open Machine

variable {g : Cfg} {c : Nat} {α β : Type} {H : Nat → Prop} {A : Prop} {X : Nat → Prop} {b : W}

/-- The action is a test-and-set of a region lock or of a word in `X` that found it set. -/
def Refusal (g : Cfg) (X : Nat → Prop) (o : Op) (v : W) : Prop := ∃ a, o = .tas a ∧ v ≠ 0 ∧ ((∃ i, i < g.regions ∧ a.toNat = lockA g i) ∨ X a.toNat)

/-- The program returns `b` only after a refusal, and asks for locks it holds only if `A`. -/
def Prog.Civil (g : Cfg) (c : Nat) (A : Prop) (X : Nat → Prop) (b : W) : (Nat → Prop) → Prog W → Prop
  | _, .ret v => v ≠ b
  | H, .op o f => (∀ a i, o = .tas a → i < g.regions → a.toNat = lockA g i → ¬ H i ∨ A) ∧
      ∀ v, RespOk g c H o v → Refusal g X o v ∨ Prog.Civil g c A X b (heldStep g o v H) (f v)
  | _, .fault => True
  | _, .diverge => True

/-- Programs that change no lock word. -/
def Prog.Still (g : Cfg) (c : Nat) (P : α → Prop) : Prog α → Prop
  | .ret a => P a
  | .op o f => (∀ i, i < g.regions → ¬ o.mutates (lockA g i)) ∧ ∀ v, RespOk g c (fun _ => False) o v → Prog.Still g c P (f v)
  | .fault => True
  | .diverge => True

theorem Prog.Steady.still {p : Prog α} (hp : p.Steady g c H) : p.Still g c fun _ => True := by
  induction p with
  | ret a => trivial
  | op o f ih => exact ⟨hp.2.1, fun v hv => ih v (hp.2.2 v hv)⟩
  | fault => trivial
  | diverge => trivial

theorem Prog.Calm.still {p : Prog α} (hp : p.Calm g c) : p.Still g c fun _ => True := by
  induction p with
  | ret a => trivial
  | op o f ih => exact ⟨hp.1.lock, fun v hv => ih v (hp.2 v hv)⟩
  | fault => trivial
  | diverge => trivial

/-- All values the program can return satisfy `P`. -/
def Prog.Rets (P : α → Prop) : Prog α → Prop
  | .ret a => P a
  | .op _ f => ∀ v, Prog.Rets P (f v)
  | .fault => True
  | .diverge => True

theorem Rets.bind {P : β → Prop} {p : Prog α} {f : α → Prog β} (hf : ∀ a, (f a).Rets P) : (p >>= f).Rets P := by
  show (p.bind f).Rets P
  induction p with
  | ret a => exact hf a
  | op o k ih => exact fun v => ih v
  | fault => trivial
  | diverge => trivial

theorem Prog.Still.rets {P Q : α → Prop} {p : Prog α} (hp : p.Still g c P) (hr : p.Rets Q) : p.Still g c Q := by
  induction p with
  | ret a => exact hr
  | op o f ih => exact ⟨hp.1, fun v hv => ih v (hp.2 v hv) (hr v)⟩
  | fault => trivial
  | diverge => trivial

theorem civil_still {P : α → Prop} {p : Prog α} {f : α → Prog W} (hH : ∀ i, H i → i < g.regions) (hp : p.Still g c P)
    (hf : ∀ a, P a → (f a).Civil g c A X b H) : (p >>= f).Civil g c A X b H := by
  show (p.bind f).Civil g c A X b H
  induction p with
  | ret a => exact hf a hp
  | op o k ih =>
      refine ⟨fun a i h1 h2 h3 => absurd (show o.mutates (lockA g i) by rw [h1]; exact h3) (hp.1 i h2), fun v hv => Or.inr ?_⟩
      have hst : heldStep g o v H = H := by
        refine heldStep_frame ?_ hH v
        rintro i hi a w (rfl | rfl) hh
        · exact hp.1 i hi hh
        · exact hp.1 i hi hh
      rw [hst]
      exact ih v (hp.2 v (hv.mono fun _ hh => hh.elim))
  | fault => trivial
  | diverge => trivial

theorem civil_ite {q : Prop} [Decidable q] {p1 p2 : Prog W} (h1 : q → p1.Civil g c A X b H) (h2 : ¬ q → p2.Civil g c A X b H) :
    (if q then p1 else p2).Civil g c A X b H := by
  split
  · exact h1 ‹_›
  · exact h2 ‹_›

theorem civil_pure {v : W} (h : v ≠ b) : (pure v : Prog W).Civil g c A X b H := h

theorem civil_tasLock (hw : g.WF) {r : W} (hr : r.toNat < g.regions) {f : Bool → Prog W} (hn : ¬ H r.toNat ∨ A)
    (hf : ¬ H r.toNat → (f false).Civil g c A X b (addL H r.toNat)) : (tasLock g r >>= f).Civil g c A X b H := by
  have ha := lockA_toNat hw hr
  refine ⟨fun a i h1 h2 h3 => ?_, fun v hv => ?_⟩
  · cases h1
    rw [ha] at h3
    rw [← lockA_inj.1 h3]
    exact hn
  · by_cases hz : v = 0
    · right
      have hst : heldStep g (.tas (regionA g r + offLock)) v H = addL H r.toNat := by
        funext i
        simp only [heldStep, addL, ha, lockA_inj]
        refine propext ⟨fun hh => hh.imp id fun h1 => h1.2.2.symm, fun hh => hh.imp id fun h1 => ⟨by rw [h1]; exact hr, hz, h1.symm⟩⟩
      rw [hst]
      subst hz
      exact hf (hv.excl _ _ rfl hr ha rfl)
    · exact Or.inl ⟨_, rfl, hz, Or.inl ⟨_, hr, ha⟩⟩

theorem civil_clearLock (hw : g.WF) {r : W} (hr : r.toNat < g.regions) {f : Unit → Prog W} (hf : (f ()).Civil g c A X b (subL H r.toNat)) :
    (clearLock g r >>= f).Civil g c A X b H := by
  have ha := lockA_toNat hw hr
  refine ⟨fun a i h1 => (Op.noConfusion h1), fun v _ => Or.inr ?_⟩
  have hst : heldStep g (.store (regionA g r + offLock) 0) v H = subL H r.toNat := by
    funext i
    simp only [heldStep, subL, ha]
    refine propext ⟨fun hh => ⟨hh.1, fun h1 => hh.2 (by rw [h1])⟩, fun hh => ⟨hh.1, fun h1 => hh.2 (lockA_inj.1 h1).symm⟩⟩
  rw [hst]; exact hf

theorem civil_rel1 (hw : g.WF) {r : W} (hr : r.toNat < g.regions) {v : W} (hv : v ≠ b) : (clearLock g r >>= fun _ => pure v).Civil g c A X b H :=
  civil_clearLock hw hr (civil_pure hv)

theorem civil_rel2 (hw : g.WF) {r s : W} (hr : r.toNat < g.regions) (hs : s.toNat < g.regions) {v : W} (hv : v ≠ b) :
    (clearLock g r >>= fun _ => clearLock g s >>= fun _ => pure v).Civil g c A X b H := civil_clearLock hw hr (civil_rel1 hw hs hv)

theorem civil_readOwner (hw : g.WF) {r : W} (hr : r.toNat < g.regions) {f : W → Prog W}
    (hf : ∀ v, OwnerVal v → (r.toNat = 0 → v = nullEnclaveId) → (f v).Civil g c A X b H) : (readOwner g r >>= f).Civil g c A X b H := by
  refine ⟨fun a i h1 => (Op.noConfusion h1), fun v hv => Or.inr ?_⟩
  obtain ⟨h1, h2⟩ := hv.owner _ _ rfl hr (ownerA_toNat hw hr)
  exact hf v h1 h2

theorem civil_currentEnclave (hw : g.WF) (hc : c < g.cores) {f : W → Prog W} (hf : (f nullEnclaveId).Civil g c A X b H) :
    (currentEnclave g >>= f).Civil g c A X b H := by
  have hcc : (coreA g (BitVec.ofNat 64 c) + offCoreEnclaveId).toNat = coreEnclaveA c := coreA_toNat hw hc _ (by decide)
  show Prog.Civil g c A X b H (.op .curCore fun core => .op (.load (coreA g core + offCoreEnclaveId)) f)
  refine ⟨fun a i h1 => (Op.noConfusion h1), fun v hv => Or.inr ?_⟩
  rw [hv.core rfl]
  refine ⟨fun a i h1 => (Op.noConfusion h1), fun v hv => Or.inr ?_⟩
  rw [hv.os _ c rfl hc hcc]
  exact hf

section
variable (hw : g.WF)
include hw

theorem civil_load {a : W} {f : W → Prog W} (hf : ∀ v, (f v).Civil g c A X b H) : (load a >>= f).Civil g c A X b H :=
  ⟨fun _ _ h1 => (Op.noConfusion h1), fun v _ => Or.inr (hf v)⟩

theorem civil_block (hc : c < g.cores) (r : W) : (blockDramRegion g r).Civil g c A X monitorConcurrentCall noL := by
  unfold blockDramRegion
  refine civil_ite (fun _ => civil_pure (by decide)) fun hd => ?_
  obtain ⟨hr0, hr⟩ := (isDynamicDramRegion_iff r).1 (by simpa using hd)
  refine civil_tasLock hw hr (Or.inl id) fun _ => ?_
  rw [if_neg (by decide)]
  refine civil_readOwner hw hr fun owner _ _ => ?_
  refine civil_currentEnclave hw hc ?_
  refine civil_ite (fun _ => civil_rel1 hw hr (by decide)) fun ho => ?_
  have ho : owner = nullEnclaveId := by simpa using ho
  rw [ho]
  have hnn : (nullEnclaveId != nullEnclaveId) = false := rfl
  rw [hnn, if_neg (by decide)]
  refine civil_still (one_lt hr) (P := fun _ => True) (p := pure 0) trivial fun _ _ => ?_
  rw [Bool.false_and, if_neg (by decide), show nullEnclaveId = (0 : W) from rfl, dramRegionFor_zero hw]
  have h0 := zero_lt hw
  refine civil_tasLock hw h0 (Or.inl fun hh => hh.elim id fun h => hr0 h.symm) fun _ => ?_
  rw [if_neg (by decide), if_pos rfl]
  have hH2 := two_lt (g := g) hr h0
  refine civil_still hH2 (steady_dmaRangeCrossed (H := fun _ => True) trivial).still fun crossed _ => ?_
  refine civil_ite (fun _ => civil_rel2 hw h0 hr (by decide)) fun _ => ?_
  refine civil_still hH2 (steady_rec hw (H := fun _ => True) hr0 hr trivial (Or.inr (Or.inl rfl)) (prevA_toNat hw hr)).still fun _ _ => ?_
  refine civil_still hH2 (steady_rec hw (H := fun _ => True) hr0 hr trivial (Or.inl rfl) (ownerA_toNat hw hr)).still fun _ _ => ?_
  refine civil_still hH2 (P := fun _ => True) (p := act (.fetchAdd g.regionsBase 1)) ⟨fun i hi => ?_, fun _ _ => trivial⟩ fun clk _ => ?_
  · intro hh; have hh : clockA g = lockA g i := hh; simp [hw, hi] at hh
  refine civil_still hH2 (steady_rec hw (H := fun _ => True) hr0 hr trivial (Or.inr (Or.inr (Or.inr rfl))) (blockedA_toNat hw hr)).still fun _ _ => ?_
  unfold setEnclaveRegionBitmapBit
  rw [if_pos rfl]
  refine civil_still hH2 (steady_setOsBit hw hr (H := fun _ => True) false trivial).still fun _ _ => ?_
  refine civil_still hH2 (steady_setDrb hw (H := fun _ => True) trivial).still fun _ _ => ?_
  exact civil_rel2 hw h0 hr (by decide)

theorem civil_check (hc : c < g.cores) (r : W) : (dramRegionCheckOwnership g r).Civil g c A X monitorConcurrentCall noL := by
  unfold dramRegionCheckOwnership
  refine civil_ite (fun _ => civil_pure (by decide)) fun hd => ?_
  obtain ⟨hr0, hr⟩ := (isDynamicDramRegion_iff r).1 (by simpa using hd)
  refine civil_tasLock hw hr (Or.inl id) fun _ => ?_
  rw [if_neg (by decide)]
  refine civil_readOwner hw hr fun owner _ _ => ?_
  refine civil_currentEnclave hw hc ?_
  refine civil_rel1 hw hr ?_
  split <;> decide

theorem civil_state (r : W) : (dramRegionState g r).Civil g c A X stateLocked noL := by
  unfold dramRegionState
  refine civil_ite (fun _ => civil_pure (by decide)) fun hd => ?_
  have hr := (isValidDramRegion_iff (g := g) r).1 (by simpa using hd)
  refine civil_tasLock hw hr (Or.inl id) fun _ => ?_
  rw [if_neg (by decide)]
  refine civil_readOwner hw hr fun owner _ _ => civil_rel1 hw hr ?_
  split
  · decide
  · split
    · decide
    · split <;> decide

theorem civil_dmaLoop (e : W) {f : Option Bool → Prog W} (hs : ∀ x, (f (some x)).Civil g c A X b (addL noL 0)) :
    ∀ (fuel : Nat) (a : W) (owns : Bool), (dmaRangeLoop g e fuel a owns >>= f).Civil g c A X b (addL noL 0) := by
  have h0 := zero_lt hw
  intro fuel
  induction fuel with
  | zero => intros; trivial
  | succ n ih =>
      intro a owns
      unfold dmaRangeLoop
      by_cases hlt : a < e
      · rw [if_pos hlt]
        have hn' := dramRegionFor_lt hw a
        dsimp only
        by_cases hz : dramRegionFor g a = 0
        · have hb0 : (dramRegionFor g a != 0) = false := by rw [hz]; rfl
          rw [hb0]
          show Prog.Civil g c A X b _ ((readOwner g (dramRegionFor g a) >>= fun owner => dmaRangeLoop g e n (a + g.stripeSize) (owns && owner == 0)) >>= f)
          rw [prog_assoc hw]
          exact civil_readOwner hw hn' fun owner _ _ => ih _ _
        · have hb0 : (dramRegionFor g a != 0) = true := bne_iff_ne.2 hz
          rw [hb0]
          simp only [if_true]
          rw [prog_assoc hw]
          have hne : ¬ addL noL 0 (dramRegionFor g a).toNat := fun hh => hh.elim id fun h => hz ((W.eq_iff _ _).2 (by rw [h]; rfl))
          refine civil_tasLock hw hn' (Or.inl hne) fun _ => ?_
          rw [if_neg (by decide), prog_assoc hw]
          refine civil_readOwner hw hn' fun owner _ _ => ?_
          rw [prog_assoc hw]
          refine civil_clearLock hw hn' ?_
          rw [sub_add hne]
          exact ih _ _
      · rw [if_neg hlt]; exact hs _

theorem civil_setDmaRange (base mask : W) : (setDmaRange g base mask).Civil g c A X monitorConcurrentCall noL := by
  have h0 := zero_lt hw
  unfold setDmaRange
  refine civil_ite (fun _ => civil_pure (by decide)) fun _ => civil_ite (fun _ => civil_pure (by decide)) fun _ => ?_
  refine civil_tasLock hw h0 (Or.inl id) fun _ => ?_
  rw [if_neg (by decide)]
  dsimp only
  have hz : ∀ i, addL noL 0 i → i < g.regions := one_lt h0
  refine civil_dmaLoop hw _ (f := fun x => match x with
      | none => pure monitorConcurrentCall
      | some _ => do
          act_ (.setDmaStart base)
          act_ (.setDmaEnd ((base ||| mask) + 1))
          act_ (.setDmarBase base)
          act_ (.setDmarMask (~~~ mask))
          clearLock g 0
          pure monitorOk) (fun x => ?_) _ _ _
  dsimp only
  have hd : ∀ {o : Op}, o.IsDma → (act_ o).Still g c fun _ => True := fun ho => (steady_dma_ (H := fun _ => True) ho trivial).still
  exact civil_still hz (hd trivial) fun _ _ => civil_still hz (hd trivial) fun _ _ =>
    civil_still hz (hd trivial) fun _ _ => civil_still hz (hd trivial) fun _ _ => civil_rel1 hw h0 (by decide)

theorem civil_createMeta (r : W) : (createMetadataRegion g r).Civil g c A X monitorConcurrentCall noL := by
  unfold createMetadataRegion
  refine civil_ite (fun _ => civil_pure (by decide)) fun hd => ?_
  have hr := (isValidDramRegion_iff (g := g) r).1 (by simpa using hd)
  refine civil_tasLock hw hr (Or.inl id) fun _ => ?_
  rw [if_neg (by decide)]
  refine civil_readOwner hw hr fun owner _ hz => ?_
  refine civil_ite (fun _ => civil_rel1 hw hr (by decide)) fun ho => ?_
  have ho : owner = freeEnclaveId := by simpa using ho
  have hr0 : r.toNat ≠ 0 := fun hh => by rw [hz hh] at ho; exact absurd ho (by decide)
  unfold initMetadataRegion
  rw [prog_assoc hw]
  refine civil_still (one_lt hr) (steady_rec hw (H := fun _ => True) hr0 hr trivial (Or.inl rfl) (ownerA_toNat hw hr)).still fun _ _ => ?_
  rw [prog_assoc hw]
  refine civil_still (one_lt hr) (steady_rec hw (H := fun _ => True) hr0 hr trivial (Or.inr (Or.inr (Or.inl rfl))) (pinnedA_toNat hw hr)).still fun _ _ => ?_
  have hst := region_start_ge g hr0
  obtain ⟨h1, h2, h3', h4, h5, h6, h7, h8, h9, h10, h11, h12⟩ := hw.layout
  have hend := hw.region_end_le hr
  have hmb := mapBytes_le hw
  have hstart := dramRegionStart_toNat hw r (Nat.le_of_lt hr)
  have hbytes := mapBytes_toNat hw
  have hsl := g.dramSize.isLt
  refine civil_still (one_lt hr) (P := fun _ => True) ?_ fun _ _ => civil_rel1 hw hr (by decide)
  unfold bzero
  refine (Prog.High.steady (H := fun _ => True) hw (S := fun _ => True) ?_).still
  refine in_bzeroWords hw (lo := r.toNat * g.stripeSize.toNat) (hi := (r.toNat + 1) * g.stripeSize.toNat) (by omega)
    (fun x x1 x2 => trivial) _ _ (by rw [hstart]; exact Nat.le_refl _) ?_ (by omega)
  rw [hstart, hbytes]
  have : (r.toNat + 1) * g.stripeSize.toNat = r.toNat * g.stripeSize.toNat + g.stripeSize.toNat := Nat.succ_mul _ _
  omega

theorem civil_assign (r e : W) (hA : regionOf g e.toNat = r.toNat → A) : (assignDramRegion g r e).Civil g c A X monitorConcurrentCall noL := by
  unfold assignDramRegion
  refine civil_ite (fun _ => civil_pure (by decide)) fun hd => ?_
  have hr := (isValidDramRegion_iff (g := g) r).1 (by simpa using hd)
  refine civil_tasLock hw hr (Or.inl id) fun _ => ?_
  rw [if_neg (by decide)]
  refine civil_readOwner hw hr fun owner _ hz => ?_
  refine civil_ite (fun _ => civil_rel1 hw hr (by decide)) fun ho => ?_
  have ho : owner = freeEnclaveId := by simpa using ho
  have hr0 : r.toNat ≠ 0 := fun hh => by rw [hz hh] at ho; exact absurd ho (by decide)
  have hs := dramRegionFor_lt hw e
  have hss := dramRegionFor_toNat hw e
  dsimp only
  refine civil_tasLock hw hs ?_ fun _ => ?_
  · rcases Classical.em (regionOf g e.toNat = r.toNat) with he | he
    · exact Or.inr (hA he)
    · exact Or.inl fun hh => hh.elim id fun h => he (by rw [← hss]; exact h)
  rw [if_neg (by decide)]
  unfold isValidEnclaveId
  show Prog.Civil g c A X _ _ (readOwner g (clampedDramRegionFor g e) >>= fun owner => if (owner == e) = true then _ else _)
  refine civil_readOwner hw (clamped_lt hw e) fun o ov oz => ?_
  refine civil_ite (fun hq => ?_) fun _ => civil_rel2 hw hs hr (by decide)
  have hq : o = e := by simpa using hq
  have he0 : e = 0 := Classical.byContradiction fun h0 => owner_ne_id hw ov oz h0 hq
  have hH2 := two_lt (g := g) hr hs
  refine civil_still hH2 (steady_rec hw (H := fun _ => True) hr0 hr trivial (Or.inl rfl) (ownerA_toNat hw hr)).still fun _ _ => ?_
  unfold setEnclaveRegionBitmapBit
  rw [if_pos (show e = nullEnclaveId from he0), if_pos he0]
  refine civil_still hH2 (steady_setOsBit hw hr (H := fun _ => True) true trivial).still fun _ _ => ?_
  refine civil_still hH2 (steady_setDrb hw (H := fun _ => True) trivial).still fun _ _ => ?_
  exact civil_rel2 hw hs hr (by decide)

theorem civil_free (r : W) : (freeDramRegion g r).Civil g c A X monitorConcurrentCall noL := by
  unfold freeDramRegion
  refine civil_ite (fun _ => civil_pure (by decide)) fun hd => ?_
  have hr := (isValidDramRegion_iff (g := g) r).1 (by simpa using hd)
  refine civil_tasLock hw hr (Or.inl id) fun _ => ?_
  rw [if_neg (by decide)]
  refine civil_readOwner hw hr fun owner _ hz => ?_
  have hfin : r.toNat ≠ 0 → (store (regionA g r + offOwner) freeEnclaveId >>= fun _ => clearLock g r >>= fun _ => pure monitorOk).Civil g c A X monitorConcurrentCall (addL noL r.toNat) :=
    fun hr0 => civil_still (one_lt hr) (steady_rec hw (H := fun _ => True) hr0 hr trivial (Or.inl rfl) (ownerA_toNat hw hr)).still fun _ _ => civil_rel1 hw hr (by decide)
  have hlow : (clearLock g r >>= fun _ => pure monitorInvalidState).Civil g c A X monitorConcurrentCall (addL noL r.toNat) := civil_rel1 hw hr (by decide)
  refine civil_ite (fun ho => ?_) fun _ => civil_ite (fun ho => ?_) fun _ => hlow
  · have hr0 : r.toNat ≠ 0 := fun hh => by rw [hz hh] at ho; exact absurd ho (by decide)
    refine civil_load hw fun bl => ?_
    refine civil_still (one_lt hr) (steady_coresFlushed (H := fun _ => True) hw bl g.coreCount.toNat 0 (by unfold Cfg.cores; omega)).still fun ok _ => ?_
    exact civil_ite (fun _ => hfin hr0) fun _ => hlow
  · have hr0 : r.toNat ≠ 0 := fun hh => by rw [hz hh] at ho; exact absurd ho (by decide)
    refine civil_load hw fun p => ?_
    exact civil_ite (fun _ => hfin hr0) fun _ => hlow

theorem civil_flush (hc : c < g.cores) : (flushCachedDramRegions g).Civil g c A X monitorConcurrentCall noL := by
  unfold flushCachedDramRegions dramRegionTlbFlush
  refine civil_still noL_lt (P := fun _ => True) ?_ fun _ _ => civil_pure (by decide)
  refine ⟨fun _ _ hh => hh, fun _ _ => ⟨fun _ _ hh => hh, fun v hv => ?_⟩⟩
  rw [hv.core rfl]
  have hcc : (coreA g (BitVec.ofNat 64 c) + offFlushedAt).toNat = flushedA c := coreA_toNat hw hc _ (by decide)
  refine ⟨fun _ _ hh => hh, fun clk _ => ⟨fun i hi hh => ?_, fun _ _ => trivial⟩⟩
  have hh : (coreA g (BitVec.ofNat 64 c) + offFlushedAt).toNat = lockA g i := hh
  rw [hcc] at hh
  simp [hw, hc] at hh

theorem civil_exitEnclave : (exitEnclave g).Civil g c A X monitorConcurrentCall noL := by
  unfold exitEnclave
  refine ⟨fun _ _ h1 => (Op.noConfusion h1), fun v hv => Or.inr ?_⟩
  show Prog.Civil g c A X _ noL (load (coreA g v + offCoreEnclaveId) >>= fun _ => load (coreA g v + offCoreThreadId) >>= fun _ =>
    load (coreA g v + offCoreThread) >>= fun _ => pure monitorOk)
  exact civil_load hw fun _ => civil_load hw fun _ => civil_load hw fun _ => civil_pure (by decide)

theorem civil_lockMeta {a : W} {f : W × W → Prog W} (herr : ∀ v r, v = monitorInvalidValue ∨ v = monitorInvalidState → (f (v, r)).Civil g c A X b noL)
    (hok : a.toNat % 4096 = 0 → a.toNat < g.dramSize.toNat → regionOf g a.toNat ≠ 0 →
      (f (monitorOk, dramRegionFor g a)).Civil g c A X b (addL noL (regionOf g a.toNat))) :
    (lockMetadataRegionFor g a >>= f).Civil g c A X b noL := by
  unfold lockMetadataRegionFor
  by_cases hd : (!isPageAligned a || !isDramAddress g a) = true
  · rw [if_pos hd]; exact herr _ _ (Or.inl rfl)
  · rw [if_neg hd]
    have hd : isPageAligned a = true ∧ isDramAddress g a = true := by simpa using hd
    have h1 := (isPageAligned_iff a).1 hd.1
    have h2 := (isDramAddress_iff a).1 hd.2
    have hr := dramRegionFor_lt hw a
    have hrr := dramRegionFor_toNat hw a
    dsimp only
    rw [prog_assoc hw]
    refine civil_tasLock hw hr (Or.inl id) fun hn => ?_
    rw [if_neg (by decide), prog_assoc hw]
    refine civil_readOwner hw hr fun o ov oz => ?_
    by_cases ho : (o != metadataEnclaveId) = true
    · rw [if_pos ho, prog_assoc hw]
      refine civil_clearLock hw hr ?_
      rw [sub_add hn]
      exact herr _ _ (Or.inr rfl)
    · rw [if_neg ho]
      have ho : o = metadataEnclaveId := by simpa using ho
      rw [hrr] at oz ⊢
      exact hok h1 h2 fun hh => by rw [oz hh] at ho; exact absurd ho (by decide)

theorem civil_lockEnclave (h : g.MetaOk) {e : W} {f : W → Prog W} (hX : X e.toNat)
    (herr : ∀ v, v = monitorInvalidValue ∨ v = monitorInvalidState → (f v).Civil g c A X b noL)
    (hok : e.toNat % 4096 = 0 → e.toNat < g.dramSize.toNat → regionOf g e.toNat ≠ 0 → (f monitorOk).Civil g c A X b noL) :
    (lockEnclave g e >>= f).Civil g c A X b noL := by
  unfold lockEnclave
  by_cases hd : (!isDramAddress g e || !isPageAligned e) = true
  · rw [if_pos hd]; exact herr _ (Or.inl rfl)
  rw [if_neg hd, prog_assoc hw]
  refine civil_lockMeta hw (fun v r hv => ?_) fun h1 h2 h3 => ?_
  · dsimp only
    rw [if_pos (by rcases hv with rfl | rfl <;> rfl)]
    exact herr v hv
  · dsimp only
    rw [if_neg (by decide)]
    have hr := dramRegionFor_lt h.wf e
    have hrr := dramRegionFor_toNat h.wf e
    obtain ⟨p1, p2, p3⟩ := page_high h.wf h1 h2 h3
    have hoff : (e + offEnclaveLock).toNat = e.toNat := by rw [add_off (by show _ + 0 < _; exact e.isLt)]; rfl
    rw [← hrr] at h3 ⊢
    rw [prog_assoc hw]
    refine civil_load hw fun v => ?_
    by_cases hv : (v != metadataPageInfo e enclavePageType) = true
    · rw [if_pos hv, prog_assoc hw]
      refine civil_clearLock hw hr ?_
      rw [sub_one]
      exact herr _ (Or.inl rfl)
    · rw [if_neg hv, prog_assoc hw]
      refine ⟨fun a i q1 q2 q3 => ?_, fun v _ => ?_⟩
      · cases q1
        have := lockA_lt hw q2
        omega
      · by_cases hz : v = 0
        · right
          subst hz
          have hst : heldStep g (.tas (e + offEnclaveLock)) 0 (addL noL (dramRegionFor g e).toNat) = addL noL (dramRegionFor g e).toNat := by
            refine heldStep_frame ?_ (one_lt hr) 0
            rintro i hi a w (hh | hh) hq
            · cases hh
              have := lockA_lt hw hi
              omega
            · cases hh
          rw [hst]
          show Prog.Civil g c A X b _ ((clearLock g (dramRegionFor g e) >>= fun _ => pure (if false = true then monitorConcurrentCall else monitorOk)) >>= f)
          rw [prog_assoc hw]
          refine civil_clearLock hw hr ?_
          rw [sub_one]
          exact hok h1 h2 (by rw [← hrr]; exact h3)
        · exact Or.inl ⟨_, rfl, hz, Or.inr (by rw [hoff]; exact hX)⟩

theorem rets_reserve (a n o t : W) : (reserveMetadataPages g a n o t).Rets fun v => v = monitorOk ∨ v = monitorInvalidValue ∨ v = monitorInvalidState := by
  unfold reserveMetadataPages assignMetadataPages
  split
  · exact Or.inr (Or.inl rfl)
  · refine Rets.bind fun x => ?_
    split
    · exact Rets.bind fun _ => Rets.bind fun _ => Or.inl rfl
    · exact Or.inr (Or.inr rfl)

theorem civil_createEnclave (h : g.MetaOk) (e x k n : W) (d : Bool) : (createEnclave g e x k n d).Civil g c A X monitorConcurrentCall noL := by
  unfold createEnclave
  refine civil_ite (fun _ => civil_pure (by decide)) fun _ => civil_ite (fun _ => civil_pure (by decide)) fun _ => ?_
  refine civil_lockMeta h.wf (fun v r hv => ?_) fun h1 h2 h3 => ?_
  · dsimp only
    rcases hv with rfl | rfl
    · rw [if_pos (by decide)]; exact civil_pure (by decide)
    · rw [if_pos (by decide)]; exact civil_pure (by decide)
  dsimp only
  rw [if_neg (by decide)]
  have hr := dramRegionFor_lt h.wf e
  have hrr := dramRegionFor_toNat h.wf e
  obtain ⟨p1, p2, p3⟩ := page_high h.wf h1 h2 h3
  rw [← hrr]
  refine civil_readOwner h.wf hr fun o _ _ => ?_
  refine civil_ite (fun _ => civil_rel1 h.wf hr (by decide)) fun _ => ?_
  refine civil_still (one_lt hr) ((frame_calm (D := True) h.wf (high_reserve h h2 h3 (by rw [enclaveInfoPages_toNat]; exact recordPages_lt _) _ _)).still.rets (rets_reserve hw _ _ _ _)) fun res hres => ?_
  refine civil_ite (fun _ => civil_rel1 h.wf hr (by rcases hres with rfl | rfl | rfl <;> decide)) fun _ => ?_
  refine civil_still (one_lt hr) (frame_calm (D := True) h.wf (high_initEnclaveInfo h.wf p1 (by omega) p3 _ _ _ _)).still fun _ _ => ?_
  exact civil_rel1 h.wf hr (by decide)

theorem civil_releaseBoth {r e : W} (hr : r.toNat < g.regions) (h8 : e.toNat % 8 = 0) (hd : e.toNat + 4096 ≤ g.dramSize.toNat)
    (ht : g.monitorTop.toNat ≤ e.toNat) {v : W} (hv : v ≠ b) :
    (clearLock g r >>= fun _ => unlockEnclave e >>= fun _ => pure v).Civil g c A X b (addL noL r.toNat) := by
  refine civil_clearLock hw hr ?_
  rw [sub_one]
  refine civil_still noL_lt (P := fun _ => True) ?_ fun _ _ => civil_pure hv
  exact (frame_calm (D := True) hw (high_storeOff hw h8 (by decide) (by show e.toNat + 0 + 8 ≤ _; omega) ht)).still

theorem civil_assignThread (h : g.MetaOk) (e t : W) (hX : X e.toNat) : (assignThread g e t).Civil g c A X monitorConcurrentCall noL := by
  unfold assignThread
  refine civil_lockEnclave hw h hX (fun v hv => ?_) fun e1 e2 e3 => ?_
  · rcases hv with rfl | rfl
    · rw [if_pos (by decide)]; exact civil_pure (by decide)
    · rw [if_pos (by decide)]; exact civil_pure (by decide)
  rw [if_neg (by decide)]
  obtain ⟨p1, p2, p3⟩ := page_high h.wf e1 e2 e3
  refine civil_lockMeta h.wf (fun v r hv => ?_) fun t1 t2 t3 => ?_
  · dsimp only
    rw [if_pos (by rcases hv with rfl | rfl <;> rfl)]
    refine civil_still noL_lt (P := fun _ => True) ?_ fun _ _ => civil_pure (by rcases hv with rfl | rfl <;> decide)
    exact (frame_calm (D := True) hw (high_storeOff h.wf p1 (by decide) (by show e.toNat + 0 + 8 ≤ _; omega) p3)).still
  dsimp only
  rw [if_neg (by decide)]
  have hr := dramRegionFor_lt h.wf t
  rw [← dramRegionFor_toNat h.wf t]
  refine civil_load hw fun init => ?_
  refine civil_still (one_lt hr) (P := fun v => v = monitorOk ∨ v = monitorInvalidValue ∨ v = monitorInvalidState)
    ((frame_calm (D := True) hw (Frame.ite (fun _ => high_reserve h e2 e3 (by rw [threadPages_toNat]; decide) _ _) fun _ => Frame.pure _)).still.rets ?_) fun res hres => ?_
  · split
    · exact rets_reserve hw _ _ _ _
    · exact Or.inr (Or.inr rfl)
  refine civil_ite (fun _ => civil_releaseBoth hw hr p1 p2 p3 (by rcases hres with rfl | rfl | rfl <;> decide)) fun _ => ?_
  refine civil_load hw fun n => ?_
  refine civil_still (one_lt hr) (frame_calm (D := True) hw (high_storeOff h.wf p1 (by decide) (by show e.toNat + 32 + 8 ≤ _; omega) p3)).still fun _ _ => ?_
  exact civil_releaseBoth hw hr p1 p2 p3 (by decide)

theorem civil_loadThread (h : g.MetaOk) (e t w x y z : W) (hX : X e.toNat) : (loadThread g e t w x y z).Civil g c A X monitorConcurrentCall noL := by
  unfold loadThread
  refine civil_lockEnclave hw h hX (fun v hv => ?_) fun e1 e2 e3 => ?_
  · rcases hv with rfl | rfl
    · rw [if_pos (by decide)]; exact civil_pure (by decide)
    · rw [if_pos (by decide)]; exact civil_pure (by decide)
  rw [if_neg (by decide)]
  obtain ⟨p1, p2, p3⟩ := page_high h.wf e1 e2 e3
  refine civil_lockMeta h.wf (fun v r hv => ?_) fun t1 t2 t3 => ?_
  · dsimp only
    rw [if_pos (by rcases hv with rfl | rfl <;> rfl)]
    refine civil_still noL_lt (P := fun _ => True) ?_ fun _ _ => civil_pure (by rcases hv with rfl | rfl <;> decide)
    exact (frame_calm (D := True) hw (high_storeOff h.wf p1 (by decide) (by show e.toNat + 0 + 8 ≤ _; omega) p3)).still
  dsimp only
  rw [if_neg (by decide)]
  have hr := dramRegionFor_lt h.wf t
  obtain ⟨q1, q2, q3⟩ := page_high h.wf t1 t2 t3
  rw [← dramRegionFor_toNat h.wf t]
  have hse : ∀ {off v : W}, off.toNat % 8 = 0 → off.toNat ≤ 296 → (store (e + off) v).Still g c fun _ => True := fun ho hl => (frame_calm (D := True) hw (high_storeOff h.wf p1 ho (by omega) p3)).still
  have hstt : ∀ {off v : W}, off.toNat % 8 = 0 → off.toNat ≤ 544 → (store (t + off) v).Still g c fun _ => True := fun ho hl => (frame_calm (D := True) hw (high_storeOff h.wf q1 ho (by omega) q3)).still
  refine civil_load hw fun init => ?_
  refine civil_still (one_lt hr) (Calm.ite (fun _ => Calm.pure _) fun _ => calm_load _).still fun ep _ => ?_
  refine civil_still (one_lt hr) (P := fun v => v = monitorOk ∨ v = monitorInvalidValue ∨ v = monitorInvalidState)
    ((frame_calm (D := True) hw (Frame.ite (fun _ => Frame.pure _) fun _ => high_reserve h e2 e3 (by rw [threadPages_toNat]; decide) _ _)).still.rets ?_) fun res hres => ?_
  · split
    · exact Or.inr (Or.inr rfl)
    · exact rets_reserve hw _ _ _ _
  refine civil_ite (fun _ => civil_releaseBoth hw hr p1 p2 p3 (by rcases hres with rfl | rfl | rfl <;> decide)) fun _ => ?_
  refine civil_load hw fun n => ?_
  refine civil_still (one_lt hr) (hse (by decide) (by decide)) fun _ _ => ?_
  refine civil_still (one_lt hr) (hstt (by decide) (by decide)) fun _ _ => ?_
  refine civil_still (one_lt hr) (hstt (by decide) (by decide)) fun _ _ => ?_
  refine civil_still (one_lt hr) (hstt (by decide) (by decide)) fun _ _ => ?_
  refine civil_still (one_lt hr) (hstt (by decide) (by decide)) fun _ _ => ?_
  refine civil_still (one_lt hr) (hstt (by decide) (by decide)) fun _ _ => ?_
  refine civil_load hw fun _ => ?_
  refine civil_still (one_lt hr) (hstt (by decide) (by decide)) fun _ _ => ?_
  refine civil_still (one_lt hr) (frame_calm (D := True) hw (high_extendHashWithThread h.wf p1 (by omega) p3 _ _ _ _)).still fun _ _ => ?_
  exact civil_releaseBoth hw hr p1 p2 p3 (by decide)

theorem civil_withLocked (e : W) (k : W → Prog W) : (withLockedEnclave g e k).Civil g c A X monitorConcurrentCall noL := by
  unfold withLockedEnclave
  dsimp only
  have hr := clamped_lt hw e
  refine civil_tasLock hw hr (Or.inl id) fun _ => ?_
  rw [if_neg (by decide)]
  by_cases he : e = nullEnclaveId
  · rw [if_pos he]
    exact civil_rel1 hw hr (by decide)
  · rw [if_neg he]
    unfold isValidEnclaveId
    show Prog.Civil g c A X _ _ (readOwner g (clampedDramRegionFor g e) >>= fun owner => if (!(owner == e)) = true then _ else _)
    refine civil_readOwner hw hr fun o ov hz => ?_
    have hne := owner_ne_id hw ov hz he
    rw [if_pos (by simpa using hne)]
    exact civil_rel1 hw hr (by decide)

theorem civil_copyDebug (e a os : W) (dir : Bool) (ha : e ≠ 0 ∨ g.monitorTop.toNat ≤ a.toNat) (hA : idRegion g e = regionOf g os.toNat → A) :
    (copyDebugEnclavePage g e a os dir).Civil g c A X monitorConcurrentCall noL := by
  unfold copyDebugEnclavePage
  refine civil_ite (fun _ => civil_pure (by decide)) fun hal => civil_ite (fun _ => civil_pure (by decide)) fun hdr => ?_
  have hal : isPageAligned a = true ∧ isPageAligned os = true := by simpa using hal
  have hdr : isDramAddress g a = true ∧ isDramAddress g os = true := by simpa using hdr
  have a1 := (isPageAligned_iff a).1 hal.1
  have a2 := (isDramAddress_iff a).1 hdr.1
  have o1 := (isPageAligned_iff os).1 hal.2
  have o2 := (isDramAddress_iff os).1 hdr.2
  have hr := clamped_lt hw e
  have hs := dramRegionFor_lt hw os
  dsimp only
  refine civil_tasLock hw hr (Or.inl id) fun _ => ?_
  rw [if_neg (by decide)]
  refine civil_tasLock hw hs ?_ fun hn2 => ?_
  · rcases Classical.em (idRegion g e = regionOf g os.toNat) with he | he
    · exact Or.inr (hA he)
    · exact Or.inl fun hh => hh.elim id fun h => he (by rw [← dramRegionFor_toNat hw, h, clamped_eq hw])
  rw [if_neg (by decide)]
  have hne : (clampedDramRegionFor g e).toNat ≠ (dramRegionFor g os).toNat := fun hh => hn2 (Or.inr hh.symm)
  have hH2 := two_lt (g := g) hr hs
  refine civil_readOwner hw hr fun oe ov3 hz3 => ?_
  refine civil_readOwner hw hs fun oo _ _ => ?_
  refine civil_still hH2 (P := fun _ => True) (p := readEnclaveRegionBitmapBit g e (dramRegionFor g a)) ?_ fun bit _ => ?_
  · unfold readEnclaveRegionBitmapBit
    exact (Calm.ite (fun _ => Calm.bind (calm_load _) fun _ => Calm.pure _) fun _ => Calm.bind (calm_load _) fun _ => Calm.pure _).still
  refine civil_load hw fun dbg => ?_
  generalize hres : (if dbg = 0 then monitorInvalidState else if (!bit) = true then monitorInvalidValue else if oo ≠ nullEnclaveId then monitorInvalidValue
    else if oe ≠ e then monitorInvalidValue else monitorOk) = res
  have hne3 : res ≠ monitorConcurrentCall := by
    rw [← hres]
    repeat' split
    all_goals decide
  refine civil_still hH2 (P := fun _ => True) (Calm.ite (fun hok => ?_) fun _ => Calm.pure _).still fun _ _ => civil_rel2 hw hs hr hne3
  have hoe : oe = e := by
    rw [hok] at hres
    refine Classical.byContradiction fun hne => ?_
    revert hres
    repeat' split
    all_goals first | (intro hh; exact absurd hh (by decide)) | (intro _; contradiction)
  have he0 : e = 0 := Classical.byContradiction fun h0 => owner_ne_id hw ov3 hz3 h0 hoe
  have ha := ha.resolve_left (fun hh => hh he0)
  have hcl : (clampedDramRegionFor g e).toNat = 0 := by
    rw [clamped_eq hw, he0]; unfold idRegion; split
    · unfold regionOf; simp
    · rfl
  have hreg : regionOf g os.toNat ≠ 0 := fun hh => hne (by rw [hcl, dramRegionFor_toNat hw, hh])
  obtain ⟨p1, p2, p3⟩ := page_high hw o1 o2 hreg
  have hdm := dram_mod hw
  refine frame_calm (D := True) hw (Frame.ite (fun _ => ?_) fun _ => ?_)
  · exact high_copyWords hw _ _ _ p1 (by omega) (by omega) (by omega) p3 ha
  · exact high_copyWords hw _ _ _ (by omega) p1 (by omega) (by omega) ha p3

theorem civil_deleteThread (hc : c < g.cores) (t : W) : (deleteThread g t).Civil g c A X monitorConcurrentCall noL := by
  unfold deleteThread
  refine civil_currentEnclave hw hc ?_
  dsimp only
  rw [show nullEnclaveId = (0 : W) from rfl, dramRegionFor_zero hw]
  refine civil_tasLock hw (zero_lt hw) (Or.inl id) fun _ => ?_
  rw [if_neg (by decide)]
  exact civil_pure (by decide)

theorem civil_createThread (hc : c < g.cores) (t p : W) : (createThread g t p).Civil g c A X monitorConcurrentCall noL := by
  unfold createThread
  refine civil_ite (fun _ => civil_pure (by decide)) fun hp => civil_ite (fun _ => civil_pure (by decide)) fun hd =>
    civil_ite (fun _ => civil_pure (by decide)) fun _ => ?_
  dsimp only
  rw [threadPagesLoop_ok hw (by simpa using hp) (by simpa using hd)]
  refine civil_currentEnclave hw hc ?_
  rw [show nullEnclaveId = (0 : W) from rfl, dramRegionFor_zero hw]
  refine civil_tasLock hw (zero_lt hw) (Or.inl id) fun _ => ?_
  rw [if_neg (by decide)]
  refine civil_still (one_lt (zero_lt hw)) (P := fun _ => True) (Calm.bind (calm_load _) fun _ => Calm.pure _).still fun bit _ => ?_
  exact civil_ite (fun _ => civil_pure (by decide)) fun _ => civil_rel1 hw (zero_lt hw) (by decide)

/-- A call returns the code that reports a taken lock only after a refusal. -/
theorem civil_call (c : Nat) (k : Call) (hc : c < g.cores) (hk : CoveredC g k) {b : W} (hb : k.busyCode = some b) :
    (k.prog g).Civil g c (AsksTwice g k) (fun x => ∃ e, TakesEnclaveLock e k ∧ x = e.toNat) b noL := by
  obtain ⟨hcov, hrec⟩ := hk
  cases k <;> first | cases hb | skip
  case acceptThread => exact hcov.elim
  case blockDramRegion r => exact civil_block hw hc r
  case dramRegionCheckOwnership r => exact civil_check hw hc r
  case exitEnclave => exact civil_exitEnclave hw
  case setDmaRange b n => exact civil_setDmaRange hw b n
  case dramRegionState r => exact civil_state hw r
  case assignDramRegion r e => exact civil_assign hw r e id
  case freeDramRegion r => exact civil_free hw r
  case flushCachedDramRegions => exact civil_flush hw hc
  case createMetadataRegion r => exact civil_createMeta hw r
  case createEnclave e b k n d => exact civil_createEnclave hw ⟨hw, hcov.1, hcov.2⟩ e b k n d
  case loadPageTable e p v l a =>
      show (loadPageTable g e p v l a).Civil g c _ _ _ noL
      unfold loadPageTable
      exact civil_ite (fun _ => civil_pure (by decide)) fun _ => civil_ite (fun _ => civil_pure (by decide)) fun _ => civil_ite (fun _ => civil_pure (by decide)) fun _ => civil_withLocked hw _ _
  case loadPage e p v o a =>
      show (loadPage g e p v o a).Civil g c _ _ _ noL
      unfold loadPage
      exact civil_ite (fun _ => civil_pure (by decide)) fun _ => civil_ite (fun _ => civil_pure (by decide)) fun _ => civil_withLocked hw _ _
  case loadThread e t w x y z => exact civil_loadThread hw ⟨hw, hcov.1, hcov.2⟩ e t w x y z ⟨e, rfl, rfl⟩
  case assignThread e t => exact civil_assignThread hw ⟨hw, hcov.1, hcov.2⟩ e t ⟨e, rfl, rfl⟩
  case initEnclave e => show (initEnclave g e).Civil g c _ _ _ noL; unfold initEnclave; exact civil_withLocked hw _ _
  case enterEnclave e t => show (enterEnclave g e t).Civil g c _ _ _ noL; unfold enterEnclave; exact civil_withLocked hw _ _
  case createThread t p => exact civil_createThread hw hc t p
  case deleteThread t => exact civil_deleteThread hw hc t
  case deleteEnclave e => show (deleteEnclave g e).Civil g c _ _ _ noL; unfold deleteEnclave; exact civil_withLocked hw _ _
  case copyDebugEnclavePage e a os d => exact civil_copyDebug hw e a os d hcov id

end

/-! ### Locks that are kept -/

/-- When the program ends, with result `v` and holding `H`, `Q v H` holds. -/
def Prog.Ends (g : Cfg) (c : Nat) (Q : W → (Nat → Prop) → Prop) : (Nat → Prop) → Prog W → Prop
  | H, .ret v => Q v H
  | H, .op o f => ∀ v, RespOk g c H o v → Prog.Ends g c Q (heldStep g o v H) (f v)
  | _, .fault => True
  | _, .diverge => True

/-- Only the lock of region 0 is kept, and only by successful calls. -/
def KeepsZero (v : W) (H : Nat → Prop) : Prop := ∀ i, H i → i = 0 ∧ v = monitorOk

theorem ends_still {P : α → Prop} {Q : W → (Nat → Prop) → Prop} {p : Prog α} {f : α → Prog W} (hH : ∀ i, H i → i < g.regions) (hp : p.Still g c P)
    (hf : ∀ a, P a → (f a).Ends g c Q H) : (p >>= f).Ends g c Q H := by
  show (p.bind f).Ends g c Q H
  induction p with
  | ret a => exact hf a hp
  | op o k ih =>
      intro v hv
      have hst : heldStep g o v H = H := by
        refine heldStep_frame ?_ hH v
        rintro i hi a w (rfl | rfl) hh
        · exact hp.1 i hi hh
        · exact hp.1 i hi hh
      rw [hst]
      exact ih v (hp.2 v (hv.mono fun _ hh => hh.elim))
  | fault => trivial
  | diverge => trivial

theorem ends_currentEnclave (hw : g.WF) (hc : c < g.cores) {Q : W → (Nat → Prop) → Prop} {f : W → Prog W} (hf : (f nullEnclaveId).Ends g c Q H) :
    (currentEnclave g >>= f).Ends g c Q H := by
  have hcc : (coreA g (BitVec.ofNat 64 c) + offCoreEnclaveId).toNat = coreEnclaveA c := coreA_toNat hw hc _ (by decide)
  show Prog.Ends g c Q H (.op .curCore fun core => .op (.load (coreA g core + offCoreEnclaveId)) f)
  intro v hv
  rw [hv.core rfl]
  intro v hv
  rw [hv.os _ c rfl hc hcc]
  exact hf

theorem ends_tasZero (hw : g.WF) {Q : W → (Nat → Prop) → Prop} {f : Bool → Prog W} (hb : (f true).Ends g c Q noL) (hf : (f false).Ends g c Q (addL noL 0)) :
    (tasLock g 0 >>= f).Ends g c Q noL := by
  have h0 := zero_lt hw
  have ha := lockA_toNat hw h0
  intro v hv
  by_cases hz : v = 0
  · have hst : heldStep g (.tas (regionA g 0 + offLock)) v noL = addL noL 0 := by
      funext i
      simp only [heldStep, addL, ha, lockA_inj]
      exact propext ⟨fun hh => hh.imp id fun h1 => h1.2.2.symm, fun hh => hh.imp id fun h1 => ⟨by rw [h1]; exact h0, hz, h1.symm⟩⟩
    rw [hst]
    subst hz
    exact hf
  · have hst : heldStep g (.tas (regionA g 0 + offLock)) v noL = noL := by
      funext i
      simp only [heldStep]
      exact propext ⟨fun hh => hh.elim id fun h1 => (hz h1.2.1).elim, Or.inl⟩
    rw [hst]
    show (f (v != 0)).Ends g c Q noL
    rw [bne_iff_ne.2 hz]
    exact hb

/-- `create_thread` and `delete_thread` keep at most the lock of region 0, and only if they succeed. -/
theorem ends_keep (hw : g.WF) (hc : c < g.cores) {k : Call} (hk : ¬ NoLeak k) : (k.prog g).Ends g c KeepsZero noL := by
  have hno : ∀ {v : W}, (pure v : Prog W).Ends g c KeepsZero noL := fun i hi => hi.elim
  have hok : (pure monitorOk : Prog W).Ends g c KeepsZero (addL noL 0) := fun i hi => ⟨hi.elim (fun h => h.elim) id, rfl⟩
  cases k <;> first | exact absurd trivial hk | skip
  case createThread t p =>
      show (createThread g t p).Ends g c KeepsZero noL
      unfold createThread
      split
      · exact hno
      rename_i hp
      split
      · exact hno
      rename_i hd
      split
      · exact hno
      dsimp only
      rw [threadPagesLoop_ok hw (by simpa using hp) (by simpa using hd)]
      refine ends_currentEnclave hw hc ?_
      rw [show nullEnclaveId = (0 : W) from rfl, dramRegionFor_zero hw]
      refine ends_tasZero hw (by rw [if_pos rfl]; exact hno) ?_
      rw [if_neg (by decide)]
      refine ends_still (one_lt (zero_lt hw)) (P := fun _ => True) (Calm.bind (calm_load _) fun _ => Calm.pure _).still fun bit _ => ?_
      split
      · exact hok
      · intro v _ i hi
        have hi : addL noL 0 i ∧ (regionA g 0 + offLock).toNat ≠ lockA g i := hi
        have h1 : i = 0 := hi.1.elim (fun h => h.elim) id
        exact absurd (by rw [h1, lockA_toNat hw (zero_lt hw)]; rfl) hi.2
  case deleteThread t =>
      show (deleteThread g t).Ends g c KeepsZero noL
      unfold deleteThread
      refine ends_currentEnclave hw hc ?_
      dsimp only
      rw [show nullEnclaveId = (0 : W) from rfl, dramRegionFor_zero hw]
      refine ends_tasZero hw (by rw [if_pos rfl]; exact hno) ?_
      rw [if_neg (by decide)]
      exact hok

end Sanctum
