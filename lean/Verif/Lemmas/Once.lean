import Verif.Lemmas.Late
/-
The calls write at most one owner.
-/
namespace Sanctum
open Machine

variable {g : Cfg} {c : Nat} {α β : Type} {H : Nat → Prop}

/-- The program writes no owner after it wrote an owner. -/
def Prog.Once (g : Cfg) (c : Nat) : (Nat → Prop) → Prog α → Prop
  | _, .ret _ => True
  | H, .op o f => ∀ v, RespOk g c H o v → Prog.Once g c (heldStep g o v H) (f v) ∧
      ((∃ i, i < g.regions ∧ o.mutates (ownerA g i)) → Prog.NoOwner g c (heldStep g o v H) (f v))
  | _, .fault => True
  | _, .diverge => True

/-- The program writes no owner. -/
def Prog.Mute (g : Cfg) (c : Nat) : Prog α → Prop
  | .ret _ => True
  | .op o f => (∀ i, i < g.regions → ¬ o.mutates (ownerA g i)) ∧ ∀ v, RespOk g c (fun _ => False) o v → Prog.Mute g c (f v)
  | .fault => True
  | .diverge => True

theorem Prog.NoOwner.once {p : Prog α} (hp : p.NoOwner g c H) : p.Once g c H := by
  induction p generalizing H with
  | ret a => trivial
  | op o f ih => exact fun v hv => ⟨ih v (hp.2 v hv), fun _ => hp.2 v hv⟩
  | fault => trivial
  | diverge => trivial

theorem Prog.Mute.noOwner {p : Prog α} (hp : p.Mute g c) : p.NoOwner g c H := by
  induction p generalizing H with
  | ret a => trivial
  | op o f ih => exact ⟨hp.1, fun v hv => ih v (hp.2 v (hv.mono fun _ hh => hh.elim))⟩
  | fault => trivial
  | diverge => trivial

theorem Prog.Mute.once_bind {p : Prog α} {f : α → Prog β} (hp : p.Mute g c) (hf : ∀ a H, (f a).Once g c H) : (p >>= f).Once g c H := by
  show (p.bind f).Once g c H
  induction p generalizing H with
  | ret a => exact hf a H
  | op o k ih => exact fun v hv => ⟨ih v (hp.2 v (hv.mono fun _ hh => hh.elim)), fun ⟨i, h1, h2⟩ => absurd h2 (hp.1 i h1)⟩
  | fault => trivial
  | diverge => trivial

theorem Prog.Mute.once {p : Prog α} (hp : p.Mute g c) : p.Once g c H := hp.noOwner.once

theorem Mute.bind {p : Prog α} {f : α → Prog β} (hp : p.Mute g c) (hf : ∀ a, (f a).Mute g c) : (p >>= f).Mute g c := by
  show (p.bind f).Mute g c
  induction p with
  | ret a => exact hf a
  | op o k ih => exact ⟨hp.1, fun v hv => ih v (hp.2 v hv)⟩
  | fault => trivial
  | diverge => trivial

theorem Mute.pure (a : α) : (pure a : Prog α).Mute g c := trivial

theorem Mute.ite {b : Prop} [Decidable b] {p q : Prog α} (hp : b → p.Mute g c) (hq : ¬ b → q.Mute g c) : (if b then p else q).Mute g c := by
  split
  · exact hp ‹_›
  · exact hq ‹_›

theorem Prog.Quiet.mute {S : Nat → Prop} {p : Prog α} (hp : p.Quiet g c S) : p.Mute g c := by
  induction p with
  | ret a => trivial
  | op o k ih => exact ⟨fun i hi => (hp.1.quiet i hi).2, fun v hv => ih v (hp.2 v hv)⟩
  | fault => trivial
  | diverge => trivial

theorem mute_tasLock (hw : g.WF) {r : W} (hr : r.toNat < g.regions) {f : Bool → Prog β} (hf : ∀ b, (f b).Mute g c) : (tasLock g r >>= f).Mute g c := by
  refine ⟨fun i hi hx => ?_, fun v _ => hf _⟩
  have hx : (regionA g r + offLock).toNat = ownerA g i := hx
  rw [lockA_toNat hw hr] at hx
  simp at hx

theorem mute_clearLock (hw : g.WF) {r : W} (hr : r.toNat < g.regions) {f : Unit → Prog β} (hf : (f ()).Mute g c) : (clearLock g r >>= f).Mute g c := by
  refine ⟨fun i hi hx => ?_, fun v _ => hf⟩
  have hx : (regionA g r + offLock).toNat = ownerA g i := hx
  rw [lockA_toNat hw hr] at hx
  simp at hx

theorem mute_store {a v : W} (h : ∀ i, i < g.regions → a.toNat ≠ ownerA g i) : (store a v).Mute g c := ⟨fun i hi hx => h i hi hx, fun _ _ => trivial⟩

theorem mute_rel1 (hw : g.WF) {r : W} (hr : r.toNat < g.regions) (v : α) : (clearLock g r >>= fun _ => pure v).Mute g c := mute_clearLock hw hr (Mute.pure v)

theorem mute_rel2 (hw : g.WF) {r s : W} (hr : r.toNat < g.regions) (hs : s.toNat < g.regions) (v : α) :
    (clearLock g r >>= fun _ => clearLock g s >>= fun _ => pure v).Mute g c := mute_clearLock hw hr (mute_rel1 hw hs v)

theorem mute_load (a : W) : (load a).Mute g c := ⟨fun _ _ hx => hx.elim, fun _ _ => trivial⟩

theorem mute_act {o : Op} (h : ∀ x, ¬ o.mutates x) : (act o).Mute g c := ⟨fun i _ hx => (h _ hx).elim, fun _ _ => trivial⟩

theorem mute_act_ {o : Op} (h : ∀ x, ¬ o.mutates x) : (act_ o).Mute g c := ⟨fun i _ hx => (h _ hx).elim, fun _ _ => trivial⟩

theorem mute_readOwner (hw : g.WF) {r : W} (hr : r.toNat < g.regions) {f : W → Prog β}
    (hf : ∀ v, OwnerVal v → (r.toNat = 0 → v = nullEnclaveId) → (f v).Mute g c) : (readOwner g r >>= f).Mute g c := by
  refine ⟨fun _ _ hx => hx.elim, fun v hv => ?_⟩
  have h1 := hv.owner _ _ rfl hr (ownerA_toNat hw hr)
  exact hf v h1.1 h1.2

theorem mute_currentEnclave (hw : g.WF) (hc : c < g.cores) {f : W → Prog β} (hf : (f nullEnclaveId).Mute g c) : (currentEnclave g >>= f).Mute g c := by
  have hcc : (coreA g (BitVec.ofNat 64 c) + offCoreEnclaveId).toNat = coreEnclaveA c := coreA_toNat hw hc _ (by decide)
  show Prog.Mute g c (.op .curCore fun core => .op (.load (coreA g core + offCoreEnclaveId)) f)
  refine ⟨fun _ _ hx => hx.elim, fun v hv => ?_⟩
  rw [hv.core rfl]
  refine ⟨fun _ _ hx => hx.elim, fun v hv => ?_⟩
  rw [hv.os _ c rfl hc hcc]
  exact hf

/-- A program that takes a lock first. -/
theorem once_tasLock (hw : g.WF) {r : W} (hr : r.toNat < g.regions) {f : Bool → Prog β} (hf : ∀ b H, (f b).Once g c H) : (tasLock g r >>= f).Once g c H :=
  Prog.Mute.once_bind (p := tasLock g r) (mute_tasLock (f := pure) hw hr fun _ => trivial) hf

theorem once_readOwner (hw : g.WF) {r : W} (hr : r.toNat < g.regions) {f : W → Prog β}
    (hf : ∀ v, OwnerVal v → (r.toNat = 0 → v = nullEnclaveId) → ∀ H, (f v).Once g c H) : (readOwner g r >>= f).Once g c H := by
  show (Prog.op (.load (regionA g r + offOwner)) f).Once g c H
  intro v hv
  have h1 := hv.owner _ _ rfl hr (ownerA_toNat hw hr)
  exact ⟨hf v h1.1 h1.2 _, fun ⟨_, _, h2⟩ => h2.elim⟩

theorem once_currentEnclave (hw : g.WF) (hc : c < g.cores) {f : W → Prog β} (hf : ∀ H, (f nullEnclaveId).Once g c H) : (currentEnclave g >>= f).Once g c H := by
  have hcc : (coreA g (BitVec.ofNat 64 c) + offCoreEnclaveId).toNat = coreEnclaveA c := coreA_toNat hw hc _ (by decide)
  show Prog.Once g c H (.op .curCore fun core => .op (.load (coreA g core + offCoreEnclaveId)) f)
  refine fun v hv => ⟨?_, fun ⟨_, _, h2⟩ => h2.elim⟩
  rw [hv.core rfl]
  refine fun v hv => ⟨?_, fun ⟨_, _, h2⟩ => h2.elim⟩
  rw [hv.os _ c rfl hc hcc]
  exact hf _

theorem Once.ite {b : Prop} [Decidable b] {p q : Prog α} (hp : b → p.Once g c H) (hq : ¬ b → q.Once g c H) : (if b then p else q).Once g c H := by
  split
  · exact hp ‹_›
  · exact hq ‹_›

/-- The store to the owner. -/
theorem once_ownerStore {a v : W} {f : Unit → Prog β} (hf : (f ()).Mute g c) : (store a v >>= f).Once g c H := by
  show (Prog.op (.store a v) fun _ => f ()).Once g c H
  exact fun v hv => ⟨hf.once, fun _ => hf.noOwner⟩

variable (hw : g.WF)
include hw

theorem mute_check (hc : c < g.cores) (r : W) : (dramRegionCheckOwnership g r).Mute g c := by
  unfold dramRegionCheckOwnership
  refine Mute.ite (fun _ => Mute.pure _) fun hd => ?_
  obtain ⟨_, hr⟩ := (isDynamicDramRegion_iff r).1 (by simpa using hd)
  refine mute_tasLock hw hr fun _ => Mute.ite (fun _ => Mute.pure _) fun _ => ?_
  refine mute_readOwner hw hr fun owner _ _ => ?_
  refine mute_currentEnclave hw hc ?_
  exact mute_rel1 hw hr _

theorem mute_state (r : W) : (dramRegionState g r).Mute g c := by
  unfold dramRegionState
  refine Mute.ite (fun _ => Mute.pure _) fun hd => ?_
  have hr := (isValidDramRegion_iff (g := g) r).1 (by simpa using hd)
  refine mute_tasLock hw hr fun _ => Mute.ite (fun _ => Mute.pure _) fun _ => ?_
  refine mute_readOwner hw hr fun owner _ _ => ?_
  exact mute_rel1 hw hr _

theorem mute_owner (r : W) : (dramRegionOwner g r).Mute g c := by
  unfold dramRegionOwner
  refine Mute.ite (fun _ => Mute.pure _) fun hd => ?_
  have hr := (isValidDramRegion_iff (g := g) r).1 (by simpa using hd)
  refine mute_tasLock hw hr fun _ => Mute.ite (fun _ => Mute.pure _) fun _ => ?_
  refine mute_readOwner hw hr fun owner _ _ => ?_
  exact mute_rel1 hw hr _

theorem mute_flush (hc : c < g.cores) : (flushCachedDramRegions g).Mute g c := by
  unfold flushCachedDramRegions dramRegionTlbFlush
  refine Mute.bind ?_ fun _ => Mute.pure _
  refine Mute.bind (mute_act_ fun _ hh => hh) fun _ => ?_
  refine ⟨fun _ _ hx => hx.elim, fun v hv => ?_⟩
  rw [hv.core rfl]
  have hcc : (coreA g (BitVec.ofNat 64 c) + offFlushedAt).toNat = flushedA c := coreA_toNat hw hc _ (by decide)
  have hlt := flushedA_lt hw hc
  show Prog.Mute g c (load g.regionsBase >>= fun clock => store (coreA g (BitVec.ofNat 64 c) + offFlushedAt) clock)
  exact Mute.bind (mute_load _) fun clk => mute_store fun i hi hx => flushedA_ne_ownerA hw hc (hcc.symm.trans hx)

theorem mute_deleteThread (hc : c < g.cores) (t : W) : (deleteThread g t).Mute g c := by
  unfold deleteThread
  refine mute_currentEnclave hw hc ?_
  dsimp only
  rw [show nullEnclaveId = (0 : W) from rfl, dramRegionFor_zero hw]
  exact mute_tasLock hw (zero_lt hw) fun _ => Mute.ite (fun _ => Mute.pure _) fun _ => Mute.pure _

theorem mute_dmaLoop (e : W) : ∀ (fuel : Nat) (a : W) (owns : Bool), (dmaRangeLoop g e fuel a owns).Mute g c := by
  have h0 := zero_lt hw
  intro fuel
  induction fuel with
  | zero => intros; trivial
  | succ n ih =>
      intro a owns
      unfold dmaRangeLoop
      refine Mute.ite (fun _ => ?_) fun _ => Mute.pure _
      have hn := dramRegionFor_lt hw a
      dsimp only
      by_cases hz : dramRegionFor g a = 0
      · have hb0 : (dramRegionFor g a != 0) = false := by rw [hz]; rfl
        rw [hb0]
        show Prog.Mute g c (readOwner g (dramRegionFor g a) >>= fun owner => dmaRangeLoop g e n (a + g.stripeSize) (owns && owner == 0))
        exact mute_readOwner hw hn fun owner _ _ => ih _ _
      · have hb0 : (dramRegionFor g a != 0) = true := bne_iff_ne.2 hz
        rw [hb0]
        simp only [if_true]
        refine mute_tasLock hw hn fun b => Mute.ite (fun _ => mute_rel1 hw (r := 0) h0 _) fun _ => ?_
        exact mute_readOwner hw hn fun owner _ _ => mute_clearLock hw hn (ih _ _)

theorem mute_setDmaRange (base mask : W) : (setDmaRange g base mask).Mute g c := by
  have h0 := zero_lt hw
  unfold setDmaRange
  refine Mute.ite (fun _ => Mute.pure _) fun _ => Mute.ite (fun _ => Mute.pure _) fun _ => ?_
  refine mute_tasLock hw h0 fun b => Mute.ite (fun _ => Mute.pure _) fun _ => ?_
  dsimp only
  refine Mute.bind (mute_dmaLoop hw _ _ _ _) fun res => ?_
  cases res with
  | none => exact Mute.pure _
  | some b =>
      dsimp only
      have hq : ∀ (o : Op) (f : Unit → Prog W), (∀ x, ¬ o.mutates x) → (f ()).Mute g c → (act_ o >>= f).Mute g c :=
        fun o f h1 h2 => Mute.bind (mute_act_ h1) fun _ => h2
      exact hq _ _ (fun _ hh => hh) (hq _ _ (fun _ hh => hh) (hq _ _ (fun _ hh => hh) (hq _ _ (fun _ hh => hh) (mute_rel1 hw h0 _))))

theorem once_block (hc : c < g.cores) (r : W) : (blockDramRegion g r).Once g c H := by
  unfold blockDramRegion
  refine Once.ite (fun _ => trivial) fun hd => ?_
  obtain ⟨hr0, hr⟩ := (isDynamicDramRegion_iff r).1 (by simpa using hd)
  refine once_tasLock hw hr fun _ H => Once.ite (fun _ => trivial) fun _ => ?_
  refine once_readOwner hw hr fun owner _ _ H => ?_
  refine once_currentEnclave hw hc fun H => ?_
  refine Once.ite (fun _ => (mute_rel1 hw hr _).once) fun ho => ?_
  have ho : owner = nullEnclaveId := by simpa using ho
  rw [ho]
  have hnn : (nullEnclaveId != nullEnclaveId) = false := rfl
  rw [hnn, if_neg (by decide)]
  refine Prog.Mute.once_bind (Mute.pure _) fun _ H => ?_
  rw [Bool.false_and, if_neg (by decide), show nullEnclaveId = (0 : W) from rfl, dramRegionFor_zero hw]
  have h0 := zero_lt hw
  refine once_tasLock hw h0 fun _ H => Once.ite (fun _ => (mute_rel1 hw hr _).once) fun _ => ?_
  rw [if_pos rfl]
  refine Prog.Mute.once_bind (Prog.Quiet.mute (S := noL) quiet_dmaRangeCrossed) fun crossed H => ?_
  refine Once.ite (fun _ => (mute_rel2 hw h0 hr _).once) fun _ => ?_
  refine Prog.Mute.once_bind (mute_store fun i hi hx => by rw [prevA_toNat hw hr] at hx; simp at hx) fun _ H => ?_
  refine once_ownerStore ?_
  refine Mute.bind (p := act (.fetchAdd g.regionsBase 1)) ⟨fun i hi hx => ?_, fun _ _ => trivial⟩ fun clk => ?_
  · have hx : clockA g = ownerA g i := hx
    exact clockA_ne_ownerA hw hi hx
  refine Mute.bind (mute_store fun i hi hx => by rw [blockedA_toNat hw hr] at hx; simp at hx) fun _ => ?_
  unfold setEnclaveRegionBitmapBit
  rw [if_pos rfl]
  refine Mute.bind (Prog.Quiet.mute (S := noL) (quiet_setOsBit hw hr false)) fun _ => ?_
  refine Mute.bind (Prog.Quiet.mute (S := noL) (quiet_setDrb hw)) fun _ => ?_
  exact mute_rel2 hw h0 hr _

theorem once_free (r : W) : (freeDramRegion g r).Once g c H := by
  unfold freeDramRegion
  refine Once.ite (fun _ => trivial) fun hd => ?_
  have hr := (isValidDramRegion_iff (g := g) r).1 (by simpa using hd)
  refine once_tasLock hw hr fun _ H => Once.ite (fun _ => trivial) fun _ => ?_
  refine once_readOwner hw hr fun owner _ _ H => ?_
  have hfin : ∀ H, (store (regionA g r + offOwner) freeEnclaveId >>= fun _ => clearLock g r >>= fun _ => pure monitorOk).Once g c H :=
    fun H => once_ownerStore (mute_rel1 hw hr _)
  refine Once.ite (fun _ => ?_) fun _ => Once.ite (fun _ => ?_) fun _ => (mute_rel1 hw hr _).once
  · refine Prog.Mute.once_bind (mute_load _) fun b H => ?_
    refine Prog.Mute.once_bind (Prog.Quiet.mute (S := noL) (quiet_coresFlushed hw b g.coreCount.toNat 0 (by unfold Cfg.cores; omega))) fun ok H => ?_
    exact Once.ite (fun _ => hfin H) fun _ => (mute_rel1 hw hr _).once
  · refine Prog.Mute.once_bind (mute_load _) fun b H => ?_
    exact Once.ite (fun _ => hfin H) fun _ => (mute_rel1 hw hr _).once

theorem once_assign (r e : W) : (assignDramRegion g r e).Once g c H := by
  unfold assignDramRegion
  refine Once.ite (fun _ => trivial) fun hd => ?_
  have hr := (isValidDramRegion_iff (g := g) r).1 (by simpa using hd)
  refine once_tasLock hw hr fun _ H => Once.ite (fun _ => trivial) fun _ => ?_
  refine once_readOwner hw hr fun owner _ _ H => ?_
  refine Once.ite (fun _ => (mute_rel1 hw hr _).once) fun _ => ?_
  have hs := dramRegionFor_lt hw e
  dsimp only
  refine once_tasLock hw hs fun _ H => Once.ite (fun _ => (mute_rel1 hw hr _).once) fun _ => ?_
  unfold isValidEnclaveId
  show Prog.Once g c H (readOwner g (clampedDramRegionFor g e) >>= fun owner => if (owner == e) = true then _ else _)
  refine once_readOwner hw (clamped_lt hw e) fun o ov oz H => ?_
  refine Once.ite (fun hq => ?_) fun _ => (mute_rel2 hw hs hr _).once
  have hq : o = e := by simpa using hq
  have he0 : e = 0 := Classical.byContradiction fun h0 => owner_ne_id hw ov oz h0 hq
  refine once_ownerStore ?_
  unfold setEnclaveRegionBitmapBit
  rw [if_pos (show e = nullEnclaveId from he0), if_pos he0]
  refine Mute.bind (Prog.Quiet.mute (S := noL) (quiet_setOsBit hw hr true)) fun _ => ?_
  refine Mute.bind (Prog.Quiet.mute (S := noL) (quiet_setDrb hw)) fun _ => ?_
  exact mute_rel2 hw hs hr _

theorem once_createMeta (r : W) : (createMetadataRegion g r).Once g c H := by
  unfold createMetadataRegion
  refine Once.ite (fun _ => trivial) fun hd => ?_
  have hr := (isValidDramRegion_iff (g := g) r).1 (by simpa using hd)
  refine once_tasLock hw hr fun _ H => Once.ite (fun _ => trivial) fun _ => ?_
  refine once_readOwner hw hr fun owner _ hz H => ?_
  refine Once.ite (fun _ => (mute_rel1 hw hr _).once) fun ho => ?_
  have ho : owner = freeEnclaveId := by simpa using ho
  have hr0 : r.toNat ≠ 0 := fun hh => by rw [hz hh] at ho; exact absurd ho (by decide)
  unfold initMetadataRegion
  rw [prog_assoc hw]
  refine once_ownerStore ?_
  rw [prog_assoc hw]
  refine Mute.bind (mute_store fun i hi hx => by rw [pinnedA_toNat hw hr] at hx; simp at hx) fun _ => ?_
  have hst := region_start_ge g hr0
  obtain ⟨h1, h2, h3', h4, h5, h6, h7, h8, h9, h10, h11, h12⟩ := hw.layout
  have hend := hw.region_end_le hr
  have hmb := mapBytes_le hw
  have hstart := dramRegionStart_toNat hw r (Nat.le_of_lt hr)
  have hbytes := mapBytes_toNat hw
  have hsl := g.dramSize.isLt
  have hq : (bzero (dramRegionStart g r) (g.metaStart <<< pageShift)).Quiet g c (fun x => regionOf g x = r.toNat) := by
    unfold bzero
    refine Prog.High.quiet ?_ hw
    refine in_bzeroWords hw (lo := r.toNat * g.stripeSize.toNat) (hi := (r.toNat + 1) * g.stripeSize.toNat) (by omega)
      (fun x x1 x2 => regionOf_span hw hr x1 x2) _ _ (by rw [hstart]; exact Nat.le_refl _) ?_ (by omega)
    rw [hstart, hbytes]
    have : (r.toNat + 1) * g.stripeSize.toNat = r.toNat * g.stripeSize.toNat + g.stripeSize.toNat := Nat.succ_mul _ _
    omega
  exact Mute.bind hq.mute fun _ => mute_rel1 hw hr _

/-- All calls write at most one owner. -/
theorem once_call (c : Nat) (k : Call) (hc : c < g.cores) (hk : CoveredC g k) (ho : Orderly k) : (k.prog g).Once g c noL := by
  have htame : (k.prog g).Tame g c noL → (k.prog g).Once g c noL := fun h => h.noOwner.once
  obtain ⟨hcov, hrec⟩ := hk
  cases k
  case acceptThread => exact hcov.elim
  case createThread => exact ho.elim
  case assignThread => exact ho.elim
  case loadThread => exact ho.elim
  case deleteThread t => exact (mute_deleteThread hw hc t).once
  case blockDramRegion r => exact once_block hw hc r
  case dramRegionCheckOwnership r => exact (mute_check hw hc r).once
  case setDmaRange b n => exact (mute_setDmaRange hw b n).once
  case dramRegionState r => exact (mute_state hw r).once
  case dramRegionOwner r => exact (mute_owner hw r).once
  case assignDramRegion r e => exact once_assign hw r e
  case freeDramRegion r => exact once_free hw r
  case flushCachedDramRegions => exact (mute_flush hw hc).once
  case createMetadataRegion r => exact once_createMeta hw r
  case exitEnclave => exact htame (tame_exitEnclave hw)
  case createEnclave e b k n d => exact htame (tame_createEnclave hw ⟨hw, hcov.1, hcov.2⟩ e b k n d)
  case loadPageTable e p v l a => exact htame (tame_loadPageTable hw e p v l a)
  case loadPage e p v o a => exact htame (tame_loadPage hw e p v o a)
  case initEnclave e => exact htame (tame_initEnclave hw e)
  case enterEnclave e t => exact htame (tame_enterEnclave hw e t)
  case deleteEnclave e => exact htame (tame_deleteEnclave hw e)
  case copyDebugEnclavePage e a os d => exact htame (tame_copyDebug hw e a os d hcov)
  all_goals trivial

end Sanctum
