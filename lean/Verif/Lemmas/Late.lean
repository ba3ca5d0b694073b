import Verif.Lemmas.LinTame
import Verif.Lemmas.LinCalls
import Verif.Lemmas.RaceSound
/-
The calls write owners before they write memory above the monitor's, never after.
-/
namespace Sanctum
open Machine

variable {g : Cfg} {c : Nat} {α β : Type} {H : Nat → Prop}

/-- The program writes no owner. -/
def Prog.NoOwner (g : Cfg) (c : Nat) : (Nat → Prop) → Prog α → Prop
  | _, .ret _ => True
  | H, .op o f => (∀ i, i < g.regions → ¬ o.mutates (ownerA g i)) ∧ ∀ v, RespOk g c H o v → Prog.NoOwner g c (heldStep g o v H) (f v)
  | _, .fault => True
  | _, .diverge => True

/-- The program writes no owner after it wrote memory above the monitor's. -/
def Prog.Late (g : Cfg) (c : Nat) : (Nat → Prop) → Prog α → Prop
  | _, .ret _ => True
  | H, .op o f => ∀ v, RespOk g c H o v → Prog.Late g c (heldStep g o v H) (f v) ∧
      ((∃ x, g.monitorTop.toNat ≤ x ∧ o.mutates x) → Prog.NoOwner g c (heldStep g o v H) (f v))
  | _, .fault => True
  | _, .diverge => True

/-- The program writes only the monitor's memory. -/
def Prog.Low (g : Cfg) (c : Nat) : Prog α → Prop
  | .ret _ => True
  | .op o f => (∀ x, o.mutates x → x < g.monitorTop.toNat) ∧ ∀ v, RespOk g c (fun _ => False) o v → Prog.Low g c (f v)
  | .fault => True
  | .diverge => True

theorem Prog.Tame.noOwner {p : Prog α} (hp : p.Tame g c H) : p.NoOwner g c H := by
  induction p generalizing H with
  | ret a => trivial
  | op o f ih => exact ⟨fun i hi => hp.1.mem _ (Or.inr (Or.inr ⟨i, hi, Or.inl rfl⟩)), fun v hv => ih v (hp.2 v hv)⟩
  | fault => trivial
  | diverge => trivial

theorem Prog.NoOwner.late {p : Prog α} (hp : p.NoOwner g c H) : p.Late g c H := by
  induction p generalizing H with
  | ret a => trivial
  | op o f ih => exact fun v hv => ⟨ih v (hp.2 v hv), fun _ => hp.2 v hv⟩
  | fault => trivial
  | diverge => trivial

theorem Prog.Low.late_bind {p : Prog α} {f : α → Prog β} (hp : p.Low g c) (hf : ∀ a H, (f a).Late g c H) : (p >>= f).Late g c H := by
  show (p.bind f).Late g c H
  induction p generalizing H with
  | ret a => exact hf a H
  | op o k ih =>
      refine fun v hv => ⟨ih v (hp.2 v (hv.mono fun _ hh => hh.elim)), fun ⟨x, h1, h2⟩ => ?_⟩
      have := hp.1 x h2
      omega
  | fault => trivial
  | diverge => trivial

theorem Prog.Low.late {p : Prog α} (hp : p.Low g c) : p.Late g c H := by
  induction p generalizing H with
  | ret a => trivial
  | op o k ih =>
      refine fun v hv => ⟨ih v (hp.2 v (hv.mono fun _ hh => hh.elim)), fun ⟨x, h1, h2⟩ => ?_⟩
      have := hp.1 x h2
      omega
  | fault => trivial
  | diverge => trivial

theorem Low.bind {p : Prog α} {f : α → Prog β} (hp : p.Low g c) (hf : ∀ a, (f a).Low g c) : (p >>= f).Low g c := by
  show (p.bind f).Low g c
  induction p with
  | ret a => exact hf a
  | op o k ih => exact ⟨hp.1, fun v hv => ih v (hp.2 v hv)⟩
  | fault => trivial
  | diverge => trivial

theorem Low.pure (a : α) : (pure a : Prog α).Low g c := trivial

theorem Low.ite {b : Prop} [Decidable b] {p q : Prog α} (hp : b → p.Low g c) (hq : ¬ b → q.Low g c) : (if b then p else q).Low g c := by
  split
  · exact hp ‹_›
  · exact hq ‹_›

theorem Prog.Quiet.low {p : Prog α} (hp : p.Quiet g c noL) : p.Low g c := by
  induction p with
  | ret a => trivial
  | op o k ih => exact ⟨fun x hx => (hp.1.acc x (Op.mutates_accesses hx)).elim id fun hh => hh.elim, fun v hv => ih v (hp.2 v hv)⟩
  | fault => trivial
  | diverge => trivial

theorem low_tasLock (hw : g.WF) {r : W} (hr : r.toNat < g.regions) {f : Bool → Prog β} (hf : ∀ b, (f b).Low g c) : (tasLock g r >>= f).Low g c := by
  refine ⟨fun x hx => ?_, fun v _ => hf _⟩
  have hx : (regionA g r + offLock).toNat = x := hx
  have := lockA_toNat hw hr
  have := lockA_lt hw hr
  omega

theorem low_clearLock (hw : g.WF) {r : W} (hr : r.toNat < g.regions) {f : Unit → Prog β} (hf : (f ()).Low g c) : (clearLock g r >>= f).Low g c := by
  refine ⟨fun x hx => ?_, fun v _ => hf⟩
  have hx : (regionA g r + offLock).toNat = x := hx
  have := lockA_toNat hw hr
  have := lockA_lt hw hr
  omega

theorem low_rel1 (hw : g.WF) {r : W} (hr : r.toNat < g.regions) (v : α) : (clearLock g r >>= fun _ => pure v).Low g c := low_clearLock hw hr (Low.pure v)

theorem low_rel2 (hw : g.WF) {r s : W} (hr : r.toNat < g.regions) (hs : s.toNat < g.regions) (v : α) :
    (clearLock g r >>= fun _ => clearLock g s >>= fun _ => pure v).Low g c := low_clearLock hw hr (low_rel1 hw hs v)

theorem low_load (a : W) : (load a).Low g c := ⟨fun _ hx => hx.elim, fun _ _ => trivial⟩

theorem low_store {a v : W} (h : a.toNat < g.monitorTop.toNat) : (store a v).Low g c := ⟨fun _ hx => (show a.toNat = _ from hx) ▸ h, fun _ _ => trivial⟩

theorem low_act {o : Op} (h : ∀ x, ¬ o.mutates x) : (act o).Low g c := ⟨fun x hx => (h x hx).elim, fun _ _ => trivial⟩

theorem low_act_ {o : Op} (h : ∀ x, ¬ o.mutates x) : (act_ o).Low g c := ⟨fun x hx => (h x hx).elim, fun _ _ => trivial⟩

theorem low_readOwner (hw : g.WF) {r : W} (hr : r.toNat < g.regions) {f : W → Prog β}
    (hf : ∀ v, OwnerVal v → (r.toNat = 0 → v = nullEnclaveId) → (f v).Low g c) : (readOwner g r >>= f).Low g c := by
  refine ⟨fun _ hx => hx.elim, fun v hv => ?_⟩
  have h1 := hv.owner _ _ rfl hr (ownerA_toNat hw hr)
  exact hf v h1.1 h1.2

theorem low_currentEnclave (hw : g.WF) (hc : c < g.cores) {f : W → Prog β} (hf : (f nullEnclaveId).Low g c) : (currentEnclave g >>= f).Low g c := by
  have hcc : (coreA g (BitVec.ofNat 64 c) + offCoreEnclaveId).toNat = coreEnclaveA c := coreA_toNat hw hc _ (by decide)
  show Prog.Low g c (.op .curCore fun core => .op (.load (coreA g core + offCoreEnclaveId)) f)
  refine ⟨fun _ hx => hx.elim, fun v hv => ?_⟩
  rw [hv.core rfl]
  refine ⟨fun _ hx => hx.elim, fun v hv => ?_⟩
  rw [hv.os _ c rfl hc hcc]
  exact hf

theorem low_ownerStore (hw : g.WF) {r v : W} (hr : r.toNat < g.regions) : (store (regionA g r + offOwner) v).Low g c :=
  low_store (by rw [ownerA_toNat hw hr]; have := ownerA_lt hw hr; omega)

variable (hw : g.WF)
include hw

theorem low_block (hc : c < g.cores) (r : W) : (blockDramRegion g r).Low g c := by
  unfold blockDramRegion
  refine Low.ite (fun _ => Low.pure _) fun hd => ?_
  obtain ⟨hr0, hr⟩ := (isDynamicDramRegion_iff r).1 (by simpa using hd)
  refine low_tasLock hw hr fun _ => Low.ite (fun _ => Low.pure _) fun _ => ?_
  refine low_readOwner hw hr fun owner _ _ => ?_
  refine low_currentEnclave hw hc ?_
  refine Low.ite (fun _ => low_rel1 hw hr _) fun ho => ?_
  have ho : owner = nullEnclaveId := by simpa using ho
  rw [ho]
  have hnn : (nullEnclaveId != nullEnclaveId) = false := rfl
  rw [hnn, if_neg (by decide)]
  refine Low.bind (Low.pure _) fun _ => ?_
  rw [Bool.false_and, if_neg (by decide), show nullEnclaveId = (0 : W) from rfl, dramRegionFor_zero hw]
  have h0 := zero_lt hw
  refine low_tasLock hw h0 fun _ => Low.ite (fun _ => low_rel1 hw hr _) fun _ => ?_
  rw [if_pos rfl]
  refine Low.bind quiet_dmaRangeCrossed.low fun crossed => ?_
  refine Low.ite (fun _ => low_rel2 hw h0 hr _) fun _ => ?_
  refine Low.bind (low_store (by rw [prevA_toNat hw hr]; exact record_lt hw hr (Or.inr (Or.inl rfl)))) fun _ => ?_
  refine Low.bind (low_ownerStore hw hr) fun _ => ?_
  refine Low.bind (p := act (.fetchAdd g.regionsBase 1)) ⟨fun x hx => ?_, fun _ _ => trivial⟩ fun clk => ?_
  · have hx : clockA g = x := hx
    have := clockA_lt hw
    omega
  refine Low.bind (low_store (by rw [blockedA_toNat hw hr]; exact record_lt hw hr (Or.inr (Or.inr (Or.inr rfl))))) fun _ => ?_
  unfold setEnclaveRegionBitmapBit
  rw [if_pos rfl]
  refine Low.bind (quiet_setOsBit hw hr false).low fun _ => ?_
  refine Low.bind (quiet_setDrb hw).low fun _ => ?_
  exact low_rel2 hw h0 hr _

theorem low_check (hc : c < g.cores) (r : W) : (dramRegionCheckOwnership g r).Low g c := by
  unfold dramRegionCheckOwnership
  refine Low.ite (fun _ => Low.pure _) fun hd => ?_
  obtain ⟨_, hr⟩ := (isDynamicDramRegion_iff r).1 (by simpa using hd)
  refine low_tasLock hw hr fun _ => Low.ite (fun _ => Low.pure _) fun _ => ?_
  refine low_readOwner hw hr fun owner _ _ => ?_
  refine low_currentEnclave hw hc ?_
  exact low_rel1 hw hr _

theorem low_state (r : W) : (dramRegionState g r).Low g c := by
  unfold dramRegionState
  refine Low.ite (fun _ => Low.pure _) fun hd => ?_
  have hr := (isValidDramRegion_iff (g := g) r).1 (by simpa using hd)
  refine low_tasLock hw hr fun _ => Low.ite (fun _ => Low.pure _) fun _ => ?_
  refine low_readOwner hw hr fun owner _ _ => ?_
  exact low_rel1 hw hr _

theorem low_owner (r : W) : (dramRegionOwner g r).Low g c := by
  unfold dramRegionOwner
  refine Low.ite (fun _ => Low.pure _) fun hd => ?_
  have hr := (isValidDramRegion_iff (g := g) r).1 (by simpa using hd)
  refine low_tasLock hw hr fun _ => Low.ite (fun _ => Low.pure _) fun _ => ?_
  refine low_readOwner hw hr fun owner _ _ => ?_
  exact low_rel1 hw hr _

theorem low_free (r : W) : (freeDramRegion g r).Low g c := by
  unfold freeDramRegion
  refine Low.ite (fun _ => Low.pure _) fun hd => ?_
  have hr := (isValidDramRegion_iff (g := g) r).1 (by simpa using hd)
  refine low_tasLock hw hr fun _ => Low.ite (fun _ => Low.pure _) fun _ => ?_
  refine low_readOwner hw hr fun owner _ _ => ?_
  have hfin : (store (regionA g r + offOwner) freeEnclaveId >>= fun _ => clearLock g r >>= fun _ => pure monitorOk).Low g c :=
    Low.bind (low_ownerStore hw hr) fun _ => low_rel1 hw hr _
  refine Low.ite (fun _ => ?_) fun _ => Low.ite (fun _ => ?_) fun _ => low_rel1 hw hr _
  · refine Low.bind (low_load _) fun b => ?_
    refine Low.bind (quiet_coresFlushed hw b g.coreCount.toNat 0 (by unfold Cfg.cores; omega)).low fun ok => ?_
    exact Low.ite (fun _ => hfin) fun _ => low_rel1 hw hr _
  · refine Low.bind (low_load _) fun b => ?_
    exact Low.ite (fun _ => hfin) fun _ => low_rel1 hw hr _

theorem low_assign (r e : W) : (assignDramRegion g r e).Low g c := by
  unfold assignDramRegion
  refine Low.ite (fun _ => Low.pure _) fun hd => ?_
  have hr := (isValidDramRegion_iff (g := g) r).1 (by simpa using hd)
  refine low_tasLock hw hr fun _ => Low.ite (fun _ => Low.pure _) fun _ => ?_
  refine low_readOwner hw hr fun owner _ _ => ?_
  refine Low.ite (fun _ => low_rel1 hw hr _) fun _ => ?_
  have hs := dramRegionFor_lt hw e
  dsimp only
  refine low_tasLock hw hs fun _ => Low.ite (fun _ => low_rel1 hw hr _) fun _ => ?_
  unfold isValidEnclaveId
  show Prog.Low g c (readOwner g (clampedDramRegionFor g e) >>= fun owner => if (owner == e) = true then _ else _)
  refine low_readOwner hw (clamped_lt hw e) fun o ov oz => ?_
  refine Low.ite (fun hq => ?_) fun _ => low_rel2 hw hs hr _
  have hq : o = e := by simpa using hq
  have he0 : e = 0 := Classical.byContradiction fun h0 => owner_ne_id hw ov oz h0 hq
  refine Low.bind (low_ownerStore hw hr) fun _ => ?_
  unfold setEnclaveRegionBitmapBit
  rw [if_pos (show e = nullEnclaveId from he0), if_pos he0]
  refine Low.bind (quiet_setOsBit hw hr true).low fun _ => ?_
  refine Low.bind (quiet_setDrb hw).low fun _ => ?_
  exact low_rel2 hw hs hr _

theorem low_flush (hc : c < g.cores) : (flushCachedDramRegions g).Low g c := by
  unfold flushCachedDramRegions dramRegionTlbFlush
  refine Low.bind ?_ fun _ => Low.pure _
  refine Low.bind (low_act_ fun _ hh => hh) fun _ => ?_
  refine ⟨fun x hx => hx.elim, fun v hv => ?_⟩
  rw [hv.core rfl]
  have hcc : (coreA g (BitVec.ofNat 64 c) + offFlushedAt).toNat = flushedA c := coreA_toNat hw hc _ (by decide)
  have hlt := flushedA_lt hw hc
  show Prog.Low g c (load g.regionsBase >>= fun clock => store (coreA g (BitVec.ofNat 64 c) + offFlushedAt) clock)
  exact Low.bind (low_load _) fun clk => low_store (by omega)

theorem low_deleteThread (hc : c < g.cores) (t : W) : (deleteThread g t).Low g c := by
  unfold deleteThread
  refine low_currentEnclave hw hc ?_
  dsimp only
  rw [show nullEnclaveId = (0 : W) from rfl, dramRegionFor_zero hw]
  exact low_tasLock hw (zero_lt hw) fun _ => Low.ite (fun _ => Low.pure _) fun _ => Low.pure _

theorem late_createMeta (r : W) : (createMetadataRegion g r).Late g c H := by
  unfold createMetadataRegion
  by_cases hd : (!isValidDramRegion g r) = true
  · rw [if_pos hd]; trivial
  rw [if_neg hd]
  have hr := (isValidDramRegion_iff (g := g) r).1 (by simpa using hd)
  refine Prog.Low.late_bind (p := tasLock g r) ?_ fun b H => ?_
  · refine ⟨fun x hx => ?_, fun _ _ => trivial⟩
    have hx : (regionA g r + offLock).toNat = x := hx
    have := lockA_toNat hw hr
    have := lockA_lt hw hr
    omega
  cases b
  · rw [if_neg (by decide)]
    show (Prog.op (.load (regionA g r + offOwner)) _).Late g c H
    intro v hv
    refine ⟨?_, fun ⟨x, _, h2⟩ => h2.elim⟩
    obtain ⟨-, hz⟩ := hv.owner _ _ rfl hr (ownerA_toNat hw hr)
    show Prog.Late g c H (if (v != freeEnclaveId) = true then _ else _)
    by_cases ho : (v != freeEnclaveId) = true
    · rw [if_pos ho]; exact (low_rel1 hw hr _).late
    rw [if_neg ho]
    have ho : v = freeEnclaveId := by simpa using ho
    have hr0 : r.toNat ≠ 0 := fun hh => by rw [hz hh] at ho; exact absurd ho (by decide)
    unfold initMetadataRegion
    rw [prog_assoc hw]
    refine Prog.Low.late_bind (low_ownerStore hw hr) fun _ H => ?_
    rw [prog_assoc hw]
    refine Prog.Low.late_bind (low_store (by rw [pinnedA_toNat hw hr]; exact record_lt hw hr (Or.inr (Or.inr (Or.inl rfl))))) fun _ H => ?_
    have hst := region_start_ge g hr0
    obtain ⟨h1, h2, h3', h4, h5, h6, h7, h8, h9, h10, h11, h12⟩ := hw.layout
    have hend := hw.region_end_le hr
    have hmb := mapBytes_le hw
    have hstart := dramRegionStart_toNat hw r (Nat.le_of_lt hr)
    have hbytes := mapBytes_toNat hw
    have hsl := g.dramSize.isLt
    have hq : (bzero (dramRegionStart g r) (g.metaStart <<< pageShift)).Quiet g c (fun x => regionOf g x = r.toNat) := by
      unfold bzero
      refine Prog.High.quiet ?_ hw
      refine in_bzeroWords hw (lo := r.toNat * g.stripeSize.toNat) (hi := (r.toNat + 1) * g.stripeSize.toNat) (by omega)
        (fun x x1 x2 => regionOf_span hw hr x1 x2) _ _ (by rw [hstart]; exact Nat.le_refl _) ?_ (by omega)
      rw [hstart, hbytes]
      have : (r.toNat + 1) * g.stripeSize.toNat = r.toNat * g.stripeSize.toNat + g.stripeSize.toNat := Nat.succ_mul _ _
      omega
    refine Prog.NoOwner.late ?_
    revert hq
    generalize bzero (dramRegionStart g r) (g.metaStart <<< pageShift) = p
    intro hq
    have key : ∀ {H : Nat → Prop}, (p >>= fun _ => clearLock g r >>= fun _ => pure monitorOk).NoOwner g c H := by
      show ∀ {H : Nat → Prop}, (p.bind fun _ => clearLock g r >>= fun _ => pure monitorOk).NoOwner g c H
      induction p with
      | ret a =>
          intro H
          refine ⟨fun i hi hh => ?_, fun _ _ => trivial⟩
          have hh : (regionA g r + offLock).toNat = ownerA g i := hh
          rw [lockA_toNat hw hr] at hh
          simp at hh
      | op o k ih => intro H; exact ⟨fun i hi => (hq.1.quiet i hi).2, fun v hv => ih v (hq.2 v (hv.mono fun _ hh => hh.elim))⟩
      | fault => intro H; trivial
      | diverge => intro H; trivial
    exact key
  · rw [if_pos rfl]; trivial

theorem low_dmaLoop (e : W) : ∀ (fuel : Nat) (a : W) (owns : Bool), (dmaRangeLoop g e fuel a owns).Low g c := by
  have h0 := zero_lt hw
  intro fuel
  induction fuel with
  | zero => intros; trivial
  | succ n ih =>
      intro a owns
      unfold dmaRangeLoop
      refine Low.ite (fun _ => ?_) fun _ => Low.pure _
      have hn := dramRegionFor_lt hw a
      dsimp only
      by_cases hz : dramRegionFor g a = 0
      · have hb0 : (dramRegionFor g a != 0) = false := by rw [hz]; rfl
        rw [hb0]
        show Prog.Low g c (readOwner g (dramRegionFor g a) >>= fun owner => dmaRangeLoop g e n (a + g.stripeSize) (owns && owner == 0))
        exact low_readOwner hw hn fun owner _ _ => ih _ _
      · have hb0 : (dramRegionFor g a != 0) = true := bne_iff_ne.2 hz
        rw [hb0]
        simp only [if_true]
        refine low_tasLock hw hn fun b => Low.ite (fun _ => low_rel1 hw (r := 0) h0 _) fun _ => ?_
        exact low_readOwner hw hn fun owner _ _ => low_clearLock hw hn (ih _ _)

theorem low_setDmaRange (base mask : W) : (setDmaRange g base mask).Low g c := by
  have h0 := zero_lt hw
  unfold setDmaRange
  refine Low.ite (fun _ => Low.pure _) fun _ => Low.ite (fun _ => Low.pure _) fun _ => ?_
  refine low_tasLock hw h0 fun b => Low.ite (fun _ => Low.pure _) fun _ => ?_
  dsimp only
  refine Low.bind (low_dmaLoop hw _ _ _ _) fun res => ?_
  cases res with
  | none => exact Low.pure _
  | some b =>
      dsimp only
      have hq : ∀ (o : Op) (f : Unit → Prog W), (∀ x, ¬ o.mutates x) → (f ()).Low g c → (act_ o >>= f).Low g c :=
        fun o f h1 h2 => Low.bind (low_act_ h1) fun _ => h2
      exact hq _ _ (fun _ hh => hh) (hq _ _ (fun _ hh => hh) (hq _ _ (fun _ hh => hh) (hq _ _ (fun _ hh => hh) (low_rel1 hw h0 _))))

/-- All calls of the theorem on races write owners first. -/
theorem late_call (c : Nat) (k : Call) (hc : c < g.cores) (hk : CoveredC g k) (ho : Orderly k) : (k.prog g).Late g c noL := by
  have htame : (k.prog g).Tame g c noL → (k.prog g).Late g c noL := fun h => h.noOwner.late
  obtain ⟨hcov, hrec⟩ := hk
  cases k
  case acceptThread => exact hcov.elim
  case createThread => exact ho.elim
  case assignThread => exact ho.elim
  case loadThread => exact ho.elim
  case deleteThread t => exact (low_deleteThread hw hc t).late
  case blockDramRegion r => exact (low_block hw hc r).late
  case dramRegionCheckOwnership r => exact (low_check hw hc r).late
  case setDmaRange b n => exact (low_setDmaRange hw b n).late
  case dramRegionState r => exact (low_state hw r).late
  case dramRegionOwner r => exact (low_owner hw r).late
  case assignDramRegion r e => exact (low_assign hw r e).late
  case freeDramRegion r => exact (low_free hw r).late
  case flushCachedDramRegions => exact (low_flush hw hc).late
  case createMetadataRegion r => exact late_createMeta hw r
  case exitEnclave => exact htame (tame_exitEnclave hw)
  case createEnclave e b k n d => exact htame (tame_createEnclave hw ⟨hw, hcov.1, hcov.2⟩ e b k n d)
  case loadPageTable e p v l a => exact htame (tame_loadPageTable hw e p v l a)
  case loadPage e p v o a => exact htame (tame_loadPage hw e p v o a)
  case initEnclave e => exact htame (tame_initEnclave hw e)
  case enterEnclave e t => exact htame (tame_enterEnclave hw e t)
  case deleteEnclave e => exact htame (tame_deleteEnclave hw e)
  case copyDebugEnclavePage e a os d => exact htame (tame_copyDebug hw e a os d hcov)
  all_goals trivial

end Sanctum
