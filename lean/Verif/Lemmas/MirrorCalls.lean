import Verif.Lemmas.MirrorPrim
/-
The monitor calls keep the protection registers in order.
-/
namespace Sanctum
open Machine

variable {g : Cfg} {c : Nat} {α β : Type} {H : Nat → Prop} {m : Machine}

/-! ### Calls that leave the OS's regions alone -/

section
variable (hw : g.WF)
include hw

theorem mild_tasLock {r : W} (hr : r.toNat < g.regions) {f : Bool → Prog β} (hf : ∀ b, (f b).Mild0 g c) : (tasLock g r >>= f).Mild0 g c :=
  Mild0.op (tas_level hw hr).mild fun _ => hf _

theorem mild_clearLock {r : W} (hr : r.toNat < g.regions) {f : Unit → Prog β} (hf : (f ()).Mild0 g c) : (clearLock g r >>= f).Mild0 g c :=
  Mild0.op (clear_level hw hr).mild fun _ => hf

theorem mild_rel {r : W} (hr : r.toNat < g.regions) (v : α) : (clearLock g r >>= fun _ => pure v).Mild0 g c := mild_clearLock hw hr (Mild0.pure v)

theorem mild_load {a : W} {f : W → Prog β} (hf : ∀ v, (f v).Mild0 g c) : (load a >>= f).Mild0 g c := Mild0.op (load_tame a).level.mild fun _ => hf _

theorem mild_readOwner {r : W} {f : W → Prog β} (hf : ∀ v, (f v).Mild0 g c) : (readOwner g r >>= f).Mild0 g c := mild_load hw hf

theorem mild_currentEnclave {f : W → Prog β} (hf : ∀ v, (f v).Mild0 g c) : (currentEnclave g >>= f).Mild0 g c := by
  show Prog.Mild0 g c (.op .curCore fun core => load (coreA g core + offCoreEnclaveId) >>= f)
  exact Mild0.op ⟨fun _ _ hh => hh.elim, fun _ _ hh => hh, trivial⟩ fun _ => mild_load hw hf

theorem mild_storeOwner {r v : W} (hr : r.toNat < g.regions) (hv : v = freeEnclaveId ∨ v = metadataEnclaveId) {f : Unit → Prog β} (hf : (f ()).Mild0 g c) :
    (store (regionA g r + offOwner) v >>= f).Mild0 g c := by
  refine Mild0.op (o := .store (regionA g r + offOwner) v) ⟨fun _ _ _ => ⟨_, _, rfl, hv⟩, fun i hi hh => ?_, trivial⟩ fun _ => hf
  have hh : (regionA g r + offOwner).toNat = osWordA g i := hh
  rw [ownerA_toNat hw hr] at hh
  exact ownerA_ne_osWordA hw hr hh

/-- Writing a word of a record other than its owner. -/
theorem record_flat {r a v : W} (hr : r.toNat < g.regions) (ha : a.toNat = prevA g r.toNat ∨ a.toNat = pinnedA g r.toNat ∨ a.toNat = blockedA g r.toNat) :
    OpFlat g (.store a v) := by
  have hrec : RecordWord g r.toNat a.toNat := Or.inr ha
  refine ⟨⟨fun i hi hh => ?_, fun i hi hh => ?_, trivial⟩, fun i hi hh => ?_⟩
  · have hh : a.toNat = ownerA g i := hh
    unfold prevA pinnedA blockedA at ha; unfold ownerA at hh; omega
  · have hh : a.toNat = osWordA g i := hh
    exact osBitmap_not_record hw hr hrec hh
  · have hh : a.toNat = lockA g i := hh
    unfold prevA pinnedA blockedA at ha; unfold lockA at hh; omega

theorem mild_check (r : W) : (dramRegionCheckOwnership g r).Mild0 g c := by
  unfold dramRegionCheckOwnership
  refine Mild0.ite (fun _ => Mild0.pure _) fun hd => ?_
  obtain ⟨hr0, hr⟩ := (isDynamicDramRegion_iff r).1 (by simpa using hd)
  refine mild_tasLock hw hr fun b => Mild0.ite (fun _ => Mild0.pure _) fun _ => ?_
  exact mild_readOwner hw fun _ => mild_currentEnclave hw fun _ => mild_rel hw hr _

theorem mild_state (r : W) : (dramRegionState g r).Mild0 g c := by
  unfold dramRegionState
  refine Mild0.ite (fun _ => Mild0.pure _) fun hd => ?_
  have hr := (isValidDramRegion_iff (g := g) r).1 (by simpa using hd)
  refine mild_tasLock hw hr fun b => Mild0.ite (fun _ => Mild0.pure _) fun _ => ?_
  exact mild_readOwner hw fun _ => mild_rel hw hr _

theorem mild_owner (r : W) : (dramRegionOwner g r).Mild0 g c := by
  unfold dramRegionOwner
  refine Mild0.ite (fun _ => Mild0.pure _) fun hd => ?_
  have hr := (isValidDramRegion_iff (g := g) r).1 (by simpa using hd)
  refine mild_tasLock hw hr fun b => Mild0.ite (fun _ => Mild0.pure _) fun _ => ?_
  exact mild_readOwner hw fun _ => mild_rel hw hr _

theorem mild_coresFlushed {b : W} : ∀ (n : Nat) (i : W), (coresFlushedLoop g b n i).Mild0 g c := by
  intro n
  induction n with
  | zero => intro i; exact Mild0.pure _
  | succ n ih => intro i; exact mild_load hw fun v => Mild0.ite (fun _ => Mild0.pure _) fun _ => ih _

theorem mild_free (r : W) : (freeDramRegion g r).Mild0 g c := by
  unfold freeDramRegion
  refine Mild0.ite (fun _ => Mild0.pure _) fun hd => ?_
  have hr := (isValidDramRegion_iff (g := g) r).1 (by simpa using hd)
  have hfin : (store (regionA g r + offOwner) freeEnclaveId >>= fun _ => clearLock g r >>= fun _ => (pure monitorOk : Prog W)).Mild0 g c :=
    mild_storeOwner hw hr (Or.inl rfl) (mild_rel hw hr _)
  refine mild_tasLock hw hr fun b => Mild0.ite (fun _ => Mild0.pure _) fun _ => ?_
  refine mild_readOwner hw fun o => Mild0.ite (fun _ => ?_) fun _ => Mild0.ite (fun _ => ?_) fun _ => mild_rel hw hr _
  · refine mild_load hw fun v => Mild0.bind (mild_coresFlushed hw _ _) fun res => Mild0.ite (fun _ => hfin) fun _ => mild_rel hw hr _
  · exact mild_load hw fun v => Mild0.ite (fun _ => hfin) fun _ => mild_rel hw hr _

theorem mild_initMeta (r : W) (hr0 : r.toNat ≠ 0) (hr : r.toNat < g.regions) : (initMetadataRegion g r).Mild0 g c := by
  unfold initMetadataRegion
  refine mild_storeOwner hw hr (Or.inr rfl) ?_
  refine Mild0.op (o := .store (regionA g r + offPinned) 0) (record_flat hw hr (Or.inr (Or.inl (pinnedA_toNat hw hr)))).toOpLevel.mild fun _ => ?_
  have hst := region_start_ge g hr0
  have hal : g.stripeSize.toNat % 8 = 0 := by rw [hw.stripeSize, Nat.pow_add]; omega
  have hal2 : (r.toNat * g.stripeSize.toNat) % 8 = 0 := by rw [Nat.mul_mod, hal]; simp
  have hend := hw.region_end_le hr
  rw [Nat.succ_mul] at hend
  have hmb := mapBytes_le hw
  have hstart := dramRegionStart_toNat hw r (Nat.le_of_lt hr)
  have hbytes := mapBytes_toNat hw
  have hcalm : (bzero (dramRegionStart g r) (g.metaStart <<< pageShift)).Calm g c := by
    have hl := hw.layout
    unfold bzero
    exact frame_calm (D := True) hw (frame_bzeroWords hw _ _ (by rw [hstart]; exact hal2) (by rw [hstart, hbytes]; omega) (by rw [hstart]; omega))
  exact calm_mild0 hcalm

theorem mild_createMeta (r : W) : (createMetadataRegion g r).Mild0 g c := by
  unfold createMetadataRegion
  refine Mild0.ite (fun _ => Mild0.pure _) fun hd => ?_
  have hr := (isValidDramRegion_iff (g := g) r).1 (by simpa using hd)
  refine mild_tasLock hw hr fun b => Mild0.ite (fun _ => Mild0.pure _) fun _ => ?_
  refine ⟨(load_tame _).level.mild, fun v hv => ?_⟩
  obtain ⟨h1, h2⟩ := hv.owner _ _ rfl hr (ownerA_toNat hw hr)
  refine Mild0.ite (fun _ => mild_rel hw hr _) fun hf => ?_
  have hf : v = freeEnclaveId := by simpa using hf
  exact Mild0.bind (mild_initMeta hw r (fun hh => by rw [h2 hh] at hf; exact absurd hf (by decide)) hr) fun _ => mild_rel hw hr _

theorem mild_flush (hc : c < g.cores) : (flushCachedDramRegions g).Mild0 g c := by
  unfold flushCachedDramRegions dramRegionTlbFlush
  rw [bind_assoc]
  refine Mild0.op (o := .flushTlbs) ⟨fun _ _ hh => hh.elim, fun _ _ hh => hh, trivial⟩ fun _ => ?_
  refine ⟨⟨fun _ _ hh => hh.elim, fun _ _ hh => hh, trivial⟩, fun v hv => ?_⟩
  rw [hv.core rfl]
  refine mild_load hw fun clock => ?_
  have hcc : (coreA g (BitVec.ofNat 64 c) + offFlushedAt).toNat = flushedA c := coreA_toNat hw hc _ (by decide)
  refine Mild0.op (o := .store _ clock) ⟨fun i hi hh => ?_, fun i hi hh => ?_, trivial⟩ fun _ => Mild0.pure _
  · have hh : (coreA g (BitVec.ofNat 64 c) + offFlushedAt).toNat = ownerA g i := hh
    rw [hcc] at hh; exact absurd hh (flushedA_ne_ownerA hw hc)
  · have hh : (coreA g (BitVec.ofNat 64 c) + offFlushedAt).toNat = osWordA g i := hh
    rw [hcc] at hh; exact absurd hh (flushedA_ne_osWordA hw hc)

theorem mild_createThread (hc : c < g.cores) (t p : W) : (createThread g t p).Mild g c noL := by
  unfold createThread
  refine tame_mild (tame_ite (fun _ => tame_pure _) fun hp => tame_ite (fun _ => tame_pure _) fun hd => tame_ite (fun _ => tame_pure _) fun _ => ?_)
  dsimp only
  rw [threadPagesLoop_ok hw (by simpa using hp) (by simpa using hd)]
  refine tame_currentEnclave hw hc ?_
  rw [show nullEnclaveId = (0 : W) from rfl, dramRegionFor_zero hw]
  have h0 := zero_lt hw
  refine tame_tasLock hw h0 (by rw [if_pos rfl]; exact tame_pure _) fun _ => ?_
  rw [if_neg (by decide)]
  unfold readBitmapBit
  rw [bind_assoc]
  refine tame_calm (one_lt h0) (calm_load _) fun v => ?_
  exact tame_ite (fun _ => tame_pure _) fun _ => tame_rel1 hw h0 _

theorem mild_deleteThread (t : W) : (deleteThread g t).Mild0 g c := by
  unfold deleteThread
  exact mild_currentEnclave hw fun e => mild_tasLock hw (dramRegionFor_lt hw _) fun b => Mild0.ite (fun _ => Mild0.pure _) fun _ => Mild0.pure _

end

/-! ### block_dram_region -/

theorem mret {k : Call} {v : W} (hv : v ≠ monitorOk) : Mir g c (MPost c k) H m (pure v) := fun hh => absurd hh hv

theorem mir_rel (hw : g.WF) {k : Call} {r v : W} (hr : r.toNat < g.regions) (hH : H r.toNat) (h0 : r.toNat ≠ 0) (hv : v ≠ monitorOk) :
    Mir g c (MPost c k) H m (clearLock g r >>= fun _ => pure v) :=
  mir_clearLock hw hr hH (fun h => absurd h h0) fun _ _ => mret hv

theorem calm_act {o : Op} (h1 : ∀ x, ¬ o.mutates x) (h2 : o.Plain) : (act o).Calm g c :=
  ⟨⟨⟨⟨fun _ _ => h1 _, h2.dma⟩, h2, fun _ _ => h1 _⟩, fun _ _ => h1 _⟩, fun _ _ => trivial⟩

theorem calm_dmaTest {o1 o2 : Op} {p q : W → Bool} (ho1 : o1 = .getDmaStart ∨ o1 = .getDmaEnd) (ho2 : o2 = .getDmaStart ∨ o2 = .getDmaEnd) :
    (dmaTest o1 p o2 q).Calm g c := by
  have h : ∀ o : Op, (o = .getDmaStart ∨ o = .getDmaEnd) → (act o).Calm g c := by
    rintro o (rfl | rfl)
    · exact calm_act (fun _ hh => hh) trivial
    · exact calm_act (fun _ hh => hh) trivial
  unfold dmaTest
  exact Calm.bind (h _ ho1) fun _ => Calm.ite (fun _ => Calm.bind (h _ ho2) fun _ => Calm.pure _) fun _ => Calm.pure _

theorem calm_dmaRangeCrossed {r : W} : (dmaRangeCrossed g r).Calm g c := by
  unfold dmaRangeCrossed
  dsimp only
  exact Calm.bind (calm_dmaTest (Or.inl rfl) (Or.inr rfl)) fun _ => Calm.bind (calm_dmaTest (Or.inr rfl) (Or.inr rfl)) fun _ =>
    Calm.bind (calm_dmaTest (Or.inl rfl) (Or.inr rfl)) fun _ => Calm.bind (calm_dmaTest (Or.inl rfl) (Or.inr rfl)) fun _ => Calm.pure _

theorem mir_flatStore (hH : ∀ i, H i → i < g.regions) {a v : W} {f : Unit → Prog β} {Q : β → (Nat → Prop) → Machine → Prop} (hp : OpFlat g (.store a v))
    (hf : ∀ m1, MRely g c H m m1 → Mir g c Q H m1 (f ())) : Mir g c Q H m (store a v >>= f) :=
  mir_flat hH (p := store a v) ⟨hp, fun _ _ => trivial⟩ fun _ => hf

theorem MRely.butOne {m1 : Machine} {r : Nat} (h : MRely g c H m m1) (h0 : H 0) (hb : ButOne g r m) : ButOne g r m1 := (h.map h0).butOne hb

theorem MRely.ok {m1 : Machine} (h : MRely g c H m m1) (h0 : H 0) (hb : MapOk g m ∧ DmaExact m) : MapOk g m1 ∧ DmaExact m1 :=
  ⟨(h.map h0).map hb.1, (h.map h0).dmaExact hb.2⟩

theorem mir_block (hw : g.WF) (hc : c < g.cores) (r : W) : Mir g c (MPost c (.blockDramRegion r)) noL m (blockDramRegion g r) := by
  unfold blockDramRegion
  refine Mir.ite (fun _ => mret (by decide)) fun hd => ?_
  obtain ⟨hr0, hr⟩ := (isDynamicDramRegion_iff r).1 (by simpa using hd)
  have hH := one_self r.toNat
  refine mir_tasLock hw hr (fun _ _ => by rw [if_pos rfl]; exact mret (by decide)) fun m1 h1 _ _ => ?_
  rw [if_neg (by decide)]
  refine mir_readOwner hw hr fun m2 h2 _ => ?_
  refine mir_currentEnclave hw hc fun m3 h3 => ?_
  refine Mir.ite (fun _ => mir_rel hw hr hH hr0 (by decide)) fun ho => ?_
  have ho : m2.owner g r.toNat = nullEnclaveId := by simpa using ho
  have ho3 : m3.owner g r.toNat = nullEnclaveId := (h3.owner _ hr hH).trans ho
  rw [ho]
  have hnn : (nullEnclaveId != nullEnclaveId) = false := rfl
  rw [hnn, if_neg (by decide)]
  refine Mir.bind (Q1 := fun a H' m' => a = 0 ∧ H' = addL noL r.toNat ∧ m' = m3) (show Mir g c _ _ _ (pure (0 : W)) from ⟨rfl, rfl, rfl⟩) ?_
  rintro _ _ _ ⟨rfl, rfl, rfl⟩
  rw [Bool.false_and, if_neg (by decide), show nullEnclaveId = (0 : W) from rfl, dramRegionFor_zero hw]
  have h0 := zero_lt hw
  have hne : r.toNat ≠ (0 : W).toNat := hr0
  refine mir_tasLock hw h0 (fun _ _ => by rw [if_pos rfl]; exact mir_rel hw hr hH hr0 (by decide)) fun m4 h4 _ hok4 => ?_
  have hok4 := hok4 rfl
  rw [if_neg (by decide), if_pos rfl]
  have hH2 := two_lt (g := g) hr h0
  have hA := two_fst r.toNat (0 : W).toNat
  have hB := two_snd r.toNat (0 : W).toNat
  refine mir_flat hH2 (calm_flat calm_dmaRangeCrossed) fun crossed m5 h5 => ?_
  have hok5 := h5.ok hB hok4
  refine Mir.ite (fun _ => ?_) fun _ => ?_
  · refine mir_clearLock hw h0 hB (fun _ => hok5) fun m6 h6 => ?_
    rw [sub_two hne]
    exact mir_rel hw hr hH hr0 (by decide)
  refine mir_flatStore hH2 (record_flat hw hr (Or.inl (prevA_toNat hw hr))) fun m6 h6 => ?_
  refine mir_storeOwner hw hr hB (h6.ok hB hok5) fun m7 hb7 ho7 => ?_
  refine mir_flat hH2 (p := act (.fetchAdd g.regionsBase 1)) ?_ fun clock m8 h8 => ?_
  · refine ⟨⟨⟨fun i hi hh => ?_, fun i hi hh => ?_, trivial⟩, fun i hi hh => ?_⟩, fun _ _ => trivial⟩
    · exact clockA_ne_ownerA hw hi hh
    · exact clockA_ne_osWordA hw hh
    · exact clockA_ne_lockA hw hi hh
  refine mir_flatStore hH2 (record_flat hw hr (Or.inr (Or.inr (blockedA_toNat hw hr)))) fun m9 h9 => ?_
  have h79 := h8.trans h9
  unfold setEnclaveRegionBitmapBit
  rw [if_pos rfl]
  have ho9 : m9.owner g r.toNat = blockedEnclaveId := (h79.owner _ hr hA).trans ho7
  refine mir_setOsBit hw hr hH2 hB hA (h79.butOne hB hb7) (by rw [ho9]; decide) fun m10 hok10 ho10 => ?_
  refine mir_setDrb hw hB hok10 fun m11 h11 hok11 hx11 => ?_
  have ho11 : m11.owner g r.toNat = blockedEnclaveId := by
    rw [h11.owner _ hr hA, ← ho9, ← ho10]; rfl
  have hbit : m11.drbBit c r.toNat = false := by
    cases hh : m11.drbBit c r.toNat
    · rfl
    · have := (hx11 _ hr).1 hh
      rw [ho11] at this; exact absurd this (by decide)
  refine mir_clearLock hw h0 hB (fun _ => hok11) fun m12 h12 => ?_
  rw [sub_two hne]
  refine mir_clearLock hw hr hH (fun h => absurd h hr0) fun m13 h13 => ?_
  intro _
  refine ⟨fun r' hr' => ?_, fun r' hr' => by cases hr'⟩
  cases hr'
  rw [drbBit_congr h13.drb, drbBit_congr h12.drb]; exact hbit

/-! ### assign_dram_region -/

theorem mir_assign (hw : g.WF) (r e : W) : Mir g c (MPost c (.assignDramRegion r e)) noL m (assignDramRegion g r e) := by
  unfold assignDramRegion
  refine Mir.ite (fun _ => mret (by decide)) fun hd => ?_
  have hr := (isValidDramRegion_iff (g := g) r).1 (by simpa using hd)
  have hH := one_self r.toNat
  refine mir_tasLock hw hr (fun _ _ => by rw [if_pos rfl]; exact mret (by decide)) fun m1 h1 _ hok1 => ?_
  rw [if_neg (by decide)]
  refine mir_readOwner hw hr fun m2 h2 hi2 => ?_
  refine Mir.ite (fun _ => ?_) fun hfree => ?_
  · exact mir_clearLock hw hr hH (fun hh => h2.ok (by rw [← hh]; exact hH) (hok1 hh)) fun _ _ => mret (by decide)
  have hfree : m2.owner g r.toNat = freeEnclaveId := by simpa using hfree
  have hr0 : r.toNat ≠ 0 := fun hh => by
    have := hi2.region0; rw [hh, this] at hfree; exact absurd hfree (by decide)
  have hs := dramRegionFor_lt hw e
  dsimp only
  refine mir_tasLock hw hs (fun _ _ => by rw [if_pos rfl]; exact mir_rel hw hr hH hr0 (by decide)) fun m3 h3 hn3 hok3 => ?_
  rw [if_neg (by decide)]
  have hne : r.toNat ≠ (dramRegionFor g e).toNat := fun hh => hn3 (Or.inr hh.symm)
  have hA := two_fst r.toNat (dramRegionFor g e).toNat
  have hB := two_snd r.toNat (dramRegionFor g e).toNat
  unfold isValidEnclaveId
  rw [bind_assoc]
  have hcl := clamped_lt hw e
  refine mir_readOwner hw hcl fun m4 h4 hi4 => ?_
  show Mir g c _ _ m4 (if (m4.owner g (clampedDramRegionFor g e).toNat == e) = true then _ else _)
  by_cases he : e = 0
  · subst he
    have hf0 := dramRegionFor_zero hw
    have hc0 : (clampedDramRegionFor g 0).toNat = 0 := by
      rw [clamped_eq hw]; unfold idRegion; split
      · unfold regionOf; simp
      · rfl
    rw [hf0] at hne hs hok3 hA hB h4 ⊢
    rw [if_pos (by rw [hc0, hi4.region0]; rfl)]
    have hH2 := two_lt (g := g) hr hs
    have hok4 := h4.ok hB (hok3 rfl)
    refine mir_storeOwner hw hr hB hok4 fun m5 hb5 ho5 => ?_
    unfold setEnclaveRegionBitmapBit
    rw [if_pos rfl]
    refine mir_setOsBit hw hr hH2 hB hA hb5 (by rw [ho5]; decide) fun m6 hok6 ho6 => ?_
    refine mir_setDrb hw hB hok6 fun m7 h7 hok7 hx7 => ?_
    have ho7 : m7.owner g r.toNat = nullEnclaveId := by
      rw [h7.owner _ hr hA, show nullEnclaveId = (0 : W) from rfl, ← ho5, ← ho6]; rfl
    have hbit := (hx7 _ hr).2 ho7
    refine mir_clearLock hw hs hB (fun _ => hok7) fun m8 h8 => ?_
    rw [sub_two hne]
    refine mir_clearLock hw hr hH (fun h => absurd h hr0) fun m9 h9 => ?_
    intro _
    refine ⟨fun r' hr' => (by cases hr'), fun r' hr' => ?_⟩
    cases hr'
    rw [drbBit_congr h9.drb, drbBit_congr h8.drb]; exact hbit
  · have hno : m4.owner g (clampedDramRegionFor g e).toNat ≠ e :=
      owner_ne_id hw (hi4.owners _ hcl) (fun hh => by rw [hh]; exact hi4.region0) he
    rw [if_neg (by simpa using hno)]
    refine mir_clearLock hw hs hB (fun hh => ?_) fun m9 h9 => ?_
    · have hB0 : addL (addL noL r.toNat) (dramRegionFor g e).toNat 0 := Or.inr hh.symm
      exact h4.ok hB0 (hok3 hh)
    rw [sub_two hne]
    exact mir_rel hw hr hH hr0 (by decide)

/-! ### set_dma_range -/

theorem covers_iff {b n a : W} {k : Nat} (hn : n.toNat = 2 ^ k - 1) (hb : 2 ^ k ∣ b.toNat) :
    rangeCovers b (~~~ n) a = true ↔ b.toNat ≤ a.toNat ∧ a.toNat ≤ b.toNat + n.toNat := by
  unfold rangeCovers
  have hp := Nat.two_pow_pos k
  have hdis : (a &&& ~~~ n) &&& (a &&& n) = 0#64 := by
    apply BitVec.eq_of_getLsbD_eq
    intro i hi
    simp only [BitVec.getLsbD_and, BitVec.getLsbD_not, hi, decide_true, Bool.true_and, BitVec.getLsbD_zero]
    cases a.getLsbD i <;> cases n.getLsbD i <;> rfl
  have hor : (a &&& ~~~ n) ||| (a &&& n) = a := by
    apply BitVec.eq_of_getLsbD_eq
    intro i hi
    simp only [BitVec.getLsbD_or, BitVec.getLsbD_and, BitVec.getLsbD_not, hi, decide_true, Bool.true_and]
    cases a.getLsbD i <;> cases n.getLsbD i <;> rfl
  have hsum : (a &&& ~~~ n) + (a &&& n) = a := by rw [BitVec.add_eq_or_of_and_eq_zero _ _ hdis, hor]
  have hlow := and_mask_toNat a n hn
  have hval : (a &&& ~~~ n).toNat = 2 ^ k * (a.toNat / 2 ^ k) := by
    have h1 : (a &&& ~~~ n).toNat + (a &&& n).toNat = a.toNat := by
      have h2 := congrArg BitVec.toNat hsum
      rw [BitVec.toNat_add] at h2
      have h3 : (a &&& ~~~ n).toNat ≤ a.toNat := by rw [BitVec.toNat_and]; exact Nat.and_le_left
      have h4 := Nat.mod_le a.toNat (2 ^ k)
      have h5 := a.isLt
      have h6 := (a &&& ~~~ n).isLt
      rw [hlow] at h2 ⊢
      omega
    have := Nat.div_add_mod a.toNat (2 ^ k)
    rw [hlow] at h1
    omega
  obtain ⟨j, hj⟩ := hb
  rw [beq_iff_eq, W.eq_iff, hval, hj, hn]
  have hd := Nat.div_add_mod a.toNat (2 ^ k)
  have hm := Nat.mod_lt a.toNat hp
  constructor
  · intro h; omega
  · rintro ⟨h1, h2⟩
    have h3 : j ≤ a.toNat / 2 ^ k := (Nat.le_div_iff_mul_le hp).2 (by rw [Nat.mul_comm]; exact h1)
    have h4 : a.toNat / 2 ^ k < j + 1 := (Nat.div_lt_iff_lt_mul hp).2 (by rw [Nat.mul_comm, Nat.mul_succ]; omega)
    rw [show a.toNat / 2 ^ k = j by omega]

theorem mir_dmaLoop (hw : g.WF) {e : W} : ∀ (fuel : Nat) (a : W) (owns : Bool) (m : Machine), MapOk g m ∧ DmaExact m →
    Mir g c (fun res H' m' => res ≠ none → H' = addL noL 0 ∧ MapOk g m') (addL noL 0) m (dmaRangeLoop g e fuel a owns) := by
  have h0 := zero_lt hw
  have hH := one_self 0
  intro fuel
  induction fuel with
  | zero => intro a owns m _; trivial
  | succ f ih =>
      intro a owns m hok
      unfold dmaRangeLoop
      refine Mir.ite (fun _ => ?_) fun _ => fun _ => ⟨rfl, hok.1⟩
      have hn := dramRegionFor_lt hw a
      by_cases hz : dramRegionFor g a = 0
      · have hb0 : (dramRegionFor g a != 0) = false := by rw [hz]; rfl
        dsimp only
        rw [hb0]
        show Mir g c _ _ m (readOwner g (dramRegionFor g a) >>= fun owner => dmaRangeLoop g e f (a + g.stripeSize) (owns && owner == 0))
        exact mir_readOwner hw hn fun m1 h1 _ => ih _ _ m1 (h1.ok hH hok)
      · have hb0 : (dramRegionFor g a != 0) = true := bne_iff_ne.2 hz
        dsimp only
        rw [hb0]
        have hne : (0 : Nat) ≠ (dramRegionFor g a).toNat := fun hh => hz (by rw [W.eq_iff, ← hh]; rfl)
        simp only [if_true]
        refine mir_tasLock hw hn (fun m1 h1 => ?_) fun m1 h1 _ _ => ?_
        · rw [if_pos rfl]
          exact mir_clearLock hw (r := 0) h0 hH (fun _ => h1.ok hH hok) fun m2 _ hh => absurd rfl hh
        · rw [if_neg (by decide)]
          have hA := two_fst 0 (dramRegionFor g a).toNat
          have hB := two_snd 0 (dramRegionFor g a).toNat
          refine mir_readOwner hw hn fun m2 h2 _ => ?_
          refine mir_clearLock hw hn hB (fun hh => absurd hh.symm hne) fun m3 h3 => ?_
          rw [sub_two hne]
          exact ih _ _ m3 ((h2.trans h3).ok hA (h1.ok hH hok))

/-- The bitmap and the window as far as they are written. -/
theorem mir_setDma {o : Op} (hB : H 0) {f : Unit → Prog β} {Q : β → (Nat → Prop) → Machine → Prop} {u : Machine → Machine}
    (hx : ∀ m', exec g c o m' = some (0, u m')) (hh : ∀ v, heldStep g o v H = H)
    (hu : ∀ m', (u m').mem = m'.mem ∧ (u m').drb = m'.drb ∧ (u m').parBase = m'.parBase ∧ (u m').parMask = m'.parMask ∧ (u m').cacheShift = m'.cacheShift)
    (hf : ∀ m', MSame g m m' → Mir g c Q H (u m') (f ())) : Mir g c Q H m (act_ o >>= f) := by
  intro m' hrel hinv hmi hheld v m1 he hg
  rw [hx] at he
  cases he
  obtain ⟨h1, h2, h3, h4, h5⟩ := hu m'
  rw [hh]
  exact ⟨⟨fun h => absurd hB h, fun h => absurd hB h, fun h1 h2 => absurd h1 h2, fun c' => Or.inl (by rw [h2]), h3, h4, h5⟩, hf m' (hrel.map hB)⟩

theorem mapOk_mem {m1 : Machine} (h : m1.mem = m.mem) (hm : MapOk g m) : MapOk g m1 := by
  intro i hi
  have := hm i hi
  unfold Machine.osBit Machine.owner at this ⊢
  rw [h]; exact this

theorem mir_setDmaRange (hw : g.WF) (b n : W) : Mir g c (MPost c (.setDmaRange b n)) noL m (setDmaRange g b n) := by
  have h0 := zero_lt hw
  have hH := one_self 0
  have hex := C01_range_exact b n
  unfold setDmaRange
  refine Mir.ite (fun _ => mret (by decide)) fun hv => ?_
  have hv : isValidRange b n = true := by simpa using hv
  have hor := (hex.2 hv).1
  obtain ⟨k, hk, hn, hdv⟩ := hex.1.1 hv
  refine Mir.ite (fun _ => mret (by decide)) fun hd => ?_
  have hd : (b ||| n).toNat < g.dramSize.toNat := (isDramAddress_iff _).1 (by simpa using hd)
  have hend : ((b ||| n) + 1).toNat = b.toNat + n.toNat + 1 := by
    have := g.dramSize.isLt
    rw [BitVec.toNat_add, show (1 : W).toNat = 1 from rfl]; omega
  refine mir_tasLock hw h0 (fun _ _ => by rw [if_pos rfl]; exact mret (by decide)) fun m1 h1 _ hok1 => ?_
  rw [if_neg (by decide)]
  dsimp only
  refine Mir.bind (mir_dmaLoop hw (2 ^ 64) b true m1 (hok1 rfl)) ?_
  intro res H' m2 hres
  cases res with
  | none => exact mret (by decide)
  | some w =>
    obtain ⟨rfl, hmap⟩ := hres (by simp)
    dsimp only
    refine mir_setDma hH (u := fun m' => { m' with dmaStart := b }) (fun _ => rfl) (fun _ => rfl) (fun _ => ⟨rfl, rfl, rfl, rfl, rfl⟩) fun m3 h3 => ?_
    refine mir_setDma hH (u := fun m' => { m' with dmaEnd := (b ||| n) + 1 }) (fun _ => rfl) (fun _ => rfl) (fun _ => ⟨rfl, rfl, rfl, rfl, rfl⟩) fun m4 h4 => ?_
    refine mir_setDma hH (u := fun m' => { m' with dmarBase := b }) (fun _ => rfl) (fun _ => rfl) (fun _ => ⟨rfl, rfl, rfl, rfl, rfl⟩) fun m5 h5 => ?_
    refine mir_setDma hH (u := fun m' => { m' with dmarMask := ~~~ n }) (fun _ => rfl) (fun _ => rfl) (fun _ => ⟨rfl, rfl, rfl, rfl, rfl⟩) fun m6 h6 => ?_
    have e1 : m6.dmaStart = b := by rw [h6.dma.1]; show m5.dmaStart = b; rw [h5.dma.1]; show m4.dmaStart = b; exact h4.dma.1
    have e2 : m6.dmaEnd = (b ||| n) + 1 := by rw [h6.dma.2]; show m5.dmaEnd = _; exact h5.dma.2
    have e3 : m6.dmarBase = b := h6.regs.1
    have hm3 : MapOk g m3 := h3.map hmap
    have hm4 : MapOk g m4 := h4.map (mapOk_mem (m := m3) rfl hm3)
    have hm5 : MapOk g m5 := h5.map (mapOk_mem (m := m4) rfl hm4)
    have hm6 : MapOk g m6 := h6.map (mapOk_mem (m := m5) rfl hm5)
    refine mir_clearLock hw (r := 0) h0 hH (fun _ => ⟨mapOk_mem (m := m6) rfl hm6, fun a => ?_⟩) fun _ _ _ => ⟨fun _ hh => (Call.noConfusion hh), fun _ hh => Call.noConfusion hh⟩
    show rangeCovers m6.dmarBase (~~~ n) a = true ↔ m6.dmaStart.toNat ≤ a.toNat ∧ a.toNat < m6.dmaEnd.toNat
    rw [e1, e2, e3, covers_iff hn hdv, hend]
    omega

/-! ### All calls -/

theorem mir_call (hw : g.WF) (c : Nat) (k : Call) (m : Machine) (hc : c < g.cores) (hk : CoveredC g k) :
    Mir g c (MPost c k) (fun _ => False) m (k.prog g) := by
  have hmild : ((∀ r, k ≠ .blockDramRegion r) ∧ ∀ r, k ≠ .assignDramRegion r 0) → (k.prog g).Mild g c noL → Mir g c (MPost c k) (fun _ => False) m (k.prog g) :=
    fun h hp => mild_mir (fun _ _ _ _ => ⟨fun r hh => absurd hh (h.1 r), fun r hh => absurd hh (h.2 r)⟩) hp fun hh => hh.elim
  have hno : ∀ {k' : Call}, (∀ r, k' ≠ .blockDramRegion r) → (∀ r, k' ≠ .assignDramRegion r 0) → (∀ r, k' ≠ .blockDramRegion r) ∧ ∀ r, k' ≠ .assignDramRegion r 0 :=
    fun h1 h2 => ⟨h1, h2⟩
  obtain ⟨hcov, hrec⟩ := hk
  cases k
  case acceptThread => exact hcov.elim
  case blockDramRegion r => exact mir_block hw hc r
  case assignDramRegion r e => exact mir_assign hw r e
  case setDmaRange b n => exact mir_setDmaRange hw b n
  all_goals refine hmild ⟨fun _ hh => Call.noConfusion hh, fun _ hh => Call.noConfusion hh⟩ ?_
  case createThread t p => exact mild_createThread hw hc t p
  case deleteThread t => exact mild0_mild (mild_deleteThread hw t)
  case dramRegionCheckOwnership r => exact mild0_mild (mild_check hw r)
  case dramRegionState r => exact mild0_mild (mild_state hw r)
  case dramRegionOwner r => exact mild0_mild (mild_owner hw r)
  case freeDramRegion r => exact mild0_mild (mild_free hw r)
  case flushCachedDramRegions => exact mild0_mild (mild_flush hw hc)
  case createMetadataRegion r => exact mild0_mild (mild_createMeta hw r)
  case exitEnclave => exact tame_mild (tame_exitEnclave hw)
  case createEnclave e b k n d => exact tame_mild (tame_createEnclave hw ⟨hw, hcov.1, hcov.2⟩ e b k n d)
  case loadPageTable e p v l a => exact tame_mild (tame_loadPageTable hw e p v l a)
  case loadPage e p v o a => exact tame_mild (tame_loadPage hw e p v o a)
  case loadThread e t w x y z => exact tame_mild (tame_loadThread hw ⟨hw, hcov.1, hcov.2⟩ e t w x y z)
  case assignThread e t => exact tame_mild (tame_assignThread hw ⟨hw, hcov.1, hcov.2⟩ e t)
  case initEnclave e => exact tame_mild (tame_initEnclave hw e)
  case enterEnclave e t => exact tame_mild (tame_enterEnclave hw e t)
  case deleteEnclave e => exact tame_mild (tame_deleteEnclave hw e)
  case copyDebugEnclavePage e a os d => exact tame_mild (tame_copyDebug hw e a os d hcov)
  all_goals exact tame_mild (tame_pure _)

end Sanctum
