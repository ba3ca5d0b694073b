import Verif.Lemmas.LinTame
import Verif.Props.Bits
/-
The region calls take effect as specified.
-/
namespace Sanctum
open Machine

variable {g : Cfg} {c : Nat} {k : Call} {α β : Type} {H : Nat → Prop} {L : Phase} {m : Machine} {s : RegionTable}

/-- A call that has taken effect returns its result. -/
theorem lret {v : W} : Lin g c k (LPost g c k) H (.decided k v) m s (pure v) := fun _ _ _ _ => Or.inl rfl

/-- A call returns without having changed the table. -/
theorem lnow {v : W} (h : ∀ s, TakesEffect g k s v s) : Lin g c k (LPost g c k) H (.pending k) m s (pure v) := fun _ s _ _ => Or.inr ⟨rfl, h s⟩

/-- The record of a region that is held says what the table says. -/
def Fits (g : Cfg) (m : Machine) (s : RegionTable) (r : Nat) : Prop := Synced g m s r ∧ (r = 0 → DmaSynced m s)

theorem LRely.fits {m1 : Machine} {s1 : RegionTable} (h : LRely g c H m s m1 s1) {r : Nat} (hr : r < g.regions) (hh : H r) (hf : Fits g m s r) : Fits g m1 s1 r :=
  ⟨h.synced hr hh hf.1, fun h0 => h.dmaSynced (by rw [← h0]; exact hh) (hf.2 h0)⟩

/-- The table's owner of a region that is held is the owner that was read. -/
theorem LRely.owner_eq {m1 : Machine} {s1 : RegionTable} (h : LRely g c H m s m1 s1) {r : Nat} (hr : r < g.regions) (hh : H r) (hf : Fits g m s r) : s1.owner r = m.owner g r :=
  ((h.table r hr hh).1).trans hf.1.owner

theorem pt_busy {B : Prop} {v : W} {r : Nat} (hb : noL r ∨ B) (hv : BusyAnswer k v) : Pt g c k B (.pending k) s (.decided k v) s :=
  Pt.busy (hb.resolve_left id) hv

/-- Taking the first lock, or returning `v` because it is taken. -/
theorem lin_first (hw : g.WF) {r : W} (hr : r.toNat < g.regions) {v : W} (hv : BusyAnswer k v) {p : Prog W}
    (hf : ∀ m1 s1, Fits g m1 s1 r.toNat → Lin g c k (LPost g c k) (addL noL r.toNat) (.pending k) m1 s1 p) :
    Lin g c k (LPost g c k) noL (.pending k) m s (tasLock g r >>= fun b => if b = true then pure v else p) := by
  refine lin_tasLock hw hr (fun m1 s1 B _ _ hb => ⟨_, pt_busy hb hv, ?_⟩) fun m1 s1 _ _ _ h1 h2 => ?_
  · rw [if_pos rfl]; exact lret
  · rw [if_neg (by decide)]; exact hf m1 s1 ⟨h1, h2⟩

/-- Releasing the only lock and returning, taking effect without changing the table. -/
theorem lin_last (hw : g.WF) {r : W} (hr : r.toNat < g.regions) (hHr : H r.toNat) {v : W} (hs : Fits g m s r.toNat)
    (hf : ∀ m1 s1, LRely g c H m s m1 s1 → TakesEffect g k s1 v s1) : Lin g c k (LPost g c k) H (.pending k) m s (clearLock g r >>= fun _ => pure v) :=
  lin_clearLock_read hw hr hHr rfl hs.1 hs.2 fun m1 s1 h1 _ => ⟨hf m1 s1 h1, lret⟩

/-- Releasing a lock after the call has taken effect. -/
theorem lin_rel (hw : g.WF) {r : W} (hr : r.toNat < g.regions) (hHr : H r.toNat) {v : W} (hs : Fits g m s r.toNat) :
    Lin g c k (LPost g c k) H (.decided k v) m s (clearLock g r >>= fun _ => pure v) :=
  lin_clearLock hw hr hHr hs.1 hs.2 fun _ _ _ => lret

/-! ### Queries -/

theorem not_dynamic {r : W} (h : (!isDynamicDramRegion g r) = true) : r.toNat = 0 ∨ g.regions ≤ r.toNat := by
  rcases Classical.em (r.toNat = 0 ∨ g.regions ≤ r.toNat) with h1 | h1
  · exact h1
  · have : isDynamicDramRegion g r = true := (isDynamicDramRegion_iff r).2 (by omega)
    rw [this] at h; exact absurd h (by decide)

theorem not_region {r : W} (h : (!isValidDramRegion g r) = true) : g.regions ≤ r.toNat := by
  rcases Classical.em (g.regions ≤ r.toNat) with h1 | h1
  · exact h1
  · have : isValidDramRegion g r = true := (isValidDramRegion_iff r).2 (by omega)
    rw [this] at h; exact absurd h (by decide)

theorem lin_check (hw : g.WF) (hc : c < g.cores) (r : W) :
    Lin g c (.dramRegionCheckOwnership r) (LPost g c (.dramRegionCheckOwnership r)) noL (.pending (.dramRegionCheckOwnership r)) m s (dramRegionCheckOwnership g r) := by
  unfold dramRegionCheckOwnership
  refine Lin.ite (fun hd => lnow fun s => ?_) fun hd => ?_
  · show (_, _) = ite _ _ _
    rw [if_pos (not_dynamic hd)]
  obtain ⟨hr0, hr⟩ := (isDynamicDramRegion_iff r).1 (by simpa using hd)
  refine lin_first hw hr (by exact rfl) fun m1 s1 hs1 => ?_
  refine lin_readOwner hw hr fun m2 s2 h2 _ => ?_
  have hs2 := h2.fits hr (one_self _) hs1
  refine lin_currentEnclave hw hc fun m3 s3 h3 _ => ?_
  refine lin_last hw hr (one_self _) (h3.fits hr (one_self _) hs2) fun m4 s4 h4 => ?_
  have ho : s4.owner r.toNat = m2.owner g r.toNat := (h3.trans h4).owner_eq hr (one_self _) hs2
  show (_, _) = ite _ _ _
  rw [if_neg (show ¬ (r.toNat = 0 ∨ g.regions ≤ r.toNat) by omega), ho]
  by_cases hz : m2.owner g r.toNat = nullEnclaveId
  · rw [if_pos (beq_iff_eq.2 hz), if_pos hz]
  · rw [if_neg (fun hh => hz (beq_iff_eq.1 hh)), if_neg hz]

theorem lin_state (hw : g.WF) (r : W) :
    Lin g c (.dramRegionState r) (LPost g c (.dramRegionState r)) noL (.pending (.dramRegionState r)) m s (dramRegionState g r) := by
  unfold dramRegionState
  refine Lin.ite (fun hd => lnow fun s => ?_) fun hd => ?_
  · show (_, _) = ite _ _ _
    rw [if_pos (not_region hd)]
  have hr := (isValidDramRegion_iff (g := g) r).1 (by simpa using hd)
  refine lin_first hw hr (by exact rfl) fun m1 s1 hs1 => ?_
  refine lin_readOwner hw hr fun m2 s2 h2 _ => ?_
  have hs2 := h2.fits hr (one_self _) hs1
  refine lin_last hw hr (one_self _) hs2 fun m4 s4 h4 => ?_
  have ho : s4.owner r.toNat = m2.owner g r.toNat := h4.owner_eq hr (one_self _) hs2
  show (_, _) = ite _ _ _
  rw [if_neg (show ¬ g.regions ≤ r.toNat by omega), ho]
  generalize m2.owner g r.toNat = o
  by_cases h1 : o = nullEnclaveId
  · subst h1; rw [if_pos rfl, if_neg (show ¬ nullEnclaveId = blockedEnclaveId by decide), if_neg (show ¬ nullEnclaveId = freeEnclaveId by decide)]
  · rw [if_neg h1]
    by_cases h2 : o = blockedEnclaveId
    · rw [if_pos h2, if_pos h2]
    · rw [if_neg h2, if_neg h2]
      by_cases h3 : o = freeEnclaveId
      · rw [if_pos h3, if_pos h3]
      · rw [if_neg h3, if_neg h3]

theorem lin_owner (hw : g.WF) (r : W) :
    Lin g c (.dramRegionOwner r) (LPost g c (.dramRegionOwner r)) noL (.pending (.dramRegionOwner r)) m s (dramRegionOwner g r) := by
  unfold dramRegionOwner
  refine Lin.ite (fun hd => lnow fun s => ?_) fun hd => ?_
  · show (_, _) = ite _ _ _
    have := not_region hd
    rw [if_neg (by omega)]
  have hr := (isValidDramRegion_iff (g := g) r).1 (by simpa using hd)
  refine lin_first hw hr (by exact rfl) fun m1 s1 hs1 => ?_
  refine lin_readOwner hw hr fun m2 s2 h2 hi2 => ?_
  have hs2 := h2.fits hr (one_self _) hs1
  refine lin_last hw hr (one_self _) hs2 fun m4 s4 h4 => ?_
  have ho : s4.owner r.toNat = m2.owner g r.toNat := h4.owner_eq hr (one_self _) hs2
  show (_, _) = ite _ _ _
  rw [ho]
  rcases hi2.inv.owners r.toNat hr with h | h | h | h <;> rw [h]
  · rw [if_neg (by decide), if_neg (fun hh => absurd hh.2 (by decide))]
  · rw [if_pos (Or.inl rfl), if_neg (fun hh => absurd hh.2 (by decide))]
  · rw [if_neg (by decide), if_pos ⟨hr, rfl⟩]
  · rw [if_pos (Or.inr rfl), if_neg (fun hh => absurd hh.2 (by decide))]

/-! ### Releasing a region with a new owner -/

theorem tinv_setOwner {r : Nat} {o : W} (h : TInv g s) : TInv g (s.setOwner r o) := ⟨h.stamp, h.flushed, h.dma⟩

theorem lin_release_set (hw : g.WF) {r : W} (hr : r.toNat < g.regions) (hr0 : r.toNat ≠ 0) (hHr : H r.toNat) {v o : W} (ho : m.owner g r.toNat = o)
    (hst : m.blockedAt g r.toNat = BitVec.ofNat 64 (s.stamp r.toNat)) (hp : o = metadataEnclaveId → m.pinned g r.toNat = 0)
    (hf : ∀ m1 s1, LRely g c H m s m1 s1 → TakesEffect g k s1 v (s1.setOwner r.toNat o)) :
    Lin g c k (LPost g c k) H (.pending k) m s (clearLock g r >>= fun _ => pure v) := by
  refine lin_clearLock_pt hw hr fun m1 s1 h1 hT => ⟨.decided k v, s1.setOwner r.toNat o, Pt.effect (hf m1 s1 h1), ?_, ⟨rfl, rfl⟩, ?_, fun h0 => absurd h0 hr0, lret⟩
  · refine ⟨fun i _ hn => ⟨?_, rfl⟩, fun _ => ⟨rfl, rfl⟩, fun _ _ => ⟨rfl, rfl⟩, ⟨Nat.le_refl _, Nat.le_succ _⟩, Nat.le_refl _, tinv_setOwner hT⟩
    show upd s1.owner r.toNat o i = _
    exact upd_ne _ _ (fun hh => hn (by rw [hh]; exact hHr))
  · obtain ⟨q1, q2, q3⟩ := h1.record r.toNat hr hHr
    refine ⟨?_, ?_, ?_⟩
    · show upd s1.owner r.toNat o r.toNat = _
      rw [upd_same, q1, ho]
    · show _ = BitVec.ofNat 64 (s1.stamp r.toNat)
      rw [q2, (h1.table r.toNat hr hHr).2]; exact hst
    · rw [q1, q3, ho]; exact hp

/-! ### create_metadata_region -/

theorem bind_assoc (p : Prog α) (q : α → Prog β) {γ : Type} (f : β → Prog γ) : ((p >>= q) >>= f) = (p >>= fun w => q w >>= f) := by
  show (p.bind q).bind f = p.bind (fun w => (q w).bind f)
  induction p with
  | ret a => rfl
  | op o k ih => simp only [Prog.bind]; congr 1; funext v; exact ih v
  | fault => rfl
  | diverge => rfl

theorem lin_createMeta (hw : g.WF) (r : W) :
    Lin g c (.createMetadataRegion r) (LPost g c (.createMetadataRegion r)) noL (.pending (.createMetadataRegion r)) m s (createMetadataRegion g r) := by
  unfold createMetadataRegion
  refine Lin.ite (fun hd => lnow fun s => ?_) fun hd => ?_
  · show (_, _) = ite _ _ _
    rw [if_pos (not_region hd)]
  have hr := (isValidDramRegion_iff (g := g) r).1 (by simpa using hd)
  have hng : ¬ g.regions ≤ r.toNat := by omega
  have hH := one_self r.toNat
  refine lin_first hw hr (by exact rfl) fun m1 s1 hs1 => ?_
  refine lin_readOwner hw hr fun m2 s2 h2 hi2 => ?_
  have hs2 := h2.fits hr hH hs1
  refine Lin.ite (fun hne => ?_) fun hfree => ?_
  · refine lin_last hw hr hH hs2 fun m4 s4 h4 => ?_
    have ho := h4.owner_eq hr hH hs2
    show (_, _) = ite _ _ _
    rw [if_neg hng, if_neg (show ¬ s4.owner r.toNat = freeEnclaveId by rw [ho]; simpa using hne)]
  have hfree : m2.owner g r.toNat = freeEnclaveId := by simpa using hfree
  have hr0 : r.toNat ≠ 0 := fun hh => by
    have := hi2.inv.region0; rw [hh, this] at hfree; exact absurd hfree (by decide)
  unfold initMetadataRegion
  rw [bind_assoc]
  refine lin_storeRec hw hr (Or.inl (ownerA_toNat hw hr)) fun m3 s3 h3 => ?_
  rw [bind_assoc, ownerA_toNat hw hr]
  obtain ⟨a1, a2, a3⟩ := h3.record r.toNat hr hH
  generalize hm4 : ({ m3 with mem := upd m3.mem (ownerA g r.toNat) metadataEnclaveId } : Machine) = m4
  have b1 : m4.owner g r.toNat = metadataEnclaveId := by rw [← hm4]; exact upd_same _ _ _
  have b2 : m4.blockedAt g r.toNat = BitVec.ofNat 64 (s3.stamp r.toNat) := by
    rw [(h3.table r.toNat hr hH).2, ← hs2.1.stamp, ← a2, ← hm4]
    exact upd_ne _ _ (by simp)
  refine lin_storeRec hw hr (Or.inr (Or.inr (Or.inl (pinnedA_toNat hw hr)))) fun m5 s5 h5 => ?_
  rw [pinnedA_toNat hw hr]
  obtain ⟨c1, c2, c3⟩ := h5.record r.toNat hr hH
  generalize hm6 : ({ m5 with mem := upd m5.mem (pinnedA g r.toNat) 0 } : Machine) = m6
  have d1 : m6.owner g r.toNat = metadataEnclaveId := by
    rw [← b1, ← c1, ← hm6]; exact upd_ne _ _ (by simp)
  have d2 : m6.blockedAt g r.toNat = BitVec.ofNat 64 (s5.stamp r.toNat) := by
    rw [(h5.table r.toNat hr hH).2, ← b2, ← c2, ← hm6]
    exact upd_ne _ _ (by simp)
  have d3 : m6.pinned g r.toNat = 0 := by rw [← hm6]; exact upd_same _ _ _
  have ho5 : s5.owner r.toNat = freeEnclaveId := by
    rw [(h5.table r.toNat hr hH).1, (h3.table r.toNat hr hH).1, hs2.1.owner, hfree]
  have hst := region_start_ge g hr0
  obtain ⟨-, -, -, -, -, -, -, -, -, -, -, -⟩ := hw.layout
  have hal : g.stripeSize.toNat % 8 = 0 := by rw [hw.stripeSize, Nat.pow_add]; omega
  have hal2 : (r.toNat * g.stripeSize.toNat) % 8 = 0 := by rw [Nat.mul_mod, hal]; simp
  have hend := hw.region_end_le hr
  rw [Nat.succ_mul] at hend
  have hmb := mapBytes_le hw
  have hstart := dramRegionStart_toNat hw r (Nat.le_of_lt hr)
  have hbytes := mapBytes_toNat hw
  have hcalm : (bzero (dramRegionStart g r) (g.metaStart <<< pageShift)).Calm g c := by
    have hl := hw.layout
    unfold bzero
    exact frame_calm (D := True) hw (frame_bzeroWords hw _ _ (by rw [hstart]; exact hal2) (by rw [hstart, hbytes]; omega) (by rw [hstart]; omega))
  refine lin_calm (one_lt hr) (Calm.weak hcalm) fun _ m7 s7 h7 => ?_
  obtain ⟨e1, e2, e3⟩ := h7.record r.toNat hr hH
  refine lin_release_set hw hr hr0 hH (e1.trans d1) (by rw [e2, d2, (h7.table r.toNat hr hH).2]) (fun _ => e3.trans d3) fun m8 s8 h8 => ?_
  show (_, _) = ite _ _ _
  rw [if_neg hng, if_pos]
  rw [(h8.table r.toNat hr hH).1, (h7.table r.toNat hr hH).1, ho5]

/-! ### free_dram_region -/

/-- Writing the owner of a region that is held, and releasing it. -/
theorem lin_finish (hw : g.WF) {r : W} (hr : r.toNat < g.regions) (hr0 : r.toNat ≠ 0) (hHr : H r.toNat) {v o : W} (hs : Fits g m s r.toNat) (hom : o ≠ metadataEnclaveId)
    (hf : ∀ s1 : RegionTable, s1.owner r.toNat = s.owner r.toNat → s1.stamp r.toNat = s.stamp r.toNat → (∀ c', c' < g.cores → s.flushed c' ≤ s1.flushed c') →
      TakesEffect g k s1 v (s1.setOwner r.toNat o)) :
    Lin g c k (LPost g c k) H (.pending k) m s (store (regionA g r + offOwner) o >>= fun _ => clearLock g r >>= fun _ => pure v) := by
  refine lin_storeRec hw hr (Or.inl (ownerA_toNat hw hr)) fun m3 s3 h3 => ?_
  rw [ownerA_toNat hw hr]
  obtain ⟨a1, a2, a3⟩ := h3.record r.toNat hr hHr
  refine lin_release_set hw hr hr0 hHr (o := o) (upd_same _ _ _) ?_ (fun hh => absurd hh hom) fun m8 s8 h8 => ?_
  · rw [(h3.table r.toNat hr hHr).2, ← hs.1.stamp, ← a2]
    exact upd_ne _ _ (by simp)
  · exact hf s8 ((h8.table r.toNat hr hHr).1.trans (h3.table r.toNat hr hHr).1) ((h8.table r.toNat hr hHr).2.trans (h3.table r.toNat hr hHr).2)
      fun c' hc' => Nat.le_trans (h3.flushed c' hc') (h8.flushed c' hc')

theorem lin_coresFlushed (hw : g.WF) {r : W} (hr : r.toNat < g.regions) {b : W} : ∀ (n i : Nat) (m : Machine) (s : RegionTable), i + n = g.cores → Fits g m s r.toNat →
    m.owner g r.toNat = blockedEnclaveId → b.toNat = s.stamp r.toNat → (∀ c', c' < i → s.stamp r.toNat ≤ s.flushed c') →
    Lin g c (.freeDramRegion r) (fun res H' L' m' s' => H' = addL noL r.toNat ∧ Fits g m' s' r.toNat ∧ m'.owner g r.toNat = blockedEnclaveId ∧
      ((res = true ∧ L' = .pending (.freeDramRegion r) ∧ ∀ c', c' < g.cores → s'.stamp r.toNat ≤ s'.flushed c') ∨
       (res = false ∧ L' = .decided (.freeDramRegion r) monitorInvalidState))) (addL noL r.toNat) (.pending (.freeDramRegion r)) m s
      (coresFlushedLoop g b n (BitVec.ofNat 64 i)) := by
  have hH := one_self r.toNat
  intro n
  induction n with
  | zero =>
      intro i m s hi hs ho _ hall
      exact ⟨rfl, hs, ho, Or.inl ⟨rfl, rfl, fun c' hc' => hall c' (by omega)⟩⟩
  | succ n ih =>
      intro i m s hi hs ho hb hall
      have hic : i < g.cores := by omega
      unfold coresFlushedLoop
      refine lin_load_pt fun m1 s1 h1 hi1 => ?_
      rw [show (coreA g (BitVec.ofNat 64 i) + offFlushedAt).toNat = flushedA i from coreA_toNat hw hic _ (by decide)]
      have hs1 := h1.fits hr hH hs
      have ho1 : m1.owner g r.toNat = blockedEnclaveId := (h1.record _ hr hH).1.trans ho
      have hst : s1.stamp r.toNat = s.stamp r.toNat := (h1.table _ hr hH).2
      have hfl : (m1.mem (flushedA i)).toNat = s1.flushed i := by
        have e : m1.mem (flushedA i) = BitVec.ofNat 64 (s1.flushed i) := hi1.clocks.flushed i hic
        have h3 := hi1.table.flushed i hic
        have h4 := hi1.bound
        rw [e, BitVec.toNat_ofNat]; omega
      by_cases hlt : m1.mem (flushedA i) < b
      · rw [if_pos hlt]
        rw [W.lt_iff, hfl, hb] at hlt
        refine ⟨.decided _ monitorInvalidState, s1, Pt.effect ?_, TGuar.refl hi1.table, ⟨rfl, rfl⟩, rfl, hs1, ho1, Or.inr ⟨rfl, rfl⟩⟩
        show (_, _) = ite _ _ _
        rw [if_neg (show ¬ g.regions ≤ r.toNat by omega), if_neg]
        rintro (⟨_, hh⟩ | hh)
        · have := hh i hic; omega
        · rw [hs1.1.owner, ho1] at hh; exact absurd hh (by decide)
      · rw [if_neg hlt]
        rw [W.lt_iff, hfl, hb] at hlt
        have hnx : BitVec.ofNat 64 i + 1 = BitVec.ofNat 64 (i + 1) := by rw [W.eq_iff]; simp
        rw [hnx]
        refine ⟨_, s1, Pt.none _ _, TGuar.refl hi1.table, ⟨rfl, rfl⟩, ih (i + 1) m1 s1 (by omega) hs1 ho1 (by rw [hb, hst]) fun c' hc' => ?_⟩
        by_cases hcc : c' = i
        · rw [hcc, hst]; omega
        · have h5 := hall c' (by omega)
          have h6 := h1.flushed c' (by omega)
          rw [hst]; omega

theorem lin_free (hw : g.WF) (r : W) :
    Lin g c (.freeDramRegion r) (LPost g c (.freeDramRegion r)) noL (.pending (.freeDramRegion r)) m s (freeDramRegion g r) := by
  unfold freeDramRegion
  refine Lin.ite (fun hd => lnow fun s => ?_) fun hd => ?_
  · show (_, _) = ite _ _ _
    rw [if_pos (not_region hd)]
  have hr := (isValidDramRegion_iff (g := g) r).1 (by simpa using hd)
  have hng : ¬ g.regions ≤ r.toNat := by omega
  have hH := one_self r.toNat
  refine lin_first hw hr (by exact rfl) fun m1 s1 hs1 => ?_
  refine lin_readOwner hw hr fun m2 s2 h2 hi2 => ?_
  have hs2 := h2.fits hr hH hs1
  have hnz : m2.owner g r.toNat ≠ nullEnclaveId → r.toNat ≠ 0 := fun hne hh => hne (by rw [hh]; exact hi2.inv.region0)
  refine Lin.ite (fun hbl => ?_) fun hnb => Lin.ite (fun hme => ?_) fun hnm => ?_
  · have hr0 := hnz (by rw [hbl]; decide)
    refine lin_load fun m3 s3 h3 hi3 => ?_
    rw [blockedA_toNat hw hr]
    have hs3 := h3.fits hr hH hs2
    have ho3 : m3.owner g r.toNat = blockedEnclaveId := (h3.record _ hr hH).1.trans hbl
    have hb : (m3.mem (blockedA g r.toNat)).toNat = s3.stamp r.toNat := by
      have e : m3.mem (blockedA g r.toNat) = BitVec.ofNat 64 (s3.stamp r.toNat) := hs3.1.stamp
      have h5 := hi3.table.stamp _ hr
      have h4 := hi3.bound
      rw [e, BitVec.toNat_ofNat]; omega
    refine Lin.bind (lin_coresFlushed hw hr g.coreCount.toNat 0 m3 s3 (Nat.zero_add _) hs3 ho3 hb (fun _ hh => absurd hh (Nat.not_lt_zero _))) ?_
    rintro res H' L' m4 s4 ⟨rfl, hs4, ho4, ⟨rfl, rfl, hall⟩ | ⟨rfl, rfl⟩⟩
    · rw [if_pos rfl]
      refine lin_finish hw hr hr0 hH hs4 (by decide) fun s5 e1 e2 e3 => ?_
      show (_, _) = ite _ _ _
      rw [if_neg hng, if_pos]
      refine Or.inl ⟨by rw [e1, hs4.1.owner, ho4], fun c' hc' => ?_⟩
      have := hall c' hc'; have := e3 c' hc'; omega
    · rw [if_neg (by decide)]
      exact lin_rel hw hr hH hs4
  · have hr0 := hnz (by rw [hme]; decide)
    refine lin_load fun m3 s3 h3 hi3 => ?_
    rw [pinnedA_toNat hw hr]
    have hs3 := h3.fits hr hH hs2
    have ho3 : m3.owner g r.toNat = metadataEnclaveId := (h3.record _ hr hH).1.trans hme
    have hp : m3.mem (pinnedA g r.toNat) = 0 := hs3.1.pinned ho3
    rw [if_pos hp]
    refine lin_finish hw hr hr0 hH hs3 (by decide) fun s5 e1 e2 e3 => ?_
    show (_, _) = ite _ _ _
    rw [if_neg hng, if_pos]
    exact Or.inr (by rw [e1, hs3.1.owner, ho3])
  · refine lin_last hw hr hH hs2 fun m4 s4 h4 => ?_
    have ho := h4.owner_eq hr hH hs2
    show (_, _) = ite _ _ _
    rw [if_neg hng, if_neg]
    rintro (⟨hh, _⟩ | hh)
    · exact hnb (ho.symm.trans hh)
    · exact hnm (ho.symm.trans hh)

/-! ### flush_cached_dram_regions -/

theorem lin_flush (hw : g.WF) (hc : c < g.cores) :
    Lin g c .flushCachedDramRegions (LPost g c .flushCachedDramRegions) noL (.pending .flushCachedDramRegions) m s (flushCachedDramRegions g) := by
  unfold flushCachedDramRegions dramRegionTlbFlush
  rw [bind_assoc]
  refine lin_calm noL_lt (calm0_act_ (fun _ hh => hh) ⟨fun _ hh => Op.noConfusion hh, fun _ hh => Op.noConfusion hh⟩) fun _ m1 s1 h1 => ?_
  show Lin g c _ _ noL _ m1 s1 (.op .curCore fun core => load g.regionsBase >>= fun clock => store (coreA g core + offFlushedAt) clock >>= fun _ => pure monitorOk)
  refine lin_op ⟨fun _ _ hh => hh, ⟨fun _ hh => Op.noConfusion hh, fun _ hh => Op.noConfusion hh⟩⟩ (fun _ => rfl) fun v m' m2 s2 h2 _ _ _ he => ?_
  cases he
  refine lin_load_pt fun m3 s3 h3 hi3 => ?_
  refine ⟨.flushing, { s3 with sampled := upd s3.sampled c s3.clock }, Pt.sample rfl, ?_, ⟨rfl, rfl⟩, ?_⟩
  · exact ⟨fun _ _ _ => ⟨rfl, rfl⟩, fun _ => ⟨rfl, rfl⟩, fun c' hc' => ⟨rfl, upd_ne _ _ hc'⟩, ⟨Nat.le_refl _, Nat.le_succ _⟩, Nat.le_refl _,
      ⟨hi3.table.stamp, hi3.table.flushed, hi3.table.dma⟩⟩
  have hclk : m3.mem g.regionsBase.toNat = BitVec.ofNat 64 s3.clock := hi3.clocks.clock
  rw [hclk]
  have hcc : (coreA g (BitVec.ofNat 64 c) + offFlushedAt).toNat = flushedA c := coreA_toNat hw hc _ (by decide)
  intro m4 s4 B h4 hi4 _ _ v m5 he _
  have he' := he
  simp only [exec] at he'
  split at he' <;> cases he'
  have hsam : s4.sampled c = s3.clock := h4.own.2.trans (upd_same _ _ _)
  have hle : s3.clock ≤ s4.clock := h4.clock
  have hfc : s4.flushed c ≤ s3.clock := by rw [h4.own.1]; exact hi3.table.flushed c hc
  refine ⟨.decided _ monitorOk, { s4 with flushed := upd s4.flushed c (s4.sampled c) }, Pt.flush rfl, ?_, lret⟩
  have hrec : heldStep g (.store (coreA g (BitVec.ofNat 64 c) + offFlushedAt) (BitVec.ofNat 64 s3.clock)) 0 noL = noL := by
    funext i; exact propext ⟨fun hh => hh.1, fun hh => hh.elim⟩
  refine ⟨fun _ _ _ => ⟨rfl, rfl⟩, fun _ => ⟨rfl, rfl⟩, fun _ _ hh => hh.elim, fun hh => hh.elim, ?_, fun c' hc' => ⟨upd_ne _ _ hc', rfl⟩, ⟨Nat.le_refl _, Nat.le_succ _⟩, ?_,
    ⟨hi4.table.stamp, fun c' hc' => ?_, hi4.table.dma⟩⟩
  · rw [hcc]
    refine ⟨?_, fun c' hc' => ?_⟩
    · refine Eq.trans (upd_ne _ _ ?_) hi4.clocks.clock
      exact fun hh => flushedA_ne_clockA hw hc hh.symm
    · by_cases hcq : c' = c
      · subst hcq
        show upd m4.mem (flushedA c') _ (flushedA c') = BitVec.ofNat 64 (upd s4.flushed c' (s4.sampled c') c')
        rw [upd_same, upd_same, hsam]
      · show upd m4.mem (flushedA c) _ (flushedA c') = BitVec.ofNat 64 (upd s4.flushed c (s4.sampled c) c')
        rw [upd_ne _ _ hcq, upd_ne]
        · exact hi4.clocks.flushed c' hc'
        · unfold flushedA; omega
  · show s4.flushed c ≤ upd s4.flushed c _ c
    rw [upd_same, hsam]; exact hfc
  · show upd s4.flushed c _ c' ≤ s4.clock
    by_cases hcq : c' = c
    · rw [hcq, upd_same, hsam]; exact hle
    · rw [upd_ne _ _ hcq]; exact hi4.table.flushed c' hc'

/-! ### assign_dram_region -/

theorem fits_other {r i : Nat} {m1 : Machine} {s1 : RegionTable} {x : Nat} {v : W} (hx : RecordWord g r x) (hne : i ≠ r) (hf : Fits g m1 s1 i) :
    Fits g { m1 with mem := upd m1.mem x v } s1 i := by
  have h1 : ownerA g i ≠ x := by
    unfold RecordWord ownerA prevA pinnedA blockedA at hx; unfold ownerA; omega
  have h2 : blockedA g i ≠ x := by
    unfold RecordWord ownerA prevA pinnedA blockedA at hx; unfold blockedA; omega
  have h3 : pinnedA g i ≠ x := by
    unfold RecordWord ownerA prevA pinnedA blockedA at hx; unfold pinnedA; omega
  refine ⟨hf.1.clear (upd_ne _ _ h1) (upd_ne _ _ h2) (upd_ne _ _ h3), fun h0 => hf.2 h0⟩

theorem lin_assign (hw : g.WF) (r e : W) :
    Lin g c (.assignDramRegion r e) (LPost g c (.assignDramRegion r e)) noL (.pending (.assignDramRegion r e)) m s (assignDramRegion g r e) := by
  unfold assignDramRegion
  refine Lin.ite (fun hd => lnow fun s => ?_) fun hd => ?_
  · show (_, _) = ite _ _ _
    rw [if_pos (not_region hd)]
  have hr := (isValidDramRegion_iff (g := g) r).1 (by simpa using hd)
  have hng : ¬ g.regions ≤ r.toNat := by omega
  have hH := one_self r.toNat
  refine lin_first hw hr (by exact rfl) fun m1 s1 hs1 => ?_
  refine lin_readOwner hw hr fun m2 s2 h2 hi2 => ?_
  have hs2 := h2.fits hr hH hs1
  refine Lin.ite (fun hne => ?_) fun hfree => ?_
  · refine lin_last hw hr hH hs2 fun m4 s4 h4 => ?_
    have ho := h4.owner_eq hr hH hs2
    show (_, _) = ite _ _ _
    rw [if_neg hng, if_pos (show s4.owner r.toNat ≠ freeEnclaveId by rw [ho]; simpa using hne)]
  have hfree : m2.owner g r.toNat = freeEnclaveId := by simpa using hfree
  have hr0 : r.toNat ≠ 0 := fun hh => by
    have := hi2.inv.region0; rw [hh, this] at hfree; exact absurd hfree (by decide)
  have hs := dramRegionFor_lt hw e
  dsimp only
  refine lin_tasLock hw hs (fun m3 s3 B h3 _ hb => ?_) fun m3 s3 h3 _ hn3 hd3 hdd3 => ?_
  · have hs3 := h3.fits hr hH hs2
    have ho3 : s3.owner r.toNat = freeEnclaveId := (h3.owner_eq hr hH hs2).trans hfree
    refine ⟨.decided _ monitorConcurrentCall, ?_, by rw [if_pos rfl]; exact lin_rel hw hr hH hs3⟩
    rcases hb with (hb | hb) | hb
    · exact hb.elim
    · refine Pt.effect ?_
      show (_, _) = ite _ _ _
      rw [if_neg hng, if_neg (fun hh => hh ho3), if_pos (show regionOf g e.toNat = r.toNat by rw [← dramRegionFor_toNat hw e, hb])]
    · exact Pt.busy hb rfl
  rw [if_neg (by decide)]
  have hne : r.toNat ≠ (dramRegionFor g e).toNat := fun hh => hn3 (Or.inr hh.symm)
  have hne' : ¬ regionOf g e.toNat = r.toNat := fun hh => hne (by rw [dramRegionFor_toNat hw e, hh])
  have hf3 : Fits g m3 s3 (dramRegionFor g e).toNat := ⟨hd3, hdd3⟩
  have hs3 := h3.fits hr hH hs2
  have ho3 : m3.owner g r.toNat = freeEnclaveId := (h3.record _ hr hH).1.trans hfree
  have hA := two_fst r.toNat (dramRegionFor g e).toNat
  have hB := two_snd r.toNat (dramRegionFor g e).toNat
  unfold isValidEnclaveId
  rw [bind_assoc]
  have hcl := clamped_lt hw e
  refine lin_readOwner hw hcl fun m4 s4 h4 hi4 => ?_
  have hs4 := h4.fits hr hA hs3
  have hf4 := h4.fits hs hB hf3
  have ho4 : m4.owner g r.toNat = freeEnclaveId := (h4.record _ hr hA).1.trans ho3
  show Lin g c _ _ _ _ m4 s4 (if (m4.owner g (clampedDramRegionFor g e).toNat == e) = true then _ else _)
  by_cases he : e = 0
  · subst he
    have hf0 := dramRegionFor_zero hw
    have hc0 : (clampedDramRegionFor g 0).toNat = 0 := by
      rw [clamped_eq hw]; unfold idRegion; split
      · unfold regionOf; simp
      · rfl
    rw [hf0] at hne hs hf4 hA hB ⊢
    rw [if_pos (by rw [hc0, hi4.inv.region0]; rfl)]
    refine lin_storeRec hw hr (Or.inl (ownerA_toNat hw hr)) fun m5 s5 h5 => ?_
    rw [ownerA_toNat hw hr]
    have hs5 := h5.fits hr hA hs4
    have hf5 := h5.fits hs hB hf4
    have hf6 := fits_other (g := g) (r := r.toNat) (v := (0 : W)) (Or.inl rfl) (Ne.symm hne) hf5
    have b1 : Machine.owner { m5 with mem := upd m5.mem (ownerA g r.toNat) 0 } g r.toNat = nullEnclaveId := upd_same _ _ _
    have b2 : Machine.blockedAt { m5 with mem := upd m5.mem (ownerA g r.toNat) 0 } g r.toNat = BitVec.ofNat 64 (s5.stamp r.toNat) :=
      Eq.trans (upd_ne _ _ (by simp)) hs5.1.stamp
    have b3 : s5.owner r.toNat = freeEnclaveId := by rw [h5.owner_eq hr hA hs4, ho4]
    generalize ({ m5 with mem := upd m5.mem (ownerA g r.toNat) 0 } : Machine) = m6 at hf6 b1 b2 ⊢
    have hH2 := two_lt (g := g) hr hs
    unfold setEnclaveRegionBitmapBit
    rw [if_pos rfl]
    refine lin_calm hH2 (calm_setOsBit hw hr true) fun _ m7 s7 h7 => ?_
    refine lin_calm hH2 calm_setDrb fun _ m8 s8 h8 => ?_
    have h78 := h7.trans h8
    refine lin_clearLock hw hs hB (h78.fits hs hB hf6).1 (h78.fits hs hB hf6).2 fun m9 s9 h9 => ?_
    have h79 := h78.trans h9
    obtain ⟨e1, e2, e3⟩ := h79.record _ hr hA
    obtain ⟨e4, e5⟩ := h79.table _ hr hA
    rw [sub_two hne]
    refine lin_release_set hw hr hr0 hH (e1.trans b1) (by rw [e2, b2, e5]) (fun hh => absurd hh (by decide)) fun m10 s10 h10 => ?_
    show (_, _) = ite _ _ _
    rw [if_neg hng, if_neg (fun hh => hh (by rw [(h10.table _ hr hH).1, e4, b3])), if_neg hne', if_pos (show (0 : W) = nullEnclaveId from rfl)]
  · have hno : m4.owner g (clampedDramRegionFor g e).toNat ≠ e :=
      owner_ne_id hw (hi4.inv.owners _ hcl) (fun hh => by rw [hh]; exact hi4.inv.region0) he
    rw [if_neg (by simpa using hno)]
    refine lin_clearLock hw hs hB hf4.1 hf4.2 fun m9 s9 h9 => ?_
    rw [sub_two hne]
    refine lin_last hw hr hH (h9.fits hr hA hs4) fun m10 s10 h10 => ?_
    show (_, _) = ite _ _ _
    have ho10 : s10.owner r.toNat = freeEnclaveId := by rw [(h10.table _ hr hH).1, h9.owner_eq hr hA hs4, ho4]
    rw [if_neg hng, if_neg (fun hh => hh ho10), if_neg hne', if_neg (show ¬ e = nullEnclaveId from he)]

/-! ### block_dram_region -/

theorem crossed_iff (hw : g.WF) {r : W} (hr : r.toNat < g.regions) {ds de : W} (hle : ds.toNat ≤ de.toNat) :
    (((decide (ds ≥ dramRegionStart g r) && decide (de ≤ dramRegionStart g (r + 1))) ||
      (decide (de ≥ dramRegionStart g r) && decide (de ≤ dramRegionStart g (r + 1))) ||
      (decide (dramRegionStart g r ≥ ds) && decide (dramRegionStart g r ≤ de)) ||
      (decide (dramRegionStart g (r + 1) ≥ ds) && decide (dramRegionStart g (r + 1) ≤ de))) = true) ↔
    r.toNat * g.stripeSize.toNat ≤ de.toNat ∧ ds.toNat ≤ (r.toNat + 1) * g.stripeSize.toNat := by
  have hrl := r.isLt
  have hrr : g.regions < 2 ^ 64 := g.regionCount.isLt
  have h1 : (r + 1).toNat = r.toNat + 1 := by
    rw [BitVec.toNat_add, show (1 : W).toNat = 1 from rfl]; omega
  have e1 := dramRegionStart_toNat hw r (Nat.le_of_lt hr)
  have e2 := dramRegionStart_toNat hw (r + 1) (by omega)
  rw [h1] at e2
  have e3 : r.toNat * g.stripeSize.toNat ≤ (r.toNat + 1) * g.stripeSize.toNat := Nat.mul_le_mul_right _ (Nat.le_succ _)
  simp only [Bool.or_eq_true, Bool.and_eq_true, decide_eq_true_eq, ge_iff_le, W.le_iff, e1, e2]
  omega

/-- The DMA window as seen in one comparison of the globals. -/
def dmaRead (o : Op) (s : RegionTable) : W := match o with | .getDmaStart => s.dmaStart | _ => s.dmaEnd

theorem lin_dmaRead (hw : g.WF) (h0 : (0 : W).toNat < g.regions) (hB : H (0 : W).toNat) {f : W → Prog β} {o : Op} (ho : o = .getDmaStart ∨ o = .getDmaEnd)
    (hf0 : Fits g m s (0 : W).toNat)
    (hf : ∀ m1 s1, LRely g c H m s m1 s1 → s1.dmaStart.toNat ≤ s1.dmaEnd.toNat → Lin g c k Q H L m1 s1 (f (dmaRead o s))) :
    Lin g c k Q H L m s (act o >>= f) := by
  have hro : ∀ o : Op, (∀ x, ¬ o.mutates x) → ((∀ v, o ≠ .setDmaStart v) ∧ ∀ v, o ≠ .setDmaEnd v) → OpTame0 g o := fun o h1 h2 => ⟨fun _ _ => h1 _, h2⟩
  rcases ho with rfl | rfl
  · refine lin_op (o := .getDmaStart) (hro _ (fun _ hh => hh) ⟨fun _ hh => Op.noConfusion hh, fun _ hh => Op.noConfusion hh⟩) (fun _ => rfl) fun ds m' m5 s5 h5 hi5 _ _ he5 => ?_
    cases he5
    have : m'.dmaStart = dmaRead .getDmaStart s := (((h5.fits h0 hB hf0).2 rfl).1).trans (h5.sdma hB).1
    rw [this]; exact hf _ _ h5 hi5.table.dma
  · refine lin_op (o := .getDmaEnd) (hro _ (fun _ hh => hh) ⟨fun _ hh => Op.noConfusion hh, fun _ hh => Op.noConfusion hh⟩) (fun _ => rfl) fun ds m' m5 s5 h5 hi5 _ _ he5 => ?_
    cases he5
    have : m'.dmaEnd = dmaRead .getDmaEnd s := (((h5.fits h0 hB hf0).2 rfl).2).trans (h5.sdma hB).2
    rw [this]; exact hf _ _ h5 hi5.table.dma

theorem dmaRead_stable (hB : H (0 : W).toNat) {m1 : Machine} {s1 : RegionTable} (h : LRely g c H m s m1 s1) (o : Op) : dmaRead o s1 = dmaRead o s := by
  unfold dmaRead
  split
  · exact (h.sdma hB).1
  · exact (h.sdma hB).2

theorem lin_dmaTest (hw : g.WF) (h0 : (0 : W).toNat < g.regions) (hB : H (0 : W).toNat) {f : Bool → Prog β} {o1 o2 : Op} {p q : W → Bool} (ho1 : o1 = .getDmaStart ∨ o1 = .getDmaEnd)
    (ho2 : o2 = .getDmaStart ∨ o2 = .getDmaEnd) (hf0 : Fits g m s (0 : W).toNat)
    (hf : ∀ m1 s1, LRely g c H m s m1 s1 → s1.dmaStart.toNat ≤ s1.dmaEnd.toNat → Lin g c k Q H L m1 s1 (f (p (dmaRead o1 s) && q (dmaRead o2 s)))) :
    Lin g c k Q H L m s (dmaTest o1 p o2 q >>= f) := by
  unfold dmaTest
  rw [bind_assoc]
  refine lin_dmaRead hw h0 hB ho1 hf0 fun m1 s1 h1 hle1 => ?_
  cases hp : p (dmaRead o1 s)
  · rw [hp] at hf; rw [if_neg (by decide)]; exact hf _ _ h1 hle1
  · rw [if_pos rfl, bind_assoc]
    refine lin_dmaRead hw h0 hB ho2 (h1.fits h0 hB hf0) fun m2 s2 h2 hle2 => ?_
    rw [dmaRead_stable hB h1]
    have := hf _ _ (h1.trans h2) hle2
    rw [hp, Bool.true_and] at this; exact this

theorem lin_dmaRangeCrossed (hw : g.WF) (h0 : (0 : W).toNat < g.regions) (hB : H (0 : W).toNat) {f : Bool → Prog β} {r : W} (hf0 : Fits g m s (0 : W).toNat)
    (hf : ∀ m1 s1, LRely g c H m s m1 s1 → s1.dmaStart.toNat ≤ s1.dmaEnd.toNat → Lin g c k Q H L m1 s1 (f
      ((decide (s1.dmaStart ≥ dramRegionStart g r) && decide (s1.dmaEnd ≤ dramRegionStart g (r + 1))) ||
       (decide (s1.dmaEnd ≥ dramRegionStart g r) && decide (s1.dmaEnd ≤ dramRegionStart g (r + 1))) ||
       (decide (dramRegionStart g r ≥ s1.dmaStart) && decide (dramRegionStart g r ≤ s1.dmaEnd)) ||
       (decide (dramRegionStart g (r + 1) ≥ s1.dmaStart) && decide (dramRegionStart g (r + 1) ≤ s1.dmaEnd))))) :
    Lin g c k Q H L m s (dmaRangeCrossed g r >>= f) := by
  unfold dmaRangeCrossed
  dsimp only
  rw [bind_assoc]
  refine lin_dmaTest hw h0 hB (Or.inl rfl) (Or.inr rfl) hf0 fun m1 s1 h1 _ => ?_
  rw [bind_assoc]
  refine lin_dmaTest hw h0 hB (Or.inr rfl) (Or.inr rfl) (h1.fits h0 hB hf0) fun m2 s2 h2 _ => ?_
  have h2 := h1.trans h2
  rw [bind_assoc]
  refine lin_dmaTest hw h0 hB (Or.inl rfl) (Or.inr rfl) (h2.fits h0 hB hf0) fun m3 s3 h3 _ => ?_
  have h3 := h2.trans h3
  rw [bind_assoc]
  refine lin_dmaTest hw h0 hB (Or.inl rfl) (Or.inr rfl) (h3.fits h0 hB hf0) fun m4 s4 h4 hle => ?_
  have h4 := h3.trans h4
  have hx := hf m4 s4 h4 hle
  rw [(h4.sdma hB).1, (h4.sdma hB).2] at hx
  rw [dmaRead_stable hB h1, dmaRead_stable hB h2, dmaRead_stable hB h2, dmaRead_stable hB h3, dmaRead_stable hB h3]
  exact hx

theorem lin_block (hw : g.WF) (hc : c < g.cores) (r : W) :
    Lin g c (.blockDramRegion r) (LPost g c (.blockDramRegion r)) noL (.pending (.blockDramRegion r)) m s (blockDramRegion g r) := by
  unfold blockDramRegion
  refine Lin.ite (fun hd => lnow fun s => ?_) fun hd => ?_
  · show (_, _) = ite _ _ _
    rw [if_pos (not_dynamic hd)]
  obtain ⟨hr0, hr⟩ := (isDynamicDramRegion_iff r).1 (by simpa using hd)
  have hng : ¬ (r.toNat = 0 ∨ g.regions ≤ r.toNat) := by omega
  have hH := one_self r.toNat
  refine lin_first hw hr (by exact rfl) fun m1 s1 hs1 => ?_
  refine lin_readOwner hw hr fun m2 s2 h2 hi2 => ?_
  have hs2 := h2.fits hr hH hs1
  refine lin_currentEnclave hw hc fun m3 s3 h3 _ => ?_
  have hs3 := h3.fits hr hH hs2
  refine Lin.ite (fun hne => ?_) fun ho => ?_
  · refine lin_last hw hr hH hs3 fun m4 s4 h4 => ?_
    have ho := (h3.trans h4).owner_eq hr hH hs2
    show (_, _) = ite _ _ _
    rw [if_neg hng, if_pos (show s4.owner r.toNat ≠ nullEnclaveId by rw [ho]; simpa using hne)]
  have ho : m2.owner g r.toNat = nullEnclaveId := by simpa using ho
  have ho3 : m3.owner g r.toNat = nullEnclaveId := (h3.record _ hr hH).1.trans ho
  rw [ho]
  have hnn : (nullEnclaveId != nullEnclaveId) = false := rfl
  rw [hnn, if_neg (by decide)]
  refine Lin.bind (Q1 := fun a H' L' m' s' => a = 0 ∧ H' = addL noL r.toNat ∧ L' = .pending (.blockDramRegion r) ∧ m' = m3 ∧ s' = s3) (show Lin g c _ _ _ _ _ _ (pure (0 : W)) from ⟨rfl, rfl, rfl, rfl, rfl⟩) ?_
  rintro _ _ _ _ _ ⟨rfl, rfl, rfl, rfl, rfl⟩
  rw [Bool.false_and, if_neg (by decide), show nullEnclaveId = (0 : W) from rfl, dramRegionFor_zero hw]
  have h0 := zero_lt hw
  have hne : r.toNat ≠ (0 : W).toNat := hr0
  refine lin_tasLock hw h0 (fun m4 s4 B h4 _ hb => ?_) fun m4 s4 h4 ht4 hn4 hd4 hdd4 => ?_
  · refine ⟨.decided _ monitorConcurrentCall, Pt.busy ?_ rfl, by rw [if_pos rfl]; exact lin_rel hw hr hH (h4.fits hr hH hs3)⟩
    exact hb.resolve_left fun hh => hh.elim id fun hh => hne hh.symm
  rw [if_neg (by decide), if_pos rfl]
  have hH2 := two_lt (g := g) hr h0
  have hA := two_fst r.toNat (0 : W).toNat
  have hB := two_snd r.toNat (0 : W).toNat
  have hs4 := h4.fits hr hH hs3
  have hf4 : Fits g m4 s4 (0 : W).toNat := ⟨hd4, hdd4⟩
  have ho4 : m4.owner g r.toNat = nullEnclaveId := (h4.record _ hr hH).1.trans ho3
  refine lin_dmaRangeCrossed hw h0 hB hf4 fun m'' s6 h46 hle => ?_
  have hf6 := h46.fits h0 hB hf4
  have hs6 := h46.fits hr hA hs4
  have ho6 : m''.owner g r.toNat = nullEnclaveId := (h46.record _ hr hA).1.trans ho4
  have hci := crossed_iff hw hr (ds := s6.dmaStart) (de := s6.dmaEnd) hle
  refine Lin.ite (fun hcr => ?_) fun hcr => ?_
  · have hcr := hci.1 hcr
    refine lin_clearLock_read (v := monitorInvalidState) hw h0 hB rfl hf6.1 hf6.2 fun m7 s7 h7 _ => ⟨?_, ?_⟩
    · show (_, _) = ite _ _ _
      rw [if_neg hng, if_neg (fun hh => hh ((h7.owner_eq hr hA hs6).trans ho6)), if_pos]
      unfold RegionTable.dmaTouches
      rw [(h7.sdma hB).1, (h7.sdma hB).2]; exact hcr
    · rw [sub_two hne]
      exact lin_rel hw hr hH (h7.fits hr hA hs6)
  have hcr : ¬ _ := fun hh => hcr (hci.2 hh)
  refine lin_storeRec hw hr (Or.inr (Or.inl (prevA_toNat hw hr))) fun m7 s7 h7 => ?_
  rw [prevA_toNat hw hr]
  have hs7 := h7.fits hr hA hs6
  have hf7 := fits_other (g := g) (r := r.toNat) (v := (0 : W)) (Or.inr (Or.inl rfl)) (Ne.symm hne) (h7.fits h0 hB hf6)
  have a1 : Machine.pinned { m7 with mem := upd m7.mem (prevA g r.toNat) 0 } g r.toNat = m7.pinned g r.toNat := upd_ne _ _ (by simp)
  generalize ({ m7 with mem := upd m7.mem (prevA g r.toNat) 0 } : Machine) = m8 at hf7 a1 ⊢
  refine lin_storeRec hw hr (Or.inl (ownerA_toNat hw hr)) fun m9 s9 h9 => ?_
  rw [ownerA_toNat hw hr]
  have hf9 := fits_other (g := g) (r := r.toNat) (v := blockedEnclaveId) (Or.inl rfl) (Ne.symm hne) (h9.fits h0 hB hf7)
  have b1 : Machine.owner { m9 with mem := upd m9.mem (ownerA g r.toNat) blockedEnclaveId } g r.toNat = blockedEnclaveId := upd_same _ _ _
  generalize ({ m9 with mem := upd m9.mem (ownerA g r.toNat) blockedEnclaveId } : Machine) = m10 at hf9 b1 ⊢
  refine lin_fetchAdd hw fun m11 s11 h11 hi11 => ?_
  have hf11 := h11.fits h0 hB hf9
  have ho11 : s11.owner r.toNat = nullEnclaveId := by
    rw [(h11.table _ hr hA).1, (h9.table _ hr hA).1, (h7.table _ hr hA).1, hs6.1.owner, ho6]
  have hd11 : s11.dmaStart = s6.dmaStart ∧ s11.dmaEnd = s6.dmaEnd :=
    ⟨by rw [(h11.sdma hB).1, (h9.sdma hB).1, (h7.sdma hB).1], by rw [(h11.sdma hB).2, (h9.sdma hB).2, (h7.sdma hB).2]⟩
  have b11 : m11.owner g r.toNat = blockedEnclaveId := (h11.record _ hr hA).1.trans b1
  generalize hs12 : ({ s11.setOwner r.toNat blockedEnclaveId with stamp := upd s11.stamp r.toNat s11.clock, clock := s11.clock + 1 } : RegionTable) = s12
  refine ⟨.decided _ monitorOk, s12, Pt.effect ?_, ?_, by rw [← hs12]; exact ⟨rfl, rfl⟩, ?_⟩
  · show (_, _) = ite _ _ _
    rw [if_neg hng, if_neg (fun hh => hh ho11), if_neg, hs12]
    unfold RegionTable.dmaTouches
    rw [hd11.1, hd11.2]; exact hcr
  · rw [← hs12]
    refine ⟨fun i _ hn => ?_, fun _ => ⟨rfl, rfl⟩, fun _ _ => ⟨rfl, rfl⟩, ⟨Nat.le_succ _, Nat.le_refl _⟩, Nat.le_refl _, ⟨fun i hi => ?_, fun c' hc' => ?_, hi11.table.dma⟩⟩
    · have hir : i ≠ r.toNat := fun hh => hn (by rw [hh]; exact hA)
      exact ⟨upd_ne _ _ hir, upd_ne _ _ hir⟩
    · show upd s11.stamp r.toNat s11.clock i ≤ s11.clock + 1
      by_cases hir : i = r.toNat
      · rw [hir, upd_same]; omega
      · rw [upd_ne _ _ hir]; have := hi11.table.stamp i hi; omega
    · have := hi11.table.flushed c' hc'
      show s11.flushed c' ≤ s11.clock + 1
      omega
  have t1 : s12.owner r.toNat = blockedEnclaveId := by rw [← hs12]; exact upd_same _ _ _
  have t2 : s12.stamp r.toNat = s11.clock := by rw [← hs12]; exact upd_same _ _ _
  have hf12 : Fits g { m11 with mem := upd m11.mem (clockA g) (m11.mem (clockA g) + 1) } s12 (0 : W).toNat := by
    have k1 : ownerA g (0 : W).toNat ≠ clockA g := ownerA_ne_clockA hw h0
    have k2 : blockedA g (0 : W).toNat ≠ clockA g := blockedA_ne_clockA hw h0
    have k3 : pinnedA g (0 : W).toNat ≠ clockA g := pinnedA_ne_clockA hw h0
    have := hf11.1.clear (m1 := { m11 with mem := upd m11.mem (clockA g) (m11.mem (clockA g) + 1) }) (upd_ne _ _ k1) (upd_ne _ _ k2) (upd_ne _ _ k3)
    rw [← hs12]
    refine ⟨⟨?_, ?_, this.pinned⟩, fun h => ⟨(hf11.2 h).1, (hf11.2 h).2⟩⟩
    · refine Eq.trans ?_ this.owner
      exact upd_ne _ _ (Ne.symm hne)
    · refine Eq.trans this.stamp ?_
      show _ = BitVec.ofNat 64 (upd s11.stamp r.toNat s11.clock (0 : W).toNat)
      rw [upd_ne _ _ (Ne.symm hne)]
  have b12 : Machine.owner { m11 with mem := upd m11.mem (clockA g) (m11.mem (clockA g) + 1) } g r.toNat = blockedEnclaveId := Eq.trans (upd_ne _ _ (ownerA_ne_clockA hw hr)) b11
  generalize ({ m11 with mem := upd m11.mem (clockA g) (m11.mem (clockA g) + 1) } : Machine) = m12 at hf12 b12 ⊢
  refine lin_storeRec hw hr (Or.inr (Or.inr (Or.inr (blockedA_toNat hw hr)))) fun m13 s13 h13 => ?_
  rw [blockedA_toNat hw hr]
  have hf14 := fits_other (g := g) (r := r.toNat) (v := BitVec.ofNat 64 s11.clock) (Or.inr (Or.inr (Or.inr rfl))) (Ne.symm hne) (h13.fits h0 hB hf12)
  have hs14 : Fits g { m13 with mem := upd m13.mem (blockedA g r.toNat) (BitVec.ofNat 64 s11.clock) } s13 r.toNat := by
    have e1 : Machine.owner { m13 with mem := upd m13.mem (blockedA g r.toNat) (BitVec.ofNat 64 s11.clock) } g r.toNat = blockedEnclaveId :=
      Eq.trans (upd_ne _ _ (by simp)) ((h13.record _ hr hA).1.trans b12)
    refine ⟨⟨?_, ?_, fun hh => ?_⟩, fun hh => absurd hh hr0⟩
    · rw [e1, (h13.table _ hr hA).1, t1]
    · rw [(h13.table _ hr hA).2, t2]; exact upd_same _ _ _
    · rw [e1] at hh; exact absurd hh (by decide)
  generalize ({ m13 with mem := upd m13.mem (blockedA g r.toNat) (BitVec.ofNat 64 s11.clock) } : Machine) = m14 at hf14 hs14 ⊢
  unfold setEnclaveRegionBitmapBit
  rw [if_pos rfl]
  refine lin_calm hH2 (calm_setOsBit hw hr false) fun _ m15 s15 h15 => ?_
  refine lin_calm hH2 calm_setDrb fun _ m16 s16 h16 => ?_
  have hg := h15.trans h16
  refine lin_clearLock hw h0 hB (hg.fits h0 hB hf14).1 (hg.fits h0 hB hf14).2 fun m17 s17 h17 => ?_
  rw [sub_two hne]
  exact lin_rel hw hr hH ((hg.trans h17).fits hr hA hs14)

/-! ### set_dma_range -/

theorem lin_dmaLoop (hw : g.WF) {b n e : W} : ∀ (fuel : Nat) (a : W) (owns : Bool) (m : Machine) (s : RegionTable), Fits g m s 0 →
    Lin g c (.setDmaRange b n) (fun res H' L' m' s' => (res = none ∧ L' = .decided (.setDmaRange b n) monitorConcurrentCall) ∨
      (res ≠ none ∧ H' = addL noL 0 ∧ L' = .pending (.setDmaRange b n) ∧ Fits g m' s' 0)) (addL noL 0) (.pending (.setDmaRange b n)) m s
      (dmaRangeLoop g e fuel a owns) := by
  have h0 := zero_lt hw
  have hz0 : 0 < g.regions := h0
  have hH := one_self 0
  intro fuel
  induction fuel with
  | zero => intro a owns m s _; trivial
  | succ f ih =>
      intro a owns m s hf
      unfold dmaRangeLoop
      refine Lin.ite (fun _ => ?_) fun _ => Or.inr ⟨by simp, rfl, rfl, hf⟩
      have hn := dramRegionFor_lt hw a
      by_cases hz : dramRegionFor g a = 0
      · have hb0 : (dramRegionFor g a != 0) = false := by rw [hz]; rfl
        dsimp only
        rw [hb0]
        show Lin g c _ _ _ _ m s (readOwner g (dramRegionFor g a) >>= fun owner => dmaRangeLoop g e f (a + g.stripeSize) (owns && owner == 0))
        exact lin_readOwner hw hn fun m1 s1 h1 _ => ih _ _ m1 s1 (h1.fits hz0 hH hf)
      · have hb0 : (dramRegionFor g a != 0) = true := bne_iff_ne.2 hz
        dsimp only
        rw [hb0]
        have hne : (0 : Nat) ≠ (dramRegionFor g a).toNat := fun hh => hz (by rw [W.eq_iff, ← hh]; rfl)
        simp only [if_true]
        refine lin_tasLock hw hn (fun m1 s1 B h1 _ hb => ⟨.decided _ monitorConcurrentCall, Pt.busy ?_ rfl, ?_⟩) fun m1 s1 h1 _ _ hs1 hd1 => ?_
        · exact hb.resolve_left fun hh => hh.elim id fun hh => hne hh.symm
        · rw [if_pos rfl]
          have hf1 := h1.fits hz0 hH hf
          exact lin_clearLock hw (r := 0) h0 hH hf1.1 hf1.2 fun m2 s2 _ => Or.inl ⟨rfl, rfl⟩
        · rw [if_neg (by decide)]
          have hf1 := h1.fits hz0 hH hf
          have hA := two_fst 0 (dramRegionFor g a).toNat
          have hB := two_snd 0 (dramRegionFor g a).toNat
          refine lin_readOwner hw hn fun m2 s2 h2 _ => ?_
          have hf2 := h2.fits hz0 hA hf1
          have hs2 := h2.fits hn hB ⟨hs1, hd1⟩
          refine lin_clearLock hw hn hB hs2.1 hs2.2 fun m3 s3 h3 => ?_
          rw [sub_two hne]
          exact ih _ _ m3 s3 (h3.fits hz0 hA hf2)

/-- Changing the DMA window, holding the lock of region 0. -/
theorem lin_setDmaStart {v : W} {f : Unit → Prog β} {Q : β → (Nat → Prop) → Phase → Machine → RegionTable → Prop}
    (hf : ∀ m' s', LRely g c H m s m' s' → Lin g c k Q H L { m' with dmaStart := v } s' (f ())) : Lin g c k Q H L m s (act_ (.setDmaStart v) >>= f) := by
  intro m' s' B hrel hinv _ _ w m1 he _
  cases he
  exact ⟨L, s', Pt.none _ _, (TGuar.refl hinv.table).keep (fun _ hh => hh) ⟨hinv.clocks.clock, hinv.clocks.flushed⟩, hf m' s' hrel⟩

theorem lin_setDmaEnd {v : W} {f : Unit → Prog β} {Q : β → (Nat → Prop) → Phase → Machine → RegionTable → Prop}
    (hf : ∀ m' s', LRely g c H m s m' s' → Lin g c k Q H L { m' with dmaEnd := v } s' (f ())) : Lin g c k Q H L m s (act_ (.setDmaEnd v) >>= f) := by
  intro m' s' B hrel hinv _ _ w m1 he _
  cases he
  exact ⟨L, s', Pt.none _ _, (TGuar.refl hinv.table).keep (fun _ hh => hh) ⟨hinv.clocks.clock, hinv.clocks.flushed⟩, hf m' s' hrel⟩

theorem lin_setDmaRange (hw : g.WF) (b n : W) :
    Lin g c (.setDmaRange b n) (LPost g c (.setDmaRange b n)) noL (.pending (.setDmaRange b n)) m s (setDmaRange g b n) := by
  have h0 := zero_lt hw
  have hz0 : 0 < g.regions := h0
  have hH := one_self 0
  have h9 := hw.dram_le
  have hex := C01_range_exact b n
  unfold setDmaRange
  refine Lin.ite (fun hv => lnow fun s => ?_) fun hv => ?_
  · show (_, _) = ite _ _ _
    rw [if_neg]
    rintro ⟨h1, -⟩
    have := hex.1.2 h1
    rw [this] at hv; exact absurd hv (by decide)
  have hv : isValidRange b n = true := by simpa using hv
  have hor := (hex.2 hv).1
  refine Lin.ite (fun hd => lnow fun s => ?_) fun hd => ?_
  · show (_, _) = ite _ _ _
    rw [if_neg]
    rintro ⟨-, h1⟩
    have : isDramAddress g (b ||| n) = true := (isDramAddress_iff _).2 (by rw [hor]; exact h1)
    rw [this] at hd; exact absurd hd (by decide)
  have hd : (b ||| n).toNat < g.dramSize.toNat := (isDramAddress_iff _).1 (by simpa using hd)
  refine lin_first hw h0 (by exact rfl) fun m1 s1 hs1 => ?_
  dsimp only
  refine Lin.bind (lin_dmaLoop hw (2 ^ 64) b true m1 s1 hs1) ?_
  rintro res H' L' m2 s2 (⟨rfl, rfl⟩ | ⟨hres, rfl, rfl, hf2⟩)
  · exact lret
  cases res with
  | none => exact absurd rfl hres
  | some w =>
    dsimp only
    refine lin_setDmaStart fun m3 s3 h3 => ?_
    refine lin_setDmaEnd fun m4 s4 h4 => ?_
    refine lin_calm (one_lt hz0) (calm0_act_ (fun _ hh => hh) ⟨fun _ hh => Op.noConfusion hh, fun _ hh => Op.noConfusion hh⟩) fun _ m5 s5 h5 => ?_
    refine lin_calm (one_lt hz0) (calm0_act_ (fun _ hh => hh) ⟨fun _ hh => Op.noConfusion hh, fun _ hh => Op.noConfusion hh⟩) fun _ m6 s6 h6 => ?_
    have hf3 := h3.synced hz0 hH hf2.1
    have hf3' : Synced g { m3 with dmaStart := b } s3 0 := ⟨hf3.owner, hf3.stamp, hf3.pinned⟩
    have hf4 := h4.synced hz0 hH hf3'
    have hf4' : Synced g { m4 with dmaEnd := (b ||| n) + 1 } s4 0 := ⟨hf4.owner, hf4.stamp, hf4.pinned⟩
    have h56 := h5.trans h6
    refine lin_clearLock_pt hw (r := 0) h0 fun m7 s7 h7 hT => ?_
    have h57 := h56.trans h7
    have hf7 := h57.synced hz0 hH hf4'
    refine ⟨.decided _ monitorOk, { s7 with dmaStart := b, dmaEnd := (b ||| n) + 1 }, Pt.effect ?_, ?_, ⟨rfl, rfl⟩, ⟨hf7.owner, hf7.stamp, hf7.pinned⟩, fun _ => ⟨?_, ?_⟩, lret⟩
    · show (_, _) = ite _ _ _
      rw [if_pos ⟨hex.1.1 hv, by rw [← hor]; exact hd⟩]
    · refine ⟨fun _ _ _ => ⟨rfl, rfl⟩, fun hh => absurd hH hh, fun _ _ => ⟨rfl, rfl⟩, ⟨Nat.le_refl _, Nat.le_succ _⟩, Nat.le_refl _, ⟨hT.stamp, hT.flushed, ?_⟩⟩
      show b.toNat ≤ ((b ||| n) + 1).toNat
      rw [BitVec.toNat_add, show (1 : W).toNat = 1 from rfl]; omega
    · exact (h57.mdma hH).1.trans (h4.mdma hH).1
    · exact (h57.mdma hH).2

/-! ### All calls -/

/-- All covered calls take effect as specified. -/
theorem lin_call (hw : g.WF) (c : Nat) (k : Call) (m : Machine) (s : RegionTable) (hc : c < g.cores) (hk : CoveredC g k) (hn : NoLeak k) :
    Lin g c k (LPost g c k) (fun _ => False) (.pending k) m s (k.prog g) := by
  have htame : (∀ s v, TakesEffect g k s v s) → (k.prog g).Tame g c noL → Lin g c k (LPost g c k) (fun _ => False) (.pending k) m s (k.prog g) :=
    fun hk hp => tame_lin (fun _ _ _ _ _ s' _ _ => Or.inr ⟨rfl, hk s' _⟩) hp ⟨fun _ _ hh => hh.elim, fun hh => hh.elim⟩
  obtain ⟨hcov, hrec⟩ := hk
  cases k
  case acceptThread => exact hcov.elim
  case createThread => exact hn.elim
  case deleteThread => exact hn.elim
  case blockDramRegion r => exact lin_block hw hc r
  case dramRegionCheckOwnership r => exact lin_check hw hc r
  case setDmaRange b n => exact lin_setDmaRange hw b n
  case dramRegionState r => exact lin_state hw r
  case dramRegionOwner r => exact lin_owner hw r
  case assignDramRegion r e => exact lin_assign hw r e
  case freeDramRegion r => exact lin_free hw r
  case flushCachedDramRegions => exact lin_flush hw hc
  case createMetadataRegion r => exact lin_createMeta hw r
  case exitEnclave => exact htame (fun _ _ => rfl) (tame_exitEnclave hw)
  case createEnclave e b k n d => exact htame (fun _ _ => rfl) (tame_createEnclave hw ⟨hw, hcov.1, hcov.2⟩ e b k n d)
  case loadPageTable e p v l a => exact htame (fun _ _ => rfl) (tame_loadPageTable hw e p v l a)
  case loadPage e p v o a => exact htame (fun _ _ => rfl) (tame_loadPage hw e p v o a)
  case loadThread e t w x y z => exact htame (fun _ _ => rfl) (tame_loadThread hw ⟨hw, hcov.1, hcov.2⟩ e t w x y z)
  case assignThread e t => exact htame (fun _ _ => rfl) (tame_assignThread hw ⟨hw, hcov.1, hcov.2⟩ e t)
  case initEnclave e => exact htame (fun _ _ => rfl) (tame_initEnclave hw e)
  case enterEnclave e t => exact htame (fun _ _ => rfl) (tame_enterEnclave hw e t)
  case deleteEnclave e => exact htame (fun _ _ => rfl) (tame_deleteEnclave hw e)
  case copyDebugEnclavePage e a os d => exact htame (fun _ _ => rfl) (tame_copyDebug hw e a os d hcov)
  all_goals exact lnow fun _ => rfl

end Sanctum
