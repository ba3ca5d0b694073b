import Verif.Spec.Junk
import Verif.Lemmas.MetaTrack
import Verif.Lemmas.ConfineCalls2
import Verif.Props.Frame
import Verif.Props.Codes
/-
What the calls see of memory outside the monitor's.
-/
namespace Sanctum
open Machine

variable {g : Cfg} {m m' n n' : Machine}

/-! ### Machines with the same monitor -/

theorem SameMonitor.refl (m : Machine) : SameMonitor g m m := ⟨fun _ _ => rfl, rfl⟩

theorem SameMonitor.eq (h : SameMonitor g m m') : ∃ mu, m' = { m with mem := mu } ∧ ∀ x, x < g.monitorTop.toNat → mu x = m.mem x := by
  refine ⟨m'.mem, ?_, h.1⟩
  rw [← h.2]

theorem SameMonitor.low (h : SameMonitor g m m') {x : Nat} (hx : x < g.monitorTop.toNat) : m'.mem x = m.mem x := h.1 x hx

theorem SameMonitor.of {mu mu' : Nat → W} (h : ∀ x, x < g.monitorTop.toNat → mu' x = mu x) : SameMonitor g { m with mem := mu } { m with mem := mu' } :=
  ⟨h, rfl⟩

theorem SameMonitor.mems (h : SameMonitor g m m') {mu mu' : Nat → W} (hm : ∀ x, x < g.monitorTop.toNat → mu' x = mu x) :
    SameMonitor g { m with mem := mu } { m' with mem := mu' } := by
  obtain ⟨ν, rfl, -⟩ := h.eq
  exact ⟨hm, rfl⟩

theorem SameMonitor.trans (h : SameMonitor g m m') (h2 : SameMonitor g m' n) : SameMonitor g m n := by
  obtain ⟨ν, rfl, e1⟩ := h.eq
  obtain ⟨κ, rfl, e2⟩ := h2.eq
  exact ⟨fun x hx => (e2 x hx).trans (e1 x hx), rfl⟩

theorem SameMonitor.symm (h : SameMonitor g m m') : SameMonitor g m' m := by
  obtain ⟨ν, rfl, e1⟩ := h.eq
  exact ⟨fun x hx => (e1 x hx).symm, rfl⟩

theorem SameMonitor.st (h : SameMonitor g m m') (a : Nat) (v : W) : SameMonitor g (m.st a v) (m'.st a v) :=
  h.mems fun x hx => by rw [upd_apply, upd_apply, h.low hx]

theorem SameMonitor.top (h : SameMonitor g m m') : SameTop g m m' := by
  obtain ⟨ν, rfl, e1⟩ := h.eq
  exact ⟨e1, rfl, rfl⟩

section
variable (hw : g.WF) (h : SameMonitor g m m')
include hw h

theorem SameMonitor.owner {i : Nat} (hi : i < g.regions) : m'.owner g i = m.owner g i := h.low (by have := ownerA_lt hw hi; omega)
theorem SameMonitor.locked {i : Nat} (hi : i < g.regions) : m'.locked g i = m.locked g i := by
  unfold Machine.locked
  rw [h.low (by have := lockA_lt hw hi; omega)]
theorem SameMonitor.pinned {i : Nat} (hi : i < g.regions) : m'.pinned g i = m.pinned g i := h.low (by have := pinnedA_lt hw hi; omega)
theorem SameMonitor.blockedAt {i : Nat} (hi : i < g.regions) : m'.blockedAt g i = m.blockedAt g i := h.low (by have := blockedA_lt hw hi; omega)
theorem SameMonitor.clock : m'.clock g = m.clock g := h.low (by have := clockA_lt hw; omega)
theorem SameMonitor.running {c : Nat} (hc : c < g.cores) : m'.running c = m.running c := h.low (by have := coreEnclaveA_lt hw hc; omega)
theorem SameMonitor.flushedAt {c : Nat} (hc : c < g.cores) : m'.flushedAt c = m.flushedAt c := h.low (by have := flushedA_lt hw hc; omega)
theorem SameMonitor.osWord {i : Nat} (hi : i < g.regions) : m'.mem (osWordA g i) = m.mem (osWordA g i) := h.low (by have := osWordA_lt hw hi; omega)

theorem SameMonitor.setOs {i : Nat} (hi : i < g.regions) (v : Bool) : SameMonitor g (m.setBmBit g 0 i v) (m'.setBmBit g 0 i v) := by
  unfold Machine.setBmBit
  rw [show bmWordA g 0 i = osWordA g i from rfl, h.osWord hw hi]
  exact h.st _ _

theorem SameMonitor.loadMap (c : Nat) : SameMonitor g (m.loadMap g c 0) (m'.loadMap g c 0) := by
  have hs : snapshot m' g.osBitmap.toNat g.bitmapWords.toNat = snapshot m g.osBitmap.toNat g.bitmapWords.toNat := by
    unfold snapshot
    refine List.map_congr_left fun i hi => h.low ?_
    rw [List.mem_range] at hi
    have := hw.layout
    have := hw.words
    omega
  unfold Machine.loadMap
  rw [if_pos rfl, if_pos rfl, hs]
  obtain ⟨ν, rfl, e1⟩ := h.eq
  exact ⟨e1, rfl⟩
end

/-! ### What else the monitor sees -/

/-- The machines differ at most in memory outside the monitor's that it does not look at: the page maps are the same, and the lock words of enclaves
that were created are 0 in both. -/
structure Akin (g : Cfg) (m m' : Machine) : Prop where
  same : SameMonitor g m m'
  map : ∀ i, i < g.regions → m.owner g i = metadataEnclaveId → ∀ x, i * g.stripeSize.toNat ≤ x → x < i * g.stripeSize.toNat + mapBytes g → x % 8 = 0 →
    m'.mem x = m.mem x
  lock : ∀ e : W, e.toNat % 4096 = 0 → e.toNat < g.dramSize.toNat → m.owner g (regionOf g e.toNat) = metadataEnclaveId →
    m.mem (entryA g e.toNat) = (e ||| enclavePageType) → g.metaStart.toNat ≤ pageIndex g e.toNat ∧ m.mem e.toNat = 0 ∧ m'.mem e.toNat = 0

/-- Memory outside the monitor's did not change. -/
def HighKept (g : Cfg) (m n : Machine) : Prop := ∀ x, g.monitorTop.toNat ≤ x → n.mem x = m.mem x

theorem HighKept.st (h : HighKept g m n) {a : Nat} (v : W) (ha : a < g.monitorTop.toNat) : HighKept g m (n.st a v) := by
  intro x hx
  rw [mem_st, if_neg (by omega)]
  exact h x hx

theorem HighKept.loadMap (h : HighKept g m n) (c : Nat) (e : W) : HighKept g m (n.loadMap g c e) := by
  intro x hx
  rw [loadMap_mem]
  exact h x hx

theorem HighKept.refl (m : Machine) : HighKept g m m := fun _ _ => rfl

/-- The map entry of a page is in the map of its region. -/
theorem entry_in_map (hw : g.WF) (a : Nat) : regionOf g a * g.stripeSize.toNat ≤ entryA g a ∧ entryA g a < regionOf g a * g.stripeSize.toNat + mapBytes g ∧
    entryA g a % 8 = 0 ∧ 8 * 2 ^ g.sp ≤ mapBytes g := by
  have h1 := hw.metaPages
  have h2 := hw.metaStart
  have h3 : g.stripeSize.toNat % 8 = 0 := by rw [hw.stripeSize, Nat.pow_add]; omega
  have h4 : (regionOf g a * g.stripeSize.toNat) % 8 = 0 := by rw [Nat.mul_mod, h3]; simp
  have h5 : pageIndex g a < 2 ^ g.sp := Nat.mod_lt _ (Nat.two_pow_pos _)
  have h6 : 2 ^ (9 + g.sp) = 512 * 2 ^ g.sp := by rw [Nat.pow_add]
  have h7 : 2 ^ g.sp ≤ 2 ^ (g.d - g.rb - 12) := Nat.pow_le_pow_right (by omega) (by have := hw.fits; omega)
  have h8 : 2 ^ g.sp ≤ g.metaPages.toNat := by rw [h1, Nat.le_min]; omega
  unfold mapBytes entryA
  omega

theorem meta_high (hw : g.WF) (hi : Inv g m) {i : Nat} (ho : m.owner g i = metadataEnclaveId) : g.monitorTop.toNat ≤ i * g.stripeSize.toNat := by
  refine Nat.le_trans hw.top_le (region_start_ge g fun h0 => ?_)
  rw [h0, hi.region0] at ho
  exact absurd ho (by decide)

/-- Nothing outside the monitor's memory changed, on either machine. -/
theorem Akin.kept (hw : g.WF) (hi : Inv g m) (h : Akin g m m') (hs : SameMonitor g n n') (k1 : HighKept g m n) (k2 : HighKept g m' n')
    (ho : ∀ i, i < g.regions → n.owner g i = metadataEnclaveId → m.owner g i = metadataEnclaveId) : Akin g n n' := by
  have hst := hw.stripe_ge
  refine ⟨hs, fun i i1 i2 x x1 x2 x3 => ?_, fun e e1 e2 e3 e4 => ?_⟩
  · have hm := ho i i1 i2
    have := meta_high hw hi hm
    rw [k1 x (by omega), k2 x (by omega)]
    exact h.map i i1 hm x x1 x2 x3
  · have hm := ho _ (regionOf_lt hw _) e3
    have h1 := meta_high hw hi hm
    have h2 := entry_in_map hw e.toNat
    have h0 : regionOf g e.toNat ≠ 0 := fun h0 => by rw [h0, hi.region0] at hm; exact absurd hm (by decide)
    have h3 : g.monitorTop.toNat ≤ e.toNat := (page_high hw e1 e2 h0).2.2
    rw [k1 _ (by omega)] at e4
    rw [k1 _ h3, k2 _ h3]
    exact h.lock e e1 e2 hm e4

theorem Akin.inv (hw : g.WF) (hi : Inv g m) (h : Akin g m m') : Inv g m' := (h.same.top.inv hw hi).1

/-- The same call on both machines. -/
def SameCall (g : Cfg) (c : Nat) (k : Call) (m m' : Machine) : Prop :=
  ∃ v n n', call g c k m = some (v, n) ∧ call g c k m' = some (v, n') ∧ Akin g n n'

theorem SameCall.same {c : Nat} {k : Call} (h : Akin g m m') {v v' : W} (h1 : call g c k m = some (v, m)) (h2 : call g c k m' = some (v', m')) (he : v' = v) :
    SameCall g c k m m' := ⟨v, m, m', h1, he ▸ h2, h⟩

section
variable (hw : g.WF) (hi : Inv g m) (h : Akin g m m')
include hw hi h

theorem junk_free (c : Nat) (r : W) : SameCall g c (.freeDramRegion r) m m' := by
  have hi' := h.inv hw hi
  have hs := h.same
  have h1 : call g c (.freeDramRegion r) m = _ := run_free hw c r hi.locks
  have h2 : call g c (.freeDramRegion r) m' = _ := run_free hw c r hi'.locks
  by_cases hr : r.toNat < g.regions
  · have hf : FreeOk g m' r.toNat ↔ FreeOk g m r.toNat := by
      unfold FreeOk
      rw [hs.locked hw hr, hs.owner hw hr, hs.pinned hw hr, hs.blockedAt hw hr]
      have : (∀ k, k < g.cores → m.blockedAt g r.toNat ≤ m'.flushedAt k) ↔ (∀ k, k < g.cores → m.blockedAt g r.toNat ≤ m.flushedAt k) :=
        forall_congr' fun k => forall_congr' fun hk => by rw [hs.flushedAt hw hk]
      rw [this]
    by_cases hok : FreeOk g m r.toNat
    · rw [if_pos hok] at h1
      rw [if_pos (hf.2 hok)] at h2
      have hl := ownerA_lt hw hr
      refine ⟨_, _, _, h1, h2, h.kept hw hi (hs.st _ _) ((HighKept.refl m).st _ (by omega)) ((HighKept.refl m').st _ (by omega)) fun i i1 i2 => ?_⟩
      by_cases hir : i = r.toNat
      · subst hir
        rw [show (m.st (ownerA g r.toNat) freeEnclaveId).owner g r.toNat = freeEnclaveId from upd_same _ _ _] at i2
        exact absurd i2 (by decide)
      · rwa [show (m.st (ownerA g r.toNat) freeEnclaveId).owner g i = m.owner g i from upd_ne _ _ (by unfold ownerA; omega)] at i2
    · rw [if_neg hok] at h1
      rw [if_neg (fun hh => hok (hf.1 hh))] at h2
      refine SameCall.same h h1 h2 ?_
      rw [hs.locked hw hr]
  · rw [if_neg (fun hh => hr hh.1)] at h1 h2
    refine SameCall.same h h1 h2 ?_
    rw [if_pos hr, if_pos hr]

theorem junk_flush {c : Nat} (hc : c < g.cores) : SameCall g c .flushCachedDramRegions m m' := by
  have hs := h.same
  have hl := flushedA_lt hw hc
  have h1 : call g c .flushCachedDramRegions m = _ := run_flush hw hc m
  have h2 : call g c .flushCachedDramRegions m' = _ := run_flush hw hc m'
  refine ⟨_, _, _, h1, h2, h.kept hw hi ?_ (fun x hx => upd_ne _ _ (by omega)) (fun x hx => upd_ne _ _ (by omega)) fun i i1 i2 => ?_⟩
  · unfold Machine.flushed
    rw [hs.clock hw]
    obtain ⟨mu, rfl, e1⟩ := hs.eq
    exact ⟨fun x hx => by
      show upd _ _ _ _ = upd _ _ _ _
      rw [upd_apply, upd_apply]
      split
      · rfl
      · exact e1 x hx, rfl⟩
  · rwa [show (m.flushed g c).owner g i = m.owner g i from upd_ne _ _ (ownerA_ne_flushedA hw hc)] at i2

theorem junk_setDma (c : Nat) (b k : W) : SameCall g c (.setDmaRange b k) m m' := by
  have hi' := h.inv hw hi
  have hs := h.same
  have h1 : call g c (.setDmaRange b k) m = _ := run_setDma hw c b k hi.locks
  have h2 : call g c (.setDmaRange b k) m' = _ := run_setDma hw c b k hi'.locks
  have hf : DmaLoopOk g m' b k ↔ DmaLoopOk g m b k := by
    unfold DmaLoopOk BusyStripe
    rw [hs.locked hw (show 0 < g.regions by have := hw.regions_ge; omega)]
    have : ∀ j, m'.locked g (regionOf g (b.toNat + j * g.stripeSize.toNat)) = m.locked g (regionOf g (b.toNat + j * g.stripeSize.toNat)) :=
      fun j => hs.locked hw (regionOf_lt hw _)
    simp only [this]
  by_cases hok : DmaLoopOk g m b k
  · rw [if_pos hok] at h1
    rw [if_pos (hf.2 hok)] at h2
    refine ⟨_, _, _, h1, h2, h.kept hw hi ?_ (fun _ _ => rfl) (fun _ _ => rfl) fun i i1 i2 => i2⟩
    obtain ⟨mu, rfl, e1⟩ := hs.eq
    exact ⟨e1, rfl⟩
  · rw [if_neg hok] at h1
    rw [if_neg (fun hh => hok (hf.1 hh))] at h2
    exact SameCall.same h h1 h2 rfl

theorem junk_block {c : Nat} (hc : c < g.cores) (r : W) : SameCall g c (.blockDramRegion r) m m' := by
  have hi' := h.inv hw hi
  have hs := h.same
  have h1 : call g c (.blockDramRegion r) m = _ := run_block hw hc r hi.locks (hi.recordOk hc) hi.dma
  have h2 : call g c (.blockDramRegion r) m' = _ := run_block hw hc r hi'.locks (hi'.recordOk hc) hi'.dma
  have hrun : m.running c = 0 := hi.os c hc
  have hrun' : m'.running c = 0 := hi'.os c hc
  have hd1 : m'.dmaStart = m.dmaStart ∧ m'.dmaEnd = m.dmaEnd := hs.top.2
  rw [hrun] at h1
  rw [hrun'] at h2
  by_cases hr : r.toNat < g.regions
  · have hf : BlockOk g c m' r.toNat ↔ BlockOk g c m r.toNat := by
      unfold BlockOk DmaTouches
      rw [hrun, hrun', hs.locked hw hr, hs.owner hw hr, hs.locked hw (regionOf_lt hw _), hs.pinned hw hr, hd1.1, hd1.2]
    by_cases hok : BlockOk g c m r.toNat
    · rw [if_pos hok] at h1
      rw [if_pos (hf.2 hok)] at h2
      have hl1 := ownerA_lt hw hr
      have hl2 := prevA_lt hw hr
      have hl3 := blockedA_lt hw hr
      have hl4 := clockA_lt hw
      have hl5 := osWordA_lt hw hr
      have hk : ∀ m : Machine, HighKept g m (m.blocked g c r.toNat 0) := fun m =>
        (((((HighKept.refl m).st _ (by omega)).st _ (by omega)).st _ (by omega)).st _ (by omega)).st _ (show bmWordA g 0 r.toNat < _ from by
          show osWordA g r.toNat < _; omega) |>.loadMap c 0
      refine ⟨_, _, _, h1, h2, h.kept hw hi ?_ (hk m) (hk m') fun i i1 i2 => ?_⟩
      · unfold Machine.blocked
        rw [hs.clock hw]
        exact SameMonitor.loadMap hw (SameMonitor.setOs hw ((((hs.st _ _).st _ _).st _ _).st _ _) hr _) c
      · have : (m.blocked g c r.toNat 0).owner g i = if i = r.toNat then blockedEnclaveId else m.owner g i := by
          unfold Machine.blocked Machine.owner
          rw [loadMap_mem]
          unfold Machine.setBmBit
          rw [show bmWordA g 0 r.toNat = osWordA g r.toNat from rfl, mem_st, if_neg (ownerA_ne_osWordA hw i1), mem_st, if_neg (by unfold ownerA blockedA; omega), mem_st, if_neg (ownerA_ne_clockA hw i1), mem_st]
          by_cases hir : i = r.toNat
          · rw [if_pos (by rw [hir]), if_pos hir]
          · rw [if_neg (by unfold ownerA; omega), if_neg hir, mem_st, if_neg (by unfold ownerA prevA; omega)]
        rw [this] at i2
        split at i2
        · exact absurd i2 (by decide)
        · exact i2
    · rw [if_neg hok] at h1
      rw [if_neg (fun hh => hok (hf.1 hh))] at h2
      refine SameCall.same h h1 h2 ?_
      unfold blockError
      rw [hrun, hrun', hs.locked hw hr, hs.owner hw hr, hs.locked hw (regionOf_lt hw _), hs.pinned hw hr]
  · rw [if_neg (fun hh => hr hh.2.1)] at h1 h2
    refine SameCall.same h h1 h2 ?_
    unfold blockError
    rw [if_pos (fun hh => hr hh.2), if_pos (fun hh => hr hh.2)]

theorem junk_assign (c : Nat) (r e : W) : SameCall g c (.assignDramRegion r e) m m' := by
  have hi' := h.inv hw hi
  have hs := h.same
  have hrec : ∀ {m : Machine}, Inv g m → m.owner g (idRegion g e) = e → RecordOk g e := fun hi ho => by
    rw [hi.noId hw ho]; exact recordOk_zero
  have h1 : call g c (.assignDramRegion r e) m = _ := run_assign hw c r e hi.locks (hrec hi)
  have h2 : call g c (.assignDramRegion r e) m' = _ := run_assign hw c r e hi'.locks (hrec hi')
  by_cases hr : r.toNat < g.regions
  · have hf : AssignOk g m' r.toNat e ↔ AssignOk g m r.toNat e := by
      unfold AssignOk
      rw [hs.locked hw hr, hs.owner hw hr, hs.locked hw (regionOf_lt hw _), hs.owner hw (idRegion_lt hw _)]
    by_cases hok : AssignOk g m r.toNat e
    · rw [if_pos hok] at h1
      rw [if_pos (hf.2 hok)] at h2
      have he : e = 0 := hi.noId hw hok.2.2.2.2.2
      subst he
      have hl1 := ownerA_lt hw hr
      have hl5 := osWordA_lt hw hr
      have hk : ∀ m : Machine, HighKept g m (m.assigned g c r.toNat 0) := fun m => by
        unfold Machine.assigned
        rw [if_pos rfl]
        exact HighKept.loadMap (((HighKept.refl m).st _ (by omega)).st _ (show bmWordA g 0 r.toNat < _ from by show osWordA g r.toNat < _; omega)) c 0
      refine ⟨_, _, _, h1, h2, h.kept hw hi ?_ (hk m) (hk m') fun i i1 i2 => ?_⟩
      · unfold Machine.assigned
        rw [if_pos rfl, if_pos rfl]
        exact SameMonitor.loadMap hw (SameMonitor.setOs hw (hs.st _ _) hr _) c
      · have : (m.assigned g c r.toNat 0).owner g i = if i = r.toNat then 0 else m.owner g i := by
          unfold Machine.assigned Machine.owner
          rw [if_pos rfl, loadMap_mem]
          unfold Machine.setBmBit
          rw [show bmWordA g 0 r.toNat = osWordA g r.toNat from rfl, mem_st, if_neg (ownerA_ne_osWordA hw i1), mem_st]
          by_cases hir : i = r.toNat
          · rw [if_pos (by rw [hir]), if_pos hir]
          · rw [if_neg (by unfold ownerA; omega), if_neg hir]
        rw [this] at i2
        split at i2
        · exact absurd i2 (by decide)
        · exact i2
    · rw [if_neg hok] at h1
      rw [if_neg (fun hh => hok (hf.1 hh))] at h2
      refine SameCall.same h h1 h2 ?_
      unfold assignError
      rw [hs.locked hw hr, hs.owner hw hr, hs.locked hw (regionOf_lt hw _)]
  · rw [if_neg (fun hh => hr hh.1)] at h1 h2
    refine SameCall.same h h1 h2 ?_
    unfold assignError
    rw [if_pos hr, if_pos hr]
end

section
variable (hw : g.WF) (hi : Inv g m) (h : Akin g m m')
include hw hi h

theorem junk_createMeta (c : Nat) (r : W) : SameCall g c (.createMetadataRegion r) m m' := by
  have hi' := h.inv hw hi
  have hs := h.same
  have h0 : ∀ {m : Machine}, Inv g m → m.owner g 0 ≠ freeEnclaveId := fun hi => by rw [hi.region0]; decide
  have h1 : call g c (.createMetadataRegion r) m = _ := run_createMetadata hw c r hi.locks (h0 hi)
  have h2 : call g c (.createMetadataRegion r) m' = _ := run_createMetadata hw c r hi'.locks (h0 hi')
  by_cases hr : r.toNat < g.regions
  · rw [if_neg (not_not_intro hr)] at h1 h2
    rw [hs.locked hw hr, hs.owner hw hr] at h2
    by_cases hlk : m.locked g r.toNat = true
    · rw [if_pos hlk] at h1 h2
      exact SameCall.same h h1 h2 rfl
    · rw [if_neg hlk] at h1 h2
      by_cases hf : m.owner g r.toNat = freeEnclaveId
      · rw [if_pos hf] at h1 h2
        have hr0 : r.toNat ≠ 0 := fun hh => by rw [hh, hi.region0] at hf; exact absurd hf (by decide)
        have hl1 := ownerA_lt hw hr
        have hl2 := pinnedA_lt hw hr
        have htop := Nat.le_trans hw.top_le (region_start_ge g hr0)
        have hmb := mapBytes_le hw
        have hst := hw.stripe_ge
        have hmem : ∀ (m : Machine) x, g.monitorTop.toNat ≤ x → (m.madeMetadata g r.toNat).mem x =
            if r.toNat * g.stripeSize.toNat ≤ x ∧ x < r.toNat * g.stripeSize.toNat + mapBytes g ∧ x % 8 = 0 then 0 else m.mem x := by
          intro m x hx
          unfold Machine.madeMetadata
          have hx2 : ((m.st (ownerA g r.toNat) metadataEnclaveId).st (pinnedA g r.toNat) 0).mem x = m.mem x := by
            rw [mem_st, if_neg (by omega), mem_st, if_neg (by omega)]
          rw [zero_mem, hx2]
        have hown : ∀ i, i < g.regions → (m.madeMetadata g r.toNat).owner g i = if i = r.toNat then metadataEnclaveId else m.owner g i := by
          intro i i1
          have := ownerA_lt hw i1
          unfold Machine.madeMetadata Machine.owner
          rw [zero_mem, if_neg (by omega), mem_st, if_neg (by unfold ownerA pinnedA; omega), mem_st]
          by_cases hir : i = r.toNat
          · rw [if_pos (by rw [hir]), if_pos hir]
          · rw [if_neg (by unfold ownerA; omega), if_neg hir]
        have hdis : ∀ i, i ≠ r.toNat → ∀ x, i * g.stripeSize.toNat ≤ x → x < i * g.stripeSize.toNat + g.stripeSize.toNat →
            ¬ (r.toNat * g.stripeSize.toNat ≤ x ∧ x < r.toNat * g.stripeSize.toNat + mapBytes g ∧ x % 8 = 0) := by
          rintro i hir x x1 x2 ⟨x3, x4, -⟩
          rcases Nat.lt_or_gt_of_ne hir with hlt | hgt
          · have := Nat.mul_le_mul_right g.stripeSize.toNat (show i + 1 ≤ r.toNat from hlt)
            rw [Nat.succ_mul] at this
            omega
          · have := Nat.mul_le_mul_right g.stripeSize.toNat (show r.toNat + 1 ≤ i from hgt)
            rw [Nat.succ_mul] at this
            omega
        refine ⟨_, _, _, h1, h2, ?_, fun i i1 i2 x x1 x2 x3 => ?_, fun e e1 e2 e3 e4 => ?_⟩
        · unfold Machine.madeMetadata Machine.zero
          refine ((hs.st _ _).st _ _).mems fun x hx => ?_
          show ite _ _ _ = ite _ _ _
          rw [((hs.st (ownerA g r.toNat) metadataEnclaveId).st (pinnedA g r.toNat) 0).low hx]
        · rw [hown i i1] at i2
          by_cases hir : i = r.toNat
          · subst hir
            rw [hmem _ _ (by omega), hmem _ _ (by omega), if_pos ⟨x1, x2, x3⟩, if_pos ⟨x1, x2, x3⟩]
          · rw [if_neg hir] at i2
            have := meta_high hw hi i2
            have hd := hdis i hir x x1 (by omega)
            rw [hmem _ _ (by omega), hmem _ _ (by omega), if_neg hd, if_neg hd]
            exact h.map i i1 i2 x x1 x2 x3
        · have hrl := regionOf_lt hw e.toNat
          rw [hown _ hrl] at e3
          have hent := entry_in_map hw e.toNat
          by_cases hir : regionOf g e.toNat = r.toNat
          · rw [hir] at hent
            rw [hmem _ _ (by omega), if_pos ⟨by omega, by omega, by omega⟩] at e4
            exfalso
            have := congrArg (fun w : W => w.getLsbD 1) e4
            simp only [BitVec.getLsbD_or] at this
            rw [show enclavePageType.getLsbD 1 = true from rfl, Bool.or_true] at this
            exact absurd this (by decide)
          · rw [if_neg hir] at e3
            have h3 := meta_high hw hi e3
            have hreg0 : regionOf g e.toNat ≠ 0 := fun h0 => by rw [h0, hi.region0] at e3; exact absurd e3 (by decide)
            have h4 := (page_high hw e1 e2 hreg0).2.2
            rw [hmem _ _ (by omega), if_neg (hdis _ hir _ (by omega) (by omega))] at e4
            have hl := h.lock e e1 e2 e3 e4
            have hne : ¬ (r.toNat * g.stripeSize.toNat ≤ e.toNat ∧ e.toNat < r.toNat * g.stripeSize.toNat + mapBytes g ∧ e.toNat % 8 = 0) := by
              rintro ⟨x1, x2, -⟩
              exact hir (regionOf_span hw hr x1 (by rw [Nat.succ_mul]; omega))
            rw [hmem _ _ h4, hmem _ _ h4, if_neg hne, if_neg hne]
            exact hl
      · rw [if_neg hf] at h1 h2
        exact SameCall.same h h1 h2 rfl
  · rw [if_pos hr] at h1 h2
    exact SameCall.same h h1 h2 rfl

/-! ### Calls that change nothing, or one lock -/

theorem junk_check {c : Nat} (hc : c < g.cores) (r : W) : SameCall g c (.dramRegionCheckOwnership r) m m' := by
  refine SameCall.same h (run_checkOwnership hw hc r hi.locks) (run_checkOwnership hw hc r (h.inv hw hi).locks) ?_
  by_cases hr : r.toNat < g.regions
  · rw [h.same.locked hw hr, h.same.owner hw hr, h.same.running hw hc]
  · rw [if_pos (fun hh => hr hh.2), if_pos (fun hh => hr hh.2)]

theorem junk_state (c : Nat) (r : W) : SameCall g c (.dramRegionState r) m m' := by
  refine SameCall.same h (run_state hw c r hi.locks) (run_state hw c r (h.inv hw hi).locks) ?_
  by_cases hr : r.toNat < g.regions
  · rw [h.same.locked hw hr, h.same.owner hw hr]
  · rw [if_pos hr, if_pos hr]

theorem junk_owner (c : Nat) (r : W) : SameCall g c (.dramRegionOwner r) m m' := by
  refine SameCall.same h (run_owner hw c r hi.locks) (run_owner hw c r (h.inv hw hi).locks) ?_
  by_cases hr : r.toNat < g.regions
  · rw [h.same.locked hw hr, h.same.owner hw hr]
  · rw [if_pos hr, if_pos hr]

theorem idCode_none (e rest rest' : W) : idCode g m' e rest' = idCode g m e rest := by
  unfold idCode
  rw [if_pos (hi.not_valid hw e), if_pos ((h.inv hw hi).not_valid hw e), h.same.locked hw (idRegion_lt hw e)]

theorem junk_withLocked (c : Nat) (e : W) (k : W → Prog W) :
    ∃ v, run g c (withLockedEnclave g e k) m = some (v, m) ∧ run g c (withLockedEnclave g e k) m' = some (v, m') :=
  ⟨_, run_withLocked_code hw c e hi.locks k (fun hh => hi.not_valid hw e hh.1) 0,
    by rw [run_withLocked_code hw c e (h.inv hw hi).locks k (fun hh => (h.inv hw hi).not_valid hw e hh.1) 0, idCode_none hw hi h]⟩

theorem junk_loadPageTable (c : Nat) (e p v l a : W) : SameCall g c (.loadPageTable e p v l a) m m' := by
  refine SameCall.same h (C62_load_page_table hw c e p v l a hi.locks fun hv => absurd hv (hi.not_valid hw e))
    (C62_load_page_table hw c e p v l a (h.inv hw hi).locks fun hv => absurd hv ((h.inv hw hi).not_valid hw e)) ?_
  unfold loadTableCode
  rw [idCode_none hw hi h]

theorem junk_loadPage (c : Nat) (e p v o a : W) : SameCall g c (.loadPage e p v o a) m m' := by
  refine SameCall.same h (C62_load_page hw c e p v o a hi.locks fun hv => absurd hv (hi.not_valid hw e))
    (C62_load_page hw c e p v o a (h.inv hw hi).locks fun hv => absurd hv ((h.inv hw hi).not_valid hw e)) ?_
  unfold loadPageCode
  rw [idCode_none hw hi h]

theorem akin_lock {r : Nat} (hr : r < g.regions) (v : W) : Akin g (m.st (lockA g r) v) (m'.st (lockA g r) v) := by
  have hl := lockA_lt hw hr
  refine h.kept hw hi (h.same.st _ _) ((HighKept.refl m).st _ (by omega)) ((HighKept.refl m').st _ (by omega)) fun i i1 i2 => ?_
  rwa [show (m.st (lockA g r) v).owner g i = m.owner g i from upd_ne _ _ (by unfold ownerA lockA; omega)] at i2

theorem junk_createThread {c : Nat} (hc : c < g.cores) (t p : W) (hk : 304 + 8 * g.bitmapWords.toNat ≤ g.monitorTop.toNat) :
    SameCall g c (.createThread t p) m m' := by
  have hi' := h.inv hw hi
  have h1 : call g c (.createThread t p) m = _ := run_createThread_code hw hc t p hi.locks (hi.recordOk hc)
  have h2 : call g c (.createThread t p) m' = _ := run_createThread_code hw hc t p hi'.locks (hi'.recordOk hc)
  have hcode : createThreadCode g c m' p = createThreadCode g c m p := by
    unfold createThreadCode
    rw [hi.os c hc, hi'.os c hc, h.same.locked hw (regionOf_lt hw _), (h.same.st _ _).low]
    have := regionOf_lt hw p.toNat
    have := hw.words
    show 0 + 304 + _ < _
    omega
  rw [hcode] at h2
  rw [hi.os c hc] at h1
  rw [hi'.os c hc] at h2
  by_cases hok : createThreadCode g c m p = monitorOk
  · rw [if_pos hok] at h1 h2
    exact ⟨_, _, _, h1, h2, akin_lock hw hi h (regionOf_lt hw _) 1⟩
  · rw [if_neg hok] at h1 h2
    exact SameCall.same h h1 h2 rfl

theorem junk_deleteThread {c : Nat} (hc : c < g.cores) (t : W) : SameCall g c (.deleteThread t) m m' := by
  have hi' := h.inv hw hi
  have h1 : call g c (.deleteThread t) m = _ := run_deleteThread hw hc t hi.locks
  have h2 : call g c (.deleteThread t) m' = _ := run_deleteThread hw hc t hi'.locks
  rw [hi.os c hc] at h1
  rw [hi'.os c hc, h.same.locked hw (regionOf_lt hw _)] at h2
  exact ⟨_, _, _, h1, h2, akin_lock hw hi h (regionOf_lt hw _) 1⟩

/-! ### Thread calls -/

theorem metaCode_alike {a rest rest' : W} (hr : MetaPage g m a.toNat → rest' = rest) : metaCode g m' a rest' = metaCode g m a rest := by
  have hrl := regionOf_lt hw a.toNat
  unfold metaCode
  rw [h.same.locked hw hrl, h.same.owner hw hrl]
  by_cases h1 : DramPage g a
  · rw [if_neg (not_not_intro h1), if_neg (not_not_intro h1)]
    by_cases h2 : m.locked g (regionOf g a.toNat) = true
    · rw [if_pos h2, if_pos h2]
    · rw [if_neg h2, if_neg h2]
      by_cases h3 : m.owner g (regionOf g a.toNat) = metadataEnclaveId
      · rw [if_neg (not_not_intro h3), if_neg (not_not_intro h3)]
        exact hr ⟨h1.1, h1.2, Bool.eq_false_iff.2 h2, h3⟩
      · rw [if_pos h3, if_pos h3]
  · rw [if_pos h1, if_pos h1]

theorem entry_alike {a : Nat} (ho : m.owner g (regionOf g a) = metadataEnclaveId) : m'.mem (entryA g a) = m.mem (entryA g a) := by
  obtain ⟨h1, h2, h3, -⟩ := entry_in_map hw a
  exact h.map _ (regionOf_lt hw a) ho _ h1 h2 h3

theorem threadCode_alike (e t : W) : threadCode g m' e t = threadCode g m e t := by
  unfold threadCode
  refine metaCode_alike hw hi h fun hm => ?_
  rw [entry_alike hw hi h hm.2.2.2, metaCode_alike hw hi h (fun _ => rfl)]
  by_cases he : m.mem (entryA g e.toNat) = (e ||| enclavePageType)
  · obtain ⟨-, hl1, hl2⟩ := h.lock e hm.1 hm.2.1 hm.2.2.2 he
    rw [hl1, hl2]
  · rw [if_pos he, if_pos he]

theorem tried_alike {e : W} (ht : LockTried g m n e) (ht' : LockTried g m' n' e) : n = m ∧ n' = m' := by
  constructor
  · rcases ht with ht | ⟨⟨⟨e1, e2, e3, e4⟩, e5⟩, hne, -⟩
    · exact ht
    · exact absurd (h.lock e e1 e2 e4 e5).2.1 hne
  · rcases ht' with ht | ⟨⟨⟨e1, e2, e3, e4⟩, e5⟩, hne, -⟩
    · exact ht
    · rw [h.same.owner hw (regionOf_lt hw _)] at e4
      rw [entry_alike hw hi h e4] at e5
      exact absurd (h.lock e e1 e2 e4 e5).2.2 hne

theorem junk_assignThread (hs : g.SingleStripe) (hsh : g.ShiftOk) (c : Nat) (e t : W) : SameCall g c (.assignThread e t) m m' := by
  have hM : g.MetaOk := ⟨hw, hs, hsh⟩
  obtain ⟨n, h1, ht⟩ := run_assignThread_code hM c e t hi.locks hi.region0
  obtain ⟨n', h2, ht'⟩ := run_assignThread_code hM c e t (h.inv hw hi).locks (h.inv hw hi).region0
  obtain ⟨rfl, rfl⟩ := tried_alike hw hi h ht ht'
  exact SameCall.same h h1 h2 (threadCode_alike hw hi h e t)

theorem junk_loadThread (hs : g.SingleStripe) (hsh : g.ShiftOk) (c : Nat) (e t x y z w : W) : SameCall g c (.loadThread e t x y z w) m m' := by
  have hM : g.MetaOk := ⟨hw, hs, hsh⟩
  obtain ⟨n, h1, ht⟩ := run_loadThread_code hM c e t x y z w hi.locks hi.region0
  obtain ⟨n', h2, ht'⟩ := run_loadThread_code hM c e t x y z w (h.inv hw hi).locks (h.inv hw hi).region0
  obtain ⟨rfl, rfl⟩ := tried_alike hw hi h ht ht'
  exact SameCall.same h h1 h2 (threadCode_alike hw hi h e t)

/-! ### Debug copies, enclaves and software -/

/-- Only words of the OS outside the monitor's memory changed, on either machine. -/
theorem akin_os {mu mu' : Nat → W} (h1 : ∀ x, mu x = m.mem x ∨ (x < g.dramSize.toNat ∧ g.monitorTop.toNat ≤ x ∧ m.owner g (regionOf g x) = nullEnclaveId))
    (h2 : ∀ x, mu' x = m'.mem x ∨ (x < g.dramSize.toNat ∧ g.monitorTop.toNat ≤ x ∧ m.owner g (regionOf g x) = nullEnclaveId)) :
    Akin g { m with mem := mu } { m' with mem := mu' } := by
  have hlow1 : ∀ x, x < g.monitorTop.toNat → mu x = m.mem x := fun x hx => (h1 x).resolve_right fun hh => by omega
  have hlow2 : ∀ x, x < g.monitorTop.toNat → mu' x = m'.mem x := fun x hx => (h2 x).resolve_right fun hh => by omega
  have hmb := mapBytes_le hw
  have hno : ∀ x, m.owner g (regionOf g x) = metadataEnclaveId → mu x = m.mem x ∧ mu' x = m'.mem x := fun x ho =>
    ⟨(h1 x).resolve_right fun hh => by rw [ho] at hh; exact absurd hh.2.2 (by decide),
     (h2 x).resolve_right fun hh => by rw [ho] at hh; exact absurd hh.2.2 (by decide)⟩
  have hown : ∀ i, i < g.regions → ({ m with mem := mu } : Machine).owner g i = m.owner g i := fun i hi => hlow1 _ (by have := ownerA_lt hw hi; omega)
  refine ⟨h.same.mems fun x hx => by rw [hlow1 x hx, hlow2 x hx, h.same.low hx], fun i i1 i2 x x1 x2 x3 => ?_, fun e e1 e2 e3 e4 => ?_⟩
  · rw [hown i i1] at i2
    have hreg := regionOf_span hw i1 x1 (by rw [Nat.succ_mul]; omega)
    obtain ⟨q1, q2⟩ := hno x (by rw [hreg]; exact i2)
    show mu' x = mu x
    rw [q1, q2]
    exact h.map i i1 i2 x x1 x2 x3
  · have hrl := regionOf_lt hw e.toNat
    rw [hown _ hrl] at e3
    obtain ⟨x1, x2, x3, -⟩ := entry_in_map hw e.toNat
    have hreg := regionOf_span hw hrl x1 (by rw [Nat.succ_mul]; omega)
    have e4 : mu _ = _ := e4
    rw [(hno _ (by rw [hreg]; exact e3)).1] at e4
    show _ ∧ mu _ = 0 ∧ mu' _ = 0
    rw [(hno _ e3).1, (hno _ e3).2]
    exact h.lock e e1 e2 e3 e4

theorem junk_copyDebug (c : Nat) (a os : W) (d : Bool) (ha : g.monitorTop.toNat ≤ a.toNat) : SameCall g c (.copyDebugEnclavePage 0 a os d) m m' := by
  have hi' := h.inv hw hi
  obtain ⟨p1, p2⟩ := run_copyDebug_code hw c 0 a os d hi.locks recordOk_zero
  obtain ⟨q1, q2⟩ := run_copyDebug_code hw c 0 a os d hi'.locks recordOk_zero
  have hcode : copyCode g m' 0 a os = copyCode g m 0 a os := by
    have h24 : m'.isDebug 0 = m.isDebug 0 := h.same.low (by have := flushedA_lt hw hw.cores_pos; unfold flushedA at this; show 0 + 24 < _; omega)
    have hbm : m'.bmBit g 0 (regionOf g a.toNat) = m.bmBit g 0 (regionOf g a.toNat) := by
      rw [bmBit_zero, bmBit_zero]
      unfold Machine.osBit
      rw [h.same.osWord hw (regionOf_lt hw _)]
    unfold copyCode
    rw [h.same.locked hw (idRegion_lt hw _), h.same.locked hw (regionOf_lt hw _), h24, hbm, h.same.owner hw (idRegion_lt hw _), h.same.owner hw (regionOf_lt hw _)]
  by_cases hok : CopyOk g m 0 a os
  · have hok' : CopyOk g m' 0 a os := (copyCode_iff m' 0 a os).1 (hcode.trans ((copyCode_iff m 0 a os).2 hok))
    obtain ⟨c1, c2, c3, c4, c5, c6, c7, c8, c9⟩ := id hok
    have hos0 : regionOf g os.toNat ≠ 0 := by
      have hid : idRegion g 0 = 0 := by
        unfold idRegion
        split
        · show regionOf g 0 = 0
          unfold regionOf; simp
        · rfl
      rwa [hid] at c4
    have hos := page_high hw c2.1 c2.2 hos0
    have hown : m.owner g (regionOf g a.toNat) = nullEnclaveId := by
      rw [bmBit_zero] at c7
      exact (hi.bitmap _ (regionOf_lt hw _)).1 c7
    have hdm := dram_mod hw
    obtain ⟨a1, a2⟩ := c1
    obtain ⟨o1, o2⟩ := c2
    have hcp : ∀ (m1 : Machine) (p q : W), p.toNat % 4096 = 0 → p.toNat < g.dramSize.toNat → g.monitorTop.toNat ≤ p.toNat → m.owner g (regionOf g p.toNat) = nullEnclaveId →
        ∀ x, copied m1.mem 512 p.toNat q.toNat x = m1.mem x ∨ (x < g.dramSize.toNat ∧ g.monitorTop.toNat ≤ x ∧ m.owner g (regionOf g x) = nullEnclaveId) := by
      intro m1 p q z1 z2 z3 z4 x
      unfold copied
      split
      · rename_i hx
        refine Or.inr ⟨by omega, by omega, ?_⟩
        rw [page_region hw z1 hx.1 (by omega)]
        exact z4
      · exact Or.inl rfl
    refine ⟨_, _, _, p2 hok ha hos.2.2, q2 hok' ha hos.2.2, akin_os hw hi h ?_ ?_⟩
    · cases d
      · exact hcp m a os a1 a2 ha hown
      · exact hcp m os a o1 o2 hos.2.2 c8
    · cases d
      · exact hcp m' a os a1 a2 ha hown
      · exact hcp m' os a o1 o2 hos.2.2 c8
  · have hok' : ¬ CopyOk g m' 0 a os := fun hh => hok ((copyCode_iff m 0 a os).1 (hcode.symm.trans ((copyCode_iff m' 0 a os).2 hh)))
    exact SameCall.same h (p1 hok) (q1 hok') hcode

theorem junk_createEnclave (hs : g.SingleStripe) (hsh : g.ShiftOk) (c : Nat) (e b k n : W) (d : Bool) (he : g.metaStart.toNat ≤ pageIndex g e.toNat)
    (hn : 304 + 8 * g.bitmapWords.toNat + 304 * n.toNat + 4095 < 2 ^ 64) : SameCall g c (.createEnclave e b k n d) m m' := by
  have hM : g.MetaOk := ⟨hw, hs, hsh⟩
  have hi' := h.inv hw hi
  obtain ⟨p1, p2⟩ := run_createEnclave hM c e b k n d hi.locks hi.region0
  obtain ⟨q1, q2⟩ := run_createEnclave hM c e b k n d hi'.locks hi'.region0
  have hmp : MetaPage g m' e.toNat ↔ MetaPage g m e.toNat := by
    unfold MetaPage
    rw [h.same.locked hw (regionOf_lt hw _), h.same.owner hw (regionOf_lt hw _)]
  obtain ⟨x1, x2, x3, x4⟩ := entry_in_map hw e.toNat
  have hent : MetaPage g m e.toNat → ∀ j, pageIndex g e.toNat + j < 2 ^ g.sp → m'.mem (entryA g e.toNat + 8 * j) = m.mem (entryA g e.toNat + 8 * j) := by
    intro hm j hj
    refine h.map _ (regionOf_lt hw _) hm.2.2.2 _ (by omega) ?_ (by omega)
    unfold entryA
    omega
  have hok2 : CreateOk g m' e b k n ↔ CreateOk g m e b k n := by
    unfold CreateOk
    rw [hmp]
    refine and_congr_right fun _ => and_congr_right fun hm => and_congr_right fun hp => forall_congr' fun j => forall_congr' fun hj => ?_
    rw [hent hm j (by omega)]
  by_cases hok : CreateOk g m e b k n
  · obtain ⟨mu, r1, f1, t1, k1⟩ := p1 hok
    obtain ⟨mu', r2, f2, t2, k2⟩ := q1 (hok2.2 hok)
    obtain ⟨-, ⟨m1, m2, m3, m4⟩, hfit, -⟩ := id hok
    obtain ⟨t1a, t1b⟩ := t1 he
    obtain ⟨t2a, t2b⟩ := t2 he
    have hpages : 1 ≤ recordPages g n.toNat := by
      unfold recordPages
      rw [Nat.mod_eq_of_lt hn]
      omega
    have hlow1 : ∀ x, x < g.monitorTop.toNat → mu x = m.mem x := fun x hx => k1 x fun hh => by have := create_above hM hi.region0 hok hh; omega
    have hlow2 : ∀ x, x < g.monitorTop.toNat → mu' x = m'.mem x := fun x hx => k2 x fun hh => by
      have := create_above hM hi'.region0 (hok2.2 hok) hh; omega
    have hown : ∀ i, i < g.regions → ({ m with mem := mu } : Machine).owner g i = m.owner g i := fun i hi => hlow1 _ (by have := ownerA_lt hw hi; omega)
    have hmb := mapBytes_le hw
    have hpg := page_in_region hM m2 m1
    have habove : regionOf g e.toNat * g.stripeSize.toNat + mapBytes g ≤ e.toNat := by unfold mapBytes; omega
    have hrle := regionOf_lt hw e.toNat
    -- a word of a map is in the record of no page
    have hrec : ∀ i, i < g.regions → ∀ x, i * g.stripeSize.toNat ≤ x → x < i * g.stripeSize.toNat + mapBytes g → ¬ (e.toNat ≤ x ∧ x < e.toNat + 304) := by
      rintro i i1 x y1 y2 ⟨y3, y4⟩
      have z1 := regionOf_span hw i1 y1 (by rw [Nat.succ_mul]; omega)
      have z2 := page_region hw m1 y3 (show x < e.toNat + 4096 by omega)
      rw [z1] at z2
      subst z2
      omega
    -- the entries that were written
    have hval : ∀ x, (x = entryA g e.toNat ∨ ∃ j, j + 1 < recordPages g n.toNat ∧ x = entryA g e.toNat + 8 * j) →
        mu' x = mu x ∧ (mu x = innerPageType ∨ (x = entryA g e.toNat ∧ mu x = (e ||| enclavePageType))) := by
      have hinner : ∀ j, j + 1 < recordPages g n.toNat → mu' (entryA g e.toNat + 8 * j) = mu (entryA g e.toNat + 8 * j) ∧
          mu (entryA g e.toNat + 8 * j) = innerPageType := fun j hj => ⟨(t2b j hj).trans (t1b j hj).symm, t1b j hj⟩
      rintro x (rfl | ⟨j, hj, rfl⟩)
      · rcases Nat.lt_or_ge 1 (recordPages g n.toNat) with h1 | h1
        · have := hinner 0 (by omega)
          exact ⟨this.1, Or.inl this.2⟩
        · exact ⟨(t2a h1).trans (t1a h1).symm, Or.inr ⟨rfl, t1a h1⟩⟩
      · exact ⟨(hinner j hj).1, Or.inl (hinner j hj).2⟩
    have hmap : ∀ i, i < g.regions → m.owner g i = metadataEnclaveId → ∀ x, i * g.stripeSize.toNat ≤ x → x < i * g.stripeSize.toNat + mapBytes g → x % 8 = 0 →
        mu' x = mu x := by
      intro i i1 i2 x y1 y2 y3
      rcases Classical.em (createSet g e n x) with hx | hx
      · rcases hx with hx | hx
        · exact absurd hx (hrec i i1 x y1 y2)
        · exact (hval x hx).1
      · rw [k1 x hx, k2 x hx]
        exact h.map i i1 i2 x y1 y2 y3
    refine ⟨_, _, _, r1, r2, ⟨h.same.mems fun x hx => by rw [hlow1 x hx, hlow2 x hx, h.same.low hx], fun i i1 i2 => hmap i i1 (by rwa [hown i i1] at i2),
      fun e2 z1 z2 z3 z4 => ?_⟩⟩
    have hrl := regionOf_lt hw e2.toNat
    rw [hown _ hrl] at z3
    have z4 : mu _ = _ := z4
    show _ ∧ mu _ = 0 ∧ mu' _ = 0
    obtain ⟨w1, w2, w3, -⟩ := entry_in_map hw e2.toNat
    have hreg2 := regionOf_span hw hrl w1 (by rw [Nat.succ_mul]; omega)
    have hreg1 := regionOf_span hw hrle x1 (by rw [Nat.succ_mul]; omega)
    rcases Classical.em (createSet g e n (entryA g e2.toNat)) with hx | hx
    · rcases hx with hx | hx
      · exact absurd hx (hrec _ hrl _ w1 w2)
      · rcases (hval _ hx).2 with hv | ⟨hv, -⟩
        · rw [hv] at z4
          exfalso
          have := congrArg (fun w : W => w.getLsbD 1) z4
          simp only [BitVec.getLsbD_or] at this
          rw [show enclavePageType.getLsbD 1 = true from rfl, Bool.or_true] at this
          exact absurd this (by decide)
        · have hre : regionOf g e2.toNat = regionOf g e.toNat := by rw [← hreg2, hv, hreg1]
          have hpg2 := page_in_region hM z2 z1
          have hidx : pageIndex g e2.toNat = pageIndex g e.toNat := by
            unfold entryA at hv
            rw [hre] at hv
            omega
          have hee : e2.toNat = e.toNat := by rw [hpg2, hpg, hre, hidx]
          rw [hee]
          exact ⟨he, f1.lock, f2.lock⟩
    · rw [k1 _ hx] at z4
      obtain ⟨l1, l2, l3⟩ := h.lock e2 z1 z2 z3 z4
      refine ⟨l1, ?_⟩
      rcases Classical.em (createSet g e n e2.toNat) with hy | hy
      · rcases hy with hy | hy
        · have hee : e2.toNat = e.toNat := by omega
          rw [hee]
          exact ⟨f1.lock, f2.lock⟩
        · exfalso
          have hpg2 := page_in_region hM z2 z1
          have hin : regionOf g e.toNat * g.stripeSize.toNat ≤ e2.toNat ∧ e2.toNat < regionOf g e.toNat * g.stripeSize.toNat + mapBytes g := by
            rcases hy with hy | ⟨j, hj, hy⟩
            · omega
            · unfold entryA at hy
              omega
          have hre := regionOf_span hw hrle hin.1 (by rw [Nat.succ_mul]; omega)
          rw [hre] at hpg2
          unfold mapBytes at hin
          omega
      · rw [k1 _ hy, k2 _ hy]
        exact ⟨l2, l3⟩
  · obtain ⟨v, r1, -⟩ := p2 hok
    obtain ⟨v', r2, -⟩ := q2 (fun hh => hok (hok2.1 hh))
    obtain ⟨_, s1⟩ := C62_create_enclave hw hs hsh c e b k n d hi.locks hi.region0
    obtain ⟨_, s2⟩ := C62_create_enclave hw hs hsh c e b k n d hi'.locks hi'.region0
    have hcode : createCode g m' e b k n = createCode g m e b k n := by
      unfold createCode
      by_cases hr : ∃ k_1, 12 ≤ k_1 ∧ k_1 < 64 ∧ k.toNat = 2 ^ k_1 - 1 ∧ 2 ^ k_1 ∣ b.toNat
      · rw [if_neg (not_not_intro hr), if_neg (not_not_intro hr)]
        refine metaCode_alike hw hi h fun hm => ?_
        by_cases hf : 2 ^ g.sp < pageIndex g e.toNat + recordPages g n.toNat
        · rw [if_pos hf, if_pos hf]
        · rw [if_neg hf, if_neg hf]
          have : (∃ j, j < recordPages g n.toNat ∧ m'.mem (entryA g e.toNat + 8 * j) ≠ 0) ↔ (∃ j, j < recordPages g n.toNat ∧ m.mem (entryA g e.toNat + 8 * j) ≠ 0) :=
            exists_congr fun j => and_congr_right fun hj => by rw [hent hm j (by omega)]
          by_cases hx : ∃ j, j < recordPages g n.toNat ∧ m.mem (entryA g e.toNat + 8 * j) ≠ 0
          · rw [if_pos hx, if_pos (this.2 hx)]
          · rw [if_neg hx, if_neg (fun hh => hx (this.1 hh))]
      · rw [if_pos hr, if_pos hr]
    have r1' : call g c (.createEnclave e b k n d) m = _ := r1
    have r2' : call g c (.createEnclave e b k n d) m' = _ := r2
    refine SameCall.same h r1' r2' ?_
    rw [r1'] at s1
    rw [r2', hcode] at s2
    injection s1 with s1
    injection s2 with s2
    rw [Prod.mk.injEq] at s1 s2
    rw [s1.1, s2.1]

/-- Every call of the theorem. -/
theorem junk_call {c : Nat} (hc : c < g.cores) {k : Call} (hk : Sober g k) : SameCall g c k m m' := by
  cases k with
  | dramSize => exact SameCall.same h rfl rfl rfl
  | dramRegionMask => exact SameCall.same h rfl rfl rfl
  | blockDramRegion r => exact junk_block hw hi h hc r
  | dramRegionCheckOwnership r => exact junk_check hw hi h hc r
  | acceptThread t i => exact absurd hk id
  | exitEnclave => exact SameCall.same h (run_exitEnclave hw hc m) (run_exitEnclave hw hc m') rfl
  | setDmaRange b n => exact junk_setDma hw hi h c b n
  | dramRegionState r => exact junk_state hw hi h c r
  | dramRegionOwner r => exact junk_owner hw hi h c r
  | assignDramRegion r e => exact junk_assign hw hi h c r e
  | freeDramRegion r => exact junk_free hw hi h c r
  | flushCachedDramRegions => exact junk_flush hw hi h hc
  | createMetadataRegion r => exact junk_createMeta hw hi h c r
  | metadataRegionPages => exact SameCall.same h rfl rfl rfl
  | metadataRegionStart => exact SameCall.same h rfl rfl rfl
  | threadMetadataPages => exact SameCall.same h rfl rfl rfl
  | enclaveMetadataPages n => exact SameCall.same h rfl rfl rfl
  | createEnclave e b k n d => exact junk_createEnclave hw hi h hk.1 hk.2.1 c e b k n d hk.2.2.1 hk.2.2.2
  | loadPageTable e p v l a => exact junk_loadPageTable hw hi h c e p v l a
  | loadPage e p v o a => exact junk_loadPage hw hi h c e p v o a
  | loadThread e t a b p q => exact junk_loadThread hw hi h hk.1 hk.2 c e t a b p q
  | assignThread e t => exact junk_assignThread hw hi h hk.1 hk.2 c e t
  | initEnclave e =>
      show ∃ v n n', run g c (initEnclave g e) m = some (v, n) ∧ run g c (initEnclave g e) m' = some (v, n') ∧ Akin g n n'
      unfold initEnclave
      obtain ⟨v, h1, h2⟩ := junk_withLocked hw hi h c e _
      exact ⟨v, m, m', h1, h2, h⟩
  | enterEnclave e t =>
      show ∃ v n n', run g c (enterEnclave g e t) m = some (v, n) ∧ run g c (enterEnclave g e t) m' = some (v, n') ∧ Akin g n n'
      unfold enterEnclave
      obtain ⟨v, h1, h2⟩ := junk_withLocked hw hi h c e _
      exact ⟨v, m, m', h1, h2, h⟩
  | createThread t p => exact junk_createThread hw hi h hc t p hk
  | deleteThread t => exact junk_deleteThread hw hi h hc t
  | deleteEnclave e =>
      show ∃ v n n', run g c (deleteEnclave g e) m = some (v, n) ∧ run g c (deleteEnclave g e) m' = some (v, n') ∧ Akin g n n'
      unfold deleteEnclave
      obtain ⟨v, h1, h2⟩ := junk_withLocked hw hi h c e _
      exact ⟨v, m, m', h1, h2, h⟩
  | copyDebugEnclavePage e a os d =>
      obtain ⟨rfl, ha⟩ := hk
      exact junk_copyDebug hw hi h c a os d ha

end

end Sanctum
