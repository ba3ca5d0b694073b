import Verif.Props.Isolation
import Verif.Props.Frame
import Verif.Props.Enclave
/-
C64: what the timestamps count. C65: no region is ever lost, whatever the history.
-/
namespace Sanctum
open Machine

variable {g : Cfg}

/-! ### C64 -/

/-- The number of successful `block_dram_region` calls in `l`. -/
def blocksIn (l : List Event) : Nat :=
  l.countP fun x => decide (x.result = monitorOk) && match x.call with | .blockDramRegion _ => true | _ => false

theorem clock_call (h : g.WF) {c : Nat} (hc : c < g.cores) {k : Call} (hk : Covered g k) {m m' : Machine} {v : W} (hi : Inv g m)
    (hr : call g c k m = some (v, m')) : m'.clock g = m.clock g + BitVec.ofNat 64 (blocksIn [⟨c, k, v⟩]) := by
  have tr := track_call h hc hk hi hr
  have hother : (∀ r, k ≠ .blockDramRegion r) → m'.clock g = m.clock g + BitVec.ofNat 64 (blocksIn [⟨c, k, v⟩]) := by
    intro hne
    have h0 : blocksIn [⟨c, k, v⟩] = 0 := by
      unfold blocksIn
      rw [List.countP_eq_zero]
      intro x hx
      rw [List.mem_singleton] at hx
      subst hx
      cases k <;> simp
      exact absurd rfl (hne _)
    rcases tr.clock with hh | ⟨⟨r, hh⟩, -⟩
    · rw [h0, hh]; simp
    · exact absurd hh (hne r)
  cases k with
  | blockDramRegion r =>
      have hs := hi.stateOk h hc
      obtain ⟨v1, m1, q1, q2, q3, q4⟩ := C15_block_exact h hc r hs.locks hs.caller hs.dma
      rw [q1] at hr
      cases hr
      by_cases hv : v = monitorOk
      · have h1 : blocksIn [⟨c, .blockDramRegion r, v⟩] = 1 := by
          unfold blocksIn; rw [hv]; rfl
        rw [h1, (q3 hv).clock]; rfl
      · have h1 : blocksIn [⟨c, .blockDramRegion r, v⟩] = 0 := by
          unfold blocksIn
          rw [List.countP_eq_zero]
          intro x hx
          rw [List.mem_singleton] at hx
          subst hx
          simp [hv]
        rw [h1, q4 hv]; simp
  | _ => exact hother (fun _ hh => by cases hh)

theorem blocksIn_append (l1 l2 : List Event) : blocksIn (l1 ++ l2) = blocksIn l1 + blocksIn l2 := List.countP_append

theorem clock_hist (h : g.WF) {m m' : Machine} {l : List Event} (hh : Hist g m l m') (hk : CoveredHist g l) (hi : Inv g m) :
    m'.clock g = m.clock g + BitVec.ofNat 64 (blocksIn l) := by
  induction hh with
  | nil m => simp [blocksIn]
  | @cons m m1 m2 c k v l hc hcall hrest ih =>
      have hkc := hk _ List.mem_cons_self
      have st := step_call h hc hkc hi hcall
      rw [ih (fun x hx => hk x (List.mem_cons_of_mem _ hx)) st.inv, clock_call h hc hkc hi hcall,
        show ((⟨c, k, v⟩ : Event) :: l) = [⟨c, k, v⟩] ++ l from rfl, blocksIn_append, BitVec.ofNat_add, BitVec.add_assoc]
  | soft hs hrest ih =>
      have hst := step_soft h hi hs
      rw [ih hk hst.1]
      congr 1
      obtain ⟨a, v, ha, rfl⟩ := hs
      exact (sameTop_st (g := g) ha v).1 _ (by have := clockA_lt h; omega)

/-- C64. In every history from boot, the monitor's clock is the number of successful `block_dram_region` calls so far (modulo `2^64`); a successful
block stamps its region with that number, a flush stamps the core with it. -/
theorem C64_clock {m1 : Machine} (hb : FromBoot g m1) {l : List Event} {m2 : Machine} (hh : Hist g m1 l m2) (hk : CoveredHist g l) :
    m2.clock g = BitVec.ofNat 64 (blocksIn l) ∧
    (∀ c r m3, c < g.cores → call g c (.blockDramRegion r) m2 = some (monitorOk, m3) → m3.blockedAt g r.toNat = BitVec.ofNat 64 (blocksIn l)) ∧
    (∀ c m3, c < g.cores → call g c .flushCachedDramRegions m2 = some (monitorOk, m3) → m3.flushedAt c = BitVec.ofNat 64 (blocksIn l)) := by
  have h := hb.wf
  have hi := hist_inv h hh hk hb.inv
  have h0 : m2.clock g = BitVec.ofNat 64 (blocksIn l) := by
    obtain ⟨p, m0, hp, hboot, -⟩ := id hb
    rw [clock_hist h hh hk hb.inv, (C12_boot_state hp hboot).clock]; simp
  refine ⟨h0, fun c r m3 hc hr => ?_, fun c m3 hc hr => ?_⟩
  · have hs := hi.stateOk h hc
    obtain ⟨v1, q0, q1, q2, q3, q4⟩ := C15_block_exact h hc r hs.locks hs.caller hs.dma
    rw [hr] at q1
    cases q1
    rw [(q3 rfl).time, h0]
  · obtain ⟨q0, q1, q2⟩ := C50_flush_exact h hc m2
    rw [hr] at q1
    cases q1
    rw [q2.time, h0]

/-- The timestamps are not in the future. -/
theorem stamps_call (h : g.WF) {c : Nat} (hc : c < g.cores) {k : Call} (hk : Covered g k) {m m' : Machine} {v : W} (hi : Inv g m)
    (hr : call g c k m = some (v, m')) (hlt : (m.clock g).toNat + 1 < 2 ^ 64) (hp : ∀ i, i < g.regions → m.blockedAt g i ≤ m.clock g) :
    ∀ i, i < g.regions → m'.blockedAt g i ≤ m'.clock g := by
  have tr := track_call h hc hk hi hr
  have hle : (m.clock g).toNat ≤ (m'.clock g).toNat := by
    rcases tr.clock with hh | ⟨-, -, hh⟩
    · rw [hh]; exact Nat.le_refl _
    · rw [hh, BitVec.toNat_add, show (1 : W).toNat = 1 from rfl, Nat.mod_eq_of_lt hlt]; omega
  intro i hlt
  rw [W.le_iff]
  rcases tr.blockedAt i hlt with hh | ⟨r, -, -, -, hh⟩
  · have := hp i hlt
    rw [W.le_iff] at this
    rw [hh]; omega
  · rw [hh]; exact hle

theorem stamps_hist (h : g.WF) {m m' : Machine} {l : List Event} (hh : Hist g m l m') (hk : CoveredHist g l) (hi : Inv g m)
    (hlt : (m.clock g).toNat + l.length < 2 ^ 64) (hp : ∀ i, i < g.regions → m.blockedAt g i ≤ m.clock g) :
    ∀ i, i < g.regions → m'.blockedAt g i ≤ m'.clock g := by
  induction hh with
  | nil m => exact hp
  | @cons m m1 m2 c k v l hc hcall hrest ih =>
      have hkc := hk _ List.mem_cons_self
      have st := step_call h hc hkc hi hcall
      rw [List.length_cons] at hlt
      have tr := track_call h hc hkc hi hcall
      refine ih (fun x hx => hk x (List.mem_cons_of_mem _ hx)) st.inv ?_ (stamps_call h hc hkc hi hcall (by omega) hp)
      rcases tr.clock with hh | ⟨-, -, hh⟩
      · rw [hh]; omega
      · rw [hh, BitVec.toNat_add, show (1 : W).toNat = 1 from rfl, Nat.mod_eq_of_lt (by omega)]; omega
  | soft hs hrest ih =>
      have hst := step_soft h hi hs
      obtain ⟨a, v, ha, rfl⟩ := hs
      have h1 : ∀ (n : Machine) x, x < g.monitorTop.toNat → ({ n with mem := upd n.mem a v } : Machine).mem x = n.mem x :=
        fun n x hx => upd_ne _ _ (by omega)
      have hck := fun n => h1 n (clockA g) (by have := clockA_lt h; omega)
      refine ih hk hst.1 ?_ (fun i hlt => ?_)
      · unfold Machine.clock at *; rw [hck]; exact hlt
      · have h1 := fun n => h1 n (blockedA g i) (by have := blockedA_lt h hlt; omega)
        have := hp i hlt
        unfold Machine.clock Machine.blockedAt at *
        rw [hck, h1]; exact this

/-- C64. In every history of less than `2^64` calls from boot, no region's block time is in the future, and neither is a core's flush time (if the core
records were zero at boot). -/
theorem C64_stamps {m1 : Machine} (hb : FromBoot g m1) {l : List Event} {m2 : Machine} (hh : Hist g m1 l m2) (hk : CoveredHist g l)
    (hlen : l.length < 2 ^ 64) :
    (∀ i, i < g.regions → m2.blockedAt g i ≤ m2.clock g) ∧
    ((∀ c, c < g.cores → m1.flushedAt c = 0) → ∀ c, c < g.cores → m2.flushedAt c ≤ m2.clock g) := by
  have h := hb.wf
  obtain ⟨p, m0, hp, hboot, -⟩ := id hb
  have hbs := C12_boot_state hp hboot
  have hc0 : (m1.clock g).toNat = 0 := by rw [hbs.clock]; rfl
  refine ⟨stamps_hist h hh hk hb.inv (by omega) (fun i hi => by rw [(hbs.owned i hi).2.2.2, hbs.clock]; exact (W.le_iff _ _).2 (Nat.le_refl _)), fun hf c hc => ?_⟩
  rw [W.le_iff]
  exact (track_hist h hh hk hb.inv).flushed_le (by omega) (fun c hc => by rw [hf c hc]; exact Nat.zero_le _) c hc

/-! ### C65 -/

/-- A state in which the OS can go on: the invariant, no lock is taken, blocked regions were blocked in the past, metadata regions are not pinned. -/
structure Calm (g : Cfg) (m : Machine) : Prop where
  inv : Inv g m
  unlocked : AllUnlocked g m
  stamps : ∀ i, i < g.regions → m.blockedAt g i ≤ m.clock g
  pinned : ∀ i, i < g.regions → m.owner g i = metadataEnclaveId → m.pinned g i = 0

/-- From `m`, the successful calls `l` lead to `m'`, which is calm; only the owner of `r` has changed. -/
structure Moved (g : Cfg) (r : W) (l : List Event) (m m' : Machine) : Prop where
  hist : Hist g m l m'
  ok : ∀ x ∈ l, x.result = monitorOk
  covered : CoveredHist g l
  calm : Calm g m'
  others : ∀ i, i < g.regions → i ≠ r.toNat → m'.owner g i = m.owner g i
  dma : m'.dmaStart = m.dmaStart ∧ m'.dmaEnd = m.dmaEnd

theorem Moved.nil {m : Machine} (hc : Calm g m) (r : W) : Moved g r [] m m :=
  ⟨.nil m, fun _ hx => absurd hx List.not_mem_nil, fun _ hx => absurd hx List.not_mem_nil, hc, fun _ _ _ => rfl, rfl, rfl⟩

theorem Hist.trans {m m1 m2 : Machine} {l1 l2 : List Event} (h1 : Hist g m l1 m1) (h2 : Hist g m1 l2 m2) : Hist g m (l1 ++ l2) m2 := by
  induction h1 with
  | nil => exact h2
  | cons hc hcall _ ih => exact .cons hc hcall (ih h2)
  | soft hs _ ih => exact .soft hs (ih h2)

theorem Moved.trans {r : W} {l1 l2 : List Event} {m m1 m2 : Machine} (h1 : Moved g r l1 m m1) (h2 : Moved g r l2 m1 m2) : Moved g r (l1 ++ l2) m m2 := by
  refine ⟨h1.hist.trans h2.hist, fun x hx => ?_, fun x hx => ?_, h2.calm, fun i hi hne => (h2.others i hi hne).trans (h1.others i hi hne),
    h2.dma.1.trans h1.dma.1, h2.dma.2.trans h1.dma.2⟩
  · rcases List.mem_append.1 hx with hx | hx
    · exact h1.ok x hx
    · exact h2.ok x hx
  · rcases List.mem_append.1 hx with hx | hx
    · exact h1.covered x hx
    · exact h2.covered x hx

/-- The calls of the round trip. -/
def TripCall (r : W) (k : Call) : Prop :=
  k = .blockDramRegion r ∨ k = .freeDramRegion r ∨ k = .createMetadataRegion r ∨ k = .assignDramRegion r 0 ∨ k = .flushCachedDramRegions

/-- One successful call of the trip. -/
theorem moved_call (h : g.WF) {c : Nat} (hc : c < g.cores) {r : W} {k : Call} (hk : TripCall r k) {m m' : Machine} (hm : Calm g m)
    (hlt : (m.clock g).toNat + 1 < 2 ^ 64) (hr : call g c k m = some (monitorOk, m')) : Moved g r [⟨c, k, monitorOk⟩] m m' := by
  have hcov : Covered g k := by rcases hk with rfl | rfl | rfl | rfl | rfl <;> trivial
  have hrel : Releases g m monitorOk k := by rcases hk with rfl | rfl | rfl | rfl | rfl <;> trivial
  have hs := hm.inv.stateOk h hc
  have st := step_call h hc hcov hm.inv hr
  have tr := track_call h hc hcov hm.inv hr
  have hh : Hist g m [⟨c, k, monitorOk⟩] m' := .cons hc hr (.nil _)
  have hcv : CoveredHist g [⟨c, k, monitorOk⟩] := fun x hx => by rw [List.mem_singleton] at hx; subst hx; exact hcov
  refine ⟨hh, fun x hx => by rw [List.mem_singleton] at hx; subst hx; rfl, hcv, ⟨st.inv, fun i hi => ?_, ?_, ?_⟩, fun i hi hne => ?_, ?_⟩
  · unfold Machine.locked
    rw [C23_locks_released_partial h hc hs hrel hr i hi]
    exact hm.unlocked i hi
  · exact stamps_call h hc hcov hm.inv hr hlt hm.stamps
  · exact pinned_hist h hh hcv hm.inv hm.pinned
  · rcases tr.owner i hi with hh | ⟨r', h1, -, h2⟩
    · exact hh
    · have : r' = r := by
        rcases hk with rfl | rfl | rfl | rfl | rfl <;> rcases h2 with h2 | h2 | h2 | ⟨e, h2⟩ <;> injection h2 <;> (try exact Eq.symm (by assumption))
      exact absurd (by rw [← h1, this]) hne
  · rcases tr.dma with hh | ⟨b, n, hh, -⟩
    · exact hh
    · rcases hk with rfl | rfl | rfl | rfl | rfl <;> cases hh

/-- Flushes on cores `0`, ..., `n - 1`. -/
theorem flush_all (h : g.WF) (r : W) {m : Machine} (hm : Calm g m) (hlt : (m.clock g).toNat + 1 < 2 ^ 64) (n : Nat) (hn : n ≤ g.cores) :
    ∃ l m', Moved g r l m m' ∧ m'.clock g = m.clock g ∧ (∀ i, i < g.regions → m'.owner g i = m.owner g i ∧ m'.blockedAt g i = m.blockedAt g i) ∧
      ∀ k, k < n → m'.flushedAt k = m.clock g := by
  induction n with
  | zero => exact ⟨[], m, .nil hm r, rfl, fun _ _ => ⟨rfl, rfl⟩, fun k hk => absurd hk (Nat.not_lt_zero _)⟩
  | succ n ih =>
      obtain ⟨l, m1, h1, h2, h3, h4⟩ := ih (by omega)
      have hc : n < g.cores := by omega
      obtain ⟨m2, h5, h6⟩ := C50_flush_exact h hc m1
      have h7 := moved_call (r := r) h hc (Or.inr (Or.inr (Or.inr (Or.inr rfl)))) h1.calm (by rw [h2]; exact hlt) h5
      refine ⟨_, m2, h1.trans h7, ?_, fun i hi => ?_, fun k hk => ?_⟩
      · rw [← h2]; exact h6.mem _ (by simp [h, hc])
      · rw [← (h3 i hi).1, ← (h3 i hi).2]
        exact ⟨h6.mem _ (by simp [h, hc]), h6.mem _ (by have := blockedA_ne_flushedA (i := i) h hc; exact this)⟩
      · by_cases hkn : k = n
        · subst hkn; rw [h6.time, h2]
        · rw [← h4 k (by omega)]
          exact h6.mem _ (by unfold flushedA; omega)

theorem trip_free (h : g.WF) {c : Nat} (hc : c < g.cores) {r : W} (hr : r.toNat < g.regions) {m : Machine} (hm : Calm g m) (hlt : (m.clock g).toNat + 1 < 2 ^ 64)
    (ho : m.owner g r.toNat = blockedEnclaveId ∨ m.owner g r.toNat = metadataEnclaveId) :
    ∃ l m', Moved g r l m m' ∧ m'.clock g = m.clock g ∧ m'.owner g r.toNat = freeEnclaveId := by
  obtain ⟨l, m1, h1, h2, h3, h4⟩ := flush_all h r hm hlt g.cores (Nat.le_refl _)
  have h3r := h3 _ hr
  have hok : FreeOk g m1 r.toNat := by
    refine ⟨hr, h1.calm.unlocked _ hr, ?_⟩
    rcases ho with ho | ho
    · exact Or.inl ⟨by rw [h3r.1]; exact ho, fun k hk => by rw [h3r.2, h4 k hk]; exact hm.stamps _ hr⟩
    · exact Or.inr ⟨by rw [h3r.1]; exact ho, h1.calm.pinned _ hr (by rw [h3r.1]; exact ho)⟩
  obtain ⟨v, m2, q1, q2, q3, -⟩ := C17_free_exact h c r h1.calm.inv.locks
  have hv := q2.2 hok
  subst hv
  have h5 := moved_call h hc (Or.inr (Or.inl rfl)) h1.calm (by rw [h2]; exact hlt) q1
  refine ⟨_, m2, h1.trans h5, ?_, (q3 rfl).free⟩
  rw [← h2]
  exact (q3 rfl).mem _ (clockA_ne_ownerA h hr)

theorem trip_assign (h : g.WF) {c : Nat} (hc : c < g.cores) {r : W} (h0 : r.toNat ≠ 0) (hr : r.toNat < g.regions) {m : Machine} (hm : Calm g m)
    (hlt : (m.clock g).toNat + 1 < 2 ^ 64) (ho : m.owner g r.toNat = freeEnclaveId) :
    ∃ l m', Moved g r l m m' ∧ m'.clock g = m.clock g ∧ m'.owner g r.toNat = nullEnclaveId := by
  have hz : regionOf g (0 : W).toNat = 0 := by unfold regionOf; simp
  have hid : idRegion g 0 = 0 := by unfold idRegion; rw [hz]; split <;> rfl
  have hr0 : 0 < g.regions := by omega
  obtain ⟨v, m2, q1, q2, q3, -⟩ := C16_assign_exact h c r 0 hm.inv.locks (fun _ => recordOk_zero)
  have hv := q2.2 ⟨hr, hm.unlocked _ hr, ho, by rw [hz]; omega, by rw [hz]; exact hm.unlocked _ hr0, by rw [hid]; exact hm.inv.region0⟩
  subst hv
  refine ⟨_, m2, moved_call h hc (Or.inr (Or.inr (Or.inr (Or.inl rfl)))) hm hlt q1, ?_, (q3 rfl).owned⟩
  refine (q3 rfl).mem _ ?_
  rintro (hh | hh)
  · exact clockA_ne_ownerA h hr hh
  · exact clockA_ne_osWordA h hh

theorem trip_metadata (h : g.WF) {c : Nat} (hc : c < g.cores) {r : W} (hr : r.toNat < g.regions) {m : Machine} (hm : Calm g m)
    (hlt : (m.clock g).toNat + 1 < 2 ^ 64) (ho : m.owner g r.toNat = freeEnclaveId) :
    ∃ l m', Moved g r l m m' ∧ m'.owner g r.toNat = metadataEnclaveId := by
  obtain ⟨v, m2, q1, q2, q3, -⟩ := C18_create_metadata_exact h c r hm.inv.locks (by rw [hm.inv.region0]; decide)
  have hv := q2.2 ⟨hr, hm.unlocked _ hr, ho⟩
  subst hv
  exact ⟨_, m2, moved_call h hc (Or.inr (Or.inr (Or.inl rfl))) hm hlt q1, (q3 rfl).metadata⟩

theorem trip_block (h : g.WF) {c : Nat} (hc : c < g.cores) {r : W} (h0 : r.toNat ≠ 0) (hr : r.toNat < g.regions) {m : Machine} (hm : Calm g m)
    (hlt : (m.clock g).toNat + 1 < 2 ^ 64) (ho : m.owner g r.toNat = nullEnclaveId) (hd : ¬ DmaTouches g m r.toNat) :
    ∃ l m', Moved g r l m m' ∧ (m'.clock g).toNat = (m.clock g).toNat + 1 ∧ m'.owner g r.toNat = blockedEnclaveId := by
  have hz : regionOf g (0 : W).toNat = 0 := by unfold regionOf; simp
  have hrun := hm.inv.os c hc
  have hs := hm.inv.stateOk h hc
  have hr0 : 0 < g.regions := by omega
  obtain ⟨v, m2, q1, q2, q3, -⟩ := C15_block_exact h hc r hs.locks hs.caller hs.dma
  have hrz : regionOf g (m.running c).toNat = 0 := by rw [hrun]; exact hz
  have hv := q2.2 ⟨h0, hr, hm.unlocked _ hr, by rw [ho, hrun], fun hh => absurd hrun hh, by rw [hrz]; omega, by rw [hrz]; exact hm.unlocked _ hr0, fun _ => hd⟩
  subst hv
  refine ⟨_, m2, moved_call h hc (Or.inl rfl) hm hlt q1, ?_, (q3 rfl).blocked⟩
  rw [(q3 rfl).clock, BitVec.toNat_add, show (1 : W).toNat = 1 from rfl, Nat.mod_eq_of_lt hlt]

/-- C65. No region is ever lost: in every state reached from boot by fewer than `2^64 - 3` covered calls in which no lock is taken, for every region
but 0 that the DMA window does not touch, and for every other state of the life cycle, the OS has calls that all succeed, that take the
region to that state, and that leave all other regions alone (and no lock taken). -/
theorem C65_recovery {m1 : Machine} (hb : FromBoot g m1) {l : List Event} {m : Machine} (hh : Hist g m1 l m) (hk : CoveredHist g l)
    (hlen : l.length + 3 < 2 ^ 64) (hu : AllUnlocked g m) {c : Nat} (hc : c < g.cores) {r : W} (h0 : r.toNat ≠ 0) (hr : r.toNat < g.regions)
    (hd : ¬ DmaTouches g m r.toNat) (target : W)
    (ht : target = nullEnclaveId ∨ target = blockedEnclaveId ∨ target = metadataEnclaveId ∨ target = freeEnclaveId) :
    ∃ l' m', Hist g m l' m' ∧ (∀ x ∈ l', x.result = monitorOk) ∧ CoveredHist g l' ∧ m'.owner g r.toNat = target ∧
      (∀ i, i < g.regions → i ≠ r.toNat → m'.owner g i = m.owner g i) ∧ AllUnlocked g m' := by
  have h := hb.wf
  have hi := hist_inv h hh hk hb.inv
  obtain ⟨p, m0, hp, hboot, -⟩ := id hb
  have hbs := C12_boot_state hp hboot
  have hc0 : (m1.clock g).toNat = 0 := by rw [hbs.clock]; rfl
  have hck := (track_hist h hh hk hb.inv).clock_le (by omega)
  have hm : Calm g m := ⟨hi, hu, (C64_stamps hb hh hk (by omega)).1, pinned_hist h hh hk hb.inv (fun i hlt ho => by
    rw [(hbs.owned i hlt).1] at ho; exact absurd ho (by decide))⟩
  have hfin : ∀ l' m', Moved g r l' m m' → m'.owner g r.toNat = target → ∃ l' m', Hist g m l' m' ∧ (∀ x ∈ l', x.result = monitorOk) ∧ CoveredHist g l' ∧
      m'.owner g r.toNat = target ∧ (∀ i, i < g.regions → i ≠ r.toNat → m'.owner g i = m.owner g i) ∧ AllUnlocked g m' :=
    fun l' m' hmv ho => ⟨l', m', hmv.hist, hmv.ok, hmv.covered, ho, hmv.others, hmv.calm.unlocked⟩
  -- to the free state
  have hfree : ∃ l' m', Moved g r l' m m' ∧ (m'.clock g).toNat ≤ (m.clock g).toNat + 1 ∧ m'.owner g r.toNat = freeEnclaveId := by
    have hbm : ∀ m2 : Machine, Calm g m2 → (m2.clock g).toNat ≤ (m.clock g).toNat + 1 →
        m2.owner g r.toNat = blockedEnclaveId ∨ m2.owner g r.toNat = metadataEnclaveId →
        ∃ l' m', Moved g r l' m2 m' ∧ m'.clock g = m2.clock g ∧ m'.owner g r.toNat = freeEnclaveId :=
      fun m2 hm2 hle ho => trip_free h hc hr hm2 (by omega) ho
    rcases hi.owners _ hr with ho | ho | ho | ho
    · obtain ⟨l2, m2, q1, q2, q3⟩ := trip_block h hc h0 hr hm (by omega) ho hd
      obtain ⟨l3, m3, w1, w2, w3⟩ := hbm m2 q1.calm (by omega) (Or.inl q3)
      exact ⟨_, m3, q1.trans w1, by rw [w2]; omega, w3⟩
    · obtain ⟨l3, m3, w1, w2, w3⟩ := hbm m hm (by omega) (Or.inl ho)
      exact ⟨_, m3, w1, by rw [w2]; omega, w3⟩
    · obtain ⟨l3, m3, w1, w2, w3⟩ := hbm m hm (by omega) (Or.inr ho)
      exact ⟨_, m3, w1, by rw [w2]; omega, w3⟩
    · exact ⟨_, m, .nil hm r, by omega, ho⟩
  obtain ⟨l2, m2, q1, q2, q3⟩ := hfree
  rcases ht with rfl | rfl | rfl | rfl
  · obtain ⟨l3, m3, w1, w2, w3⟩ := trip_assign h hc h0 hr q1.calm (by omega) q3
    exact hfin _ _ (q1.trans w1) w3
  · obtain ⟨l3, m3, w1, w2, w3⟩ := trip_assign h hc h0 hr q1.calm (by omega) q3
    have hd3 : ¬ DmaTouches g m3 r.toNat := by
      unfold DmaTouches at *
      rw [w1.dma.1, w1.dma.2, q1.dma.1, q1.dma.2]; exact hd
    obtain ⟨l4, m4, z1, z2, z3⟩ := trip_block h hc h0 hr w1.calm (by rw [w2]; omega) w3 hd3
    exact hfin _ _ ((q1.trans w1).trans z1) z3
  · obtain ⟨l3, m3, w1, w2⟩ := trip_metadata h hc hr q1.calm (by omega) q3
    exact hfin _ _ (q1.trans w1) w2
  · exact hfin _ _ q1 q3

set_option maxRecDepth 100000 in
/-- The hypotheses of C64 and C65 after a history that leaves regions in all four states. -/
example : FromBoot toyG toyM ∧ (runCalls toyG lifecycleCalls toyM).isSome = true ∧
    (∀ i, i < toyG.regions → (after toyG lifecycleCalls toyM).2.locked toyG i = false) ∧
    ¬ DmaTouches toyG (after toyG lifecycleCalls toyM).2 3 ∧
    blocksIn (events toyG lifecycleCalls toyM) = ((after toyG lifecycleCalls toyM).2.clock toyG).toNat := by
  refine ⟨toy_fromBoot, by decide +kernel, by decide +kernel, ?_, by decide +kernel⟩
  unfold DmaTouches
  decide +kernel

end Sanctum
