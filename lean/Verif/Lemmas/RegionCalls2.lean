import Verif.Lemmas.RegionCalls
/-
Closed forms of the API functions of dram_regions.cc, second part: create_metadata_region,
assign_dram_region, block_dram_region, set_dma_range, flush_cached_dram_regions.
-/
namespace Sanctum
open Machine

variable {g : Cfg}

theorem st_zero_comm (m : Machine) {a s : Nat} (e : Nat) (v : W) (h : a < s) : (m.st a v).zero s e = (m.zero s e).st a v := by
  simp only [Machine.zero, Machine.st, upd]
  congr 1
  funext x
  by_cases h1 : x = a
  · subst h1; rw [if_neg (by omega)]; simp [upd]
  · simp [upd, h1]

theorem mapBytes_le (h : g.WF) : mapBytes g ≤ g.stripeSize.toNat := by
  have h1 := h.metaStart
  have h2 : g.metaPages.toNat ≤ 2 ^ (9 + g.sp) := by rw [h.metaPages]; exact Nat.min_le_right _ _
  have h3 : g.stripeSize.toNat = 8 * 2 ^ (9 + g.sp) := by
    rw [h.stripeSize, show 12 + g.sp = 3 + (9 + g.sp) by omega, Nat.pow_add]
  have h4 : g.stripeSize.toNat % 4096 = 0 := by rw [h.stripeSize, Nat.pow_add]; omega
  unfold mapBytes
  omega

theorem mapBytes_toNat (h : g.WF) : (g.metaStart <<< pageShift).toNat = mapBytes g := by
  have h1 := mapBytes_le h
  have h2 := h.stripe_le
  unfold mapBytes at *
  rw [BitVec.toNat_shiftLeft, Nat.shiftLeft_eq, pageShift, show (2 : Nat) ^ 12 = 4096 from rfl, Nat.mod_eq_of_lt (by omega)]
  omega

/-- A region other than 0 starts above the monitor. -/
theorem region_start_ge (g : Cfg) {r : Nat} (hr : r ≠ 0) : g.stripeSize.toNat ≤ r * g.stripeSize.toNat :=
  Nat.le_mul_of_pos_left _ (by omega)

/-- The machine after `create_metadata_region(r)`. -/
def Machine.madeMetadata (m : Machine) (g : Cfg) (r : Nat) : Machine :=
  ((m.st (ownerA g r) metadataEnclaveId).st (pinnedA g r) 0).zero (r * g.stripeSize.toNat) (r * g.stripeSize.toNat + mapBytes g)

theorem run_createMetadata (h : g.WF) (c : Nat) (r : W) {m : Machine} (hl : LockWords g m) (h0 : m.owner g 0 ≠ freeEnclaveId) :
    run g c (createMetadataRegion g r) m = some
      (if ¬ r.toNat < g.regions then (monitorInvalidValue, m)
       else if m.locked g r.toNat then (monitorConcurrentCall, m)
       else if m.owner g r.toNat = freeEnclaveId then (monitorOk, m.madeMetadata g r.toNat)
       else (monitorInvalidState, m)) := by
  unfold createMetadataRegion
  by_cases hr : r.toNat < g.regions
  · rw [(isValidDramRegion_iff (g := g) r).2 hr]
    simp only [Bool.not_true, Bool.false_eq_true, if_false, run_bind, run_tasLock h hr, Option.bind_some, hr, not_true_eq_false]
    by_cases hlk : m.locked g r.toNat = true
    · simp only [hlk, if_true, run_pure, st_locked hl hr hlk]
    · rw [Bool.not_eq_true] at hlk
      have hz := (not_locked m).1 hlk
      have hown : (m.st (lockA g r.toNat) 1).owner g r.toNat = m.owner g r.toNat := by simp [Machine.owner, mem_st]
      simp only [hlk, Bool.false_eq_true, if_false, run_bind, run_readOwner h hr, Option.bind_some, hown]
      by_cases h3 : m.owner g r.toNat = freeEnclaveId
      · have hr0 : r.toNat ≠ 0 := by intro hh; rw [hh] at h3; exact h0 h3
        have hst := region_start_ge g hr0
        obtain ⟨h1, h2, h3', h4, h5, h6, h7, h8, h9, h10, h11, h12⟩ := h.layout
        have hal : g.stripeSize.toNat % 8 = 0 := by rw [h.stripeSize, Nat.pow_add]; omega
        have hal2 : (r.toNat * g.stripeSize.toNat) % 8 = 0 := by rw [Nat.mul_mod, hal]; simp
        have hend := h.region_end_le hr
        rw [Nat.succ_mul] at hend
        have hmb := mapBytes_le h
        have hstart := dramRegionStart_toNat h r (Nat.le_of_lt hr)
        have hbytes := mapBytes_toNat h
        have hbz : ∀ m' : Machine, run g c (bzero (dramRegionStart g r) (g.metaStart <<< pageShift)) m' =
            some ((), m'.zero (r.toNat * g.stripeSize.toNat) (r.toNat * g.stripeSize.toNat + mapBytes g)) := by
          intro m'
          rw [run_bzero g c _ _ m' (by rw [hstart]; exact hal2) (by rw [hbytes]; unfold mapBytes; omega) (by rw [hstart, hbytes]; omega) h9,
            hstart, hbytes]
        simp only [h3, bne_self_eq_false, Bool.false_eq_true, if_false, initMetadataRegion, run_bind, run_storeOwner h hr,
          run_storePinned h hr, Option.bind_some, hbz, run_clearLock h hr, run_pure, if_true]
        have hlt := lockA_lt h hr
        rw [lock_comm _ _ _ lockA_ne_ownerA, lock_comm _ _ _ lockA_ne_pinnedA, st_zero_comm _ _ _ (by omega), lock_restore]
        · rfl
        · rw [zero_mem, if_neg (by omega)]; simp [mem_st, hz]
      · have hne : (m.owner g r.toNat != freeEnclaveId) = true := bne_iff_ne.2 h3
        simp only [hne, if_true, run_bind, run_clearLock h hr, Option.bind_some, run_pure, lock_restore _ hz, h3, if_false]
  · have hd : isValidDramRegion g r = false := by
      rw [← Bool.not_eq_true, isValidDramRegion_iff]; exact hr
    simp only [hd, Bool.not_false, if_true, run_pure, hr, not_false_eq_true]

/-! ### assign_dram_region -/

theorem idRegion_lt (h : g.WF) (e : W) : idRegion g e < g.regions := by
  unfold idRegion
  have := h.regions_ge
  split
  · exact regionOf_lt h _
  · omega

/-- The machine after `assign_dram_region(r, e)` on core `c`. -/
def Machine.assigned (m : Machine) (g : Cfg) (c : Nat) (r : Nat) (e : W) : Machine :=
  let m1 := (m.st (ownerA g r) e).setBmBit g e r true
  if e = 0 then m1.loadMap g c 0 else m1

/-- The error `assign_dram_region(r, e)` returns when it fails. -/
def assignError (g : Cfg) (m : Machine) (r : Nat) (e : W) : W :=
  if ¬ r < g.regions then monitorInvalidValue
  else if m.locked g r then monitorConcurrentCall
  else if m.owner g r ≠ freeEnclaveId then monitorInvalidState
  else if regionOf g e.toNat = r ∨ m.locked g (regionOf g e.toNat) = true then monitorConcurrentCall
  else monitorInvalidValue

theorem assignError_ne (g : Cfg) (m : Machine) (r : Nat) (e : W) : assignError g m r e ≠ monitorOk := by
  unfold assignError
  split
  · decide
  split
  · decide
  split
  · decide
  split
  · decide
  · decide

theorem setBmBit_mem_lock (h : g.WF) {e : W} (he : RecordOk g e) (m : Machine) (r : Nat) (v : Bool) {i : Nat} (hi : i < g.regions) :
    (m.setBmBit g e r v).mem (lockA g i) = m.mem (lockA g i) := by
  have h1 := bmWordA_ge h he r
  obtain ⟨h1, h2, h3, h4, h5, h6, h7, h8, h9, h10, h11, h12⟩ := h.layout
  unfold Machine.setBmBit
  rw [mem_st, if_neg]
  unfold lockA; omega

theorem loadMap_mem (m : Machine) (c : Nat) (e : W) : (m.loadMap g c e).mem = m.mem := by
  unfold Machine.loadMap; split <;> rfl

open Classical in
theorem run_assign (h : g.WF) (c : Nat) (r e : W) {m : Machine} (hl : LockWords g m)
    (he : m.owner g (idRegion g e) = e → RecordOk g e) :
    run g c (assignDramRegion g r e) m = some
      (if AssignOk g m r.toNat e then (monitorOk, m.assigned g c r.toNat e) else (assignError g m r.toNat e, m)) := by
  unfold assignDramRegion
  by_cases hr : r.toNat < g.regions
  · rw [(isValidDramRegion_iff (g := g) r).2 hr]
    simp only [Bool.not_true, Bool.false_eq_true, if_false, run_bind, run_tasLock h hr, Option.bind_some]
    by_cases hlk : m.locked g r.toNat = true
    · have hno : ¬ AssignOk g m r.toNat e := by rintro ⟨_, h2, _⟩; rw [hlk] at h2; cases h2
      simp only [hlk, if_true, run_pure, st_locked hl hr hlk, hno, if_false, assignError, hr, not_true_eq_false]
    · rw [Bool.not_eq_true] at hlk
      have hz := (not_locked m).1 hlk
      have hown : (m.st (lockA g r.toNat) 1).owner g r.toNat = m.owner g r.toNat := by simp [Machine.owner, mem_st]
      simp only [hlk, Bool.false_eq_true, if_false, run_bind, run_readOwner h hr, Option.bind_some, hown]
      by_cases h3 : m.owner g r.toNat = freeEnclaveId
      · have hn := dramRegionFor_lt h e
        have hn2 := regionOf_lt h e.toNat
        simp only [h3, bne_self_eq_false, Bool.false_eq_true, if_false, run_bind, run_tasLock h hn, Option.bind_some, dramRegionFor_toNat h]
        by_cases hsame : regionOf g e.toNat = r.toNat
        · have hno : ¬ AssignOk g m r.toNat e := by rintro ⟨_, _, _, h4, _⟩; exact h4 hsame
          have hl2 : (m.st (lockA g r.toNat) 1).locked g (regionOf g e.toNat) = true := by
            rw [hsame]; simp [Machine.locked, mem_st]
          rw [if_pos hl2]
          simp only [if_true,  run_bind, run_clearLock h hr, Option.bind_some, run_pure, hsame, st_st, st_self _ _ _ hz, hno, if_false,
            assignError, hr, not_true_eq_false, hlk, h3, ne_eq, true_or, Bool.false_eq_true]
        · have hl2 : (m.st (lockA g r.toNat) 1).locked g (regionOf g e.toNat) = m.locked g (regionOf g e.toNat) := by
            simp [Machine.locked, mem_st, hsame]
          have hne : lockA g r.toNat ≠ lockA g (regionOf g e.toNat) := by simp; omega
          simp only [hl2]
          by_cases hlk2 : m.locked g (regionOf g e.toNat) = true
          · have hno : ¬ AssignOk g m r.toNat e := by rintro ⟨_, _, _, _, h4, _⟩; rw [hlk2] at h4; cases h4
            have e1 : ((m.st (lockA g r.toNat) 1).st (lockA g (regionOf g e.toNat)) 1) = m.st (lockA g r.toNat) 1 := by
              rw [st_comm _ _ _ hne, st_locked hl hn2 hlk2]
            simp only [hlk2, if_true, run_bind, run_clearLock h hr, Option.bind_some, run_pure, e1, lock_restore _ hz, hno, if_false,
              assignError, hr, not_true_eq_false, hlk, h3, ne_eq, or_true, Bool.false_eq_true]
          · rw [Bool.not_eq_true] at hlk2
            have hz2 := (not_locked m).1 hlk2
            have hcl := clamped_lt h e
            have hclv : (clampedDramRegionFor g e).toNat = idRegion g e := clampedDramRegionFor_toNat h e
            have hown2 : ((m.st (lockA g r.toNat) 1).st (lockA g (regionOf g e.toNat)) 1).owner g (idRegion g e) = m.owner g (idRegion g e) := by
              simp [Machine.owner, mem_st]
            have e1 : (((m.st (lockA g r.toNat) 1).st (lockA g (regionOf g e.toNat)) 1).st (lockA g (regionOf g e.toNat)) 0).st (lockA g r.toNat) 0 = m := by
              rw [lock_restore, lock_restore _ hz]
              rw [mem_st, if_neg (Ne.symm hne), hz2]
            simp only [hlk2, Bool.false_eq_true, if_false, isValidEnclaveId, run_bind, run_readOwner h hcl, Option.bind_some, run_pure, hclv, hown2]
            by_cases hid : m.owner g (idRegion g e) = e
            · have hA : AssignOk g m r.toNat e := ⟨hr, hlk, h3, hsame, hlk2, hid⟩
              have he' := he hid
              have hb : (m.owner g (idRegion g e) == e) = true := by rw [hid, beq_self_eq_true]
              simp only [hb, if_true, hA, run_bind, run_storeOwner h hr, run_setEnclaveBit h he' hr, Option.bind_some,
                lock_comm _ _ _ lockA_ne_ownerA, lock_setBmBit h he' _ _ hn2, lock_setBmBit h he' _ _ hr]
              have hmem : ∀ i, i < g.regions → ((m.st (ownerA g r.toNat) e).setBmBit g e r.toNat true).mem (lockA g i) = m.mem (lockA g i) := by
                intro i hi; rw [setBmBit_mem_lock h he' _ _ _ hi]; simp [mem_st]
              unfold Machine.assigned
              by_cases h00 : e = 0
              · have hz0 : RecordOk g 0 := fun hh => absurd rfl hh
                have hlm := run_loadMap h (e := 0) hz0 c
                simp only [if_true] at hlm
                subst h00
                simp only [if_true, hlm, Option.bind_some, run_clearLock h hr, run_bind, run_pure, run_clearLock h hn, dramRegionFor_toNat h]
                simp only [lock_loadMap h hz0 _ _ hn2, lock_loadMap h hz0 _ _ hr]
                rw [lock_restore, lock_restore]
                · rw [loadMap_mem, hmem _ hr, hz]
                · rw [mem_st, if_neg (Ne.symm hne), loadMap_mem, hmem _ hn2, hz2]
              · simp only [h00, if_false, run_pure, Option.bind_some, run_clearLock h hr, run_bind, run_clearLock h hn, dramRegionFor_toNat h]
                rw [lock_restore, lock_restore]
                · rw [hmem _ hr, hz]
                · rw [mem_st, if_neg (Ne.symm hne), hmem _ hn2, hz2]
            · have hA : ¬ AssignOk g m r.toNat e := by rintro ⟨_, _, _, _, _, h4⟩; exact hid h4
              have hb : (m.owner g (idRegion g e) == e) = false := by rw [← Bool.not_eq_true, beq_iff_eq]; exact hid
              simp only [hb, Bool.false_eq_true, if_false, hA, run_bind, run_clearLock h hn, run_clearLock h hr, Option.bind_some, run_pure,
                dramRegionFor_toNat h, e1, assignError, hr, not_true_eq_false, hlk, h3, ne_eq, hsame, hlk2, or_self]
      · have hne : (m.owner g r.toNat != freeEnclaveId) = true := bne_iff_ne.2 h3
        have hno : ¬ AssignOk g m r.toNat e := by rintro ⟨_, _, h4, _⟩; exact h3 h4
        simp only [hne, if_true, run_bind, run_clearLock h hr, Option.bind_some, run_pure, lock_restore _ hz, hno, if_false,
          assignError, hr, not_true_eq_false, hlk, h3, ne_eq, not_false_eq_true, Bool.false_eq_true]
  · have hd : isValidDramRegion g r = false := by
      rw [← Bool.not_eq_true, isValidDramRegion_iff]; exact hr
    have hno : ¬ AssignOk g m r.toNat e := fun hA => hr hA.1
    simp only [hd, Bool.not_false, if_true, run_pure, hno, if_false, assignError, hr, not_false_eq_true]

/-! ### block_dram_region -/

/-- The machine after `block_dram_region(r)` by `e` on core `c`. -/
def Machine.blocked (m : Machine) (g : Cfg) (c : Nat) (r : Nat) (e : W) : Machine :=
  (((((m.st (prevA g r) e).st (ownerA g r) blockedEnclaveId).st (clockA g) (m.clock g + 1)).st (blockedA g r) (m.clock g)).setBmBit
    g e r false).loadMap g c e

/-- The error `block_dram_region(r)` returns when it fails. -/
noncomputable def blockError (g : Cfg) (c : Nat) (m : Machine) (r : Nat) : W :=
  if ¬ (r ≠ 0 ∧ r < g.regions) then monitorInvalidValue
  else if m.locked g r then monitorConcurrentCall
  else if m.owner g r ≠ m.running c then monitorAccessDenied
  else if m.running c ≠ 0 ∧ m.pinned g r ≠ 0 then monitorInvalidState
  else if regionOf g (m.running c).toNat = r ∨ m.locked g (regionOf g (m.running c).toNat) = true then monitorConcurrentCall
  else monitorInvalidState

theorem blockError_ne (g : Cfg) (c : Nat) (m : Machine) (r : Nat) : blockError g c m r ≠ monitorOk := by
  unfold blockError
  split
  · decide
  split
  · decide
  split
  · decide
  split
  · decide
  split
  · decide
  · decide

/-- The overlap test of the code. -/
def crossTest (ds de rs re : W) : Bool :=
  (decide (ds ≥ rs) && decide (de ≤ re)) || (decide (de ≥ rs) && decide (de ≤ re)) ||
  (decide (rs ≥ ds) && decide (rs ≤ de)) || (decide (re ≥ ds) && decide (re ≤ de))

theorem run_dmaTest {c : Nat} (o1 o2 : Op) (p q : W → Bool) (m : Machine) {a b : W} (h1 : exec g c o1 m = some (a, m)) (h2 : exec g c o2 m = some (b, m)) :
    run g c (dmaTest o1 p o2 q) m = some (p a && q b, m) := by
  unfold dmaTest
  rw [run_bind, run_act, h1, Option.bind_some]
  dsimp only
  cases p a
  · rw [if_neg (by decide), run_pure]; rfl
  · rw [if_pos rfl, run_bind, run_act, h2, Option.bind_some, run_pure]; rfl

theorem run_dmaRangeCrossed {c : Nat} (r : W) (m : Machine) :
    run g c (dmaRangeCrossed g r) m = some (crossTest m.dmaStart m.dmaEnd (dramRegionStart g r) (dramRegionStart g (r + 1)), m) := by
  unfold dmaRangeCrossed
  dsimp only
  rw [run_bind, run_dmaTest (a := m.dmaStart) (b := m.dmaEnd) _ _ _ _ m rfl rfl, Option.bind_some]
  dsimp only
  rw [run_bind, run_dmaTest (a := m.dmaEnd) (b := m.dmaEnd) _ _ _ _ m rfl rfl, Option.bind_some]
  dsimp only
  rw [run_bind, run_dmaTest (a := m.dmaStart) (b := m.dmaEnd) _ _ _ _ m rfl rfl, Option.bind_some]
  dsimp only
  rw [run_bind, run_dmaTest (a := m.dmaStart) (b := m.dmaEnd) _ _ _ _ m rfl rfl, Option.bind_some]
  rfl

theorem crossTest_iff (ds de rs re : W) (h1 : ds ≤ de) (h2 : rs ≤ re) :
    crossTest ds de rs re = true ↔ rs.toNat ≤ de.toNat ∧ ds.toNat ≤ re.toNat := by
  rw [W.le_iff] at h1 h2
  simp only [crossTest, Bool.or_eq_true, Bool.and_eq_true, decide_eq_true_eq, ge_iff_le, W.le_iff]
  omega

theorem succ_region_toNat (h : g.WF) {r : W} (hr : r.toNat < g.regions) : (r + 1).toNat = r.toNat + 1 := by
  have := h.regions_le
  rw [BitVec.toNat_add, show (1 : W).toNat = 1 from rfl]; omega

theorem crossTest_region (h : g.WF) (m : Machine) {r : W} (hr : r.toNat < g.regions) (hd : m.dmaStart ≤ m.dmaEnd) :
    crossTest m.dmaStart m.dmaEnd (dramRegionStart g r) (dramRegionStart g (r + 1)) = true ↔ DmaTouches g m r.toNat := by
  have h1 := dramRegionStart_toNat h r (Nat.le_of_lt hr)
  have h3 := succ_region_toNat h hr
  have h2 := dramRegionStart_toNat h (r + 1) (by omega)
  rw [crossTest_iff _ _ _ _ hd, h1, h2, h3]
  · rfl
  · rw [W.le_iff, h1, h2, h3, Nat.succ_mul]; omega

open Classical in
theorem run_block (h : g.WF) {c : Nat} (hc : c < g.cores) (r : W) {m : Machine} (hl : LockWords g m) (he : RecordOk g (m.running c))
    (hd : m.dmaStart ≤ m.dmaEnd) :
    run g c (blockDramRegion g r) m = some
      (if BlockOk g c m r.toNat then (monitorOk, m.blocked g c r.toNat (m.running c)) else (blockError g c m r.toNat, m)) := by
  unfold blockDramRegion
  by_cases hr0 : r.toNat ≠ 0 ∧ r.toNat < g.regions
  · rw [(isDynamicDramRegion_iff (g := g) r).2 hr0]
    have hr := hr0.2
    simp only [Bool.not_true, Bool.false_eq_true, if_false, run_bind, run_tasLock h hr, Option.bind_some]
    have hrr : ¬ ¬ (r.toNat ≠ 0 ∧ r.toNat < g.regions) := not_not_intro hr0
    by_cases hlk : m.locked g r.toNat = true
    · have hno : ¬ BlockOk g c m r.toNat := by rintro ⟨_, _, h2, _⟩; rw [hlk] at h2; cases h2
      rw [if_pos hlk, if_neg hno, blockError, if_neg hrr, if_pos hlk]
      simp only [run_pure, st_locked hl hr hlk]
    · rw [Bool.not_eq_true] at hlk
      have hz := (not_locked m).1 hlk
      have hown : (m.st (lockA g r.toNat) 1).owner g r.toNat = m.owner g r.toNat := by simp [Machine.owner, mem_st]
      have hrunc : (m.st (lockA g r.toNat) 1).running c = m.running c := by simp [Machine.running, mem_st, h, hc]
      have hpin : (m.st (lockA g r.toNat) 1).pinned g r.toNat = m.pinned g r.toNat := by simp [Machine.pinned, mem_st]
      rw [if_neg (by rw [hlk]; exact Bool.false_ne_true)]
      simp only [run_bind (p := readOwner g r), run_bind (p := currentEnclave g), run_readOwner h hr, run_currentEnclave h hc, Option.bind_some, hown, hrunc]
      by_cases ho : m.owner g r.toNat = m.running c
      · have hne : (m.owner g r.toNat != m.running c) = false := by rw [ho, bne_self_eq_false]
        rw [hne, if_neg Bool.false_ne_true, run_bind]
        have hlk' : ¬ (m.locked g r.toNat = true) := by rw [hlk]; exact Bool.false_ne_true
        rw [ho]
        generalize hE : m.running c = e at *
        have hite : run g c (if (e != nullEnclaveId) = true then load (regionA g r + offPinned) else pure 0) (m.st (lockA g r.toNat) 1) =
            some (if e ≠ 0 then m.pinned g r.toNat else 0, m.st (lockA g r.toNat) 1) := by
          by_cases h0 : e = 0
          · rw [if_neg (by rw [h0]; decide), if_neg (not_not_intro h0), run_pure]
          · rw [if_pos (show (e != nullEnclaveId) = true from bne_iff_ne.2 h0), if_pos h0, run_loadPinned h hr, hpin]
        rw [hite, Option.bind_some]
        dsimp only
        by_cases hp : e ≠ 0 ∧ m.pinned g r.toNat ≠ 0
        · have hno : ¬ BlockOk g c m r.toNat := by
            rintro ⟨_, _, _, _, h4, _⟩; rw [hE] at h4; exact hp.2 (h4 hp.1)
          have hb : (e != nullEnclaveId && (if e ≠ 0 then m.pinned g r.toNat else 0) != 0) = true := by
            rw [if_pos hp.1, Bool.and_eq_true, bne_iff_ne, bne_iff_ne]; exact hp
          rw [if_pos hb, if_neg hno, blockError, if_neg hrr, if_neg hlk', hE, if_neg (not_not_intro ho), if_pos hp]
          simp only [run_bind, run_clearLock h hr, Option.bind_some, run_pure, lock_restore _ hz]
        · have hb : ¬ ((e != nullEnclaveId && (if e ≠ 0 then m.pinned g r.toNat else 0) != 0) = true) := by
            rw [Bool.and_eq_true, bne_iff_ne, bne_iff_ne]
            rintro ⟨h1, h2⟩
            have h1' : e ≠ 0 := h1
            rw [if_pos h1'] at h2
            exact hp ⟨h1', h2⟩
          rw [if_neg hb]
          have hn := dramRegionFor_lt h e
          have hn2 := regionOf_lt h e.toNat
          have hdec : dramRegionFor g e = 0 ↔ regionOf g e.toNat = 0 := by
            rw [W.eq_iff, dramRegionFor_toNat h]; rfl
          simp only [run_bind, run_tasLock h hn, Option.bind_some, dramRegionFor_toNat h]
          by_cases hsame : regionOf g e.toNat = r.toNat
          · have hno : ¬ BlockOk g c m r.toNat := by
              rintro ⟨_, _, _, _, _, h4, _⟩; rw [hE] at h4; exact h4 hsame
            have hl2 : (m.st (lockA g r.toNat) 1).locked g (regionOf g e.toNat) = true := by
              rw [hsame]; simp [Machine.locked, mem_st]
            rw [if_pos hl2, if_neg hno, blockError, if_neg hrr, if_neg hlk', hE, if_neg (not_not_intro ho), if_neg hp, if_pos (Or.inl hsame)]
            simp only [run_bind, run_clearLock h hr, Option.bind_some, run_pure, hsame, st_st, st_self _ _ _ hz]
          · have hl2 : (m.st (lockA g r.toNat) 1).locked g (regionOf g e.toNat) = m.locked g (regionOf g e.toNat) := by
              simp [Machine.locked, mem_st, hsame]
            have hne : lockA g r.toNat ≠ lockA g (regionOf g e.toNat) := by simp; omega
            rw [hl2]
            by_cases hlk2 : m.locked g (regionOf g e.toNat) = true
            · have hno : ¬ BlockOk g c m r.toNat := by
                rintro ⟨_, _, _, _, _, _, h4, _⟩; rw [hE, hlk2] at h4; cases h4
              have e1 : ((m.st (lockA g r.toNat) 1).st (lockA g (regionOf g e.toNat)) 1) = m.st (lockA g r.toNat) 1 := by
                rw [st_comm _ _ _ hne, st_locked hl hn2 hlk2]
              rw [if_pos hlk2, if_neg hno, blockError, if_neg hrr, if_neg hlk', hE, if_neg (not_not_intro ho), if_neg hp, if_pos (Or.inr hlk2)]
              simp only [run_bind, run_clearLock h hr, Option.bind_some, run_pure, e1, lock_restore _ hz]
            · rw [if_neg hlk2]
              rw [Bool.not_eq_true] at hlk2
              have hz2 := (not_locked m).1 hlk2
              have hct := crossTest_region h m hr hd
              have hcross : run g c (if dramRegionFor g e = 0 then dmaRangeCrossed g r else pure false) ((m.st (lockA g r.toNat) 1).st (lockA g (regionOf g e.toNat)) 1) =
                some (decide (regionOf g e.toNat = 0 ∧ DmaTouches g m r.toNat), (m.st (lockA g r.toNat) 1).st (lockA g (regionOf g e.toNat)) 1) := by
                by_cases h00 : regionOf g e.toNat = 0
                · rw [if_pos (hdec.2 h00)]
                  rw [run_dmaRangeCrossed, st_dmaStart, st_dmaEnd, st_dmaStart, st_dmaEnd]
                  congr 2
                  rw [Bool.eq_iff_iff, hct, decide_eq_true_eq]
                  simp [h00]
                · rw [if_neg (fun hh => h00 (hdec.1 hh)), run_pure]
                  simp [h00]
              rw [run_bind, hcross, Option.bind_some]
              dsimp only
              have e1 : (((m.st (lockA g r.toNat) 1).st (lockA g (regionOf g e.toNat)) 1).st (lockA g (regionOf g e.toNat)) 0).st (lockA g r.toNat) 0 = m := by
                rw [lock_restore, lock_restore _ hz]
                rw [mem_st, if_neg (Ne.symm hne), hz2]
              by_cases hx : regionOf g e.toNat = 0 ∧ DmaTouches g m r.toNat
              · have hno : ¬ BlockOk g c m r.toNat := by
                  rintro ⟨_, _, _, _, _, _, _, h4⟩; rw [hE] at h4; exact h4 hx.1 hx.2
                rw [if_pos (decide_eq_true hx), if_neg hno, blockError, if_neg hrr, if_neg hlk', hE, if_neg (not_not_intro ho), if_neg hp,
                  if_neg (by rintro (h5 | h5); exact hsame h5; rw [hlk2] at h5; cases h5)]
                simp only [run_bind, run_clearLock h hn, run_clearLock h hr, Option.bind_some, run_pure, dramRegionFor_toNat h, e1]
              · have hyes : BlockOk g c m r.toNat :=
                  ⟨hr0.1, hr, hlk, by rw [hE]; exact ho, by rw [hE]; intro h5; exact Classical.byContradiction (fun h6 => hp ⟨h5, h6⟩),
                   by rw [hE]; exact hsame, by rw [hE]; exact hlk2, by rw [hE]; intro h5 h6; exact hx ⟨h5, h6⟩⟩
                rw [if_neg (by rw [decide_eq_true_eq]; exact hx), if_pos hyes]
                have hclk : run g c (act (.fetchAdd g.regionsBase 1)) = fun m' : Machine => some (m'.clock g, m'.st (clockA g) (m'.clock g + 1)) := by
                  funext m'; rw [run_act]; simp only [exec, clock_ok h, if_true]; rfl
                have hmk : ∀ i, i < g.regions → lockA g i ≠ clockA g := fun i hi => lockA_ne_clockA h hi
                have hlm := run_loadMap h he c
                simp only [run_bind, run_storePrev h hr, run_storeOwner h hr, hclk, run_storeBlocked h hr, run_setEnclaveBit h he hr, hlm,
                  run_clearLock h hn, run_clearLock h hr, run_pure, Option.bind_some, dramRegionFor_toNat h,
                  lock_comm _ _ _ lockA_ne_ownerA, lock_comm _ _ _ lockA_ne_prevA, lock_comm _ _ _ lockA_ne_blockedA,
                  lock_comm _ _ _ (hmk _ hr), lock_comm _ _ _ (hmk _ hn2), lock_setBmBit h he _ _ hn2, lock_setBmBit h he _ _ hr,
                  lock_loadMap h he _ _ hn2, lock_loadMap h he _ _ hr]
                have hck : ((((m.st (prevA g r.toNat) e).st (ownerA g r.toNat) blockedEnclaveId).st (lockA g r.toNat) 1).st
                    (lockA g (regionOf g e.toNat)) 1).clock g = m.clock g := by
                  simp [Machine.clock, mem_st, h, hr, hn2]
                rw [hck]
                have hmem : ∀ i, i < g.regions → (m.blocked g c r.toNat e).mem (lockA g i) = m.mem (lockA g i) := by
                  intro i hi; unfold Machine.blocked; rw [loadMap_mem, setBmBit_mem_lock h he _ _ _ hi]; simp [mem_st, h, hi]
                change some (monitorOk, ((((m.blocked g c r.toNat e).st (lockA g r.toNat) 1).st (lockA g (regionOf g e.toNat)) 1).st
                  (lockA g (regionOf g e.toNat)) 0).st (lockA g r.toNat) 0) = _
                rw [lock_restore, lock_restore]
                · rw [hmem _ hr, hz]
                · rw [mem_st, if_neg (Ne.symm hne), hmem _ hn2, hz2]
      · have hne : (m.owner g r.toNat != m.running c) = true := bne_iff_ne.2 ho
        have hno : ¬ BlockOk g c m r.toNat := by rintro ⟨_, _, _, h4, _⟩; exact ho h4
        rw [hne, if_pos rfl, if_neg hno, blockError, if_neg hrr, if_neg (by rw [hlk]; exact Bool.false_ne_true), if_pos ho]
        simp only [ run_bind, run_clearLock h hr, Option.bind_some, run_pure, lock_restore _ hz]
  · have hd : isDynamicDramRegion g r = false := by
      rw [← Bool.not_eq_true, isDynamicDramRegion_iff]; exact hr0
    have hno : ¬ BlockOk g c m r.toNat := fun hA => hr0 ⟨hA.1, hA.2.1⟩
    rw [if_neg hno, blockError, if_pos hr0]
    simp only [hd, Bool.not_false, if_true, run_pure]

end Sanctum
