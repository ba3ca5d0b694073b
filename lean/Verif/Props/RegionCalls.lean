import Verif.Lemmas.RegionCalls3
import Verif.Props.Boot
import Verif.Props.Bits
/-
Properties C15–C19, C49: the exact decision and effect of every call on DRAM regions, in every machine state
in which region locks hold 0 or 1. The conditions and effects are in Spec/Regions.lean.
-/
namespace Sanctum
open Machine

variable {g : Cfg}

/-! ### Effects of the closed forms -/

theorem getLsbD_snapshot {m : Machine} {a words i : Nat} (hi : i / 64 < words) :
    ((snapshot m a words).getD (i / 64) 0).getLsbD (i % 64) = (m.mem (a + 8 * (i / 64))).getLsbD (i % 64) := by
  unfold snapshot
  rw [List.getD_eq_getElem?_getD, List.getElem?_map, List.getElem?_range hi]
  rfl

theorem word_lt (h : g.WF) {i : Nat} (hi : i < g.regions) : i / 64 < g.bitmapWords.toNat := by rw [h.words]; omega

theorem bmWordA_ne_field (h : g.WF) {e : W} (he : RecordOk g e) (i : Nat) {a : Nat} (ha : a < g.osBitmap.toNat) : a ≠ bmWordA g e i := by
  have := bmWordA_ge h he i; omega

theorem fields_lt (h : g.WF) {r : Nat} (hr : r < g.regions) :
    ownerA g r < g.osBitmap.toNat ∧ prevA g r < g.osBitmap.toNat ∧ blockedA g r < g.osBitmap.toNat ∧ clockA g < g.osBitmap.toNat ∧
    pinnedA g r < g.osBitmap.toNat ∧ lockA g r < g.osBitmap.toNat := by
  obtain ⟨h1, h2, h3, h4, h5, h6, h7, h8, h9, h10, h11, h12⟩ := h.layout
  unfold ownerA prevA blockedA clockA pinnedA lockA; omega

theorem block_effect (h : g.WF) (c : Nat) {r : Nat} (hr : r < g.regions) (m : Machine) (he : RecordOk g (m.running c)) :
    BlockEffect g c m r (m.blocked g c r (m.running c)) := by
  obtain ⟨f1, f2, f3, f4, f5, f6⟩ := fields_lt h hr
  generalize hE : m.running c = e at *
  have hnf := fun {a : Nat} (ha : a < g.osBitmap.toNat) => bmWordA_ne_field h he r ha
  have hmem : ∀ a, (m.blocked g c r e).mem a = if a = bmWordA g e r then setBit (m.mem (bmWordA g e r)) (r % 64) false
      else if a = blockedA g r then m.clock g else if a = clockA g then m.clock g + 1
      else if a = ownerA g r then blockedEnclaveId else if a = prevA g r then e else m.mem a := by
    intro a
    unfold Machine.blocked Machine.setBmBit
    rw [loadMap_mem]
    simp only [mem_st]
    rw [if_neg (Ne.symm (hnf f3)), if_neg (Ne.symm (hnf f4)), if_neg (Ne.symm (hnf f1)), if_neg (Ne.symm (hnf f2))]
  have hbm : ∀ i, (m.blocked g c r e).bmBit g e i = (m.bmBit g e i && decide (i ≠ r)) := by
    intro i
    unfold Machine.blocked
    have : ∀ m1 : Machine, (m1.loadMap g c e).bmBit g e i = m1.bmBit g e i := by
      intro m1; unfold Machine.bmBit; rw [loadMap_mem]
    rw [this, bmBit_setBmBit]
    have hsame : ((((m.st (prevA g r) e).st (ownerA g r) blockedEnclaveId).st (clockA g) (m.clock g + 1)).st (blockedA g r) (m.clock g)).bmBit g e i
        = m.bmBit g e i := by
      have hnf := fun {a : Nat} (ha : a < g.osBitmap.toNat) => bmWordA_ne_field h he i ha
      unfold Machine.bmBit
      simp only [mem_st]
      rw [if_neg (Ne.symm (hnf f3)), if_neg (Ne.symm (hnf f4)), if_neg (Ne.symm (hnf f1)), if_neg (Ne.symm (hnf f2))]
    rw [hsame]
    by_cases hi : i = r <;> simp [hi]
  have hck : ∀ a, a ≠ clockA g ∨ a = clockA g := fun a => by omega
  refine { blocked := ?_, previous := ?_, time := ?_, clock := ?_, bitmap := ?_, mem := ?_, map_os := ?_, map_enclave := ?_, maps := ?_,
           dma := ?_, regs := ?_ }
  · unfold Machine.owner
    rw [hmem, if_neg (hnf f1), if_neg ownerA_ne_blockedA, if_neg (ownerA_ne_clockA h hr), if_pos rfl]
  · unfold Machine.prevOwner
    rw [hmem, if_neg (hnf f2), if_neg prevA_ne_blockedA, if_neg (prevA_ne_clockA h hr), if_neg prevA_ne_ownerA, if_pos rfl, hE]
  · unfold Machine.blockedAt
    rw [hmem, if_neg (hnf f3), if_pos rfl]
  · rw [Machine.clock, hmem, if_neg (hnf f4), if_neg (clockA_ne_blockedA h hr), if_pos rfl]
  · rw [hE]; exact hbm
  · intro a ha
    rw [hE] at ha
    rw [hmem, if_neg (fun x => ha (by simp [x])), if_neg (fun x => ha (by simp [x])), if_neg (fun x => ha (by simp [x])),
      if_neg (fun x => ha (by simp [x])), if_neg (fun x => ha (by simp [x]))]
  · intro h0 i hi
    rw [hE] at h0
    unfold Machine.drbBit Machine.osBit osWordA Machine.blocked
    rw [loadMap_mem]
    unfold Machine.loadMap
    rw [if_pos h0]
    simp only [upd_same]
    exact getLsbD_snapshot (word_lt h hi)
  · intro h0 i hi
    rw [hE] at h0 ⊢
    unfold Machine.edrbBit Machine.bmBit bmWordA Machine.blocked
    rw [if_neg h0, loadMap_mem]
    unfold Machine.loadMap
    rw [if_neg h0]
    simp only [upd_same]
    exact getLsbD_snapshot (word_lt h hi)
  · rw [hE]
    unfold Machine.blocked Machine.loadMap
    by_cases h0 : e = 0
    · rw [if_pos h0]
      refine ⟨fun c' hc' => ⟨upd_ne _ _ hc', rfl⟩, fun _ => rfl, fun h1 => absurd h0 h1⟩
    · rw [if_neg h0]
      refine ⟨fun c' hc' => ⟨rfl, upd_ne _ _ hc'⟩, fun h1 => absurd h1 h0, fun _ => rfl⟩
  · unfold Machine.blocked Machine.loadMap SameDma
    by_cases h0 : e = 0
    · rw [if_pos h0]; exact ⟨rfl, rfl, rfl, rfl⟩
    · rw [if_neg h0]; exact ⟨rfl, rfl, rfl, rfl⟩
  · unfold Machine.blocked Machine.loadMap SameCoreRegs
    by_cases h0 : e = 0
    · rw [if_pos h0]; exact ⟨rfl, rfl, rfl, rfl⟩
    · rw [if_neg h0]; exact ⟨rfl, rfl, rfl, rfl⟩

theorem assign_effect (h : g.WF) (c : Nat) {r : Nat} (hr : r < g.regions) (m : Machine) {e : W} (he : RecordOk g e) :
    AssignEffect g c m r e (m.assigned g c r e) := by
  obtain ⟨f1, f2, f3, f4, f5, f6⟩ := fields_lt h hr
  have hass : (m.assigned g c r e).mem = ((m.st (ownerA g r) e).setBmBit g e r true).mem := by
    unfold Machine.assigned
    by_cases h0 : e = 0
    · simp only [if_pos h0]; rw [loadMap_mem]
    · simp only [if_neg h0]
  have hbm : ∀ i, ((m.st (ownerA g r) e).setBmBit g e r true).bmBit g e i = (m.bmBit g e i || decide (i = r)) := by
    intro i
    rw [bmBit_setBmBit]
    have hsame : (m.st (ownerA g r) e).bmBit g e i = m.bmBit g e i := by
      unfold Machine.bmBit
      rw [mem_st, if_neg (Ne.symm (bmWordA_ne_field h he i f1))]
    rw [hsame]
    by_cases hi : i = r <;> simp [hi]
  refine { owned := ?_, bitmap := ?_, mem := ?_, map_os := ?_, maps := ?_, dma := ?_, regs := ?_ }
  · unfold Machine.owner
    rw [hass]
    unfold Machine.setBmBit
    rw [mem_st, if_neg (bmWordA_ne_field h he r f1), mem_st, if_pos rfl]
  · intro i
    rw [← hbm i]
    unfold Machine.bmBit
    rw [hass]
  · intro a ha
    rw [hass]
    unfold Machine.setBmBit
    rw [mem_st, if_neg (fun x => ha (by simp [x])), mem_st, if_neg (fun x => ha (by simp [x]))]
  · intro h0 i hi
    unfold Machine.drbBit Machine.osBit osWordA Machine.assigned
    simp only [if_pos h0]
    rw [loadMap_mem]
    unfold Machine.loadMap
    rw [if_pos rfl]
    simp only [upd_same]
    exact getLsbD_snapshot (word_lt h hi)
  · unfold Machine.assigned Machine.loadMap
    by_cases h0 : e = 0
    · simp only [if_pos h0, if_pos]
      exact ⟨rfl, fun c' hc' => upd_ne _ _ hc', fun h1 => absurd h0 h1⟩
    · simp only [if_neg h0]
      exact ⟨rfl, fun _ _ => rfl, fun _ => rfl⟩
  · unfold Machine.assigned Machine.loadMap SameDma
    by_cases h0 : e = 0
    · simp only [if_pos h0, if_pos]; exact ⟨rfl, rfl, rfl, rfl⟩
    · simp only [if_neg h0]; exact ⟨rfl, rfl, rfl, rfl⟩
  · unfold Machine.assigned Machine.loadMap SameCoreRegs
    by_cases h0 : e = 0
    · simp only [if_pos h0, if_pos]; exact ⟨rfl, rfl, rfl, rfl⟩
    · simp only [if_neg h0]; exact ⟨rfl, rfl, rfl, rfl⟩

theorem metadata_effect (h : g.WF) {r : Nat} (hr : r < g.regions) (hr0 : r ≠ 0) (m : Machine) :
    MetadataEffect g m r (m.madeMetadata g r) := by
  obtain ⟨f1, f2, f3, f4, f5, f6⟩ := fields_lt h hr
  have hst := region_start_ge g hr0
  obtain ⟨h1, h2, h3, h4, h5, h6, h7, h8, h9, h10, h11, h12⟩ := h.layout
  have hw := h.words
  refine { metadata := ?_, pinned := ?_, map_empty := ?_, mem := ?_, maps := ⟨rfl, rfl⟩, dma := ⟨rfl, rfl, rfl, rfl⟩, regs := ⟨rfl, rfl, rfl, rfl⟩ }
  · unfold Machine.owner Machine.madeMetadata
    rw [zero_mem, if_neg (by omega)]
    simp [mem_st]
  · unfold Machine.pinned Machine.madeMetadata
    rw [zero_mem, if_neg (by omega)]
    simp [mem_st]
  · intro p hp
    unfold Machine.madeMetadata
    have hal : g.stripeSize.toNat % 8 = 0 := by rw [h.stripeSize, Nat.pow_add]; omega
    have hal2 : (r * g.stripeSize.toNat) % 8 = 0 := by rw [Nat.mul_mod, hal]; simp
    rw [zero_mem, if_pos]
    have := h.metaStart
    unfold mapBytes
    omega
  · intro a ha
    unfold Machine.madeMetadata
    rw [zero_mem, if_neg (fun x => ha (Or.inr (Or.inr ⟨x.1, x.2.1⟩))), mem_st, if_neg (fun x => ha (by simp [x])), mem_st,
      if_neg (fun x => ha (by simp [x]))]

/-! ### The properties -/

/-- C15. `block_dram_region(r)` by the software running on core `c` completes; it succeeds exactly under
`BlockOk`, then has exactly the effect `BlockEffect`, and otherwise changes nothing. The caller's record, if
the caller is an enclave, is a place outside the monitor with room for a bitmap. -/
theorem C15_block_exact (h : g.WF) {c : Nat} (hc : c < g.cores) (r : W) {m : Machine} (hl : LockWords g m)
    (he : RecordOk g (m.running c)) (hd : m.dmaStart ≤ m.dmaEnd) :
    ∃ v m', call g c (.blockDramRegion r) m = some (v, m') ∧ (v = monitorOk ↔ BlockOk g c m r.toNat) ∧
      (v = monitorOk → BlockEffect g c m r.toNat m') ∧ (v ≠ monitorOk → m' = m) := by
  have hrun : call g c (.blockDramRegion r) m = _ := run_block h hc r hl he hd
  by_cases hok : BlockOk g c m r.toNat
  · rw [if_pos hok] at hrun
    exact ⟨_, _, hrun, iff_of_true rfl hok, fun _ => block_effect h c hok.2.1 m he, fun hn => absurd rfl hn⟩
  · rw [if_neg hok] at hrun
    have hne := blockError_ne g c m r.toNat
    exact ⟨_, _, hrun, iff_of_false hne hok, fun hv => absurd hv hne, fun _ => rfl⟩

/-- C16. `assign_dram_region(r, e)`. -/
theorem C16_assign_exact (h : g.WF) (c : Nat) (r e : W) {m : Machine} (hl : LockWords g m)
    (he : m.owner g (idRegion g e) = e → RecordOk g e) :
    ∃ v m', call g c (.assignDramRegion r e) m = some (v, m') ∧ (v = monitorOk ↔ AssignOk g m r.toNat e) ∧
      (v = monitorOk → AssignEffect g c m r.toNat e m') ∧ (v ≠ monitorOk → m' = m) := by
  have hrun : call g c (.assignDramRegion r e) m = _ := run_assign h c r e hl he
  by_cases hok : AssignOk g m r.toNat e
  · rw [if_pos hok] at hrun
    exact ⟨_, _, hrun, iff_of_true rfl hok, fun _ => assign_effect h c hok.1 m (he hok.2.2.2.2.2), fun hn => absurd rfl hn⟩
  · rw [if_neg hok] at hrun
    have hne := assignError_ne g m r.toNat e
    exact ⟨_, _, hrun, iff_of_false hne hok, fun hv => absurd hv hne, fun _ => rfl⟩

/-- C17. `free_dram_region(r)`. -/
theorem C17_free_exact (h : g.WF) (c : Nat) (r : W) {m : Machine} (hl : LockWords g m) :
    ∃ v m', call g c (.freeDramRegion r) m = some (v, m') ∧ (v = monitorOk ↔ FreeOk g m r.toNat) ∧
      (v = monitorOk → FreeEffect g m r.toNat m') ∧ (v ≠ monitorOk → m' = m) := by
  have hrun : call g c (.freeDramRegion r) m = _ := run_free h c r hl
  by_cases hok : FreeOk g m r.toNat
  · rw [if_pos hok] at hrun
    refine ⟨_, _, hrun, iff_of_true rfl hok, fun _ => ?_, fun hn => absurd rfl hn⟩
    refine { free := by simp [Machine.owner, mem_st], mem := fun a ha => ?_, maps := ⟨rfl, rfl⟩, dma := ⟨rfl, rfl, rfl, rfl⟩,
             regs := ⟨rfl, rfl, rfl, rfl⟩ }
    rw [mem_st, if_neg ha]
  · rw [if_neg hok] at hrun
    refine ⟨_, _, hrun, iff_of_false ?_ hok, ?_, fun _ => rfl⟩
    · split
      · decide
      · split <;> decide
    · intro hv
      exfalso; revert hv
      split
      · decide
      · split <;> decide

/-- C18. `create_metadata_region(r)`. Region 0 is never free, see C20. -/
theorem C18_create_metadata_exact (h : g.WF) (c : Nat) (r : W) {m : Machine} (hl : LockWords g m) (h0 : m.owner g 0 ≠ freeEnclaveId) :
    ∃ v m', call g c (.createMetadataRegion r) m = some (v, m') ∧
      (v = monitorOk ↔ r.toNat < g.regions ∧ m.locked g r.toNat = false ∧ m.owner g r.toNat = freeEnclaveId) ∧
      (v = monitorOk → MetadataEffect g m r.toNat m') ∧ (v ≠ monitorOk → m' = m) := by
  have hrun : call g c (.createMetadataRegion r) m = _ := run_createMetadata h c r hl h0
  by_cases hr : r.toNat < g.regions
  · rw [if_neg (not_not_intro hr)] at hrun
    by_cases hlk : m.locked g r.toNat = true
    · rw [if_pos hlk] at hrun
      exact ⟨_, _, hrun, iff_of_false (by decide) (by simp [hlk]), fun hv => absurd hv (by decide), fun _ => rfl⟩
    · rw [if_neg hlk] at hrun
      by_cases hf : m.owner g r.toNat = freeEnclaveId
      · rw [if_pos hf] at hrun
        have hr0 : r.toNat ≠ 0 := by intro hh; rw [hh] at hf; exact h0 hf
        exact ⟨_, _, hrun, iff_of_true rfl ⟨hr, by simpa using hlk, hf⟩, fun _ => metadata_effect h hr hr0 m, fun hn => absurd rfl hn⟩
      · rw [if_neg hf] at hrun
        exact ⟨_, _, hrun, iff_of_false (by decide) (by simp [hf]), fun hv => absurd hv (by decide), fun _ => rfl⟩
  · rw [if_pos hr] at hrun
    exact ⟨_, _, hrun, iff_of_false (by decide) (by simp [hr]), fun hv => absurd hv (by decide), fun _ => rfl⟩

/-- C19. The state query tells the truth and changes nothing. -/
theorem C19_state (h : g.WF) (c : Nat) (r : W) {m : Machine} (hl : LockWords g m) :
    ∃ v, call g c (.dramRegionState r) m = some (v, m) ∧
      (v = stateInvalid ↔ ¬ r.toNat < g.regions) ∧
      (v = stateLocked ↔ r.toNat < g.regions ∧ m.locked g r.toNat = true) ∧
      (v = stateBlocked ↔ r.toNat < g.regions ∧ m.locked g r.toNat = false ∧ m.owner g r.toNat = blockedEnclaveId) ∧
      (v = stateFree ↔ r.toNat < g.regions ∧ m.locked g r.toNat = false ∧ m.owner g r.toNat = freeEnclaveId) ∧
      (v = stateOwned ↔ r.toNat < g.regions ∧ m.locked g r.toNat = false ∧ m.owner g r.toNat ≠ blockedEnclaveId ∧
        m.owner g r.toNat ≠ freeEnclaveId) := by
  refine ⟨_, run_state h c r hl, ?_⟩
  by_cases hr : r.toNat < g.regions
  · rw [if_neg (not_not_intro hr)]
    cases hlk : m.locked g r.toNat
    · rw [if_neg Bool.false_ne_true]
      generalize m.owner g r.toNat = o
      by_cases h0 : o = nullEnclaveId
      · subst h0; simp [hr]; decide
      · by_cases h1 : o = blockedEnclaveId
        · subst h1; simp [hr]; decide
        · by_cases h3 : o = freeEnclaveId
          · subst h3; simp [hr]; decide
          · simp [hr, h0, h1, h3]; decide
    · simp [hr]; decide
  · simp [hr]; decide

/-- C19. The owner query tells the owner of an unlocked region that is neither blocked nor free (2 for a
metadata region), and otherwise the null ID. -/
theorem C19_owner (h : g.WF) (c : Nat) (r : W) {m : Machine} (hl : LockWords g m) :
    ∃ v, call g c (.dramRegionOwner r) m = some (v, m) ∧
      (r.toNat < g.regions → m.locked g r.toNat = false → m.owner g r.toNat ≠ blockedEnclaveId → m.owner g r.toNat ≠ freeEnclaveId →
        v = m.owner g r.toNat) ∧
      (¬ (r.toNat < g.regions ∧ m.locked g r.toNat = false ∧ m.owner g r.toNat ≠ blockedEnclaveId ∧ m.owner g r.toNat ≠ freeEnclaveId) →
        v = nullEnclaveId) := by
  refine ⟨_, run_owner h c r hl, ?_, ?_⟩
  · intro h1 h2 h3 h4
    simp [h1, h2, h3, h4]
  · intro h1
    by_cases hr : r.toNat < g.regions
    · cases hlk : m.locked g r.toNat
      · rw [if_neg (not_not_intro hr), if_neg Bool.false_ne_true, if_pos]
        by_cases h3 : m.owner g r.toNat = blockedEnclaveId
        · exact Or.inl h3
        · by_cases h4 : m.owner g r.toNat = freeEnclaveId
          · exact Or.inr h4
          · exact absurd ⟨hr, hlk, h3, h4⟩ h1
      · simp
    · simp [hr]

/-- C19. The ownership check: success exactly for the owner, on valid, unlocked regions other than 0. -/
theorem C19_check_ownership (h : g.WF) {c : Nat} (hc : c < g.cores) (r : W) {m : Machine} (hl : LockWords g m) :
    ∃ v, call g c (.dramRegionCheckOwnership r) m = some (v, m) ∧
      (v = monitorOk ↔ r.toNat ≠ 0 ∧ r.toNat < g.regions ∧ m.locked g r.toNat = false ∧ m.owner g r.toNat = m.running c) := by
  refine ⟨_, run_checkOwnership h hc r hl, ?_⟩
  by_cases hr : r.toNat ≠ 0 ∧ r.toNat < g.regions
  · rw [if_neg (not_not_intro hr)]
    cases hlk : m.locked g r.toNat
    · rw [if_neg Bool.false_ne_true]
      by_cases ho : m.owner g r.toNat = m.running c
      · simp [ho, hr]
      · simp only [if_neg ho, ho, and_false, iff_false]; decide
    · rw [if_pos rfl]; simp; decide
  · rw [if_pos hr]
    refine iff_of_false (by decide) ?_
    rintro ⟨h1, h2, _⟩; exact hr ⟨h1, h2⟩

/-! ### C49 -/

/-- Every byte of the window is in the stripe of a byte that the loop visits. -/
theorem window_visited (h : g.WF) {base n k a : Nat} (hn : n = 2 ^ k - 1) (hb : 2 ^ k ∣ base) (h1 : base ≤ a) (h2 : a ≤ base + n) :
    ∃ j, base + j * g.stripeSize.toNat ≤ base + n ∧ regionOf g (base + j * g.stripeSize.toNat) = regionOf g a := by
  have hpk := Nat.two_pow_pos k
  rw [h.stripeSize]
  unfold regionOf
  have hps := Nat.two_pow_pos (12 + g.sp)
  obtain ⟨q, hq⟩ := hb
  by_cases hk : 12 + g.sp ≤ k
  · refine ⟨(a - base) / 2 ^ (12 + g.sp), ?_, ?_⟩
    · have := Nat.div_mul_le_self (a - base) (2 ^ (12 + g.sp)); omega
    · have hd : 2 ^ (12 + g.sp) ∣ base := by rw [hq]; exact Nat.dvd_trans (Nat.pow_dvd_pow 2 hk) (Nat.dvd_mul_right _ _)
      obtain ⟨w, hw⟩ := hd
      rw [Nat.add_mul_div_right _ _ hps]
      have : a / 2 ^ (12 + g.sp) = base / 2 ^ (12 + g.sp) + (a - base) / 2 ^ (12 + g.sp) := by
        have ha : a = (a - base) + 2 ^ (12 + g.sp) * w := by omega
        rw [ha, Nat.add_mul_div_left _ _ hps, hw, Nat.mul_div_cancel_left _ hps, Nat.add_sub_cancel, Nat.add_comm]
      rw [this]
  · refine ⟨0, by omega, ?_⟩
    rw [Nat.zero_mul, Nat.add_zero]
    have hs : 2 ^ (12 + g.sp) = 2 ^ k * 2 ^ (12 + g.sp - k) := by rw [← Nat.pow_add]; congr 1; omega
    have hbk : base / 2 ^ k = q := by rw [hq, Nat.mul_div_cancel_left _ hpk]
    have hak : a / 2 ^ k = q := by
      have ha : a = (a - base) + 2 ^ k * q := by omega
      rw [ha, Nat.add_mul_div_left _ _ hpk, Nat.div_eq_of_lt (by omega), Nat.zero_add]
    rw [hs, ← Nat.div_div_eq_div_mul, ← Nat.div_div_eq_div_mul, hbk, hak]

theorem dmaOk_iff (h : g.WF) (m : Machine) (base mask : W) : DmaLoopOk g m base mask ↔ DmaOk g m base mask := by
  obtain ⟨hv, hr⟩ := C01_range_exact base mask
  unfold DmaLoopOk DmaOk
  constructor
  · rintro ⟨h1, h2, h3, h4⟩
    obtain ⟨hor, -⟩ := hr h1
    obtain ⟨k, hk, hm, hd⟩ := hv.1 h1
    refine ⟨hv.1 h1, by omega, h3, fun a ha1 ha2 => ?_⟩
    obtain ⟨j, hj1, hj2⟩ := window_visited h hm hd ha1 ha2
    cases hlk : m.locked g (regionOf g a)
    · rfl
    · exfalso
      apply h4
      refine ⟨j, by omega, ?_, by rw [hj2]; exact hlk⟩
      intro h0
      rw [← hj2, h0, h3] at hlk
      cases hlk
  · rintro ⟨h1, h2, h3, h4⟩
    have h1' := hv.2 h1
    obtain ⟨hor, -⟩ := hr h1'
    refine ⟨h1', by omega, h3, ?_⟩
    rintro ⟨j, hj1, hj2, hj3⟩
    have := h4 (base.toNat + j * g.stripeSize.toNat) (by omega) (by omega)
    rw [this] at hj3
    cases hj3

/-- C49. `set_dma_range(base, mask)`. (What it does *not* check is in C26.) -/
theorem C49_set_dma_exact (h : g.WF) (c : Nat) (base mask : W) {m : Machine} (hl : LockWords g m) :
    ∃ v m', call g c (.setDmaRange base mask) m = some (v, m') ∧ (v = monitorOk ↔ DmaOk g m base mask) ∧
      (v = monitorOk → DmaEffect m base mask m') ∧ (v ≠ monitorOk → m' = m) := by
  have hrun : call g c (.setDmaRange base mask) m = _ := run_setDma h c base mask hl
  rw [← dmaOk_iff h]
  by_cases hok : DmaLoopOk g m base mask
  · rw [if_pos hok] at hrun
    exact ⟨_, _, hrun, iff_of_true rfl hok, fun _ => ⟨⟨rfl, rfl⟩, ⟨rfl, rfl⟩, rfl, ⟨rfl, rfl⟩, ⟨rfl, rfl, rfl, rfl⟩⟩, fun hn => absurd rfl hn⟩
  · rw [if_neg hok] at hrun
    have hne : dmaError g base mask ≠ monitorOk := by unfold dmaError; split <;> decide
    exact ⟨_, _, hrun, iff_of_false hne hok, fun hv => absurd hv hne, fun _ => rfl⟩

/-- C50. `flush_cached_dram_regions()` always succeeds and records the current block time for the calling
core. -/
theorem C50_flush_exact (h : g.WF) {c : Nat} (hc : c < g.cores) (m : Machine) :
    ∃ m', call g c .flushCachedDramRegions m = some (monitorOk, m') ∧ FlushEffect g c m m' := by
  refine ⟨_, run_flush h hc m, ?_⟩
  refine { time := by simp [Machine.flushedAt, Machine.flushed], tlb := ⟨by simp [Machine.flushed], fun c' hc' => upd_ne _ _ hc'⟩,
           mem := fun a ha => upd_ne _ _ ha, maps := ⟨rfl, rfl⟩, dma := ⟨rfl, rfl, rfl, rfl⟩, regs := ⟨rfl, rfl, rfl⟩ }

/-! ### C24 -/

/-- C24. With no lock held, the calls that involve only one region never report contention. The caller is the
OS, or an enclave whose record is not in a region that it owns itself (records are in metadata regions). -/
theorem C24_no_spurious_contention (h : g.WF) {c : Nat} (hc : c < g.cores) {m : Machine} (hl : AllUnlocked g m) (hro : RecordOk g (m.running c))
    (hself : m.running c = 0 ∨ m.owner g (regionOf g (m.running c).toNat) ≠ m.running c) (h0 : m.owner g 0 ≠ freeEnclaveId) (hd : m.dmaStart ≤ m.dmaEnd) (k : Call)
    (hk : (∃ r, k = .blockDramRegion r) ∨ (∃ r, k = .freeDramRegion r) ∨ (∃ r, k = .createMetadataRegion r) ∨
      (∃ b n, k = .setDmaRange b n) ∨ (∃ r, k = .dramRegionCheckOwnership r) ∨ k = .flushCachedDramRegions)
    {v : W} {m' : Machine} (hcall : call g c k m = some (v, m')) : v ≠ monitorConcurrentCall := by
  have hlw : LockWords g m := fun i hi => Or.inl ((not_locked m).1 (hl i hi))
  have h00 : regionOf g (0 : W).toNat = 0 := by show regionOf g 0 = 0; unfold regionOf; simp
  have hreg0 : 0 < g.regions := by have := h.regions_ge; omega
  rcases hk with ⟨r, rfl⟩ | ⟨r, rfl⟩ | ⟨r, rfl⟩ | ⟨b, n, rfl⟩ | ⟨r, rfl⟩ | rfl
  · have hrun : call g c (.blockDramRegion r) m = _ := run_block h hc r hlw hro hd
    rw [hcall] at hrun
    injection hrun with hrun
    split at hrun
    · injection hrun with h1 _; rw [h1]; decide
    · injection hrun with h1 _
      rw [h1]
      unfold blockError
      split
      · decide
      · rename_i hr
        have hr := Classical.not_not.1 hr
        rw [if_neg (by rw [hl _ hr.2]; exact Bool.false_ne_true)]
        split
        · decide
        · rename_i hown
          split
          · decide
          · rw [if_neg]
            · decide
            · rintro (h2 | h2)
              · rcases hself with h3 | h3
                · rw [h3, h00] at h2; exact hr.1 h2.symm
                · rw [h2] at h3; exact hown h3
              · rw [hl _ (regionOf_lt h _)] at h2; cases h2
  · have hrun : call g c (.freeDramRegion r) m = _ := run_free h c r hlw
    rw [hcall] at hrun
    injection hrun with hrun
    split at hrun
    · injection hrun with h1 _; rw [h1]; decide
    · injection hrun with h1 _
      rw [h1]
      split
      · decide
      · rename_i hr
        rw [if_neg (by rw [hl _ (Classical.not_not.1 hr)]; exact Bool.false_ne_true)]
        decide
  · have hrun : call g c (.createMetadataRegion r) m = _ := run_createMetadata h c r hlw h0
    rw [hcall] at hrun
    injection hrun with hrun
    split at hrun
    · injection hrun with h1 _; rw [h1]; decide
    · rename_i hr
      rw [if_neg (by rw [hl _ (Classical.not_not.1 hr)]; exact Bool.false_ne_true)] at hrun
      split at hrun <;> (injection hrun with h1 _; rw [h1]; decide)
  · have hrun : call g c (.setDmaRange b n) m = _ := run_setDma h c b n hlw
    rw [hcall] at hrun
    injection hrun with hrun
    split at hrun
    · injection hrun with h1 _; rw [h1]; decide
    · rename_i hno
      injection hrun with h1 _
      rw [h1]
      unfold dmaError
      rw [if_neg]
      · decide
      · rintro ⟨h2, h3⟩
        apply hno
        refine ⟨h2, h3, hl _ hreg0, ?_⟩
        rintro ⟨j, _, _, h4⟩
        rw [hl _ (regionOf_lt h _)] at h4
        cases h4
  · have hrun : call g c (.dramRegionCheckOwnership r) m = _ := run_checkOwnership h hc r hlw
    rw [hcall] at hrun
    injection hrun with hrun
    injection hrun with h1 _
    rw [h1]
    split
    · decide
    · rename_i hr
      rw [if_neg (by rw [hl _ (Classical.not_not.1 hr).2]; exact Bool.false_ne_true)]
      split <;> decide
  · have hrun : call g c .flushCachedDramRegions m = _ := run_flush h hc m
    rw [hcall] at hrun
    injection hrun with hrun
    injection hrun with h1 _
    rw [h1]; decide

/-! ### The hypotheses can be met -/

theorem BootedState.lockWords {m m' : Machine} (h : BootedState g m m') : LockWords g m' := fun i hi =>
  Or.inl ((not_locked m').1 (by have := h.unlocked i hi; unfold Machine.locked; rw [this]; rfl))

/-- The toy machine with an enclave whose record is at 0x9000, in metadata region 1, that owns region 2 and
runs on core 1. -/
def toyEnclaveMachine : Machine :=
  ((((booted toyPlatform).2.st (ownerA (booted toyPlatform).1 1) metadataEnclaveId).st (ownerA (booted toyPlatform).1 2) 0x9000).st
    (ownerA (booted toyPlatform).1 3) freeEnclaveId).st (coreEnclaveA 1) 0x9000

theorem toyEnclaveMachine_locks : LockWords (booted toyPlatform).1 toyEnclaveMachine := by
  intro i hi
  have := BootedState.lockWords (C12_boot_state toy_sane (booted_ok toy_boots)) i hi
  unfold toyEnclaveMachine
  rw [mem_st, if_neg (lockA_ne_coreEnclaveA toy_wf (by set_option maxRecDepth 100000 in decide +kernel)), mem_st, if_neg lockA_ne_ownerA, mem_st,
    if_neg lockA_ne_ownerA, mem_st, if_neg lockA_ne_ownerA]
  exact this

/-- C15 with an enclave as the caller, on both sides of the decision. -/
example : (booted toyPlatform).1.WF ∧ LockWords (booted toyPlatform).1 toyEnclaveMachine ∧
    toyEnclaveMachine.running 1 = 0x9000 ∧ RecordOk (booted toyPlatform).1 (toyEnclaveMachine.running 1) ∧
    toyEnclaveMachine.dmaStart ≤ toyEnclaveMachine.dmaEnd ∧
    BlockOk (booted toyPlatform).1 1 toyEnclaveMachine 2 ∧ ¬ BlockOk (booted toyPlatform).1 1 toyEnclaveMachine 4 ∧
    BlockOk (booted toyPlatform).1 0 toyEnclaveMachine 4 := by
  refine ⟨toy_wf, toyEnclaveMachine_locks, ?_⟩
  unfold BlockOk RecordOk DmaTouches
  set_option maxRecDepth 100000 in decide +kernel

/-- C16 with the OS and with an ID accepted by the validation. -/
example : LockWords (booted toyPlatform).1 toyEnclaveMachine ∧ AssignOk (booted toyPlatform).1 toyEnclaveMachine 3 0 ∧
    ¬ AssignOk (booted toyPlatform).1 toyEnclaveMachine 3 0x9000 ∧ RecordOk (booted toyPlatform).1 0 := by
  refine ⟨toyEnclaveMachine_locks, ?_⟩
  unfold AssignOk RecordOk
  set_option maxRecDepth 100000 in decide +kernel

/-- C17 and C18. -/
example : FreeOk (booted toyPlatform).1 toyEnclaveMachine 1 ∧ ¬ FreeOk (booted toyPlatform).1 toyEnclaveMachine 2 ∧
    toyEnclaveMachine.owner (booted toyPlatform).1 3 = freeEnclaveId ∧ toyEnclaveMachine.owner (booted toyPlatform).1 0 ≠ freeEnclaveId := by
  unfold FreeOk
  set_option maxRecDepth 100000 in decide +kernel

/-- C49: a window over regions 4 and 5. -/
example : DmaOk (booted toyPlatform).1 toyEnclaveMachine 0x20000 0xffff := by
  rw [← dmaOk_iff toy_wf]
  refine ⟨by decide, by (set_option maxRecDepth 100000 in decide +kernel), by (set_option maxRecDepth 100000 in decide +kernel), ?_⟩
  rintro ⟨j, _, _, h3⟩
  have h1 := toyEnclaveMachine_locks
  have h4 : ∀ i, i < (booted toyPlatform).1.regions → toyEnclaveMachine.locked (booted toyPlatform).1 i = false := by
    set_option maxRecDepth 100000 in decide +kernel
  rw [h4 _ (regionOf_lt toy_wf _)] at h3
  cases h3

/-- C24. -/
example : AllUnlocked (booted toyPlatform).1 toyEnclaveMachine ∧
    toyEnclaveMachine.owner (booted toyPlatform).1 (regionOf (booted toyPlatform).1 (toyEnclaveMachine.running 1).toNat) ≠
      toyEnclaveMachine.running 1 := by
  unfold AllUnlocked
  set_option maxRecDepth 100000 in decide +kernel

end Sanctum
