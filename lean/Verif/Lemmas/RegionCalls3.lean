import Verif.Lemmas.RegionCalls2
/-
Closed forms of set_dma_range and flush_cached_dram_regions.
-/
namespace Sanctum
open Machine

variable {g : Cfg}

/-- A stripe visited by the loop of `set_dma_range`, from `a` to `e`, is locked (region 0's lock is held by
the call itself and not tested again). -/
def BusyStripe (g : Cfg) (m : Machine) (a e : Nat) : Prop :=
  ∃ k, a + k * g.stripeSize.toNat < e ∧ regionOf g (a + k * g.stripeSize.toNat) ≠ 0 ∧
    m.locked g (regionOf g (a + k * g.stripeSize.toNat)) = true

/-- The condition for `set_dma_range(base, mask)` to succeed. -/
def DmaLoopOk (g : Cfg) (m : Machine) (base mask : W) : Prop :=
  isValidRange base mask = true ∧ (base ||| mask).toNat < g.dramSize.toNat ∧ m.locked g 0 = false ∧
    ¬ BusyStripe g m base.toNat ((base ||| mask).toNat + 1)

theorem busyStripe_iff (m : Machine) {a e : Nat} (hae : a < e) :
    BusyStripe g m a e ↔ (regionOf g a ≠ 0 ∧ m.locked g (regionOf g a) = true) ∨ BusyStripe g m (a + g.stripeSize.toNat) e := by
  constructor
  · rintro ⟨k, h1, h2, h3⟩
    cases k with
    | zero => left; simp only [Nat.zero_mul, Nat.add_zero] at h2 h3; exact ⟨h2, h3⟩
    | succ k =>
        right
        rw [show a + (k + 1) * g.stripeSize.toNat = a + g.stripeSize.toNat + k * g.stripeSize.toNat by rw [Nat.succ_mul]; omega] at h1 h2 h3
        exact ⟨k, h1, h2, h3⟩
  · rintro (⟨h1, h2⟩ | ⟨k, h1, h2, h3⟩)
    · refine ⟨0, ?_⟩
      simp only [Nat.zero_mul, Nat.add_zero]
      exact ⟨hae, h1, h2⟩
    · refine ⟨k + 1, ?_⟩
      rw [show a + (k + 1) * g.stripeSize.toNat = a + g.stripeSize.toNat + k * g.stripeSize.toNat by rw [Nat.succ_mul]; omega]
      exact ⟨h1, h2, h3⟩

theorem run_dmaRangeLoop (h : g.WF) (c : Nat) (e : W) (m : Machine) (hl : LockWords g m) (he : e.toNat ≤ g.dramSize.toNat) :
    ∀ (fuel : Nat) (a : W) (owns : Bool), e.toNat < a.toNat + fuel → 1 ≤ fuel → a.toNat ≤ g.dramSize.toNat + g.stripeSize.toNat →
    ∃ res, run g c (dmaRangeLoop g e fuel a owns) m = some (res, if res = none then m.st (lockA g 0) 0 else m) ∧
      (res = none ↔ BusyStripe g m a.toNat e.toNat) := by
  have h9 := h.dram_le
  have h10 := h.stripe_le
  have h11 := h.stripe_ge
  intro fuel
  induction fuel with
  | zero => intro a owns _ h1; omega
  | succ n ih =>
      intro a owns hf _ ha
      unfold dmaRangeLoop
      by_cases hlt : a < e
      · rw [if_pos hlt]
        rw [W.lt_iff] at hlt
        have hn := dramRegionFor_lt h a
        have hrz : (dramRegionFor g a != 0) = decide (regionOf g a.toNat ≠ 0) := by
          rw [Bool.eq_iff_iff, bne_iff_ne, Ne, W.eq_iff, dramRegionFor_toNat h, decide_eq_true_eq]; rfl
        have hnext : (a + g.stripeSize).toNat = a.toNat + g.stripeSize.toNat := by
          rw [BitVec.toNat_add]; omega
        rw [busyStripe_iff m hlt]
        have h0 : (0 : W).toNat < g.regions := by have := h.regions_ge; show 0 < _; omega
        by_cases hz : regionOf g a.toNat = 0
        · have hb : (dramRegionFor g a != 0) = false := by rw [hrz]; simp [hz]
          simp only [hb, Bool.false_eq_true, if_false, run_bind, run_pure, Option.bind_some, run_readOwner h hn]
          have := ih (a + g.stripeSize) (owns && m.owner g (dramRegionFor g a).toNat == 0) (by omega) (by omega) (by omega)
          rw [hnext] at this
          simpa [hz] using this
        · have hb : (dramRegionFor g a != 0) = true := by rw [hrz]; simp [hz]
          simp only [hb, if_true, run_bind, run_tasLock h hn, Option.bind_some, dramRegionFor_toNat h]
          by_cases hlk : m.locked g (regionOf g a.toNat) = true
          · have := st_locked hl (regionOf_lt h a.toNat) hlk
            simp only [hlk, if_true, run_bind, run_clearLock h h0, Option.bind_some, run_pure, this]
            refine ⟨none, by rw [if_pos rfl]; rfl, ?_⟩
            simp [hz, hlk]
          · rw [Bool.not_eq_true] at hlk
            have hzz := (not_locked m).1 hlk
            simp only [hlk, Bool.false_eq_true, if_false, run_bind, run_readOwner h hn, run_clearLock h hn, Option.bind_some, dramRegionFor_toNat h,
              lock_restore _ hzz]
            have := ih (a + g.stripeSize) (owns && (m.st (lockA g (regionOf g a.toNat)) 1).owner g (regionOf g a.toNat) == 0)
              (by omega) (by omega) (by omega)
            rw [hnext] at this
            simpa [hz, hlk] using this
      · rw [if_neg hlt, run_pure]
        refine ⟨some owns, by simp, ?_⟩
        rw [W.lt_iff] at hlt
        simp only [reduceCtorEq, false_iff]
        rintro ⟨k, h1, _⟩
        omega

/-- The machine after `set_dma_range(base, mask)`. -/
def Machine.dmaSet (m : Machine) (base mask : W) : Machine :=
  { m with dmaStart := base, dmaEnd := (base ||| mask) + 1, dmarBase := base, dmarMask := ~~~ mask }

/-- The error `set_dma_range(base, mask)` returns when it fails. -/
def dmaError (g : Cfg) (base mask : W) : W :=
  if isValidRange base mask = true ∧ (base ||| mask).toNat < g.dramSize.toNat then monitorConcurrentCall else monitorInvalidValue

theorem busyStripe_lock0 (m : Machine) (a e : Nat) (u : W) : BusyStripe g (m.st (lockA g 0) u) a e ↔ BusyStripe g m a e := by
  have key : ∀ i, i ≠ 0 → (m.st (lockA g 0) u).locked g i = m.locked g i := by
    intro i hi; simp [Machine.locked, mem_st, hi]
  constructor
  · rintro ⟨k, h1, h2, h3⟩; rw [key _ h2] at h3; exact ⟨k, h1, h2, h3⟩
  · rintro ⟨k, h1, h2, h3⟩; rw [← key _ h2] at h3; exact ⟨k, h1, h2, h3⟩

open Classical in
theorem run_setDma (h : g.WF) (c : Nat) (base mask : W) {m : Machine} (hl : LockWords g m) :
    run g c (setDmaRange g base mask) m = some
      (if DmaLoopOk g m base mask then (monitorOk, m.dmaSet base mask) else (dmaError g base mask, m)) := by
  unfold setDmaRange
  have h9 := h.dram_le
  by_cases hv : isValidRange base mask = true
  · by_cases hd : (base ||| mask).toNat < g.dramSize.toNat
    · have h0 : (0 : W).toNat < g.regions := by have := h.regions_ge; show 0 < _; omega
      have h00 : 0 < g.regions := h0
      have hend : ((base ||| mask) + 1).toNat = (base ||| mask).toNat + 1 := by
        rw [BitVec.toNat_add, show (1 : W).toNat = 1 from rfl]; omega
      have herr : dmaError g base mask = monitorConcurrentCall := if_pos ⟨hv, hd⟩
      rw [hv, (isDramAddress_iff _).2 hd]
      simp only [Bool.not_true, Bool.false_eq_true, if_false, run_bind, run_tasLock h h0, Option.bind_some, show (0 : W).toNat = 0 from rfl]
      by_cases hlk : m.locked g 0 = true
      · have hno : ¬ DmaLoopOk g m base mask := by rintro ⟨_, _, h3, _⟩; rw [hlk] at h3; cases h3
        rw [if_pos hlk, if_neg hno, run_pure, st_locked hl h00 hlk, herr]
      · rw [if_neg hlk]
        rw [Bool.not_eq_true] at hlk
        have hz := (not_locked m).1 hlk
        have hl1 : LockWords g (m.st (lockA g 0) 1) := by
          intro i hi
          rw [mem_st]
          split
          · exact Or.inr rfl
          · exact hl i hi
        have hbase : base.toNat ≤ (base ||| mask).toNat := by
          rw [BitVec.toNat_or]; exact Nat.left_le_or
        obtain ⟨res, h1, h2⟩ := run_dmaRangeLoop h c ((base ||| mask) + 1) (m.st (lockA g 0) 1) hl1 (by rw [hend]; omega) (2 ^ 64) base true
          (by rw [hend]; omega) (Nat.one_le_two_pow) (by omega)
        rw [busyStripe_lock0, hend] at h2
        rw [run_bind, h1, Option.bind_some]
        cases res with
        | none =>
            have hno : ¬ DmaLoopOk g m base mask := by rintro ⟨_, _, _, h4⟩; exact h4 (h2.1 rfl)
            simp only [if_true, run_pure, if_neg hno, lock_restore _ hz, herr]
        | some b =>
            have hyes : DmaLoopOk g m base mask := ⟨hv, hd, hlk, fun hb => by have := h2.2 hb; cases this⟩
            simp only [reduceCtorEq, if_false, run_bind, run_act_, exec, Option.map_some, Option.bind_some, run_clearLock h h0, run_pure,
              if_pos hyes, show (0 : W).toNat = 0 from rfl]
            congr 2
            simp only [Machine.st, Machine.dmaSet, upd_upd]
            rw [← hz, upd_eq_self]
    · have hno : ¬ DmaLoopOk g m base mask := fun hh => hd hh.2.1
      have hf : isDramAddress g (base ||| mask) = false := by rw [← Bool.not_eq_true, isDramAddress_iff]; exact hd
      simp only [hv, hf, Bool.not_true, Bool.not_false, Bool.false_eq_true, if_false, if_true, run_pure, if_neg hno, dmaError, hd, and_false]
  · have hno : ¬ DmaLoopOk g m base mask := fun hh => hv hh.1
    rw [Bool.not_eq_true] at hv
    simp only [hv, Bool.not_false, if_true, run_pure, if_neg hno, dmaError, Bool.false_eq_true, false_and, if_false]

/-- The machine after `flush_cached_dram_regions()` on core `c`. -/
def Machine.flushed (m : Machine) (g : Cfg) (c : Nat) : Machine :=
  { m with mem := upd m.mem (flushedA c) (m.clock g), tlbFlushes := upd m.tlbFlushes c (m.tlbFlushes c + 1) }

theorem run_flush (h : g.WF) {c : Nat} (hc : c < g.cores) (m : Machine) :
    run g c (flushCachedDramRegions g) m = some (monitorOk, m.flushed g c) := by
  unfold flushCachedDramRegions dramRegionTlbFlush
  simp only [run_bind, run_act_, run_act, exec, Option.map_some, Option.bind_some, run_load _ _ _ _ (clock_ok h), run_storeFlushed h hc, run_pure]
  rfl

end Sanctum
