import Verif.Lemmas.Tree
import Verif.Lemmas.RegionCalls3
import Verif.Spec.Metadata
import Verif.Props.Geometry
/-
Closed forms of create_enclave, assign_thread, load_thread.
-/
namespace Sanctum
open Machine

variable {g : Cfg}

/-- A configuration in which the page index of an address is well-defined. -/
structure Cfg.MetaOk (g : Cfg) : Prop where
  wf : g.WF
  single : g.SingleStripe
  shift : g.ShiftOk

theorem dram_eq (h : g.MetaOk) : g.dramSize.toNat = g.regions * g.stripeSize.toNat := by
  rw [h.wf.dramSize, h.wf.regions_eq, h.wf.stripeSize, ← Nat.pow_add, h.single]; congr 1; omega

/-- Decomposition of an address of a single-stripe machine. -/
theorem addr_decomp (h : g.MetaOk) {a : Nat} (ha : a < g.dramSize.toNat) :
    a = regionOf g a * g.stripeSize.toNat + a % g.stripeSize.toNat := by
  have h1 := Nat.div_add_mod a g.stripeSize.toNat
  have h2 : a / g.stripeSize.toNat < 2 ^ g.rb := by
    rw [dram_eq h, h.wf.regions_eq] at ha
    exact Nat.div_lt_of_lt_mul (by rw [Nat.mul_comm]; exact ha)
  unfold regionOf
  rw [← h.wf.stripeSize, Nat.mod_eq_of_lt h2, Nat.mul_comm]; exact h1.symm

theorem pageIndex_eq (h : g.WF) (a : Nat) : pageIndex g a = a % g.stripeSize.toNat / 4096 := by
  unfold pageIndex
  rw [h.stripeSize, Nat.pow_add, show (2 : Nat) ^ 12 = 4096 from rfl, Nat.mod_mul_right_div_self]

theorem entry_toNat (h : g.MetaOk) {e : W} (he : e.toNat < g.dramSize.toNat) : (metadataPageInfoFor g e).toNat = entryA g e.toNat := by
  have h1 := dramRegionPageFor_single h.wf h.single h.shift e he
  have h2 := addr_decomp h he
  have h3 := h.wf.dram_le
  have h4 := pageIndex_eq h.wf e.toNat
  unfold metadataPageInfoFor
  rw [h1, BitVec.toNat_add, and_regionMask_toNat h.wf, BitVec.toNat_mul, dramStripePageFor_toNat h.wf]
  unfold entryA pageIndex at *
  rw [show (2 : Nat) ^ 12 = 4096 from rfl, show (8 : W).toNat = 8 from rfl]
  omega

/-- The entry of a page and the following entries up to the end of the stripe are inside the region. -/
theorem entry_bounds (h : g.MetaOk) {e : Nat} (he : e < g.dramSize.toNat) :
    entryA g e % 8 = 0 ∧ regionOf g e * g.stripeSize.toNat ≤ entryA g e ∧
    entryA g e = regionOf g e * g.stripeSize.toNat + 8 * pageIndex g e ∧ pageIndex g e < 2 ^ g.sp ∧
    4096 * 2 ^ g.sp = g.stripeSize.toNat ∧ (regionOf g e + 1) * g.stripeSize.toNat ≤ g.dramSize.toNat := by
  have h2 := pageIndex_eq h.wf e
  have h3 : g.stripeSize.toNat % 8 = 0 := by rw [h.wf.stripeSize, Nat.pow_add]; omega
  have h4 : (regionOf g e * g.stripeSize.toNat) % 8 = 0 := by rw [Nat.mul_mod, h3]; simp
  refine ⟨?_, ?_, rfl, Nat.mod_lt _ (Nat.two_pow_pos _), ?_, h.wf.region_end_le (regionOf_lt h.wf e)⟩
  · unfold entryA; omega
  · unfold entryA; omega
  · rw [h.wf.stripeSize, Nat.pow_add]

theorem page_in_region (h : g.MetaOk) {e : Nat} (he : e < g.dramSize.toNat) (h4 : e % 4096 = 0) :
    e = regionOf g e * g.stripeSize.toNat + 4096 * pageIndex g e := by
  have h1 := addr_decomp h he
  rw [pageIndex_eq h.wf]
  have h3 : g.stripeSize.toNat % 4096 = 0 := by rw [h.wf.stripeSize, Nat.pow_add]; omega
  have h5 : (regionOf g e * g.stripeSize.toNat) % 4096 = 0 := by rw [Nat.mul_mod, h3]; simp
  omega

/-- A metadata region is not region 0 if the OS owns region 0, so it is above the monitor. -/
theorem meta_above (h : g.MetaOk) {m : Machine} (h0 : m.owner g 0 = 0) {e : Nat} (ho : m.owner g (regionOf g e) = metadataEnclaveId) :
    regionOf g e ≠ 0 ∧ g.monitorTop.toNat ≤ regionOf g e * g.stripeSize.toNat := by
  have h1 : regionOf g e ≠ 0 := by
    intro hh; rw [hh, h0] at ho; exact absurd ho (by decide)
  exact ⟨h1, Nat.le_trans h.wf.top_le (region_start_ge g h1)⟩

/-! ### lock_metadata_region_for -/

/-- The error of `lock_metadata_region_for`. -/
def metaLockError (g : Cfg) (m : Machine) (a : W) : W :=
  if ¬ (a.toNat % 4096 = 0 ∧ a.toNat < g.dramSize.toNat) then monitorInvalidValue
  else if m.locked g (regionOf g a.toNat) then monitorConcurrentCall else monitorInvalidState

theorem metaLockError_ne (g : Cfg) (m : Machine) (a : W) : metaLockError g m a ≠ monitorOk := by
  unfold metaLockError
  split
  · decide
  · split <;> decide

theorem run_lockMeta_ok (h : g.WF) (c : Nat) {a : W} {m : Machine} (hm : MetaPage g m a.toNat) :
    run g c (lockMetadataRegionFor g a) m = some ((monitorOk, dramRegionFor g a), m.st (lockA g (regionOf g a.toNat)) 1) := by
  obtain ⟨h1, h2, h3, h4⟩ := hm
  have hn := dramRegionFor_lt h a
  unfold lockMetadataRegionFor
  rw [(isPageAligned_iff a).2 h1, (isDramAddress_iff a).2 h2]
  have hown : (m.st (lockA g (regionOf g a.toNat)) 1).owner g (regionOf g a.toNat) = m.owner g (regionOf g a.toNat) := by
    simp [Machine.owner, mem_st]
  simp only [Bool.not_true, Bool.or_self, Bool.false_eq_true, if_false, run_bind, run_tasLock h hn, Option.bind_some, dramRegionFor_toNat h, h3,
    run_readOwner h hn, hown, h4, bne_self_eq_false, run_pure]

theorem run_lockMeta_err (h : g.WF) (c : Nat) {a : W} {m : Machine} (hl : LockWords g m) (hm : ¬ MetaPage g m a.toNat) :
    ∃ r, run g c (lockMetadataRegionFor g a) m = some ((metaLockError g m a, r), m) := by
  have hn := dramRegionFor_lt h a
  unfold lockMetadataRegionFor metaLockError
  by_cases h1 : a.toNat % 4096 = 0
  · by_cases h2 : a.toNat < g.dramSize.toNat
    · rw [(isPageAligned_iff a).2 h1, (isDramAddress_iff a).2 h2, if_neg (not_not_intro ⟨h1, h2⟩)]
      simp only [Bool.not_true, Bool.or_self, Bool.false_eq_true, if_false, run_bind, run_tasLock h hn, Option.bind_some, dramRegionFor_toNat h]
      by_cases h3 : m.locked g (regionOf g a.toNat) = true
      · rw [if_pos h3, if_pos h3, run_pure, st_locked hl (regionOf_lt h _) h3]
        exact ⟨_, rfl⟩
      · rw [if_neg h3, if_neg h3]
        rw [Bool.not_eq_true] at h3
        have hz := (not_locked m).1 h3
        have h4 : m.owner g (regionOf g a.toNat) ≠ metadataEnclaveId := fun h4 => hm ⟨h1, h2, h3, h4⟩
        have hown : (m.st (lockA g (regionOf g a.toNat)) 1).owner g (regionOf g a.toNat) = m.owner g (regionOf g a.toNat) := by
          simp [Machine.owner, mem_st]
        have hne : (m.owner g (regionOf g a.toNat) != metadataEnclaveId) = true := bne_iff_ne.2 h4
        simp only [run_bind, run_readOwner h hn, Option.bind_some, dramRegionFor_toNat h, hown, hne, if_true, run_clearLock h hn, run_pure,
          lock_restore _ hz]
        exact ⟨_, rfl⟩
    · have : isDramAddress g a = false := by rw [← Bool.not_eq_true, isDramAddress_iff]; exact h2
      rw [this, if_pos (fun hh => h2 hh.2)]
      simp only [Bool.not_false, Bool.or_true, if_true, run_pure]
      exact ⟨_, rfl⟩
  · have : isPageAligned a = false := by rw [← Bool.not_eq_true, isPageAligned_iff]; exact h1
    rw [this, if_pos (fun hh => h1 hh.1)]
    simp only [Bool.not_false, Bool.true_or, if_true, run_pure]
    exact ⟨_, rfl⟩

/-! ### assign_metadata_pages -/

theorem run_pagesEmptyLoop (c : Nat) (m : Machine) (n : Nat) : ∀ p : W, p.toNat % 8 = 0 → p.toNat + 8 * n ≤ g.dramSize.toNat →
    ∃ ok, run g c (pagesEmptyLoop n p) m = some (ok, m) ∧ (ok = true ↔ ∀ k, k < n → m.mem (p.toNat + 8 * k) = 0) := by
  have hlt := g.dramSize.isLt
  induction n with
  | zero => intro p _ _; exact ⟨true, rfl, by simp⟩
  | succ n ih =>
      intro p h8 hd
      rw [pagesEmptyLoop, run_bind, run_load _ _ _ _ (by rw [okAddr_iff]; omega), Option.bind_some]
      simp only
      by_cases hz : m.mem p.toNat = 0
      · rw [if_neg (by rw [hz]; decide)]
        by_cases hn : n = 0
        · subst hn
          refine ⟨true, rfl, ?_⟩
          simp only [true_iff]
          intro k hk
          rw [show k = 0 by omega]; exact hz
        have h1 : (p + 8).toNat = p.toNat + 8 := add_off (by show p.toNat + 8 < _; omega)
        obtain ⟨ok, h2, h3⟩ := ih (p + 8) (by omega) (by omega)
        refine ⟨ok, h2, ?_⟩
        rw [h3, h1]
        constructor
        · intro hall k hk
          cases k with
          | zero => exact hz
          | succ k => have := hall k (by omega); rw [show p.toNat + 8 * (k + 1) = p.toNat + 8 + 8 * k by omega]; exact this
        · intro hall k hk
          have := hall (k + 1) (by omega)
          rw [show p.toNat + 8 + 8 * k = p.toNat + 8 * (k + 1) by omega]; exact this
      · rw [if_pos (bne_iff_ne.2 hz), run_pure]
        refine ⟨false, rfl, ?_⟩
        simp only [Bool.false_eq_true, false_iff]
        intro hall
        exact hz (hall 0 (by omega))

/-- The memory after `innerPagesLoop n p`. -/
theorem run_innerPagesLoop (c : Nat) (n : Nat) : ∀ (p : W) (m : Machine), p.toNat % 8 = 0 → p.toNat + 8 * n ≤ g.dramSize.toNat →
    ∃ mem', run g c (innerPagesLoop n p) m = some ((), { m with mem := mem' }) ∧
      (∀ k, k < n → mem' (p.toNat + 8 * k) = innerPageType) ∧ (∀ x, ¬ (∃ k, k < n ∧ x = p.toNat + 8 * k) → mem' x = m.mem x) := by
  have hlt := g.dramSize.isLt
  induction n with
  | zero => intro p m _ _; exact ⟨m.mem, rfl, fun k hk => absurd hk (by omega), fun _ _ => rfl⟩
  | succ n ih =>
      intro p m h8 hd
      rw [innerPagesLoop, run_bind, run_store _ _ _ _ _ (by rw [okAddr_iff]; omega), Option.bind_some]
      simp only
      by_cases hn : n = 0
      · subst hn
        refine ⟨(m.st p.toNat innerPageType).mem, rfl, ?_, ?_⟩
        · intro k hk; rw [show k = 0 by omega, mem_st]; simp
        · intro x hx; rw [mem_st, if_neg]; intro h1; exact hx ⟨0, by omega, by omega⟩
      have h1 : (p + 8).toNat = p.toNat + 8 := add_off (by show p.toNat + 8 < _; omega)
      obtain ⟨mem', h2, h3, h4⟩ := ih (p + 8) (m.st p.toNat innerPageType) (by omega) (by omega)
      refine ⟨mem', h2, ?_, ?_⟩
      · intro k hk
        cases k with
        | zero =>
            rw [h4 _ (by rintro ⟨k, _, hk2⟩; omega), mem_st]; simp
        | succ k => have := h3 k (by omega); rw [show p.toNat + 8 * (k + 1) = (p + 8).toNat + 8 * k by omega]; exact this
      · intro x hx
        rw [h4 x, mem_st, if_neg]
        · intro h5; exact hx ⟨0, by omega, by omega⟩
        · rintro ⟨k, h5, h6⟩; exact hx ⟨k + 1, by omega, by omega⟩

/-- The condition for `assign_metadata_pages` to succeed. -/
def PagesFree (g : Cfg) (m : Machine) (a n : Nat) : Prop := pageIndex g a + n ≤ 2 ^ g.sp ∧ ∀ k, k < n → m.mem (entryA g a + 8 * k) = 0

theorem run_assignPages (h : g.MetaOk) (c : Nat) {a n : W} (ha : a.toNat < g.dramSize.toNat) (hn : n.toNat < 2 ^ 52) (o t f : W) (m : Machine) :
    (PagesFree g m a.toNat n.toNat → ∃ mem', run g c (assignMetadataPages g a n o t f) m = some (monitorOk, { m with mem := mem' }) ∧
      (n.toNat ≤ 1 → mem' (entryA g a.toNat) = o ||| t) ∧
      (∀ k, k + 1 < n.toNat → mem' (entryA g a.toNat + 8 * k) = innerPageType) ∧
      (∀ x, x ≠ entryA g a.toNat → ¬ (∃ k, k + 1 < n.toNat ∧ x = entryA g a.toNat + 8 * k) → mem' x = m.mem x)) ∧
    (¬ PagesFree g m a.toNat n.toNat → ∃ v, run g c (assignMetadataPages g a n o t f) m = some (v, m) ∧ v ≠ monitorOk) := by
  obtain ⟨b1, b2, b3, b4, b5, b6⟩ := entry_bounds h ha
  rw [Nat.succ_mul] at b6
  have hidx : (dramStripePageFor g a).toNat = pageIndex g a.toNat := by
    rw [dramStripePageFor_toNat h.wf]; rfl
  have hsp := h.wf.stripe_le
  have hgt : (dramStripePageFor g a + n > g.stripePages) ↔ 2 ^ g.sp < pageIndex g a.toNat + n.toNat := by
    show g.stripePages < _ ↔ _
    rw [W.lt_iff, h.wf.stripePages, add_off (by rw [hidx]; omega), hidx]
  have hp := entry_toNat h ha
  unfold assignMetadataPages
  by_cases hfit : 2 ^ g.sp < pageIndex g a.toNat + n.toNat
  · rw [if_pos (hgt.2 hfit)]
    refine ⟨fun hh => absurd hh.1 (by omega), fun _ => ⟨_, rfl, by decide⟩⟩
  · rw [if_neg (fun hh => hfit (hgt.1 hh))]
    obtain ⟨ok, h1, h2⟩ := run_pagesEmptyLoop (g := g) c m n.toNat (metadataPageInfoFor g a) (by rw [hp]; omega) (by rw [hp]; omega)
    rw [hp] at h2
    simp only [run_bind, h1, Option.bind_some]
    refine ⟨fun hh => ?_, fun hh => ?_⟩
    · have hok : ok = true := h2.2 hh.2
      obtain ⟨mem', h3, h4, h5⟩ := run_innerPagesLoop (g := g) c (n.toNat - 1) (metadataPageInfoFor g a)
        (m.st (entryA g a.toNat) (metadataPageInfo o t)) (by rw [hp]; omega) (by rw [hp]; omega)
      rw [hp] at h4 h5
      simp only [hok, if_true, run_bind, run_store _ _ _ _ _ (show okAddr g (metadataPageInfoFor g a) = true by rw [okAddr_iff, hp]; omega),
        Option.bind_some, hp, h3, run_pure]
      refine ⟨mem', rfl, ?_, ?_, ?_⟩
      · intro hn1
        rw [h5 _ (by rintro ⟨k, hk, _⟩; omega), mem_st, if_pos rfl]; rfl
      · intro k hk; exact h4 k (by omega)
      · intro x hx1 hx2
        rw [h5 x (by rintro ⟨k, hk1, hk2⟩; exact hx2 ⟨k, by omega, hk2⟩), mem_st, if_neg hx1]
    · have hok : ok = false := by
        rw [← Bool.not_eq_true, h2]
        intro hall; exact hh ⟨by omega, hall⟩
      simp only [hok, Bool.false_eq_true, if_false, run_pure]
      exact ⟨_, rfl, by decide⟩

end Sanctum
