import Verif.Lemmas.Snapshot
import Verif.Lemmas.Loops
import Verif.Props.Geometry
/-
Property C12: the machine right after boot. Property C04: bitmaps.
-/
namespace Sanctum

/-! ### C04 -/

/-- C04. After setting or clearing bit `i` of the bitmap at `b`, reading bit `j` gives the new value if
`j = i` and what it gave before otherwise (including faulting or not); only the word holding bit `i`
changes, and no register. -/
theorem C04_bitmaps_are_sets (g : Cfg) (c : Nat) (b i : W) (v : Bool) (m m' : Machine)
    (h : run g c (setBitmapBit b i v) m = some ((), m')) :
    (run g c (readBitmapBit b i) m' = some (v, m')) ∧
    (∀ j : W, j ≠ i → run g c (readBitmapBit b j) m' = (run g c (readBitmapBit b j) m).map (fun x => (x.1, m'))) ∧
    ∃ w, m' = { m with mem := upd m.mem (b + i / 64 * 8).toNat w } := by
  by_cases hok : okAddr g (bitWordA b i) = true
  · rw [run_setBitmapBit _ _ _ _ _ _ hok] at h
    injection h with h
    injection h with _ h
    subst h
    refine ⟨?_, ?_, ?_⟩
    · rw [run_readBitmapBit _ _ _ _ _ hok, st_mem, upd_same, getLsbD_setBit _ _ _ _ (Nat.mod_lt _ (by decide)) (Nat.mod_lt _ (by decide)), if_pos rfl]
    · intro j hj
      by_cases hok2 : okAddr g (bitWordA b j) = true
      · rw [run_readBitmapBit _ _ _ _ _ hok2, run_readBitmapBit _ _ _ _ _ hok2, Option.map_some, st_mem, upd_apply]
        by_cases hw : (bitWordA b j).toNat = (bitWordA b i).toNat
        · have hw2 := bitWordA_inj (BitVec.eq_of_toNat_eq hw)
          rw [if_pos hw, hw, getLsbD_setBit _ _ _ _ (Nat.mod_lt _ (by decide)) (Nat.mod_lt _ (by decide)), if_neg]
          intro hm
          apply hj
          rw [W.eq_iff]; omega
        · rw [if_neg hw]
      · rw [Bool.not_eq_true] at hok2
        rw [run_readBitmapBit_none _ _ _ _ _ hok2, run_readBitmapBit_none _ _ _ _ _ hok2]; rfl
    · exact ⟨_, rfl⟩
  · rw [Bool.not_eq_true] at hok
    rw [run_setBitmapBit_none _ _ _ _ _ _ hok] at h; cases h

example : ∃ m', run (booted toyPlatform).1 0 (setBitmapBit 0x8000 70 true) (booted toyPlatform).2 = some ((), m') :=
  ⟨_, run_setBitmapBit _ _ _ _ _ _ (by set_option maxRecDepth 100000 in decide +kernel)⟩

/-! ### C12 -/

/-- The machine right after boot. -/
structure BootedState (g : Cfg) (m m' : Machine) : Prop where
  /-- the arrays are consecutive, disjoint and below the monitor's top -/
  cores_array : g.coreBase.toNat = 0 ∧ g.coreBase.toNat + 32 * g.cores ≤ g.regionBase.toNat
  region_array : g.regionBase.toNat + 40 * g.regions ≤ g.regionsBase.toNat
  clock_cell : g.regionsBase.toNat + 8 ≤ g.osBitmap.toNat
  bitmap_array : g.osBitmap.toNat + 8 * ((g.regions + 63) / 64) ≤ g.monitorTop.toNat
  /-- the protected range is exactly the monitor's memory -/
  protected_range : ∀ a : W, rangeCovers (m'.parBase 0) (m'.parMask 0) a = true ↔ a.toNat < g.monitorTop.toNat
  unlocked : ∀ i, i < g.regions → m'.mem (lockA g i) = 0
  owned : ∀ i, i < g.regions → m'.owner g i = 0 ∧ m'.prevOwner g i = 0 ∧ m'.pinned g i = 0 ∧ m'.blockedAt g i = 0
  clock : m'.clock g = 0
  bitmap : ∀ i, i < g.regions → m'.osBit g i = true
  loaded : ∀ i, i < g.regions → m'.drbBit 0 i = true
  /-- the DMA window is the single byte at the top of the monitor's memory, both in the globals and in the
  DMA master's registers -/
  dma : m'.dmaStart = g.monitorTop ∧ m'.dmaEnd = g.monitorTop + 1 ∧ m'.dmarBase = g.monitorTop ∧ m'.dmarMask = ~~~ 0
  dma_outside : ∀ a : W, rangeCovers m'.dmarBase m'.dmarMask a = true → g.monitorTop.toNat ≤ a.toNat
  /-- memory above the monitor's arrays is untouched -/
  frame : ∀ a, g.monitorTop.toNat ≤ a → m'.mem a = m.mem a
  /-- as is the array of core records -/
  cores_frame : ∀ a, a < 32 * g.cores → m'.mem a = m.mem a

theorem exec_top (g : Cfg) (top : W) (c : Nat) (o : Op) (m : Machine) : exec { g with monitorTop := top } c o m = exec g c o m := by
  cases o <;> rfl

theorem run_top {α : Type} (g : Cfg) (top : W) (c : Nat) (p : Prog α) (m : Machine) :
    run { g with monitorTop := top } c p m = run g c p m := by
  induction p generalizing m with
  | ret a => rfl
  | op o k ih =>
      simp only [run, exec_top]
      cases exec g c o m with
      | none => rfl
      | some x => exact ih _ _
  | fault => rfl
  | diverge => rfl

theorem bootArrays_top (g : Cfg) (top : W) : bootArrays { g with monitorTop := top } = bootArrays g := by
  have h1 : ∀ n i, bootRegionLoop { g with monitorTop := top } n i = bootRegionLoop g n i := by
    intro n
    induction n with
    | zero => intro i; rfl
    | succ n ih => intro i; rw [bootRegionLoop, bootRegionLoop, ih]; rfl
  have h2 : ∀ n i, bootBitmapLoop { g with monitorTop := top } n i = bootBitmapLoop g n i := by
    intro n
    induction n with
    | zero => intro i; rfl
    | succ n ih => intro i; rw [bootBitmapLoop, bootBitmapLoop, ih]
  unfold bootArrays
  rw [h1, h2]

/-- C12. -/
theorem C12_boot_state {p : Platform} (hp : p.Sane) {m m' : Machine} {g : Cfg} (h : boot p m = .ok (g, m')) :
    BootedState g m m' := by
  have hwf := boot_wf hp h
  obtain ⟨g0, s, m1, top, -, hrun, -, -, hg, hprot⟩ := boot_ok h
  generalize bootLayout p (bootInitMetadata g0) = g1 at *
  have htop : top = g.monitorTop := by rw [hg]
  have hrun : run g 0 (do act_ (.setCacheShift s); bootArrays g) m = some ((), m1) := by
    have e1 := run_top g1 top 0 (do act_ (.setCacheShift s); bootArrays { g1 with monitorTop := top }) m
    rw [hg, e1, bootArrays_top]; exact hrun
  clear hg
  subst htop
  obtain ⟨h1, h2, h3, h4, h5, h6, h7, h8, h9, h10, h11, h12⟩ := hwf.layout
  have hwords := hwf.words
  -- the arrays
  simp only [bootArrays, run_bind, run_act_, exec, Option.map_some, Option.bind_some] at hrun
  rw [run_bootRegionLoop hwf _ _ _ (by simp [Cfg.regions])] at hrun
  simp only [Option.bind_some, run_store _ _ _ _ _ (clock_ok hwf)] at hrun
  obtain ⟨mem', hb1, hb2, hb3⟩ := run_bootBitmapLoop hwf g.regionCount.toNat 0
    ((({ m with cacheShift := upd m.cacheShift 0 s } : Machine).zero (g.regionBase.toNat + 40 * (0 : W).toNat)
      (g.regionBase.toNat + 40 * ((0 : W).toNat + g.regionCount.toNat))).st g.regionsBase.toNat 0) (by simp [Cfg.regions])
  rw [hb1] at hrun
  injection hrun with hrun
  injection hrun with _ hrun
  -- the registers
  have hokr : okRange g g.osBitmap g.bitmapWords.toNat = true := by
    simp only [okRange, decide_eq_true_eq]; omega
  simp only [bootProtection, run_bind, run_act_, exec, Option.map_some, Option.bind_some, run_setDrbMap hokr] at hprot
  injection hprot with hprot
  injection hprot with _ hprot
  subst hprot
  have hmem : m1.mem = mem' := by rw [← hrun]
  have hreg : g.regionCount.toNat = g.regions := rfl
  simp only [show (0 : W).toNat = 0 from rfl, hreg, Nat.zero_add, Nat.mul_zero, Nat.add_zero] at hb2 hb3
  have hlow : ∀ a, a < g.osBitmap.toNat → m1.mem a =
      if a = g.regionsBase.toNat then 0 else if g.regionBase.toNat ≤ a ∧ a < g.regionBase.toNat + 40 * g.regions ∧ a % 8 = 0 then 0 else m.mem a := by
    intro a ha
    rw [hmem, hb2 a (by omega), st_mem, upd_apply, zero_mem]
  have hbit : ∀ i, i < g.regions → ((m1.mem (osWordA g i)).getLsbD (i % 64)) = true := by
    intro i hi
    have := hb3 i
    rw [if_pos (by omega)] at this
    rw [hmem]; exact this
  refine
    { cores_array := by omega
      region_array := by omega
      clock_cell := by omega
      bitmap_array := by omega
      protected_range := ?_
      unlocked := ?_
      owned := ?_
      clock := ?_
      bitmap := hbit
      loaded := ?_
      dma := ⟨rfl, rfl, rfl, rfl⟩
      dma_outside := ?_
      frame := ?_
      cores_frame := ?_ }
  · intro a
    obtain ⟨t, ht⟩ := hwf.top_pow
    have htp : (g.monitorTop - 1).toNat = 2 ^ t - 1 := by
      rw [sub_one_toNat _ (by rw [ht]; exact Nat.two_pow_pos t), ht]
    simp only [rangeCovers, upd_same]
    rw [beq_iff_eq]
    have key : (a &&& ~~~ (g.monitorTop - 1)) = 0 ↔ (a &&& (g.monitorTop - 1)) = a := by
      constructor
      · intro h0
        apply BitVec.eq_of_getLsbD_eq
        intro i hi
        have := congrArg (fun x : W => x.getLsbD i) h0
        simp only [BitVec.getLsbD_and, BitVec.getLsbD_not, hi, decide_true, Bool.true_and, BitVec.getLsbD_zero] at this
        rw [BitVec.getLsbD_and]
        revert this
        cases a.getLsbD i <;> cases (g.monitorTop - 1).getLsbD i <;> simp
      · intro h0
        apply BitVec.eq_of_getLsbD_eq
        intro i hi
        have := congrArg (fun x : W => x.getLsbD i) h0
        simp only [BitVec.getLsbD_and] at this
        simp only [BitVec.getLsbD_and, BitVec.getLsbD_not, hi, decide_true, Bool.true_and]
        revert this
        cases a.getLsbD i <;> cases (g.monitorTop - 1).getLsbD i <;> simp
    rw [key, W.eq_iff, and_mask_toNat _ _ htp, ht]
    constructor
    · intro h0; rw [← h0]; exact Nat.mod_lt _ (Nat.two_pow_pos t)
    · exact Nat.mod_eq_of_lt
  · intro i hi
    show m1.mem (lockA g i) = 0
    unfold lockA
    rw [hlow _ (by omega), if_neg (by omega), if_pos (by omega)]
  · intro i hi
    show m1.mem (ownerA g i) = 0 ∧ m1.mem (prevA g i) = 0 ∧ m1.mem (pinnedA g i) = 0 ∧ m1.mem (blockedA g i) = 0
    unfold ownerA prevA pinnedA blockedA
    refine ⟨?_, ?_, ?_, ?_⟩ <;> rw [hlow _ (by omega), if_neg (by omega), if_pos (by omega)]
  · show m1.mem (clockA g) = 0
    unfold clockA
    rw [hlow _ (by omega), if_pos rfl]
  · intro i hi
    simp only [Machine.drbBit, upd_same, snapshot]
    rw [List.getD_eq_getElem?_getD, List.getElem?_map, List.getElem?_range (by omega)]
    exact hbit i hi
  · intro a ha
    simp only [rangeCovers, beq_iff_eq] at ha
    rw [← ha]
    have : a &&& ~~~ (0 : W) = a := by
      rw [show ~~~ (0 : W) = BitVec.allOnes 64 by decide, BitVec.and_allOnes]
    rw [this]; exact Nat.le_refl _
  · intro a ha
    show m1.mem a = m.mem a
    rw [hmem, hb2 a (by omega), st_mem, upd_apply, zero_mem, if_neg (by omega), if_neg (by omega)]
  · intro a ha
    show m1.mem a = m.mem a
    rw [hlow a (by omega), if_neg (by omega), if_neg (by omega)]

example : BootedState (booted toyPlatform).1 zeroMachine (booted toyPlatform).2 := C12_boot_state toy_sane (booted_ok toy_boots)

/-- Boot does not initialise the core records: whatever was in memory stays there, so the "running enclave"
of a core and its flush time are arbitrary (disagreement 16). -/
theorem C12_cores_not_initialised {p : Platform} (hp : p.Sane) {m m' : Machine} {g : Cfg} (h : boot p m = .ok (g, m')) (c : Nat)
    (hc : c < g.cores) : m'.running c = m.running c ∧ m'.flushedAt c = m.flushedAt c := by
  have hb := (C12_boot_state hp h).cores_frame
  exact ⟨hb _ (by unfold coreEnclaveA; omega), hb _ (by unfold flushedA; omega)⟩

end Sanctum
