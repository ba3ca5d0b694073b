import Verif.Lemmas.Step
/-
The remaining covered calls: they preserve the invariant and move regions along legal edges.
-/
namespace Sanctum
open Machine

variable {g : Cfg}

/-! ### `copy_debug_enclave_page` with an arbitrary ID (its loads may fault) -/

theorem run_load_cases (c : Nat) (a : W) (m : Machine) : run g c (load a) m = none ∨ ∃ v, run g c (load a) m = some (v, m) := by
  by_cases h : okAddr g a = true
  · exact Or.inr ⟨_, run_load _ _ a m h⟩
  · left; simp [load, act, run, exec, h]

theorem run_readBit_cases (c : Nat) (b r : W) (m : Machine) : run g c (readBitmapBit b r) m = none ∨ ∃ v, run g c (readBitmapBit b r) m = some (v, m) := by
  unfold readBitmapBit
  rw [run_bind]
  rcases run_load_cases (g := g) c (b + bitmapOffset r * 8) m with h | ⟨v, h⟩
  · left; rw [h]; rfl
  · right; rw [h, Option.bind_some]; dsimp only; rw [run_pure]; exact ⟨_, rfl⟩

theorem run_readEBit_cases (c : Nat) (e r : W) (m : Machine) :
    run g c (readEnclaveRegionBitmapBit g e r) m = none ∨ ∃ v, run g c (readEnclaveRegionBitmapBit g e r) m = some (v, m) := by
  unfold readEnclaveRegionBitmapBit
  split
  · exact run_readBit_cases c _ r m
  · exact run_readBit_cases c _ r m

theorem run_copyDebug_any (h : g.WF) (c : Nat) (e a os : W) (dir : Bool) {m : Machine} (hl : LockWords g m) {v : W} {m' : Machine}
    (hr : run g c (copyDebugEnclavePage g e a os dir) m = some (v, m')) :
    (v ≠ monitorOk → m' = m) ∧ (v = monitorOk → m.owner g (idRegion g e) = e) := by
  have hno : ∀ x, x ≠ monitorOk → some (x, m) = some (v, m') → (v ≠ monitorOk → m' = m) ∧ (v = monitorOk → m.owner g (idRegion g e) = e) := by
    intro x hx heq
    injection heq with heq; injection heq with h1 h2
    exact ⟨fun _ => h2.symm, fun hv => absurd (h1.trans hv) hx⟩
  unfold copyDebugEnclavePage at hr
  by_cases h1 : (!isPageAligned a || !isPageAligned os) = true
  · rw [if_pos h1, run_pure] at hr; exact hno _ (by decide) hr
  · rw [if_neg h1] at hr
    by_cases h2 : (!isDramAddress g a || !isDramAddress g os) = true
    · rw [if_pos h2, run_pure] at hr; exact hno _ (by decide) hr
    · rw [if_neg h2] at hr
      dsimp only at hr
      have hcl := clamped_lt h e
      have hol := dramRegionFor_lt h os
      have hid := idRegion_lt h e
      have hor := regionOf_lt h os.toNat
      rw [run_bind, run_tasLock h hcl, Option.bind_some, clamped_eq h] at hr
      dsimp only at hr
      by_cases h3 : m.locked g (idRegion g e) = true
      · rw [if_pos h3, run_pure, st_locked hl hid h3] at hr
        exact hno _ (by decide) hr
      · rw [if_neg h3] at hr
        rw [Bool.not_eq_true] at h3
        have hz1 := (not_locked m).1 h3
        rw [run_bind, run_tasLock h hol, Option.bind_some, dramRegionFor_toNat h] at hr
        dsimp only at hr
        by_cases h4 : regionOf g os.toNat = idRegion g e
        · have : (m.st (lockA g (idRegion g e)) 1).locked g (regionOf g os.toNat) = true := by
            unfold Machine.locked; rw [h4, mem_st, if_pos rfl]; rfl
          rw [if_pos this, h4, st_st, run_bind, run_clearLock h hcl, Option.bind_some, clamped_eq h, run_pure, lock_restore _ hz1] at hr
          exact hno _ (by decide) hr
        · have hlk2 : (m.st (lockA g (idRegion g e)) 1).locked g (regionOf g os.toNat) = m.locked g (regionOf g os.toNat) := by
            unfold Machine.locked; rw [mem_st, if_neg (by simpa using h4)]
          rw [hlk2] at hr
          by_cases h5 : m.locked g (regionOf g os.toNat) = true
          · have hst : (m.st (lockA g (idRegion g e)) 1).st (lockA g (regionOf g os.toNat)) 1 = m.st (lockA g (idRegion g e)) 1 := by
              apply st_self
              rw [mem_st, if_neg (by simpa using h4)]
              rcases hl _ hor with hh | hh
              · rw [(not_locked m).2 hh] at h5; cases h5
              · exact hh
            rw [if_pos h5, hst, run_bind, run_clearLock h hcl, Option.bind_some, clamped_eq h, run_pure, lock_restore _ hz1] at hr
            exact hno _ (by decide) hr
          · rw [if_neg h5] at hr
            rw [Bool.not_eq_true] at h5
            have hz2 := (not_locked m).1 h5
            generalize hm2 : (m.st (lockA g (idRegion g e)) 1).st (lockA g (regionOf g os.toNat)) 1 = m2 at hr
            have hown : ∀ i, m2.owner g i = m.owner g i := by
              intro i; rw [← hm2, owner_lockSt, owner_lockSt]
            have hback : (m2.st (lockA g (regionOf g os.toNat)) 0).st (lockA g (idRegion g e)) 0 = m := by
              rw [← hm2, st_st, st_comm _ _ _ (by simpa using h4), lock_restore _ hz1, st_self _ _ _ hz2]
            have hfin : ∀ (x : W) (m1 : Machine), run g c (do clearLock g (dramRegionFor g os); clearLock g (clampedDramRegionFor g e); pure x) m1 =
                some (x, (m1.st (lockA g (regionOf g os.toNat)) 0).st (lockA g (idRegion g e)) 0) := by
              intro x m1
              rw [run_bind, run_clearLock h hol, Option.bind_some, dramRegionFor_toNat h]
              dsimp only
              rw [run_bind, run_clearLock h hcl, Option.bind_some, clamped_eq h, run_pure]
            rw [run_bind, run_readOwner h hcl, Option.bind_some] at hr
            dsimp only at hr
            rw [run_bind, run_readOwner h hol, Option.bind_some] at hr
            dsimp only at hr
            rw [run_bind] at hr
            rcases run_readEBit_cases (g := g) c e (dramRegionFor g a) m2 with hb | ⟨bit, hb⟩
            · rw [hb] at hr; cases hr
            · rw [hb, Option.bind_some] at hr
              dsimp only at hr
              rw [run_bind] at hr
              rcases run_load_cases (g := g) c (e + offIsDebug) m2 with hb | ⟨dbg, hb⟩
              · rw [hb] at hr; cases hr
              · rw [hb, Option.bind_some] at hr
                dsimp only at hr
                rw [clamped_eq h, dramRegionFor_toNat h, hown, hown] at hr
                by_cases h9 : m.owner g (idRegion g e) = e
                · rw [if_neg (not_not_intro h9)] at hr
                  generalize hres : (if dbg = 0 then monitorInvalidState else if (!bit) = true then monitorInvalidValue else
                    if m.owner g (regionOf g os.toNat) ≠ nullEnclaveId then monitorInvalidValue else monitorOk) = res at hr
                  by_cases hok : res = monitorOk
                  · rw [run_bind] at hr
                    generalize run g c _ m2 = x at hr
                    cases x with
                    | none => cases hr
                    | some x =>
                        rw [Option.bind_some, hfin, hok] at hr
                        injection hr with hr; injection hr with q1 q2
                        exact ⟨fun hn => absurd q1.symm hn, fun _ => h9⟩
                  · rw [if_neg hok, run_bind, run_pure, Option.bind_some, hfin, hback] at hr
                    exact hno _ hok hr
                · rw [if_pos h9] at hr
                  generalize hres : (if dbg = 0 then monitorInvalidState else if (!bit) = true then monitorInvalidValue else
                    if m.owner g (regionOf g os.toNat) ≠ nullEnclaveId then monitorInvalidValue else monitorInvalidValue) = res at hr
                  have hne : res ≠ monitorOk := by
                    rw [← hres]; split
                    · decide
                    · split
                      · decide
                      · split <;> decide
                  rw [if_neg hne, run_bind, run_pure, Option.bind_some, hfin, hback] at hr
                  exact hno _ hne hr

/-! ### Steps -/

theorem region0_of_low (h : g.WF) {a : Nat} (ha : a < g.monitorTop.toNat) : regionOf g a = 0 := by
  have := h.top_le
  unfold regionOf
  rw [← h.stripeSize, Nat.div_eq_of_lt (by omega)]; rfl

theorem sameTop_st {m : Machine} {x : Nat} (hx : g.monitorTop.toNat ≤ x) (v : W) : SameTop g m (m.st x v) :=
  ⟨fun y hy => by rw [mem_st, if_neg (by omega)], rfl, rfl⟩

theorem sameTop_refl (m : Machine) : SameTop g m m := ⟨fun _ _ => rfl, rfl, rfl⟩

theorem copyDebug_top (h : g.WF) (c : Nat) (e a os : W) (dir : Bool) {m m' : Machine} {v : W} (hi : Inv g m)
    (hk : e ≠ 0 ∨ g.monitorTop.toNat ≤ a.toNat) (hr : call g c (.copyDebugEnclavePage e a os dir) m = some (v, m')) : SameTop g m m' := by
  obtain ⟨h1, h2⟩ := run_copyDebug_any h c e a os dir hi.locks hr
  by_cases hv : v = monitorOk
  · have h0 := hi.noId h (h2 hv)
    subst h0
    have ha : g.monitorTop.toNat ≤ a.toNat := hk.resolve_left (fun hh => hh rfl)
    obtain ⟨h3, h4⟩ := run_copyDebug h c 0 a os dir hi.locks recordOk_zero
    rcases Classical.em (CopyOk g m 0 a os) with hc | hc
    · have hos : g.monitorTop.toNat ≤ os.toNat := by
        rcases Nat.lt_or_ge os.toNat g.monitorTop.toNat with hlt | hge
        · have := hc.2.2.2.1
          rw [region0_of_low h hlt] at this
          exact absurd (by unfold idRegion; split; exact (region0_of_low h (by have := h.top_pow; obtain ⟨t, ht⟩ := this; rw [ht]; exact Nat.two_pow_pos t)).symm; rfl) this
        · exact hge
      have hr2 : call g c (.copyDebugEnclavePage 0 a os dir) m = _ := h4 hc ha hos
      rw [hr2] at hr
      injection hr with hr; injection hr with q1 q2
      rw [← q2]
      refine ⟨fun x hx => ?_, rfl, rfl⟩
      cases dir
      · show copied m.mem 512 a.toNat os.toNat x = _
        unfold copied; rw [if_neg (by omega)]
      · show copied m.mem 512 os.toNat a.toNat x = _
        unfold copied; rw [if_neg (by omega)]
    · obtain ⟨x, q1, q2⟩ := h3 hc
      have q1 : call g c (.copyDebugEnclavePage 0 a os dir) m = _ := q1
      rw [q1] at hr
      injection hr with hr; injection hr with r1 r2
      exact absurd (r1.trans hv) q2
  · rw [h1 hv]; exact sameTop_refl m

theorem step_copyDebug (h : g.WF) (c : Nat) (e a os : W) (dir : Bool) {m m' : Machine} {v : W} (hi : Inv g m)
    (hk : e ≠ 0 ∨ g.monitorTop.toNat ≤ a.toNat) (hr : call g c (.copyDebugEnclavePage e a os dir) m = some (v, m')) : StepOk g m v m' :=
  step_of_top h hi v (copyDebug_top h c e a os dir hi hk hr)

theorem create_above (h : g.MetaOk) {m : Machine} (h0 : m.owner g 0 = 0) {e b k n : W} (hok : CreateOk g m e b k n) {x : Nat} (hx : createSet g e n x) :
    g.monitorTop.toNat ≤ x := by
  obtain ⟨-, ⟨m1, m2, m3, m4⟩, -, -⟩ := hok
  obtain ⟨-, ht⟩ := meta_above h h0 m4
  have hb := (entry_bounds h m2).2.1
  have hp := page_in_region h m2 m1
  rcases hx with hx | hx | ⟨k, -, hx⟩ <;> omega

theorem step_createEnclave (h : g.MetaOk) (c : Nat) (e b k n : W) (d : Bool) {m : Machine} (hi : Inv g m) :
    ∃ v m', call g c (.createEnclave e b k n d) m = some (v, m') ∧ StepOk g m v m' := by
  obtain ⟨h1, h2⟩ := run_createEnclave h c e b k n d hi.locks hi.region0
  rcases Classical.em (CreateOk g m e b k n) with hok | hok
  · obtain ⟨mem', q1, -, -, q4⟩ := h1 hok
    refine ⟨_, _, q1, step_of_top h.wf hi _ ⟨fun x hx => q4 x (fun hs => ?_), rfl, rfl⟩⟩
    have := create_above h hi.region0 hok hs
    omega
  · obtain ⟨v, q1, -⟩ := h2 hok
    exact ⟨_, _, q1, StepOk.refl hi _⟩

theorem lockTried_top (h : g.MetaOk) {m m' : Machine} (h0 : m.owner g 0 = 0) {e : W} (ht : LockTried g m m' e) : SameTop g m m' := by
  rcases ht with rfl | ⟨⟨⟨m1, m2, m3, m4⟩, -⟩, -, -, rfl⟩
  · exact sameTop_refl _
  · obtain ⟨-, ht⟩ := meta_above h h0 m4
    have hp := page_in_region h m2 m1
    exact sameTop_st (by omega) _

theorem step_assignThread (h : g.MetaOk) (c : Nat) (e t : W) {m : Machine} (hi : Inv g m) :
    ∃ v m', call g c (.assignThread e t) m = some (v, m') ∧ StepOk g m v m' := by
  obtain ⟨v, m', q1, -, q3⟩ := run_assignThread h c e t hi.locks hi.region0
  exact ⟨v, m', q1, step_of_top h.wf hi _ (lockTried_top h hi.region0 q3)⟩

theorem step_loadThread (h : g.MetaOk) (c : Nat) (e t p1 p2 p3 p4 : W) {m : Machine} (hi : Inv g m) :
    ∃ v m', call g c (.loadThread e t p1 p2 p3 p4) m = some (v, m') ∧ StepOk g m v m' := by
  obtain ⟨v, m', q1, -, q3⟩ := run_loadThread h c e t p1 p2 p3 p4 hi.locks hi.region0
  exact ⟨v, m', q1, step_of_top h.wf hi _ (lockTried_top h hi.region0 q3)⟩

/-- Calls that go through the common ID check change nothing. -/
theorem step_withLocked (h : g.WF) (c : Nat) (e : W) (k : W → Prog W) {m : Machine} (hi : Inv g m) :
    ∃ v, run g c (withLockedEnclave g e k) m = some (v, m) ∧ v ≠ monitorOk :=
  run_withLocked_err h c e hi.locks k (fun hr => hi.not_valid h e hr.1)

theorem fail_initEnclave (h : g.WF) (c : Nat) (e : W) {m : Machine} (hi : Inv g m) : ∃ v, call g c (.initEnclave e) m = some (v, m) ∧ v ≠ monitorOk := by
  show ∃ v, run g c (initEnclave g e) m = _ ∧ _
  unfold initEnclave; exact step_withLocked h c e _ hi
theorem fail_enterEnclave (h : g.WF) (c : Nat) (e t : W) {m : Machine} (hi : Inv g m) : ∃ v, call g c (.enterEnclave e t) m = some (v, m) ∧ v ≠ monitorOk := by
  show ∃ v, run g c (enterEnclave g e t) m = _ ∧ _
  unfold enterEnclave; exact step_withLocked h c e _ hi
theorem fail_deleteEnclave (h : g.WF) (c : Nat) (e : W) {m : Machine} (hi : Inv g m) : ∃ v, call g c (.deleteEnclave e) m = some (v, m) ∧ v ≠ monitorOk := by
  show ∃ v, run g c (deleteEnclave g e) m = _ ∧ _
  unfold deleteEnclave; exact step_withLocked h c e _ hi

/-- Setting one lock word. -/
theorem step_lock (h : g.WF) {m : Machine} (hi : Inv g m) (v : W) {r : Nat} (hr : r < g.regions) : StepOk g m v (m.st (lockA g r) 1) := by
  have ho : ∀ i, (m.st (lockA g r) 1).owner g i = m.owner g i := fun i => owner_lockSt m r i 1
  refine ⟨⟨?_, ?_, ?_, ?_, ?_, hi.dma⟩, ?_⟩
  · intro i hh
    rw [mem_st]
    split
    · exact Or.inr rfl
    · exact hi.locks i hh
  · intro i hh; rw [ho]; exact hi.owners i hh
  · rw [ho]; exact hi.region0
  · intro c hc
    show (m.st (lockA g r) 1).mem (coreEnclaveA c) = _
    rw [mem_st, if_neg (coreEnclaveA_ne_lockA h hc)]; exact hi.os c hc
  · intro i hh
    rw [ho, ← hi.bitmap i hh]
    unfold Machine.osBit
    rw [mem_st, if_neg (osWordA_ne_lockA h hr)]
  · intro i hh; rw [ho]; exact .same _

/-- Every covered call that completes preserves the invariant and moves regions along legal edges. -/
theorem step_call (h : g.WF) {c : Nat} (hc : c < g.cores) {k : Call} (hk : Covered g k) {m m' : Machine} {v : W} (hi : Inv g m)
    (hr : call g c k m = some (v, m')) : StepOk g m v m' := by
  have hof : (∃ v m', call g c k m = some (v, m') ∧ StepOk g m v m') → StepOk g m v m' := by
    rintro ⟨v1, m1, q1, q2⟩
    rw [q1] at hr
    injection hr with hr; injection hr with r1 r2
    subst r1; subst r2; exact q2
  have hsame : (∃ v, call g c k m = some (v, m)) → StepOk g m v m' := fun ⟨v1, q1⟩ => hof ⟨v1, m, q1, StepOk.refl hi _⟩
  cases k with
  | dramSize => exact hsame ⟨_, rfl⟩
  | dramRegionMask => exact hsame ⟨_, rfl⟩
  | blockDramRegion r => exact hof (step_block h hc r hi)
  | dramRegionCheckOwnership r => exact hsame ⟨_, (C19_check_ownership h hc r hi.locks).choose_spec.1⟩
  | acceptThread t i => exact absurd hk id
  | exitEnclave => exact hsame ⟨_, run_exitEnclave h hc m⟩
  | setDmaRange b n => exact hof (step_setDma h c b n hi)
  | dramRegionState r => exact hsame ⟨_, (C19_state h c r hi.locks).choose_spec.1⟩
  | dramRegionOwner r => exact hsame ⟨_, (C19_owner h c r hi.locks).choose_spec.1⟩
  | assignDramRegion r e => exact hof (step_assign h c r e hi)
  | freeDramRegion r => exact hof (step_free h c r hi)
  | flushCachedDramRegions => exact hof (step_flush h hc hi)
  | createMetadataRegion r => exact hof (step_createMetadata h c r hi)
  | metadataRegionPages => exact hsame ⟨_, rfl⟩
  | metadataRegionStart => exact hsame ⟨_, rfl⟩
  | threadMetadataPages => exact hsame ⟨_, rfl⟩
  | enclaveMetadataPages n => exact hsame ⟨_, rfl⟩
  | createEnclave e b k n d => exact hof (step_createEnclave ⟨h, hk.1, hk.2⟩ c e b k n d hi)
  | loadPageTable e p v l a =>
      obtain ⟨x, q, -⟩ := run_loadPageTable h c e p v l a hi.locks (fun hv => absurd hv (hi.not_valid h e))
      exact hsame ⟨x, q⟩
  | loadPage e p v o a =>
      obtain ⟨x, q, -⟩ := run_loadPage h c e p v o a hi.locks (fun hv => absurd hv (hi.not_valid h e))
      exact hsame ⟨x, q⟩
  | loadThread e t a b p q => exact hof (step_loadThread ⟨h, hk.1, hk.2⟩ c e t a b p q hi)
  | assignThread e t => exact hof (step_assignThread ⟨h, hk.1, hk.2⟩ c e t hi)
  | initEnclave e => obtain ⟨x, q, -⟩ := fail_initEnclave h c e hi; exact hsame ⟨x, q⟩
  | enterEnclave e t => obtain ⟨x, q, -⟩ := fail_enterEnclave h c e t hi; exact hsame ⟨x, q⟩
  | createThread t p =>
      rcases run_createThread h hc t p hi.locks (hi.recordOk hc) with ⟨x, q, -⟩ | ⟨q, -⟩
      · exact hsame ⟨x, q⟩
      · exact hof ⟨_, _, q, step_lock h hi _ (regionOf_lt h _)⟩
  | deleteThread t => exact hof ⟨_, _, run_deleteThread h hc t hi.locks, step_lock h hi _ (regionOf_lt h _)⟩
  | deleteEnclave e => obtain ⟨x, q, -⟩ := fail_deleteEnclave h c e hi; exact hsame ⟨x, q⟩
  | copyDebugEnclavePage e a o d => exact step_copyDebug h c e a o d hi hk hr

theorem step_soft (h : g.WF) {m m' : Machine} (hi : Inv g m) (hs : SoftwareStore g m m') : Inv g m' ∧ Legal g m m' := by
  obtain ⟨a, v, ha, rfl⟩ := hs
  exact SameTop.inv h (sameTop_st ha v) hi

end Sanctum
