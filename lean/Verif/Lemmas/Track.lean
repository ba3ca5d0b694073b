import Verif.Lemmas.Step2
/-
Which calls can change the clocks, the owners and the DMA window.
-/
namespace Sanctum
open Machine

variable {g : Cfg}

/-- What call `k` on core `c` with result `v` may have done to the clocks, owners and DMA window. -/
structure Track (g : Cfg) (c : Nat) (k : Call) (v : W) (m m' : Machine) : Prop where
  clock : m'.clock g = m.clock g ∨ ((∃ r, k = .blockDramRegion r) ∧ v = monitorOk ∧ m'.clock g = m.clock g + 1)
  flushed : ∀ c', c' < g.cores → m'.flushedAt c' = m.flushedAt c' ∨ (k = .flushCachedDramRegions ∧ c' = c ∧ m'.flushedAt c' = m.clock g)
  blockedAt : ∀ i, i < g.regions → m'.blockedAt g i = m.blockedAt g i ∨
    ∃ r, k = .blockDramRegion r ∧ r.toNat = i ∧ v = monitorOk ∧ m'.blockedAt g i = m.clock g
  owner : ∀ i, i < g.regions → m'.owner g i = m.owner g i ∨
    ∃ r, r.toNat = i ∧ v = monitorOk ∧ (k = .blockDramRegion r ∨ k = .freeDramRegion r ∨ k = .createMetadataRegion r ∨ ∃ e, k = .assignDramRegion r e)
  dma : (m'.dmaStart = m.dmaStart ∧ m'.dmaEnd = m.dmaEnd) ∨
    ∃ b n, k = .setDmaRange b n ∧ v = monitorOk ∧ m'.dmaStart = b ∧ m'.dmaEnd = (b ||| n) + 1
  pinned : ∀ i, i < g.regions → m'.pinned g i = m.pinned g i ∨ ∃ r, k = .createMetadataRegion r ∧ r.toNat = i ∧ m'.pinned g i = 0

theorem Track.of_keep (h : g.WF) {c : Nat} {k : Call} {v : W} {m m' : Machine} (hk : ∀ x, x < g.monitorTop.toNat → (∀ i, i < g.regions → x ≠ lockA g i) → m'.mem x = m.mem x)
    (hd : m'.dmaStart = m.dmaStart ∧ m'.dmaEnd = m.dmaEnd) : Track g c k v m m' :=
  ⟨Or.inl (hk _ (by have := clockA_lt h; omega) (fun _ hi => (lockA_ne_clockA h hi).symm)),
   fun c' hc => Or.inl (hk _ (by have := flushedA_lt h hc; omega) (fun i hi => (lockA_ne_flushedA h hc).symm)),
   fun i hi => Or.inl (hk _ (by have := blockedA_lt h hi; omega) (fun j hj => by simp)),
   fun i hi => Or.inl (hk _ (by have := ownerA_lt h hi; omega) (fun j hj => by simp)), Or.inl hd,
   fun i hi => Or.inl (hk _ (by have := pinnedA_lt h hi; omega) (fun j hj => by simp))⟩

theorem Track.refl (h : g.WF) (c : Nat) (k : Call) (v : W) (m : Machine) : Track g c k v m m := .of_keep h (fun _ _ _ => rfl) ⟨rfl, rfl⟩

theorem Track.of_top (h : g.WF) {c : Nat} {k : Call} {v : W} {m m' : Machine} (hs : SameTop g m m') : Track g c k v m m' :=
  .of_keep h (fun x hx _ => hs.1 x hx) hs.2

theorem Track.of_lock (h : g.WF) {c : Nat} {k : Call} {v : W} {m : Machine} {r : Nat} (hr : r < g.regions) (u : W) : Track g c k v m (m.st (lockA g r) u) :=
  .of_keep h (fun x _ hx => by rw [mem_st, if_neg (hx r hr)]) ⟨rfl, rfl⟩

/-- Every covered call that completes is tracked. -/
theorem track_call (h : g.WF) {c : Nat} (hc : c < g.cores) {k : Call} (hk : Covered g k) {m m' : Machine} {v : W} (hi : Inv g m)
    (hr : call g c k m = some (v, m')) : Track g c k v m m' := by
  have hof : (∃ v m', call g c k m = some (v, m') ∧ Track g c k v m m') → Track g c k v m m' := by
    rintro ⟨v1, m1, q1, q2⟩
    rw [q1] at hr
    injection hr with hr; injection hr with r1 r2
    subst r1; subst r2; exact q2
  have hsame : (∃ v, call g c k m = some (v, m)) → Track g c k v m m' := fun ⟨v1, q1⟩ => hof ⟨v1, m, q1, Track.refl h c k v1 m⟩
  cases k with
  | dramSize => exact hsame ⟨_, rfl⟩
  | dramRegionMask => exact hsame ⟨_, rfl⟩
  | blockDramRegion r =>
      obtain ⟨v, m1, q1, q2, q3, q4⟩ := C15_block_exact h hc r hi.locks (hi.recordOk hc) hi.dma
      refine hof ⟨v, m1, q1, ?_⟩
      by_cases hv : v = monitorOk
      · have he := q3 hv
        have hr := (q2.1 hv).2.1
        have hmem := he.mem
        rw [hi.os c hc] at hmem
        have hkeep : ∀ a, a ≠ ownerA g r.toNat → a ≠ prevA g r.toNat → a ≠ blockedA g r.toNat → a ≠ clockA g → a ≠ osWordA g r.toNat →
            m1.mem a = m.mem a := by
          intro a n1 n2 n3 n4 n5
          exact hmem a (fun hh => hh.elim n1 (fun hh => hh.elim n2 (fun hh => hh.elim n3 (fun hh => hh.elim n4 n5))))
        refine ⟨Or.inr ⟨⟨r, rfl⟩, hv, he.clock⟩, fun c' hc' => Or.inl ?_, fun i hh => ?_, fun i hh => ?_, Or.inl ⟨he.dma.1, he.dma.2.1⟩, fun i hh => ?_⟩
        · exact hkeep _ (flushedA_ne_ownerA h hc') (flushedA_ne_prevA h hc') (flushedA_ne_blockedA h hc') (flushedA_ne_clockA h hc') (flushedA_ne_osWordA h hc')
        · by_cases hne : i = r.toNat
          · exact Or.inr ⟨r, rfl, hne.symm, hv, by rw [hne]; exact he.time⟩
          · exact Or.inl (hkeep _ (by simp) (by simp) (by simpa using hne) (blockedA_ne_clockA h hh) (blockedA_ne_osWordA h hh))
        · by_cases hne : i = r.toNat
          · exact Or.inr ⟨r, hne.symm, hv, Or.inl rfl⟩
          · exact Or.inl (hkeep _ (by simpa using hne) (by simp) (by simp) (ownerA_ne_clockA h hh) (ownerA_ne_osWordA h hh))
        · exact Or.inl (hkeep _ (by simp) (by simp) (by simp) (pinnedA_ne_clockA h hh) (pinnedA_ne_osWordA h hh))
      · rw [q4 hv]; exact Track.refl h ..
  | dramRegionCheckOwnership r => exact hsame ⟨_, (C19_check_ownership h hc r hi.locks).choose_spec.1⟩
  | acceptThread t i => exact absurd hk id
  | exitEnclave => exact hsame ⟨_, run_exitEnclave h hc m⟩
  | setDmaRange b n =>
      obtain ⟨v, m1, q1, q2, q3, q4⟩ := C49_set_dma_exact h c b n hi.locks
      refine hof ⟨v, m1, q1, ?_⟩
      by_cases hv : v = monitorOk
      · have he := q3 hv
        have t := Track.of_keep (c := c) (k := .setDmaRange b n) (v := v) (m := m) (m' := { m with mem := m1.mem }) h (fun x _ _ => by show m1.mem x = _; rw [he.mem]) ⟨rfl, rfl⟩
        exact ⟨t.clock, t.flushed, t.blockedAt, t.owner, Or.inr ⟨b, n, rfl, hv, he.window.1, he.window.2⟩, t.pinned⟩
      · rw [q4 hv]; exact Track.refl h ..
  | dramRegionState r => exact hsame ⟨_, (C19_state h c r hi.locks).choose_spec.1⟩
  | dramRegionOwner r => exact hsame ⟨_, (C19_owner h c r hi.locks).choose_spec.1⟩
  | assignDramRegion r e =>
      obtain ⟨v, m1, q1, q2, q3, q4⟩ := C16_assign_exact h c r e hi.locks (fun hh => by rw [hi.noId h hh]; exact recordOk_zero)
      refine hof ⟨v, m1, q1, ?_⟩
      by_cases hv : v = monitorOk
      · have he := q3 hv
        have h0 := hi.noId h (q2.1 hv).2.2.2.2.2
        have hr := (q2.1 hv).1
        have hmem := he.mem
        rw [h0] at hmem
        have hkeep : ∀ a, a ≠ ownerA g r.toNat → a ≠ osWordA g r.toNat → m1.mem a = m.mem a :=
          fun a n1 n2 => hmem a (fun hh => hh.elim n1 n2)
        refine ⟨Or.inl ?_, fun c' hc' => Or.inl ?_, fun i hh => Or.inl ?_, fun i hh => ?_, Or.inl ⟨he.dma.1, he.dma.2.1⟩, fun i hh => ?_⟩
        · exact hkeep _ (clockA_ne_ownerA h hr) (clockA_ne_osWordA h)
        · exact hkeep _ (flushedA_ne_ownerA h hc') (flushedA_ne_osWordA h hc')
        · exact hkeep _ (by simp) (blockedA_ne_osWordA h hh)
        · by_cases hne : i = r.toNat
          · exact Or.inr ⟨r, hne.symm, hv, Or.inr (Or.inr (Or.inr ⟨e, rfl⟩))⟩
          · exact Or.inl (hkeep _ (by simpa using hne) (ownerA_ne_osWordA h hh))
        · exact Or.inl (hkeep _ (by simp) (pinnedA_ne_osWordA h hh))
      · rw [q4 hv]; exact Track.refl h ..
  | freeDramRegion r =>
      obtain ⟨v, m1, q1, q2, q3, q4⟩ := C17_free_exact h c r hi.locks
      refine hof ⟨v, m1, q1, ?_⟩
      by_cases hv : v = monitorOk
      · have he := q3 hv
        have hr := (q2.1 hv).1
        refine ⟨Or.inl ?_, fun c' hc' => Or.inl ?_, fun i hh => Or.inl ?_, fun i hh => ?_, Or.inl ⟨he.dma.1, he.dma.2.1⟩, fun i hh => ?_⟩
        · exact he.mem _ (clockA_ne_ownerA h hr)
        · exact he.mem _ (flushedA_ne_ownerA h hc')
        · exact he.mem _ (by simp)
        · by_cases hne : i = r.toNat
          · exact Or.inr ⟨r, hne.symm, hv, Or.inr (Or.inl rfl)⟩
          · exact Or.inl (he.mem _ (by simpa using hne))
        · exact Or.inl (he.mem _ (by simp))
      · rw [q4 hv]; exact Track.refl h ..
  | flushCachedDramRegions =>
      obtain ⟨m1, q1, he⟩ := C50_flush_exact h hc m
      refine hof ⟨_, m1, q1, ?_⟩
      refine ⟨Or.inl ?_, fun c' hc' => ?_, fun i hh => Or.inl ?_, fun i hh => Or.inl ?_, Or.inl ⟨he.dma.1, he.dma.2.1⟩, fun i hh => ?_⟩
      · exact he.mem _ (clockA_ne_flushedA h hc)
      · by_cases hne : c' = c
        · exact Or.inr ⟨rfl, hne, by rw [hne]; exact he.time⟩
        · exact Or.inl (he.mem _ (by unfold flushedA; omega))
      · exact he.mem _ (blockedA_ne_flushedA h hc)
      · exact he.mem _ (ownerA_ne_flushedA h hc)
      · exact Or.inl (he.mem _ (pinnedA_ne_flushedA h hc))
  | createMetadataRegion r =>
      obtain ⟨v, m1, q1, q2, q3, q4⟩ := C18_create_metadata_exact h c r hi.locks (by rw [hi.region0]; decide)
      refine hof ⟨v, m1, q1, ?_⟩
      by_cases hv : v = monitorOk
      · have he := q3 hv
        obtain ⟨hr, hlk, hro⟩ := q2.1 hv
        have hr0 : r.toNat ≠ 0 := by intro hh; rw [hh, hi.region0] at hro; exact absurd hro (by decide)
        have hst := region_start_ge g hr0
        have htop := h.top_le
        have hkeep : ∀ a, a < g.monitorTop.toNat → a ≠ ownerA g r.toNat → a ≠ pinnedA g r.toNat → m1.mem a = m.mem a := by
          intro a hlt n1 n2
          exact he.mem a (fun hh => hh.elim n1 (fun hh => hh.elim n2 (fun x => by omega)))
        refine ⟨Or.inl ?_, fun c' hc' => Or.inl ?_, fun i hh => Or.inl ?_, fun i hh => ?_, Or.inl ⟨he.dma.1, he.dma.2.1⟩, fun i hh => ?_⟩
        · exact hkeep _ (by have := clockA_lt h; omega) (clockA_ne_ownerA h hr) (clockA_ne_pinnedA h hr)
        · exact hkeep _ (by have := flushedA_lt h hc'; omega) (flushedA_ne_ownerA h hc') (flushedA_ne_pinnedA h hc')
        · exact hkeep _ (by have := blockedA_lt h hh; omega) (by simp) (by simp)
        · by_cases hne : i = r.toNat
          · exact Or.inr ⟨r, hne.symm, hv, Or.inr (Or.inr (Or.inl rfl))⟩
          · exact Or.inl (hkeep _ (by have := ownerA_lt h hh; omega) (by simpa using hne) (by simp))
        · by_cases hne : i = r.toNat
          · exact Or.inr ⟨r, rfl, hne.symm, by rw [hne]; exact he.pinned⟩
          · exact Or.inl (hkeep _ (by have := pinnedA_lt h hh; omega) (by simp) (by simpa using hne))
      · rw [q4 hv]; exact Track.refl h ..
  | metadataRegionPages => exact hsame ⟨_, rfl⟩
  | metadataRegionStart => exact hsame ⟨_, rfl⟩
  | threadMetadataPages => exact hsame ⟨_, rfl⟩
  | enclaveMetadataPages n => exact hsame ⟨_, rfl⟩
  | createEnclave e b k n d =>
      have hm : g.MetaOk := ⟨h, hk.1, hk.2⟩
      obtain ⟨h1, h2⟩ := run_createEnclave hm c e b k n d hi.locks hi.region0
      rcases Classical.em (CreateOk g m e b k n) with hok | hok
      · obtain ⟨mem', q1, -, -, q4⟩ := h1 hok
        refine hof ⟨_, _, q1, Track.of_top h ⟨fun x hx => q4 x (fun hs => ?_), rfl, rfl⟩⟩
        have := create_above hm hi.region0 hok hs
        omega
      · obtain ⟨v, q1, -⟩ := h2 hok
        exact hsame ⟨_, q1⟩
  | loadPageTable e p v l a =>
      obtain ⟨x, q, -⟩ := run_loadPageTable h c e p v l a hi.locks (fun hv => absurd hv (hi.not_valid h e))
      exact hsame ⟨x, q⟩
  | loadPage e p v o a =>
      obtain ⟨x, q, -⟩ := run_loadPage h c e p v o a hi.locks (fun hv => absurd hv (hi.not_valid h e))
      exact hsame ⟨x, q⟩
  | loadThread e t a b p q =>
      have hm : g.MetaOk := ⟨h, hk.1, hk.2⟩
      obtain ⟨v, m', q1, -, q3⟩ := run_loadThread hm c e t a b p q hi.locks hi.region0
      exact hof ⟨v, m', q1, Track.of_top h (lockTried_top hm hi.region0 q3)⟩
  | assignThread e t =>
      have hm : g.MetaOk := ⟨h, hk.1, hk.2⟩
      obtain ⟨v, m', q1, -, q3⟩ := run_assignThread hm c e t hi.locks hi.region0
      exact hof ⟨v, m', q1, Track.of_top h (lockTried_top hm hi.region0 q3)⟩
  | initEnclave e => obtain ⟨x, q, -⟩ := fail_initEnclave h c e hi; exact hsame ⟨x, q⟩
  | enterEnclave e t => obtain ⟨x, q, -⟩ := fail_enterEnclave h c e t hi; exact hsame ⟨x, q⟩
  | createThread t p =>
      rcases run_createThread h hc t p hi.locks (hi.recordOk hc) with ⟨x, q, -⟩ | ⟨q, -⟩
      · exact hsame ⟨x, q⟩
      · exact hof ⟨_, _, q, Track.of_lock h (regionOf_lt h _) 1⟩
  | deleteThread t => exact hof ⟨_, _, run_deleteThread h hc t hi.locks, Track.of_lock h (regionOf_lt h _) 1⟩
  | deleteEnclave e => obtain ⟨x, q, -⟩ := fail_deleteEnclave h c e hi; exact hsame ⟨x, q⟩
  | copyDebugEnclavePage e a o d =>
      have hst := hr
      obtain ⟨h1, h2⟩ := run_copyDebug_any h c e a o d hi.locks hr
      by_cases hv : v = monitorOk
      · exact Track.of_top h (copyDebug_top h c e a o d hi hk hr)
      · rw [h1 hv]; exact Track.refl h ..

end Sanctum
