import Verif.Lemmas.Track
/-
Which calls can change the memory of metadata regions.
-/
namespace Sanctum
open Machine

variable {g : Cfg}

/-- What call `k` with result `v` may have done to word `x` of a metadata region. -/
def WordTrack (g : Cfg) (m : Machine) (k : Call) (v : W) (m' : Machine) (x : Nat) : Prop :=
  m'.mem x = m.mem x ∨ m'.mem x = 1 ∨
  ∃ e b mk n d, k = .createEnclave e b mk n d ∧ v = monitorOk ∧ CreateOk g m e b mk n ∧ createSet g e n x

/-- Two words of DRAM in different regions are in disjoint blocks. -/
theorem region_block (h : g.MetaOk) {x : Nat} (hx : x < g.dramSize.toNat) :
    regionOf g x * g.stripeSize.toNat ≤ x ∧ x < (regionOf g x + 1) * g.stripeSize.toNat := by
  have := addr_decomp h hx
  have hpos : 0 < g.stripeSize.toNat := by rw [h.wf.stripeSize]; exact Nat.two_pow_pos _
  have hlt := Nat.mod_lt x hpos
  rw [Nat.add_mul, Nat.one_mul]
  omega

theorem mapBytes_single (h : g.MetaOk) : mapBytes g ≤ g.stripeSize.toNat ∧ g.metaPages.toNat = 2 ^ g.sp := by
  have h1 := h.wf.metaPages
  have h2 := h.wf.metaStart
  have h3 := h.single
  unfold Cfg.SingleStripe at h3
  have h5 : 2 ^ (9 + g.sp) = 512 * 2 ^ g.sp := by rw [Nat.pow_add]
  have h6 : 2 ^ (g.d - g.rb - 12) = 2 ^ g.sp := by congr 1; omega
  rw [h5, h6, Nat.min_eq_left (by omega)] at h1
  have h7 : g.stripeSize.toNat = 4096 * 2 ^ g.sp := by rw [h.wf.stripeSize, Nat.pow_add]
  have h8 : 1 ≤ 2 ^ g.sp := Nat.two_pow_pos _
  unfold mapBytes
  omega

theorem copyDebug_word (h : g.MetaOk) (c : Nat) (e a os : W) (dir : Bool) {m m' : Machine} {v : W} (hi : Inv g m)
    (hk : e ≠ 0 ∨ g.monitorTop.toNat ≤ a.toNat) (hr : call g c (.copyDebugEnclavePage e a os dir) m = some (v, m'))
    {x : Nat} (hx : x < g.dramSize.toNat) (ho : m.owner g (regionOf g x) = metadataEnclaveId) : m'.mem x = m.mem x := by
  obtain ⟨h1, h2⟩ := run_copyDebug_any h.wf c e a os dir hi.locks hr
  by_cases hv : v = monitorOk
  · have h0 := hi.noId h.wf (h2 hv)
    subst h0
    have ha : g.monitorTop.toNat ≤ a.toNat := hk.resolve_left (fun hh => hh rfl)
    obtain ⟨h3, h4⟩ := run_copyDebug h.wf c 0 a os dir hi.locks recordOk_zero
    rcases Classical.em (CopyOk g m 0 a os) with hc | hc
    · have hos : g.monitorTop.toNat ≤ os.toNat := by
        rcases Nat.lt_or_ge os.toNat g.monitorTop.toNat with hlt | hge
        · have := hc.2.2.2.1
          rw [region0_of_low h.wf hlt] at this
          exact absurd (by unfold idRegion; split; exact (region0_of_low h.wf (by have := h.wf.top_pow; obtain ⟨t, ht⟩ := this; rw [ht]; exact Nat.two_pow_pos t)).symm; rfl) this
        · exact hge
      have hr2 : call g c (.copyDebugEnclavePage 0 a os dir) m = _ := h4 hc ha hos
      rw [hr2] at hr
      injection hr with hr; injection hr with q1 q2
      obtain ⟨c1, c2, c3, c4, c5, c6, c7, c8, c9⟩ := hc
      have page : ∀ p : W, DramPage g p → m.owner g (regionOf g p.toNat) = nullEnclaveId → ¬ (p.toNat ≤ x ∧ x < p.toNat + 8 * 512) := by
        intro p hp hpo ⟨x1, x2⟩
        have hb := region_block h hx
        have hb2 := region_block h hp.2
        have hpr := page_in_region h hp.2 hp.1
        obtain ⟨-, -, -, b4, b5, -⟩ := entry_bounds h hp.2
        have hreg : regionOf g x = regionOf g p.toNat := by
          have hpos : 0 < g.stripeSize.toNat := by rw [h.wf.stripeSize]; exact Nat.two_pow_pos _
          have hlo : regionOf g p.toNat * g.stripeSize.toNat ≤ x := by omega
          have hhi : x < (regionOf g p.toNat + 1) * g.stripeSize.toNat := by rw [Nat.add_mul, Nat.one_mul]; omega
          rcases Nat.lt_trichotomy (regionOf g x) (regionOf g p.toNat) with hlt | heq | hgt
          · have := Nat.mul_le_mul_right g.stripeSize.toNat (show regionOf g x + 1 ≤ regionOf g p.toNat from hlt)
            omega
          · exact heq
          · have := Nat.mul_le_mul_right g.stripeSize.toNat (show regionOf g p.toNat + 1 ≤ regionOf g x from hgt)
            omega
        rw [hreg, hpo] at ho
        exact absurd ho (by decide)
      have hao : m.owner g (regionOf g a.toNat) = nullEnclaveId := (hi.bitmap _ (regionOf_lt h.wf _)).1 c7
      have n1 := page a c1 hao
      have n2 := page os c2 c8
      rw [← q2]
      cases dir
      · show copied m.mem 512 a.toNat os.toNat x = _
        unfold copied; rw [if_neg (fun hh => n1 ⟨hh.1, hh.2.1⟩)]
      · show copied m.mem 512 os.toNat a.toNat x = _
        unfold copied; rw [if_neg (fun hh => n2 ⟨hh.1, hh.2.1⟩)]
    · obtain ⟨x, q1, q2⟩ := h3 hc
      have q1 : call g c (.copyDebugEnclavePage 0 a os dir) m = _ := q1
      rw [q1] at hr
      injection hr with hr; injection hr with r1 r2
      exact absurd (r1.trans hv) q2
  · rw [h1 hv]

theorem word_call (h : g.MetaOk) {c : Nat} (hc : c < g.cores) {k : Call} (hk : Covered g k) {m m' : Machine} {v : W} (hi : Inv g m)
    (hr : call g c k m = some (v, m')) {x : Nat} (hx : x < g.dramSize.toNat) (ho : m.owner g (regionOf g x) = metadataEnclaveId) :
    WordTrack g m k v m' x := by
  have hwf := h.wf
  have hof : (∃ v m', call g c k m = some (v, m') ∧ WordTrack g m k v m' x) → WordTrack g m k v m' x := by
    rintro ⟨v1, m1, q1, q2⟩
    rw [q1] at hr
    injection hr with hr; injection hr with r1 r2
    subst r1; subst r2; exact q2
  have hsame : (∃ v, call g c k m = some (v, m)) → WordTrack g m k v m' x := fun ⟨v1, q1⟩ => hof ⟨v1, m, q1, Or.inl rfl⟩
  -- the word is above the monitor's memory
  have htop : g.monitorTop.toNat ≤ x := by
    rcases Nat.lt_or_ge x g.monitorTop.toNat with hlt | hge
    · rw [region0_of_low hwf hlt, hi.region0] at ho; exact absurd ho (by decide)
    · exact hge
  cases k with
  | dramSize => exact hsame ⟨_, rfl⟩
  | dramRegionMask => exact hsame ⟨_, rfl⟩
  | blockDramRegion r =>
      obtain ⟨v, m1, q1, q2, q3, q4⟩ := C15_block_exact hwf hc r hi.locks (hi.recordOk hc) hi.dma
      refine hof ⟨v, m1, q1, Or.inl ?_⟩
      by_cases hv : v = monitorOk
      · have hrr := (q2.1 hv).2.1
        have hmem := (q3 hv).mem
        rw [hi.os c hc] at hmem
        have l1 := ownerA_lt hwf hrr
        have l2 := prevA_lt hwf hrr
        have l3 := blockedA_lt hwf hrr
        have l4 := clockA_lt hwf
        have l5 := osWordA_lt hwf hrr
        refine hmem x ?_
        rintro (hh | hh | hh | hh | hh)
        · omega
        · omega
        · omega
        · omega
        · have : x = osWordA g r.toNat := hh
          omega
      · rw [q4 hv]
  | dramRegionCheckOwnership r => exact hsame ⟨_, (C19_check_ownership hwf hc r hi.locks).choose_spec.1⟩
  | acceptThread t i => exact absurd hk id
  | exitEnclave => exact hsame ⟨_, run_exitEnclave hwf hc m⟩
  | setDmaRange b n =>
      obtain ⟨v, m1, q1, q2, q3, q4⟩ := C49_set_dma_exact hwf c b n hi.locks
      refine hof ⟨v, m1, q1, Or.inl ?_⟩
      by_cases hv : v = monitorOk
      · rw [(q3 hv).mem]
      · rw [q4 hv]
  | dramRegionState r => exact hsame ⟨_, (C19_state hwf c r hi.locks).choose_spec.1⟩
  | dramRegionOwner r => exact hsame ⟨_, (C19_owner hwf c r hi.locks).choose_spec.1⟩
  | assignDramRegion r e =>
      obtain ⟨v, m1, q1, q2, q3, q4⟩ := C16_assign_exact hwf c r e hi.locks (fun hh => by rw [hi.noId hwf hh]; exact recordOk_zero)
      refine hof ⟨v, m1, q1, Or.inl ?_⟩
      by_cases hv : v = monitorOk
      · have h0 := hi.noId hwf (q2.1 hv).2.2.2.2.2
        have hrr := (q2.1 hv).1
        have hmem := (q3 hv).mem
        rw [h0] at hmem
        have l1 := ownerA_lt hwf hrr
        have l5 := osWordA_lt hwf hrr
        refine hmem x ?_
        rintro (hh | hh)
        · omega
        · have : x = osWordA g r.toNat := hh
          omega
      · rw [q4 hv]
  | freeDramRegion r =>
      obtain ⟨v, m1, q1, q2, q3, q4⟩ := C17_free_exact hwf c r hi.locks
      refine hof ⟨v, m1, q1, Or.inl ?_⟩
      by_cases hv : v = monitorOk
      · have l1 := ownerA_lt hwf (q2.1 hv).1
        exact (q3 hv).mem x (fun (hh : x = _) => by omega)
      · rw [q4 hv]
  | flushCachedDramRegions =>
      obtain ⟨m1, q1, he⟩ := C50_flush_exact hwf hc m
      have l1 := flushedA_lt hwf hc
      exact hof ⟨_, m1, q1, Or.inl (he.mem x (fun (hh : x = _) => by omega))⟩
  | createMetadataRegion r =>
      obtain ⟨v, m1, q1, q2, q3, q4⟩ := C18_create_metadata_exact hwf c r hi.locks (by rw [hi.region0]; decide)
      refine hof ⟨v, m1, q1, Or.inl ?_⟩
      by_cases hv : v = monitorOk
      · obtain ⟨hrr, hlk, hro⟩ := q2.1 hv
        have l1 := ownerA_lt hwf hrr
        have l2 := pinnedA_lt hwf hrr
        have hne : regionOf g x ≠ r.toNat := by intro hh; rw [hh, hro] at ho; exact absurd ho (by decide)
        have hb := region_block h hx
        have hmb := (mapBytes_single h).1
        refine (q3 hv).mem x ?_
        rintro (hh | hh | ⟨h1, h2⟩)
        · omega
        · omega
        · rcases Nat.lt_trichotomy (regionOf g x) r.toNat with hlt | heq | hgt
          · have := Nat.mul_le_mul_right g.stripeSize.toNat (show regionOf g x + 1 ≤ r.toNat from hlt)
            omega
          · exact hne heq
          · have := Nat.mul_le_mul_right g.stripeSize.toNat (show r.toNat + 1 ≤ regionOf g x from hgt)
            rw [Nat.add_mul, Nat.one_mul] at this
            omega
      · rw [q4 hv]
  | metadataRegionPages => exact hsame ⟨_, rfl⟩
  | metadataRegionStart => exact hsame ⟨_, rfl⟩
  | threadMetadataPages => exact hsame ⟨_, rfl⟩
  | enclaveMetadataPages n => exact hsame ⟨_, rfl⟩
  | createEnclave e b k n d =>
      obtain ⟨h1, h2⟩ := run_createEnclave h c e b k n d hi.locks hi.region0
      rcases Classical.em (CreateOk g m e b k n) with hok | hok
      · obtain ⟨mem', q1, -, -, q4⟩ := h1 hok
        refine hof ⟨_, _, q1, ?_⟩
        rcases Classical.em (createSet g e n x) with hs | hs
        · exact Or.inr (Or.inr ⟨e, b, k, n, d, rfl, rfl, hok, hs⟩)
        · exact Or.inl (q4 x hs)
      · obtain ⟨v, q1, -⟩ := h2 hok
        exact hsame ⟨_, q1⟩
  | loadPageTable e p v l a =>
      obtain ⟨x, q, -⟩ := run_loadPageTable hwf c e p v l a hi.locks (fun hv => absurd hv (hi.not_valid hwf e))
      exact hsame ⟨x, q⟩
  | loadPage e p v o a =>
      obtain ⟨x, q, -⟩ := run_loadPage hwf c e p v o a hi.locks (fun hv => absurd hv (hi.not_valid hwf e))
      exact hsame ⟨x, q⟩
  | loadThread e t a b p q =>
      obtain ⟨v, m', q1, -, q3⟩ := run_loadThread h c e t a b p q hi.locks hi.region0
      refine hof ⟨v, m', q1, ?_⟩
      rcases q3 with rfl | ⟨-, -, -, rfl⟩
      · exact Or.inl rfl
      · unfold WordTrack
        rw [mem_st]; split
        · exact Or.inr (Or.inl rfl)
        · exact Or.inl rfl
  | assignThread e t =>
      obtain ⟨v, m', q1, -, q3⟩ := run_assignThread h c e t hi.locks hi.region0
      refine hof ⟨v, m', q1, ?_⟩
      rcases q3 with rfl | ⟨-, -, -, rfl⟩
      · exact Or.inl rfl
      · unfold WordTrack
        rw [mem_st]; split
        · exact Or.inr (Or.inl rfl)
        · exact Or.inl rfl
  | initEnclave e => obtain ⟨x, q, -⟩ := fail_initEnclave hwf c e hi; exact hsame ⟨x, q⟩
  | enterEnclave e t => obtain ⟨x, q, -⟩ := fail_enterEnclave hwf c e t hi; exact hsame ⟨x, q⟩
  | createThread t p =>
      rcases run_createThread hwf hc t p hi.locks (hi.recordOk hc) with ⟨x, q, -⟩ | ⟨q, -⟩
      · exact hsame ⟨x, q⟩
      · have l := lockA_lt hwf (regionOf_lt hwf (m.running c).toNat)
        exact hof ⟨_, _, q, Or.inl (by rw [mem_st, if_neg (by omega)])⟩
  | deleteThread t =>
      have l := lockA_lt hwf (regionOf_lt hwf (m.running c).toNat)
      exact hof ⟨_, _, run_deleteThread hwf hc t hi.locks, Or.inl (by rw [mem_st, if_neg (by omega)])⟩
  | deleteEnclave e => obtain ⟨x, q, -⟩ := fail_deleteEnclave hwf c e hi; exact hsame ⟨x, q⟩
  | copyDebugEnclavePage e a o d => exact Or.inl (copyDebug_word h c e a o d hi hk hr hx ho)

end Sanctum
