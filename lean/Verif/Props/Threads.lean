import Verif.Props.Ids
import Verif.Props.Codes
import Verif.Props.Progress
/-
Properties C66 (the calls that describe the machine) and C67 (entering and leaving an enclave, creating and deleting threads).
-/
namespace Sanctum
variable {g : Cfg}

/-! ### C66 -/

/-- What the documentation of `dram_region_mask` (public/api.h:83-89) says: shift the mask right until the last bit is 1; the
number of shifts is the region shift, the rest plus one is the number of regions. -/
def Recipe (mask : W) (shift count : Nat) : Prop := ∃ n, mask.toNat = n * 2 ^ shift ∧ n % 2 = 1 ∧ count = n + 1

theorem recipe_unique {mask : W} {s s' c c' : Nat} (h : Recipe mask s c) (h' : Recipe mask s' c') : s = s' ∧ c = c' := by
  obtain ⟨n, h1, h2, rfl⟩ := h
  obtain ⟨n', h1', h2', rfl⟩ := h'
  have key : ∀ (a b x y : Nat), a * 2 ^ x = b * 2 ^ y → a % 2 = 1 → x < y → False := by
    intro a b x y he ha hlt
    have : y = x + (y - x - 1) + 1 := by omega
    rw [this, Nat.pow_add, Nat.pow_add] at he
    have he' : a * 2 ^ x = (b * 2 ^ (y - x - 1) * 2 ^ 1) * 2 ^ x := by
      rw [he]; simp only [Nat.mul_comm, Nat.mul_assoc, Nat.mul_left_comm]
    have := Nat.eq_of_mul_eq_mul_right (Nat.two_pow_pos x) he'
    omega
  have he : n * 2 ^ s = n' * 2 ^ s' := by rw [← h1, ← h1']
  rcases Nat.lt_trichotomy s s' with hlt | hlt | hlt
  · exact (key _ _ _ _ he h2 hlt).elim
  · subst hlt
    exact ⟨rfl, by rw [Nat.eq_of_mul_eq_mul_right (Nat.two_pow_pos s) he]⟩
  · exact (key _ _ _ _ he.symm h2' hlt).elim

/-- The answers of the information calls in state `m`, none of which changes the machine. -/
structure InfoTrue (g : Cfg) (p : Platform) (c : Nat) (m : Machine) : Prop where
  /-- The amount of DRAM. -/
  size : call g c .dramSize m = some (p.dramSize, m)
  /-- The recipe applied to the mask gives a shift and a count such that an address is in the region given by these bits. -/
  mask : ∃ v shift count, call g c .dramRegionMask m = some (v, m) ∧ Recipe v shift count ∧ count = g.regions ∧
    ∀ a, regionOf g a = a / 2 ^ shift % count
  /-- Not more metadata pages than a region has pages; the map at the beginning has an entry for each. -/
  pages : ∃ n s, call g c .metadataRegionPages m = some (n, m) ∧ call g c .metadataRegionStart m = some (s, m) ∧
    n.toNat * g.regions * 4096 ≤ p.dramSize.toNat ∧ n.toNat * 8 ≤ s.toNat * 4096
  /-- A thread's record fits in its pages. -/
  thread : ∃ n, call g c .threadMetadataPages m = some (n, m) ∧ threadInfoSize.toNat ≤ n.toNat * 4096
  /-- An enclave's record with region bitmap and mailboxes fits in its pages, and one page less is too little. -/
  enclave : ∀ k : W, 304 + 8 * g.bitmapWords.toNat + 304 * k.toNat ≤ 2 ^ 64 - 4096 →
    ∃ n, call g c (.enclaveMetadataPages k) m = some (n, m) ∧
      304 + 8 * g.bitmapWords.toNat + 304 * k.toNat ≤ 4096 * n.toNat ∧ 4096 * (n.toNat - 1) < 304 + 8 * g.bitmapWords.toNat + 304 * k.toNat

theorem boot_dramSize {p : Platform} {m m' : Machine} (h : boot p m = .ok (g, m')) : g.dramSize = p.dramSize := by
  obtain ⟨g0, s, m1, top, h0, -, -, -, hg, -⟩ := boot_ok h
  obtain ⟨_, _, -, -, -, -, -, -, -, -, -, -, -, -, -, -, -, -, -, -, -, hds, -⟩ := bootInitDramRegions_ok h0
  simp only [hg, bl_dramSize, hds]

/-- C66. After boot, on every core, in every state whatsoever (in particular with locks held and calls in progress on other cores). -/
theorem C66_info {p : Platform} (hp : p.Sane) {m0 m1 : Machine} (hb : boot p m0 = .ok (g, m1)) (c : Nat) (m : Machine) : InfoTrue g p c m := by
  have h := boot_wf hp hb
  have hd := boot_dramSize hb
  refine ⟨by rw [← hd]; rfl, ⟨g.regionMask, 12 + g.sp, g.regions, rfl, ⟨2 ^ g.rb - 1, h.regionMask, ?_, ?_⟩, rfl, fun a => ?_⟩,
    ⟨_, _, rfl, rfl, ?_, (C14_metadata_map hb).1⟩, ⟨_, rfl, ?_⟩, fun k hk => ⟨_, rfl, ?_⟩⟩
  · have := h.rb_pos
    obtain ⟨x, hx⟩ : ∃ x, g.rb = x + 1 := ⟨g.rb - 1, by omega⟩
    rw [hx, Nat.pow_succ]
    have := Nat.two_pow_pos x
    omega
  · have := Nat.two_pow_pos g.rb
    show g.regionCount.toNat = _
    rw [h.regionCount]; omega
  · show _ = a / _ % g.regionCount.toNat
    rw [h.regionCount]; rfl
  · rw [← hd, h.dramSize]
    have h1 : g.metaPages.toNat ≤ 2 ^ (g.d - g.rb - 12) := by rw [h.metaPages]; exact Nat.min_le_left _ _
    have hf := h.fits
    have h2 : 2 ^ (g.d - g.rb - 12) * g.regions * 4096 = 2 ^ g.d := by
      show 2 ^ (g.d - g.rb - 12) * g.regionCount.toNat * 2 ^ 12 = _
      rw [h.regionCount, ← Nat.pow_add, ← Nat.pow_add]; congr 1; omega
    rw [← h2]
    exact Nat.mul_le_mul_right _ (Nat.mul_le_mul_right _ h1)
  · have := (C02_thread_pages threadMetadataPages.toNat).1 (Nat.le_refl _)
    rw [Nat.mul_comm]; exact this
  · have h1 := (C02_enclave_pages_partial g k hk (enclaveInfoPages g k).toNat).1 (Nat.le_refl _)
    have h2 := C02_enclave_pages_partial g k hk ((enclaveInfoPages g k).toNat - 1)
    unfold enclaveMetadataBytes at h1 h2
    refine ⟨h1, ?_⟩
    rcases Nat.lt_or_ge (4096 * ((enclaveInfoPages g k).toNat - 1)) (304 + 8 * g.bitmapWords.toNat + 304 * k.toNat) with hlt | hge
    · exact hlt
    · have := h2.2 hge
      omega

example : InfoTrue toyG toyPlatform 2 enclM := C66_info toy_sane (booted_ok toy_boots) 2 enclM

set_option maxRecDepth 100000 in
example : Recipe toyG.regionMask 15 8 ∧ toyG.regionMask = 0x38000 := ⟨⟨7, by decide +kernel, rfl, rfl⟩, by decide +kernel⟩

/-! ### C67 -/

/-- C67, in full: if `enter_enclave(e, t)` succeeds, the core runs `e` and no lock is left taken; `exit_enclave` gives the core back to the
OS; a successful `create_thread` or `delete_thread` leaves no lock taken. -/
def C67_statement (g : Cfg) : Prop :=
  ∀ c m, c < g.cores → StateOk g c m →
    (∀ e t m', call g c (.enterEnclave e t) m = some (monitorOk, m') → m'.running c = e ∧ ∀ i, i < g.regions → m'.locked g i = m.locked g i) ∧
    (∀ v m', call g c .exitEnclave m = some (v, m') → v = monitorOk ∧ m'.running c = nullEnclaveId) ∧
    (∀ t p m', call g c (.createThread t p) m = some (monitorOk, m') → ∀ i, i < g.regions → m'.locked g i = m.locked g i) ∧
    (∀ t m', call g c (.deleteThread t) m = some (monitorOk, m') → ∀ i, i < g.regions → m'.locked g i = m.locked g i)

/-- C67, what the code does (the rest of these functions is commented out). `enter_enclave` succeeds exactly for an enclave that is initialized and
whose region's lock is free, and only takes that lock. Missing: all effects of entering, leaving, creating, deleting. -/
theorem C67_threads_partial (h : g.WF) {c : Nat} (hc : c < g.cores) {m : Machine} (hl : LockWords g m) (he : RecordOk g (m.running c)) :
    (∀ e t, (ValidId g m e → RecordOk g e) →
      ∃ v m', call g c (.enterEnclave e t) m = some (v, m') ∧
        (v = monitorOk ↔ ValidId g m e ∧ m.locked g (idRegion g e) = false ∧ m.initialized e ≠ 0) ∧
        (v ≠ monitorOk → m' = m) ∧ (v = monitorOk → m' = m.st (lockA g (idRegion g e)) 1)) ∧
    (call g c .exitEnclave m = some (monitorOk, m)) ∧
    (∀ t p, ∃ v m', call g c (.createThread t p) m = some (v, m') ∧ (v ≠ monitorOk → m' = m) ∧
        (v = monitorOk → m' = m.st (lockA g (regionOf g (m.running c).toNat)) 1)) ∧
    (∀ t, ∃ v m', call g c (.deleteThread t) m = some (v, m') ∧
        (v = monitorOk ↔ m.locked g (regionOf g (m.running c).toNat) = false) ∧
        m' = m.st (lockA g (regionOf g (m.running c).toNat)) 1) := by
  refine ⟨fun e t hr => ?_, run_exitEnclave h hc m, fun t p => ?_, fun t => ?_⟩
  · obtain ⟨q1, q2⟩ := run_enterEnclave h c e t hl hr
    rcases Classical.em (IdReady g m e ∧ m.initialized e ≠ 0) with hx | hx
    · exact ⟨_, _, q1 hx, ⟨fun _ => ⟨hx.1.1, hx.1.2, hx.2⟩, fun _ => rfl⟩, fun hne => absurd rfl hne, fun _ => rfl⟩
    · obtain ⟨v, r1, r2⟩ := q2 hx
      exact ⟨v, m, r1, ⟨fun hv => absurd hv r2, fun hv => absurd ⟨⟨hv.1, hv.2.1⟩, hv.2.2⟩ hx⟩, fun _ => rfl, fun hv => absurd hv r2⟩
  · have hr := run_createThread_code h hc t p hl he
    by_cases hv : createThreadCode g c m p = monitorOk
    · rw [if_pos hv] at hr
      exact ⟨_, _, hr, fun hne => absurd hv hne, fun _ => rfl⟩
    · rw [if_neg hv] at hr
      exact ⟨_, _, hr, fun _ => rfl, fun hx => absurd hx hv⟩
  · refine ⟨_, _, run_deleteThread h hc t hl, ?_, rfl⟩
    cases m.locked g (regionOf g (m.running c).toNat)
    · exact ⟨fun _ => rfl, fun _ => rfl⟩
    · exact ⟨fun hx => absurd hx (by decide), fun hx => absurd hx (by decide)⟩

/-- An initialized enclave. -/
def readyM : Machine := enclM.st 0x9010 1

set_option maxRecDepth 100000 in
theorem ready_enters : (call toyG 0 (.enterEnclave 0x9000 0) readyM).map (fun x => (x.1, x.2.running 0, x.2.locked toyG 1)) = some (monitorOk, 0, true) ∧
    readyM.locked toyG 1 = false ∧ (∀ i, i < 8 → readyM.mem (lockA toyG i) = 0) := by decide +kernel

set_option maxRecDepth 100000 in
/-- The hypotheses of the partial theorem for a successful `enter_enclave`. -/
example : LockWords toyG readyM ∧ RecordOk toyG (readyM.running 0) ∧ RecordOk toyG 0x9000 ∧ ValidId toyG readyM 0x9000 ∧ readyM.initialized 0x9000 ≠ 0 :=
  ⟨fun i hi => Or.inl (ready_enters.2.2 i hi), fun hx => absurd (show readyM.running 0 = 0 by decide +kernel) hx, recordOk_encl, ⟨by decide, by decide +kernel⟩, by decide +kernel⟩

set_option maxRecDepth 100000 in
/-- C67 is false of the code: `delete_thread`, called by the OS on the machine as booted, keeps the lock of region 0. -/
theorem C67_statement_false : ∃ g m, FromBoot g m ∧ ¬ C67_statement g := by
  refine ⟨toyG, toyM, toy_fromBoot, fun hst => ?_⟩
  have hc : 0 < toyG.cores := by decide +kernel
  have hw : toyG.WF := toy_wf
  obtain ⟨-, -, -, h4⟩ := hst 0 toyM hc (toy_fromBoot.inv.stateOk hw hc)
  have hr : (call toyG 0 (.deleteThread 0) toyM).map (fun x => (x.1, x.2.locked toyG 0)) = some (monitorOk, true) := by decide +kernel
  have hm : toyM.locked toyG 0 = false := by decide +kernel
  cases hx : call toyG 0 (.deleteThread 0) toyM with
  | none => rw [hx] at hr; cases hr
  | some x =>
      rw [hx] at hr
      injection hr with hr
      injection hr with hr1 hr2
      obtain ⟨v, m'⟩ := x
      cases hr1
      have := h4 0 m' hx 0 (by decide +kernel)
      rw [hm] at this
      exact absurd (hr2.symm.trans this) (by decide)

set_option maxRecDepth 100000 in
/-- Entering: on a machine with an initialized enclave, `enter_enclave` returns success, the core still runs the OS, and the enclave's region stays
locked, so that a second attempt is refused. -/
theorem C67_enter_does_not_enter : (call toyG 0 (.enterEnclave 0x9000 0) readyM).map (fun x => (x.1, x.2.running 0, x.2.locked toyG 1)) = some (monitorOk, 0, true) ∧
    ((call toyG 0 (.enterEnclave 0x9000 0) readyM).bind fun x => (call toyG 0 (.enterEnclave 0x9000 0) x.2).map (·.1)) = some monitorConcurrentCall := by
  decide +kernel

end Sanctum
