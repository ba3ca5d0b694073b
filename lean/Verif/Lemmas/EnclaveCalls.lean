import Verif.Lemmas.MetaCalls
import Verif.Props.Bits
import Verif.Spec.Codes
/-
Closed forms of create_enclave, lock_enclave, assign_thread, load_thread.
-/
namespace Sanctum
open Machine

variable {g : Cfg}

/-! ### Fields of a structure -/

theorem off_ok {e off : W} (h8 : e.toNat % 8 = 0) (ho : off.toNat % 8 = 0) (hd : e.toNat + off.toNat + 8 ≤ g.dramSize.toNat) :
    okAddr g (e + off) = true ∧ (e + off).toNat = e.toNat + off.toNat := by
  have := g.dramSize.isLt
  have h1 := add_off (e := e) (off := off) (by omega)
  exact ⟨by rw [okAddr_iff, h1]; omega, h1⟩

theorem run_storeOff (c : Nat) {e off : W} (v : W) (m : Machine) (h8 : e.toNat % 8 = 0) (ho : off.toNat % 8 = 0)
    (hd : e.toNat + off.toNat + 8 ≤ g.dramSize.toNat) : run g c (store (e + off) v) m = some ((), m.st (e.toNat + off.toNat) v) := by
  obtain ⟨h1, h2⟩ := off_ok h8 ho hd
  rw [run_store _ _ _ _ _ h1, h2]

theorem run_loadOff (c : Nat) {e off : W} (m : Machine) (h8 : e.toNat % 8 = 0) (ho : off.toNat % 8 = 0)
    (hd : e.toNat + off.toNat + 8 ≤ g.dramSize.toNat) : run g c (load (e + off)) m = some (m.mem (e.toNat + off.toNat), m) := by
  obtain ⟨h1, h2⟩ := off_ok h8 ho hd
  rw [run_load _ _ _ _ h1, h2]

theorem within_storeOff {e off : W} {v : W} {lo hi : Nat} (h8 : e.toNat % 8 = 0) (ho : off.toNat % 8 = 0)
    (hd : e.toNat + off.toNat + 8 ≤ g.dramSize.toNat) (h1 : lo ≤ e.toNat + off.toNat) (h2 : e.toNat + off.toNat < hi) :
    (store (e + off) v).Within g (Span lo hi) := by
  obtain ⟨h3, h4⟩ := off_ok h8 ho hd
  exact within_store h3 (by rw [h4]; exact ⟨h1, h2⟩)

/-- The part of an enclave's record with its measurement: 224 bytes from `e + 80`. -/
def hashSpan (e : W) : Nat → Prop := Span (e.toNat + 80) (e.toNat + 304)

section
variable {e : W} (h8 : e.toNat % 8 = 0) (hd : e.toNat + 304 ≤ g.dramSize.toNat)
include h8 hd

theorem hash_addrs : (e + offHash).toNat = e.toNat + 80 ∧ (e + offHashBlock).toNat = e.toNat + 240 := by
  have := g.dramSize.isLt
  exact ⟨add_off (by show _ + 80 < _; omega), add_off (by show _ + 240 < _; omega)⟩

theorem within_block {off v : W} (ho : off.toNat % 8 = 0) (hl : off.toNat < 64) : (store (e + offHashBlock + off) v).Within g (hashSpan e) := by
  obtain ⟨h1, h2⟩ := hash_addrs h8 hd
  exact within_storeOff (by omega) ho (by omega) (by omega) (by omega)

theorem within_extend {b : W} (hb : b.toNat % 4 = 0) (hbd : b.toNat + 64 ≤ g.dramSize.toNat) : (extendHash (e + offHash) b).Within g (hashSpan e) := by
  obtain ⟨h1, h2⟩ := hash_addrs h8 hd
  refine Within.mono ?_ (within_extendHash (by omega) hb (by omega) hbd)
  intro a; unfold Span hashSpan Span; omega

theorem within_extend_own : (extendHash (e + offHash) (e + offHashBlock)).Within g (hashSpan e) := by
  obtain ⟨h1, h2⟩ := hash_addrs h8 hd
  exact within_extend h8 hd (by omega) (by omega)

theorem within_initEnclaveHash (b k n : W) (d : Bool) : (initEnclaveHash e b k n d).Within g (hashSpan e) := by
  obtain ⟨h1, h2⟩ := hash_addrs h8 hd
  have hst : ∀ {off v : W}, off.toNat % 8 = 0 → off.toNat < 64 → (store (e + offHashBlock + off) v).Within g (hashSpan e) :=
    fun ho hl => within_block h8 hd ho hl
  unfold initEnclaveHash
  refine Within.bind (Within.mono ?_ (within_bzero (n := 64) (by omega) (by rw [show (64 : W).toNat = 64 from rfl]; omega))) fun _ =>
    Within.bind (Within.mono ?_ (within_initHash (by omega) (by omega))) fun _ =>
    Within.bind (hst (by decide) (by decide)) fun _ => Within.bind (hst (by decide) (by decide)) fun _ =>
    Within.bind (hst (by decide) (by decide)) fun _ => Within.bind (hst (by decide) (by decide)) fun _ =>
    Within.bind (hst (by decide) (by decide)) fun _ => Within.bind (within_extend_own h8 hd) fun _ =>
    Within.bind (hst (by decide) (by decide)) fun _ => Within.bind (hst (by decide) (by decide)) fun _ =>
    Within.bind (hst (by decide) (by decide)) fun _ => hst (by decide) (by decide)
  · intro a; unfold hashSpan Span; rw [h2, show (64 : W).toNat = 64 from rfl]; omega
  · intro a; unfold hashSpan Span; rw [h1]; omega

theorem within_extendHashWithThread (a b c d : W) : (extendHashWithThread e a b c d).Within g (hashSpan e) := by
  have hst : ∀ {off v : W}, off.toNat % 8 = 0 → off.toNat < 64 → (store (e + offHashBlock + off) v).Within g (hashSpan e) :=
    fun ho hl => within_block h8 hd ho hl
  unfold extendHashWithThread
  refine Within.bind (hst (by decide) (by decide)) fun _ => Within.bind (hst (by decide) (by decide)) fun _ =>
    Within.bind (hst (by decide) (by decide)) fun _ => Within.bind (hst (by decide) (by decide)) fun _ =>
    Within.bind (hst (by decide) (by decide)) fun _ => Within.bind (within_extend_own h8 hd) fun _ =>
    Within.bind (hst (by decide) (by decide)) fun _ => Within.bind (hst (by decide) (by decide)) fun _ =>
    Within.bind (hst (by decide) (by decide)) fun _ => hst (by decide) (by decide)

theorem within_finalizeEnclaveHash : (finalizeEnclaveHash e).Within g (hashSpan e) := by
  obtain ⟨h1, h2⟩ := hash_addrs h8 hd
  have hp : (e + offHash + offPadding).toNat = e.toNat + 176 := by
    have := g.dramSize.isLt
    rw [add_off (by rw [h1, show offPadding.toNat = 96 from rfl]; omega), h1]; rfl
  unfold finalizeEnclaveHash finalizeHash
  exact Within.bind (within_block h8 hd (by decide) (by decide)) fun _ => Within.bind (within_extend_own h8 hd) fun _ =>
    within_extend h8 hd (by omega) (by omega)

/-- `init_enclave_info`: the fields, and nothing outside the record. -/
theorem run_initEnclaveInfo (c : Nat) (b k n : W) (d : Bool) (m : Machine) :
    ∃ mem', run g c (initEnclaveInfo e b k n d) m = some ((), { m with mem := mem' }) ∧
      RecordFields { m with mem := mem' } e b k n d ∧ ∀ x, ¬ Span e.toNat (e.toNat + 304) x → mem' x = m.mem x := by
  have hst : ∀ {off : W} (v : W) (m : Machine), off.toNat % 8 = 0 → off.toNat ≤ 296 →
      run g c (store (e + off) v) m = some ((), m.st (e.toNat + off.toNat) v) :=
    fun v m ho hl => run_storeOff c v m h8 ho (by omega)
  unfold initEnclaveInfo
  rw [run_bind, hst _ _ (by decide) (by decide), Option.bind_some, run_bind, hst _ _ (by decide) (by decide), Option.bind_some,
    run_bind, hst _ _ (by decide) (by decide), Option.bind_some, run_bind, hst _ _ (by decide) (by decide), Option.bind_some,
    run_bind, hst _ _ (by decide) (by decide), Option.bind_some, run_bind, hst _ _ (by decide) (by decide), Option.bind_some,
    run_bind, hst _ _ (by decide) (by decide), Option.bind_some, run_bind, hst _ _ (by decide) (by decide), Option.bind_some,
    run_bind, hst _ _ (by decide) (by decide), Option.bind_some, run_bind, hst _ _ (by decide) (by decide), Option.bind_some]
  dsimp only
  generalize hm1 : Machine.st _ _ _ = m1
  obtain ⟨u, mem', h1, h2⟩ := Within.run c (within_initEnclaveHash h8 hd b k n d) m1
  have hm1' : ∀ x, m1.mem x = if x = e.toNat + 40 then 0 else if x = e.toNat + 32 then 0 else if x = e.toNat + 72 then 0 else
      if x = e.toNat + 64 then 0 else if x = e.toNat + 56 then k else if x = e.toNat + 48 then b else
      if x = e.toNat + 24 then b2w d else if x = e.toNat + 16 then 0 else if x = e.toNat + 8 then n else
      if x = e.toNat + 0 then 0 else m.mem x := by
    intro x; rw [← hm1]; rfl
  have hm1r : m1 = { m with mem := m1.mem } := by rw [← hm1]; rfl
  refine ⟨mem', ?_, ?_, ?_⟩
  · rw [h1, hm1r]
  · have hk : ∀ o, o ≤ 72 → mem' (e.toNat + o) = m1.mem (e.toNat + o) := fun o ho => h2 _ (by unfold hashSpan Span; omega)
    constructor
    · show mem' (e.toNat + 0) = _; rw [hk 0 (by omega), hm1']; simp
    · show mem' _ = _; rw [hk 8 (by omega), hm1']; simp
    · show mem' _ = _; rw [hk 16 (by omega), hm1']; simp
    · show mem' _ = _; rw [hk 24 (by omega), hm1']; simp [b2w]
    · show mem' _ = _; rw [hk 32 (by omega), hm1']; simp
    · show mem' _ = _; rw [hk 40 (by omega), hm1']; simp
    · show mem' _ = _; rw [hk 48 (by omega), hm1']; simp
    · show mem' _ = _; rw [hk 56 (by omega), hm1']; simp
    · show mem' _ = _; rw [hk 64 (by omega), hm1']; simp
    · show mem' _ = _; rw [hk 72 (by omega), hm1']; simp
  · intro x hx
    unfold Span at hx
    rw [h2 x (by unfold hashSpan Span; omega), hm1']
    have : ∀ o, o < 304 → x ≠ e.toNat + o := by intro o ho hh; omega
    simp only [this 40 (by omega), this 32 (by omega), this 72 (by omega), this 64 (by omega), this 56 (by omega), this 48 (by omega),
      this 24 (by omega), this 16 (by omega), this 8 (by omega), this 0 (by omega), if_false]
end

/-! ### create_enclave -/

theorem enclaveInfoPages_toNat (n : W) : (enclaveInfoPages g n).toNat = recordPages g n.toNat := by
  unfold enclaveInfoPages pagesNeededFor enclaveInfoTotal enclaveMailbox enclaveMailboxes enclaveRegionBitmap recordPages
  simp only [BitVec.toNat_ushiftRight, BitVec.toNat_sub, BitVec.toNat_add, BitVec.toNat_mul, Nat.shiftRight_eq_div_pow, pageShift, pageSize,
    enclaveInfoSize, mailboxSize]
  simp only [show (1 : W).toNat = 1 from rfl, show (0 : W).toNat = 0 from rfl, show (304 : W).toNat = 304 from rfl, show (8 : W).toNat = 8 from rfl,
    show (BitVec.ofNat 64 (2 ^ 12)).toNat = 4096 from rfl]
  omega

theorem recordPages_lt (n : Nat) : recordPages g n < 2 ^ 52 := by unfold recordPages; omega

theorem evRange_iff (b k : W) : (isValidRange b k = true ∧ ¬ (k + 1 < pageSize)) ↔ ∃ j, 12 ≤ j ∧ j < 64 ∧ k.toNat = 2 ^ j - 1 ∧ 2 ^ j ∣ b.toNat := by
  rw [(C01_range_exact b k).1, W.lt_iff, BitVec.toNat_add, show (1 : W).toNat = 1 from rfl, show pageSize.toNat = 4096 from rfl]
  constructor
  · rintro ⟨⟨j, h1, h2, h3⟩, h4⟩
    refine ⟨j, ?_, ?_, h2, h3⟩
    · refine Nat.le_of_not_lt fun hj => ?_
      have : 2 ^ j ≤ 2 ^ 11 := Nat.pow_le_pow_right (by omega) (by omega)
      have := Nat.two_pow_pos j
      omega
    · refine Nat.lt_of_not_le fun hj => ?_
      rw [show j = 64 by omega] at h2
      omega
  · rintro ⟨j, h1, h2, h3, h4⟩
    refine ⟨⟨j, by omega, h3, h4⟩, ?_⟩
    have h5 : 2 ^ 12 ≤ 2 ^ j := Nat.pow_le_pow_right (by omega) h1
    have h6 : 2 ^ j ≤ 2 ^ 63 := Nat.pow_le_pow_right (by omega) (by omega)
    omega

/-- The words that `create_enclave` may change: the record, and the map entries of its pages. -/
def createSet (g : Cfg) (e n : W) (x : Nat) : Prop :=
  (e.toNat ≤ x ∧ x < e.toNat + 304) ∨ x = entryA g e.toNat ∨ ∃ k, k + 1 < recordPages g n.toNat ∧ x = entryA g e.toNat + 8 * k

theorem run_createEnclave (h : g.MetaOk) (c : Nat) (e b k n : W) (d : Bool) {m : Machine} (hl : LockWords g m) (h0 : m.owner g 0 = 0) :
    (CreateOk g m e b k n → ∃ mem', run g c (createEnclave g e b k n d) m = some (monitorOk, { m with mem := mem' }) ∧
      RecordFields { m with mem := mem' } e b k n d ∧
      (g.metaStart.toNat ≤ pageIndex g e.toNat → (recordPages g n.toNat ≤ 1 → mem' (entryA g e.toNat) = e ||| enclavePageType) ∧
        ∀ j, j + 1 < recordPages g n.toNat → mem' (entryA g e.toNat + 8 * j) = innerPageType) ∧
      ∀ x, ¬ createSet g e n x → mem' x = m.mem x) ∧
    (¬ CreateOk g m e b k n → ∃ v, run g c (createEnclave g e b k n d) m = some (v, m) ∧ v ≠ monitorOk) := by
  have hev := evRange_iff b k
  unfold createEnclave CreateOk
  rw [← hev]
  rcases Classical.em (isValidRange b k = true) with hv | hv
  rotate_left
  · refine ⟨fun hh => absurd hh.1.1 hv, fun _ => ⟨monitorInvalidValue, ?_, by decide⟩⟩
    rw [Bool.not_eq_true] at hv
    rw [hv]; rfl
  by_cases hp : k + 1 < pageSize
  · refine ⟨fun hh => absurd hp hh.1.2, fun _ => ⟨monitorInvalidValue, ?_, by decide⟩⟩
    rw [hv, if_neg (by decide), if_pos hp]; rfl
  rw [hv, if_neg (by decide), if_neg hp]
  rcases Classical.em (MetaPage g m e.toNat) with hm | hm
  rotate_left
  · refine ⟨fun hh => absurd hh.2.1 hm, fun _ => ?_⟩
    obtain ⟨r, h1⟩ := run_lockMeta_err h.wf c hl hm
    refine ⟨metaLockError g m e, ?_, metaLockError_ne g m e⟩
    rw [run_bind, h1, Option.bind_some]
    dsimp only
    rw [if_pos (bne_iff_ne.2 (metaLockError_ne g m e)), run_pure]
  obtain ⟨hm1, hm2, hm3, hm4⟩ := id hm
  obtain ⟨hab0, hab⟩ := meta_above h h0 hm4
  obtain ⟨b1, b2, b3, b4, b5, b6⟩ := entry_bounds h hm2
  have hpg := page_in_region h hm2 hm1
  have hr := dramRegionFor_lt h.wf e
  have hrl := regionOf_lt h.wf e.toNat
  have hlk : lockA g (regionOf g e.toNat) < g.monitorTop.toNat := by have := lockA_lt h.wf hrl; omega
  rw [Nat.succ_mul] at b6
  have hz := (not_locked m).1 hm3
  have hown : (m.st (lockA g (regionOf g e.toNat)) 1).owner g (regionOf g e.toNat) = metadataEnclaveId := by
    rw [← hm4]; simp [Machine.owner, mem_st]
  have hpf : PagesFree g (m.st (lockA g (regionOf g e.toNat)) 1) e.toNat (enclaveInfoPages g n).toNat ↔
      (pageIndex g e.toNat + recordPages g n.toNat ≤ 2 ^ g.sp ∧ ∀ k, k < recordPages g n.toNat → m.mem (entryA g e.toNat + 8 * k) = 0) := by
    unfold PagesFree
    rw [enclaveInfoPages_toNat]
    refine and_congr_right fun _ => forall_congr' fun j => ?_
    rw [mem_st, if_neg (by omega)]
  obtain ⟨ha1, ha2⟩ := run_assignPages h c (n := enclaveInfoPages g n) hm2 (by rw [enclaveInfoPages_toNat]; exact recordPages_lt _) e enclavePageType
    emptyPageType (m.st (lockA g (regionOf g e.toNat)) 1)
  rw [hpf] at ha1 ha2
  rw [run_bind, run_lockMeta_ok h.wf c hm, Option.bind_some]
  dsimp only
  rw [if_neg (by decide), run_bind, run_readOwner h.wf hr, Option.bind_some]
  dsimp only
  rw [dramRegionFor_toNat h.wf, hown, if_neg (by decide), run_bind]
  unfold reserveMetadataPages
  refine ⟨fun hh => ?_, fun hh => ?_⟩
  · obtain ⟨mem1, c1, c2, c3, c4⟩ := ha1 ⟨hh.2.2.1, hh.2.2.2⟩
    rw [enclaveInfoPages_toNat] at c2 c3 c4
    obtain ⟨mem2, d1, d2, d3⟩ := run_initEnclaveInfo (g := g) (e := e) (by omega) (by omega) c b k n d
      { m.st (lockA g (regionOf g e.toNat)) 1 with mem := mem1 }
    rw [c1, Option.bind_some]
    dsimp only
    rw [if_neg (by decide), run_bind, d1, Option.bind_some]
    dsimp only
    rw [run_bind, run_clearLock h.wf hr, Option.bind_some, dramRegionFor_toNat h.wf, run_pure]
    refine ⟨upd mem2 (lockA g (regionOf g e.toNat)) 0, rfl, ?_, ?_, ?_⟩
    · have hk : ∀ o, upd mem2 (lockA g (regionOf g e.toNat)) 0 (e.toNat + o) = mem2 (e.toNat + o) := fun o => upd_ne _ _ (by omega)
      constructor
      · show upd _ _ _ (e.toNat + 0) = _; rw [hk]; exact d2.lock
      · show upd _ _ _ _ = _; rw [hk]; exact d2.mailboxes
      · show upd _ _ _ _ = _; rw [hk]; exact d2.initialized
      · show upd _ _ _ _ = _; rw [hk]; exact d2.debug
      · show upd _ _ _ _ = _; rw [hk]; exact d2.threads
      · show upd _ _ _ _ = _; rw [hk]; exact d2.regions
      · show upd _ _ _ _ = _; rw [hk]; exact d2.evBase
      · show upd _ _ _ _ = _; rw [hk]; exact d2.evMask
      · show upd _ _ _ _ = _; rw [hk]; exact d2.pageTable
      · show upd _ _ _ _ = _; rw [hk]; exact d2.lastLoad
    · intro hms
      have hmap : ∀ j, pageIndex g e.toNat + j < 2 ^ g.sp → entryA g e.toNat + 8 * j < e.toNat := by
        intro j hj
        have h1 := h.wf.metaStart
        have h2 := h.wf.metaPages
        have h3 : min (2 ^ (g.d - g.rb - 12)) (2 ^ (9 + g.sp)) = 2 ^ g.sp := by
          rw [h.single, show 12 + g.sp + g.rb - g.rb - 12 = g.sp by omega]
          exact Nat.min_eq_left (Nat.pow_le_pow_right (by omega) (by omega))
        omega
      constructor
      · intro hn1
        rw [upd_ne _ _ (by omega), d3 _ (by have := hmap 0 (by omega); unfold Span; omega)]
        exact c2 hn1
      · intro j hj
        rw [upd_ne _ _ (by omega), d3 _ (by have := hmap j (by omega); unfold Span; omega)]
        exact c3 j hj
    · intro x hx
      unfold createSet at hx
      by_cases hxl : x = lockA g (regionOf g e.toNat)
      · subst hxl; rw [upd_same, hz]
      · rw [upd_ne _ _ hxl, d3 x (fun hs => hx (Or.inl hs))]
        show mem1 x = _
        rw [c4 x (fun hs => hx (Or.inr (Or.inl hs))) (fun hs => hx (Or.inr (Or.inr hs))), mem_st, if_neg hxl]
  · obtain ⟨v, c1, c2⟩ := ha2 (fun hh2 => hh ⟨⟨rfl, hp⟩, hm, hh2.1, hh2.2⟩)
    rw [c1, Option.bind_some]
    dsimp only
    rw [if_pos (bne_iff_ne.2 c2), run_bind, run_clearLock h.wf hr, Option.bind_some, dramRegionFor_toNat h.wf, run_pure, lock_restore _ hz]
    exact ⟨v, rfl, c2⟩

/-! ### Result codes -/

theorem metaCode_page {m : Machine} {a : W} (hm : MetaPage g m a.toNat) (rest : W) : metaCode g m a rest = rest := by
  obtain ⟨h1, h2, h3, h4⟩ := hm
  unfold metaCode
  rw [if_neg (not_not_intro ⟨h1, h2⟩), if_neg (by rw [h3]; exact Bool.false_ne_true), if_neg (not_not_intro h4)]

theorem metaCode_err {m : Machine} {a : W} (hm : ¬ MetaPage g m a.toNat) (rest : W) : metaCode g m a rest = metaLockError g m a := by
  unfold metaCode metaLockError
  by_cases h1 : DramPage g a
  · rw [if_neg (not_not_intro h1)]
    have h1' : ¬ ¬ (a.toNat % 4096 = 0 ∧ a.toNat < g.dramSize.toNat) := not_not_intro h1
    rw [if_neg h1']
    by_cases h2 : m.locked g (regionOf g a.toNat) = true
    · rw [if_pos h2, if_pos h2]
    · rw [if_neg h2, if_neg h2]
      by_cases h3 : m.owner g (regionOf g a.toNat) = metadataEnclaveId
      · exact absurd ⟨h1.1, h1.2, by simpa using h2, h3⟩ hm
      · rw [if_pos h3]
  · rw [if_pos h1]
    have h1' : ¬ (a.toNat % 4096 = 0 ∧ a.toNat < g.dramSize.toNat) := h1
    rw [if_pos h1']

theorem run_assignPages_code (h : g.MetaOk) (c : Nat) {a n : W} (ha : a.toNat < g.dramSize.toNat) (hn : n.toNat < 2 ^ 52) (o t f : W) (m : Machine)
    (hno : ¬ PagesFree g m a.toNat n.toNat) : run g c (assignMetadataPages g a n o t f) m =
      some (if 2 ^ g.sp < pageIndex g a.toNat + n.toNat then monitorInvalidValue else monitorInvalidState, m) := by
  obtain ⟨b1, b2, b3, b4, b5, b6⟩ := entry_bounds h ha
  rw [Nat.succ_mul] at b6
  have hidx : (dramStripePageFor g a).toNat = pageIndex g a.toNat := by
    rw [dramStripePageFor_toNat h.wf]; rfl
  have hsp := h.wf.stripe_le
  have hgt : (dramStripePageFor g a + n > g.stripePages) ↔ 2 ^ g.sp < pageIndex g a.toNat + n.toNat := by
    show g.stripePages < _ ↔ _
    rw [W.lt_iff, h.wf.stripePages, add_off (by rw [hidx]; omega), hidx]
  have hp := entry_toNat h ha
  unfold assignMetadataPages
  by_cases hfit : 2 ^ g.sp < pageIndex g a.toNat + n.toNat
  · rw [if_pos (hgt.2 hfit), if_pos hfit]; rfl
  · rw [if_neg (fun hh => hfit (hgt.1 hh)), if_neg hfit]
    obtain ⟨ok, h1, h2⟩ := run_pagesEmptyLoop (g := g) c m n.toNat (metadataPageInfoFor g a) (by rw [hp]; omega) (by rw [hp]; omega)
    rw [hp] at h2
    have hok : ok = false := by
      rw [← Bool.not_eq_true, h2]
      intro hall; exact hno ⟨by omega, hall⟩
    rw [run_bind, h1, Option.bind_some, hok]
    rfl

/-! ### lock_enclave, assign_thread, load_thread -/

theorem run_lockEnclave_err (h : g.MetaOk) (c : Nat) {e : W} {m : Machine} (hl : LockWords g m) (h0 : m.owner g 0 = 0) (hne : ¬ EnclavePage g m e) :
    run g c (lockEnclave g e) m = some (metaCode g m e monitorInvalidValue, m) := by
  unfold lockEnclave
  rcases Classical.em (MetaPage g m e.toNat) with hm | hm
  · obtain ⟨hm1, hm2, hm3, hm4⟩ := id hm
    obtain ⟨hab0, hab⟩ := meta_above h h0 hm4
    obtain ⟨b1, b2, b3, b4, b5, b6⟩ := entry_bounds h hm2
    rw [Nat.succ_mul] at b6
    have hrl := regionOf_lt h.wf e.toNat
    have hlk : lockA g (regionOf g e.toNat) < g.monitorTop.toNat := by have := lockA_lt h.wf hrl; omega
    have hp := entry_toNat h hm2
    have hent : m.mem (entryA g e.toNat) ≠ (e ||| enclavePageType) := fun hh => hne ⟨hm, hh⟩
    rw [(isPageAligned_iff e).2 hm1, (isDramAddress_iff e).2 hm2, if_neg (by decide), run_bind, run_lockMeta_ok h.wf c hm, Option.bind_some]
    dsimp only
    rw [if_neg (by decide), run_bind, run_load _ _ _ _ (by rw [okAddr_iff, hp]; omega), Option.bind_some]
    dsimp only
    have hld : (m.st (lockA g (regionOf g e.toNat)) 1).mem (entryA g e.toNat) = m.mem (entryA g e.toNat) := by rw [mem_st, if_neg (by omega)]
    rw [hp, hld, metadataPageInfo, if_pos (bne_iff_ne.2 hent), run_bind, run_clearLock h.wf (dramRegionFor_lt h.wf e), Option.bind_some,
      dramRegionFor_toNat h.wf, run_pure, lock_restore _ ((not_locked m).1 hm3), metaCode_page hm]
  · obtain ⟨r, h1⟩ := run_lockMeta_err h.wf c hl hm
    by_cases hc : (!isDramAddress g e || !isPageAligned e) = true
    · rw [if_pos hc]
      have hnd : ¬ DramPage g e := by
        intro hd
        rw [(isPageAligned_iff e).2 hd.1, (isDramAddress_iff e).2 hd.2] at hc
        exact absurd hc (by decide)
      unfold metaCode
      rw [if_pos hnd]; rfl
    · rw [if_neg hc, run_bind, h1, Option.bind_some]
      dsimp only
      rw [if_pos (bne_iff_ne.2 (metaLockError_ne g m e)), run_pure, metaCode_err hm]

theorem run_lockEnclave_ok (h : g.MetaOk) (c : Nat) {e : W} {m : Machine} (h0 : m.owner g 0 = 0) (he : EnclavePage g m e) :
    run g c (lockEnclave g e) m = some (if m.mem e.toNat = 0 then monitorOk else monitorConcurrentCall, m.st e.toNat 1) := by
  obtain ⟨hm, hent⟩ := he
  obtain ⟨hm1, hm2, hm3, hm4⟩ := id hm
  obtain ⟨hab0, hab⟩ := meta_above h h0 hm4
  obtain ⟨b1, b2, b3, b4, b5, b6⟩ := entry_bounds h hm2
  rw [Nat.succ_mul] at b6
  have hpg := page_in_region h hm2 hm1
  have hrl := regionOf_lt h.wf e.toNat
  have hlk : lockA g (regionOf g e.toNat) < g.monitorTop.toNat := by have := lockA_lt h.wf hrl; omega
  have hp := entry_toNat h hm2
  have hoff : (e + offEnclaveLock).toNat = e.toNat := by rw [add_off (by show _ + 0 < _; exact e.isLt)]; rfl
  have hdram : e.toNat + 8 ≤ g.dramSize.toNat := by omega
  unfold lockEnclave
  rw [(isPageAligned_iff e).2 hm1, (isDramAddress_iff e).2 hm2, if_neg (by decide), run_bind, run_lockMeta_ok h.wf c hm, Option.bind_some]
  dsimp only
  rw [if_neg (by decide), run_bind, run_load _ _ _ _ (by rw [okAddr_iff, hp]; omega), Option.bind_some]
  dsimp only
  have hld : (m.st (lockA g (regionOf g e.toNat)) 1).mem (entryA g e.toNat) = m.mem (entryA g e.toNat) := by rw [mem_st, if_neg (by omega)]
  have hld2 : (m.st (lockA g (regionOf g e.toNat)) 1).mem e.toNat = m.mem e.toNat := by rw [mem_st, if_neg (by omega)]
  rw [hp, hld, hent, metadataPageInfo, if_neg (by simp), run_bind,
    run_tas _ _ _ _ (by rw [okAddr_iff, hoff]; omega), Option.bind_some]
  dsimp only
  rw [run_bind, run_clearLock h.wf (dramRegionFor_lt h.wf e), Option.bind_some, dramRegionFor_toNat h.wf, run_pure, hoff, hld2,
    st_comm _ _ _ (show lockA g (regionOf g e.toNat) ≠ e.toNat by omega), st_st,
    st_self _ _ _ (show (m.st e.toNat 1).mem (lockA g (regionOf g e.toNat)) = 0 by rw [mem_st, if_neg (by omega)]; exact (not_locked m).1 hm3)]
  by_cases hz : m.mem e.toNat = 0
  · rw [hz, if_neg (by decide), if_pos rfl]
  · rw [if_pos (bne_iff_ne.2 hz), if_neg hz]

/-- Neither `assign_thread` nor `load_thread` can reserve pages: both ask for the page of the enclave's own
record, which is taken. -/
theorem run_reserve_own (h : g.MetaOk) (c : Nat) {e : W} {m : Machine} (he : e.toNat < g.dramSize.toNat)
    (hent : m.mem (entryA g e.toNat) ≠ 0) (o t : W) :
    run g c (reserveMetadataPages g e threadMetadataPages o t) m = some (monitorInvalidState, m) := by
  have hp : threadMetadataPages.toNat = 1 := rfl
  have h1 := run_assignPages_code h c (n := threadMetadataPages) he (by decide) o t emptyPageType m (fun hp => hent (hp.2 0 (by decide)))
  obtain ⟨b1, b2, b3, b4, b5, b6⟩ := entry_bounds h he
  rw [hp] at h1
  rw [if_neg (show ¬ 2 ^ g.sp < pageIndex g e.toNat + 1 by omega)] at h1
  exact h1

theorem enclaveCode_page {m : Machine} {e t : W} (he : EnclavePage g m e) :
    threadCode g m e t = if m.mem e.toNat ≠ 0 then monitorConcurrentCall else metaCode g m t monitorInvalidState := by
  unfold threadCode
  rw [metaCode_page he.1, if_neg (not_not_intro he.2)]

theorem enclaveCode_err {m : Machine} {e t : W} (he : ¬ EnclavePage g m e) : threadCode g m e t = metaCode g m e monitorInvalidValue := by
  unfold threadCode
  rcases Classical.em (MetaPage g m e.toNat) with hm | hm
  · have hent : m.mem (entryA g e.toNat) ≠ (e ||| enclavePageType) := fun hh => he ⟨hm, hh⟩
    rw [metaCode_page hm, metaCode_page hm, if_pos hent]
  · rw [metaCode_err hm, metaCode_err hm]

theorem metaCode_ne {m : Machine} {a v : W} (hv : v ≠ monitorOk) : metaCode g m a v ≠ monitorOk := by
  unfold metaCode
  split
  · decide
  · split
    · decide
    · split
      · decide
      · exact hv

theorem threadCode_ne {m : Machine} {e t : W} : threadCode g m e t ≠ monitorOk := by
  unfold threadCode
  refine metaCode_ne ?_
  split
  · decide
  · split
    · decide
    · exact metaCode_ne (by decide)

theorem metaCode_st (h : g.WF) {m : Machine} {a : Nat} (ha : g.monitorTop.toNat ≤ a) (t v w : W) :
    metaCode g (m.st a v) t w = metaCode g m t w := by
  have hr := regionOf_lt h t.toNat
  have h1 : (m.st a v).locked g (regionOf g t.toNat) = m.locked g (regionOf g t.toNat) := by
    unfold Machine.locked
    rw [mem_st, if_neg (by have := lockA_lt h hr; omega)]
  have h2 : (m.st a v).owner g (regionOf g t.toNat) = m.owner g (regionOf g t.toNat) := by
    unfold Machine.owner
    rw [mem_st, if_neg (by have := ownerA_lt h hr; omega)]
  unfold metaCode
  rw [h1, h2]

/-- What is left of `m` when the enclave lock of `e` was tried: nothing if the lock word held 0 or 1. -/
def LockTried (g : Cfg) (m m' : Machine) (e : W) : Prop :=
  m' = m ∨ (EnclavePage g m e ∧ m.mem e.toNat ≠ 0 ∧ m.mem e.toNat ≠ 1 ∧ m' = m.st e.toNat 1)

theorem run_assignThread_code (h : g.MetaOk) (c : Nat) (e t : W) {m : Machine} (hl : LockWords g m) (h0 : m.owner g 0 = 0) :
    ∃ m', run g c (assignThread g e t) m = some (threadCode g m e t, m') ∧ LockTried g m m' e := by
  unfold assignThread
  rcases Classical.em (EnclavePage g m e) with he | he
  · have h1 := run_lockEnclave_ok h c h0 he
    rw [enclaveCode_page he]
    obtain ⟨hm, hent⟩ := id he
    obtain ⟨hm1, hm2, hm3, hm4⟩ := id hm
    obtain ⟨hab0, hab⟩ := meta_above h h0 hm4
    obtain ⟨b1, b2, b3, b4, b5, b6⟩ := entry_bounds h hm2
    rw [Nat.succ_mul] at b6
    have hpg := page_in_region h hm2 hm1
    have hlocks : ∀ i, i < g.regions → lockA g i < g.monitorTop.toNat := fun i hi => by have := lockA_lt h.wf hi; omega
    have hetop : g.monitorTop.toNat ≤ e.toNat := by omega
    by_cases hz : m.mem e.toNat = 0
    · rw [if_pos hz] at h1
      have hl1 : LockWords g (m.st e.toNat 1) := by
        intro i hi; rw [mem_st, if_neg (by have := hlocks i hi; omega)]; exact hl i hi
      have hun : ∀ m1 : Machine, run g c (unlockEnclave e) m1 = some ((), m1.st e.toNat 0) := fun m1 =>
        run_storeOff c 0 m1 (by omega) (by decide) (by show _ + 0 + 8 ≤ _; omega)
      have hback : (m.st e.toNat 1).st e.toNat 0 = m := by rw [st_st, st_self _ _ _ hz]
      rw [run_bind, h1, Option.bind_some]
      dsimp only
      rw [if_neg (by decide), if_neg (not_not_intro hz), ← metaCode_st h.wf (m := m) hetop t 1]
      rcases Classical.em (MetaPage g (m.st e.toNat 1) t.toNat) with ht | ht
      · have hrt := dramRegionFor_lt h.wf t
        have hrtl := hlocks _ (regionOf_lt h.wf t.toNat)
        have hz2 := (not_locked _).1 ht.2.2.1
        have hent2 : ((m.st e.toNat 1).st (lockA g (regionOf g t.toNat)) 1).mem (entryA g e.toNat) ≠ 0 := by
          rw [mem_st, if_neg (by omega), mem_st]
          split
          · decide
          · rw [hent]; intro hh
            have := congrArg (fun x : W => x.getLsbD 1) hh
            simp [enclavePageType] at this
        rw [metaCode_page ht]
        have hfin : ∀ v : W, ∃ m', run g c (do clearLock g (dramRegionFor g t); unlockEnclave e; pure v)
            ((m.st e.toNat 1).st (lockA g (regionOf g t.toNat)) 1) = some (v, m') ∧ LockTried g m m' e := by
          intro v
          rw [run_bind, run_clearLock h.wf hrt, Option.bind_some, dramRegionFor_toNat h.wf, lock_restore _ hz2]
          dsimp only
          rw [run_bind, hun, Option.bind_some, run_pure, hback]
          exact ⟨m, rfl, Or.inl rfl⟩
        have hr1 := run_reserve_own h c hm2 hent2 e threadPageType
        rw [run_bind, run_lockMeta_ok h.wf c ht, Option.bind_some]
        dsimp only
        rw [if_neg (by decide), run_bind, run_loadOff c _ (by omega) (by decide) (by show _ + 16 + 8 ≤ _; omega), Option.bind_some]
        dsimp only
        generalize Machine.mem _ _ = init
        by_cases hi : (init != 0) = true
        · rw [if_pos hi, run_bind, hr1, Option.bind_some]
          dsimp only
          rw [if_pos (by decide)]
          exact hfin monitorInvalidState
        · rw [if_neg hi, run_bind, run_pure, Option.bind_some]
          dsimp only
          rw [if_pos (by decide)]
          exact hfin monitorInvalidState
      · obtain ⟨r, h2⟩ := run_lockMeta_err h.wf c hl1 ht
        rw [run_bind, h2, Option.bind_some]
        dsimp only
        rw [if_pos (bne_iff_ne.2 (metaLockError_ne _ _ _)), run_bind, hun, Option.bind_some, run_pure, hback, metaCode_err ht]
        exact ⟨_, rfl, Or.inl rfl⟩
    · rw [if_neg hz] at h1
      rw [run_bind, h1, Option.bind_some]
      dsimp only
      rw [if_pos (by decide), run_pure, if_pos hz]
      refine ⟨_, rfl, ?_⟩
      by_cases h1 : m.mem e.toNat = 1
      · exact Or.inl (st_self _ _ _ h1)
      · exact Or.inr ⟨he, hz, h1, rfl⟩
  · rw [run_bind, run_lockEnclave_err h c hl h0 he, Option.bind_some, enclaveCode_err he]
    dsimp only
    rw [if_pos (bne_iff_ne.2 (metaCode_ne (by decide))), run_pure]
    exact ⟨m, rfl, Or.inl rfl⟩

theorem run_loadThread_code (h : g.MetaOk) (c : Nat) (e t pc sp fpc fsp : W) {m : Machine} (hl : LockWords g m) (h0 : m.owner g 0 = 0) :
    ∃ m', run g c (loadThread g e t pc sp fpc fsp) m = some (threadCode g m e t, m') ∧ LockTried g m m' e := by
  unfold loadThread
  rcases Classical.em (EnclavePage g m e) with he | he
  · have h1 := run_lockEnclave_ok h c h0 he
    rw [enclaveCode_page he]
    obtain ⟨hm, hent⟩ := id he
    obtain ⟨hm1, hm2, hm3, hm4⟩ := id hm
    obtain ⟨hab0, hab⟩ := meta_above h h0 hm4
    obtain ⟨b1, b2, b3, b4, b5, b6⟩ := entry_bounds h hm2
    rw [Nat.succ_mul] at b6
    have hpg := page_in_region h hm2 hm1
    have hlocks : ∀ i, i < g.regions → lockA g i < g.monitorTop.toNat := fun i hi => by have := lockA_lt h.wf hi; omega
    have hetop : g.monitorTop.toNat ≤ e.toNat := by omega
    by_cases hz : m.mem e.toNat = 0
    · rw [if_pos hz] at h1
      have hl1 : LockWords g (m.st e.toNat 1) := by
        intro i hi; rw [mem_st, if_neg (by have := hlocks i hi; omega)]; exact hl i hi
      have hun : ∀ m1 : Machine, run g c (unlockEnclave e) m1 = some ((), m1.st e.toNat 0) := fun m1 =>
        run_storeOff c 0 m1 (by omega) (by decide) (by show _ + 0 + 8 ≤ _; omega)
      have hback : (m.st e.toNat 1).st e.toNat 0 = m := by rw [st_st, st_self _ _ _ hz]
      rw [run_bind, h1, Option.bind_some]
      dsimp only
      rw [if_neg (by decide), if_neg (not_not_intro hz), ← metaCode_st h.wf (m := m) hetop t 1]
      rcases Classical.em (MetaPage g (m.st e.toNat 1) t.toNat) with ht | ht
      · have hrt := dramRegionFor_lt h.wf t
        have hrtl := hlocks _ (regionOf_lt h.wf t.toNat)
        have hz2 := (not_locked _).1 ht.2.2.1
        have hent2 : ((m.st e.toNat 1).st (lockA g (regionOf g t.toNat)) 1).mem (entryA g e.toNat) ≠ 0 := by
          rw [mem_st, if_neg (by omega), mem_st]
          split
          · decide
          · rw [hent]; intro hh
            have := congrArg (fun x : W => x.getLsbD 1) hh
            simp [enclavePageType] at this
        rw [metaCode_page ht]
        have hfin : ∀ v : W, ∃ m', run g c (do clearLock g (dramRegionFor g t); unlockEnclave e; pure v)
            ((m.st e.toNat 1).st (lockA g (regionOf g t.toNat)) 1) = some (v, m') ∧ LockTried g m m' e := by
          intro v
          rw [run_bind, run_clearLock h.wf hrt, Option.bind_some, dramRegionFor_toNat h.wf, lock_restore _ hz2]
          dsimp only
          rw [run_bind, hun, Option.bind_some, run_pure, hback]
          exact ⟨m, rfl, Or.inl rfl⟩
        have hr1 := run_reserve_own h c hm2 hent2 e threadPageType
        rw [run_bind, run_lockMeta_ok h.wf c ht, Option.bind_some]
        dsimp only
        rw [if_neg (by decide), run_bind, run_loadOff c _ (by omega) (by decide) (by show _ + 16 + 8 ≤ _; omega), Option.bind_some]
        dsimp only
        generalize hinit : Machine.mem _ _ = init
        have hmid : ∃ eptbr, run g c (if (init != 0) = true then pure 0 else load (e + offLoadEptbr))
            ((m.st e.toNat 1).st (lockA g (regionOf g t.toNat)) 1) = some (eptbr, (m.st e.toNat 1).st (lockA g (regionOf g t.toNat)) 1) := by
          by_cases hi : (init != 0) = true
          · rw [if_pos hi]; exact ⟨_, rfl⟩
          · rw [if_neg hi, run_loadOff c _ (by omega) (by decide) (by show _ + 64 + 8 ≤ _; omega)]; exact ⟨_, rfl⟩
        obtain ⟨eptbr, h5⟩ := hmid
        rw [run_bind, h5, Option.bind_some]
        dsimp only
        by_cases hi : (init != 0 || eptbr == 0) = true
        · rw [if_pos hi, run_bind, run_pure, Option.bind_some]
          dsimp only
          rw [if_pos (by decide)]
          exact hfin monitorInvalidState
        · rw [if_neg hi, run_bind, hr1, Option.bind_some]
          dsimp only
          rw [if_pos (by decide)]
          exact hfin monitorInvalidState
      · obtain ⟨r, h2⟩ := run_lockMeta_err h.wf c hl1 ht
        rw [run_bind, h2, Option.bind_some]
        dsimp only
        rw [if_pos (bne_iff_ne.2 (metaLockError_ne _ _ _)), run_bind, hun, Option.bind_some, run_pure, hback, metaCode_err ht]
        exact ⟨_, rfl, Or.inl rfl⟩
    · rw [if_neg hz] at h1
      rw [run_bind, h1, Option.bind_some]
      dsimp only
      rw [if_pos (by decide), run_pure, if_pos hz]
      refine ⟨_, rfl, ?_⟩
      by_cases h1 : m.mem e.toNat = 1
      · exact Or.inl (st_self _ _ _ h1)
      · exact Or.inr ⟨he, hz, h1, rfl⟩
  · rw [run_bind, run_lockEnclave_err h c hl h0 he, Option.bind_some, enclaveCode_err he]
    dsimp only
    rw [if_pos (bne_iff_ne.2 (metaCode_ne (by decide))), run_pure]
    exact ⟨m, rfl, Or.inl rfl⟩

theorem run_assignThread (h : g.MetaOk) (c : Nat) (e t : W) {m : Machine} (hl : LockWords g m) (h0 : m.owner g 0 = 0) :
    ∃ v m', run g c (assignThread g e t) m = some (v, m') ∧ v ≠ monitorOk ∧ LockTried g m m' e := by
  obtain ⟨m', h1, h2⟩ := run_assignThread_code h c e t hl h0
  exact ⟨_, m', h1, threadCode_ne, h2⟩

theorem run_loadThread (h : g.MetaOk) (c : Nat) (e t pc sp fpc fsp : W) {m : Machine} (hl : LockWords g m) (h0 : m.owner g 0 = 0) :
    ∃ v m', run g c (loadThread g e t pc sp fpc fsp) m = some (v, m') ∧ v ≠ monitorOk ∧ LockTried g m m' e := by
  obtain ⟨m', h1, h2⟩ := run_loadThread_code h c e t pc sp fpc fsp hl h0
  exact ⟨_, m', h1, threadCode_ne, h2⟩

end Sanctum
