import Verif.Lemmas.IdCalls
import Verif.Lemmas.ThreadPages
/-
Closed forms of delete_enclave, create_thread, delete_thread, exit_enclave.
-/
namespace Sanctum
open Machine

variable {g : Cfg}

open Classical in
/-- The locks of the regions `i` in `[lo, hi)` with `P i` set to `v`. -/
noncomputable def Machine.lockMany (m : Machine) (g : Cfg) (P : Nat → Prop) (lo hi : Nat) (v : W) : Machine :=
  { m with mem := fun x => if ∃ i, lo ≤ i ∧ i < hi ∧ P i ∧ x = lockA g i then v else m.mem x }

theorem lockMany_empty (m : Machine) (P : Nat → Prop) (lo : Nat) (v : W) : m.lockMany g P lo lo v = m := by
  have : (m.lockMany g P lo lo v).mem = m.mem := by
    funext x; unfold Machine.lockMany; dsimp only; rw [if_neg]; rintro ⟨i, h1, h2, _⟩; omega
  show ({ m with mem := (m.lockMany g P lo lo v).mem } : Machine) = m
  rw [this]

theorem machine_ext_mem (m m' : Machine) (mem1 mem2 : Nat → W) (h : ∀ x, mem1 x = mem2 x) (hr : ({ m with mem := mem2 } : Machine) = { m' with mem := mem2 }) :
    ({ m with mem := mem1 } : Machine) = { m' with mem := mem2 } := by
  rw [funext h]; exact hr

theorem lockMany_step (m : Machine) (P : Nat → Prop) {lo hi : Nat} (v : W) (hlt : lo < hi) (hp : P lo) :
    (m.st (lockA g lo) v).lockMany g P (lo + 1) hi v = m.lockMany g P lo hi v := by
  unfold Machine.lockMany Machine.st
  refine machine_ext_mem m m _ _ (fun x => ?_) rfl
  by_cases h1 : ∃ i, lo + 1 ≤ i ∧ i < hi ∧ P i ∧ x = lockA g i
  · rw [if_pos h1, if_pos]
    obtain ⟨i, a, b, c, d⟩ := h1; exact ⟨i, by omega, b, c, d⟩
  · rw [if_neg h1]
    dsimp only
    by_cases h2 : x = lockA g lo
    · rw [if_pos ⟨lo, by omega, hlt, hp, h2⟩, h2, upd_same]
    · rw [upd_ne _ _ h2, if_neg]
      rintro ⟨i, a, b, c, d⟩
      by_cases h3 : i = lo
      · subst h3; exact h2 d
      · exact h1 ⟨i, by omega, b, c, d⟩

theorem lockMany_skip (m : Machine) (P : Nat → Prop) {lo hi : Nat} (v : W) (hp : ¬ P lo) :
    m.lockMany g P (lo + 1) hi v = m.lockMany g P lo hi v := by
  unfold Machine.lockMany
  refine machine_ext_mem m m _ _ (fun x => ?_) rfl
  by_cases h1 : ∃ i, lo + 1 ≤ i ∧ i < hi ∧ P i ∧ x = lockA g i
  · rw [if_pos h1, if_pos]
    obtain ⟨i, a, b, c, d⟩ := h1; exact ⟨i, by omega, b, c, d⟩
  · rw [if_neg h1, if_neg]
    rintro ⟨i, a, b, c, d⟩
    by_cases h3 : i = lo
    · subst h3; exact hp c
    · exact h1 ⟨i, by omega, b, c, d⟩

/-- Taking and releasing free locks. -/
theorem lockMany_restore (m : Machine) (P : Nat → Prop) (lo hi : Nat) (hz : ∀ i, lo ≤ i → i < hi → P i → m.mem (lockA g i) = 0) :
    (m.lockMany g P lo hi 1).lockMany g P lo hi 0 = m := by
  unfold Machine.lockMany
  refine machine_ext_mem m m _ m.mem (fun x => ?_) rfl
  dsimp only
  split
  · rename_i h; obtain ⟨i, a, b, c, d⟩ := h; rw [d, hz i a b c]
  · rfl

theorem lockMany_mem_ne (m : Machine) (P : Nat → Prop) (lo hi : Nat) (v : W) {x : Nat} (h : ∀ i, lo ≤ i → i < hi → P i → x ≠ lockA g i) :
    (m.lockMany g P lo hi v).mem x = m.mem x := by
  unfold Machine.lockMany
  dsimp only
  rw [if_neg]; rintro ⟨i, a, b, c, d⟩; exact h i a b c d

/-- The regions that `delete_enclave(e)` locks besides its main one. -/
def InBitmap (g : Cfg) (m : Machine) (e : W) (main : Nat) (i : Nat) : Prop := i ≠ main ∧ m.bmBit g e i = true

theorem bmBit_lockSt (h : g.WF) {e : W} (he : RecordOk g e) (m : Machine) {i : Nat} (hi : i < g.regions) (v : W) (j : Nat) :
    (m.st (lockA g i) v).bmBit g e j = m.bmBit g e j := by
  have hb := bmWordA_ge h he j
  obtain ⟨l1, l2, l3, l4, l5, l6, l7, l8, l9, l10, l11, l12⟩ := h.layout
  unfold Machine.bmBit
  rw [mem_st, if_neg (by unfold lockA; omega)]

theorem bmBit_lockMany (h : g.WF) {e : W} (he : RecordOk g e) (m : Machine) (P : Nat → Prop) (lo : Nat) {hi : Nat} (hh : hi ≤ g.regions) (v : W) (j : Nat) :
    (m.lockMany g P lo hi v).bmBit g e j = m.bmBit g e j := by
  have hb := bmWordA_ge h he j
  obtain ⟨l1, l2, l3, l4, l5, l6, l7, l8, l9, l10, l11, l12⟩ := h.layout
  unfold Machine.bmBit
  rw [lockMany_mem_ne _ _ _ _ _ (fun i a b c => by unfold lockA; omega)]

section
variable (h : g.WF) (c : Nat) {e : W} (he : RecordOk g e) (h0 : e ≠ 0) (main : W)
include h he h0

theorem run_readEBit {r : W} (hr : r.toNat < g.regions) (m : Machine) :
    run g c (readBitmapBit (enclaveRegionBitmap e) r) m = some (m.bmBit g e r.toNat, m) := by
  have := run_readBmBit h c he hr m
  unfold readEnclaveRegionBitmapBit at this
  rw [if_neg (show ¬ e = nullEnclaveId from h0)] at this
  exact this

theorem run_deleteLockLoop (n : Nat) : ∀ (i : W) (m : Machine), LockWords g m → i.toNat + n = g.regions →
    ∃ j : W, run g c (deleteLockLoop g main (enclaveRegionBitmap e) n i) m = some (j, m.lockMany g (InBitmap g m e main.toNat) i.toNat j.toNat 1) ∧
      i.toNat ≤ j.toNat ∧ j.toNat ≤ g.regions ∧
      (∀ k, i.toNat ≤ k → k < j.toNat → InBitmap g m e main.toNat k → m.locked g k = false) ∧
      (j.toNat < g.regions → InBitmap g m e main.toNat j.toNat ∧ m.locked g j.toNat = true) := by
  have hrl := h.regions_le
  induction n with
  | zero =>
      intro i m hl hi
      exact ⟨i, by rw [lockMany_empty]; rfl, Nat.le_refl _, by omega, fun k a b => absurd b (by omega), fun a => absurd a (by omega)⟩
  | succ n ih =>
      intro i m hl hi
      have h1 : (i + 1).toNat = i.toNat + 1 := add_off (by show _ + 1 < _; omega)
      rw [deleteLockLoop]
      by_cases hmain : i = main
      · rw [if_pos hmain]
        have hnp : ¬ InBitmap g m e main.toNat i.toNat := fun hp => hp.1 (by rw [hmain])
        obtain ⟨j, a1, a2, a3, a4, a5⟩ := ih (i + 1) m hl (by omega)
        rw [h1] at a1 a2 a4
        refine ⟨j, by rw [a1, lockMany_skip _ _ _ hnp], by omega, a3, fun k b1 b2 b3 => ?_, a5⟩
        by_cases hk : k = i.toNat
        · subst hk; exact absurd b3 hnp
        · exact a4 k (by omega) b2 b3
      · have hne : i.toNat ≠ main.toNat := fun hh => hmain ((W.eq_iff _ _).2 hh)
        rw [if_neg hmain, run_bind, run_readEBit h c he h0 (by omega), Option.bind_some]
        dsimp only
        by_cases hb : m.bmBit g e i.toNat = true
        · rw [if_pos hb, run_bind, run_tasLock h (by omega), Option.bind_some]
          dsimp only
          by_cases hlk : m.locked g i.toNat = true
          · rw [if_pos hlk, run_pure, st_locked hl (by omega) hlk]
            exact ⟨i, by rw [lockMany_empty], Nat.le_refl _, by omega, fun k a b => absurd b (by omega), fun _ => ⟨⟨hne, hb⟩, hlk⟩⟩
          · rw [if_neg hlk]
            have hl1 : LockWords g (m.st (lockA g i.toNat) 1) := by
              intro k hk; rw [mem_st]; split
              · exact Or.inr rfl
              · exact hl k hk
            have hP : InBitmap g (m.st (lockA g i.toNat) 1) e main.toNat = InBitmap g m e main.toNat := by
              funext k; unfold InBitmap; rw [bmBit_lockSt h he m (by omega)]
            obtain ⟨j, a1, a2, a3, a4, a5⟩ := ih (i + 1) (m.st (lockA g i.toNat) 1) hl1 (by omega)
            rw [h1] at a1 a2 a4
            rw [hP] at a1 a4 a5
            have hlk2 : ∀ k, k ≠ i.toNat → (m.st (lockA g i.toNat) 1).locked g k = m.locked g k := by
              intro k hk; unfold Machine.locked; rw [mem_st, if_neg (by simpa using hk)]
            refine ⟨j, by rw [a1, lockMany_step _ _ _ (by omega) ⟨hne, hb⟩], by omega, a3, fun k b1 b2 b3 => ?_, fun b => ?_⟩
            · by_cases hk : k = i.toNat
              · subst hk; simpa using hlk
              · rw [← hlk2 k hk]; exact a4 k (by omega) b2 b3
            · rw [← hlk2 j.toNat (by omega)]; exact a5 b
        · rw [if_neg hb]
          have hnp : ¬ InBitmap g m e main.toNat i.toNat := fun hp => hb hp.2
          obtain ⟨j, a1, a2, a3, a4, a5⟩ := ih (i + 1) m hl (by omega)
          rw [h1] at a1 a2 a4
          refine ⟨j, by rw [a1, lockMany_skip _ _ _ hnp], by omega, a3, fun k b1 b2 b3 => ?_, a5⟩
          by_cases hk : k = i.toNat
          · subst hk; exact absurd b3 hnp
          · exact a4 k (by omega) b2 b3

theorem run_deleteUnlockLoop (n : Nat) : ∀ (i : W) (m : Machine), i.toNat + n ≤ g.regions →
    run g c (deleteUnlockLoop g main (enclaveRegionBitmap e) n i) m = some ((), m.lockMany g (InBitmap g m e main.toNat) i.toNat (i.toNat + n) 0) := by
  have hrl := h.regions_le
  induction n with
  | zero => intro i m hi; rw [Nat.add_zero, lockMany_empty]; rfl
  | succ n ih =>
      intro i m hi
      have h1 : (i + 1).toNat = i.toNat + 1 := add_off (by show _ + 1 < _; omega)
      rw [deleteUnlockLoop]
      by_cases hmain : i = main
      · have hnp : ¬ InBitmap g m e main.toNat i.toNat := fun hp => hp.1 (by rw [hmain])
        rw [if_pos hmain, ih (i + 1) m (by omega), h1, lockMany_skip _ _ _ hnp, show i.toNat + 1 + n = i.toNat + (n + 1) by omega]
      · have hne : i.toNat ≠ main.toNat := fun hh => hmain ((W.eq_iff _ _).2 hh)
        rw [if_neg hmain, run_bind, run_readEBit h c he h0 (by omega), Option.bind_some]
        dsimp only
        by_cases hb : m.bmBit g e i.toNat = true
        · have hP : InBitmap g (m.st (lockA g i.toNat) 0) e main.toNat = InBitmap g m e main.toNat := by
            funext k; unfold InBitmap; rw [bmBit_lockSt h he m (by omega)]
          rw [if_pos hb, run_bind, run_clearLock h (by omega), Option.bind_some]
          dsimp only
          rw [ih (i + 1) _ (by omega), h1, hP, show i.toNat + 1 + n = i.toNat + (n + 1) by omega, lockMany_step _ _ _ (by omega) ⟨hne, hb⟩]
        · have hnp : ¬ InBitmap g m e main.toNat i.toNat := fun hp => hb hp.2
          rw [if_neg hb, ih (i + 1) m (by omega), h1, lockMany_skip _ _ _ hnp, show i.toNat + 1 + n = i.toNat + (n + 1) by omega]
end

theorem run_deleteFreeLoop_clear (h : g.WF) (c : Nat) {e : W} (h8 : e.toNat % 8 = 0) (hd : e.toNat + 304 + 8 * (g.regions / 64) + 8 ≤ g.dramSize.toNat)
    {m : Machine} (hb : m.afterBit g e = false) (n : Nat) : ∀ i : W,
    run g c (deleteFreeLoop g g.regionCount (enclaveRegionBitmap e) n i) m = some ((), m) := by
  have hlt := g.dramSize.isLt
  have hrl := h.regions_le
  have hrl' : g.regionCount.toNat = g.regions := rfl
  have hw : (bitWordA (enclaveRegionBitmap e) g.regionCount).toNat = e.toNat + 304 + 8 * (g.regions / 64) := by
    simp only [bitWordA, bitmapOffset, enclaveRegionBitmap, enclaveInfoSize, BitVec.toNat_add, BitVec.toNat_mul, div64_toNat,
      show (8 : W).toNat = 8 from rfl, show (304 : W).toNat = 304 from rfl, hrl']
    omega
  induction n with
  | zero => intro i; rfl
  | succ n ih =>
      intro i
      rw [deleteFreeLoop, run_bind, run_readBitmapBit _ _ _ _ _ (by rw [okAddr_iff, hw]; omega), Option.bind_some]
      dsimp only
      rw [hw, hrl']
      unfold Machine.afterBit at hb
      rw [hb, if_neg Bool.false_ne_true]
      exact ih (i + 1)

theorem run_deleteEnclave_code (h : g.WF) (c : Nat) (e : W) {m : Machine} (hl : LockWords g m) (he : ValidId g m e → RecordOk g e)
    (hd : ValidId g m e → e.toNat + 304 + 8 * (g.regions / 64) + 8 ≤ g.dramSize.toNat) (hb : m.afterBit g e = false) :
    ∃ x, run g c (deleteEnclave g e) m = some (x, m) ∧ (x = monitorOk ↔ DeleteOk g m e) ∧
      (IdReady g m e → m.threads e = 0 → x ≠ monitorOk → x = monitorConcurrentCall) := by
  unfold deleteEnclave
  rcases Classical.em (IdReady g m e) with hr | hr
  · have hre := he hr.1
    have h0 := hr.1.1
    obtain ⟨r1, r2, r3⟩ := hre h0
    have hid := idRegion_lt h e
    have hlk := lockA_lt h hid
    have hrl := h.regions_le
    have hlocks : ∀ i, i < g.regions → lockA g i + 8 ≤ g.monitorTop.toNat := fun i hi => lockA_lt h hi
    rw [run_withLocked_ok h c e _ hr, run_bind, run_loadRec h c hre hr _ (by decide) (by decide), Option.bind_some]
    dsimp only
    by_cases h4 : m.threads e = 0
    · have h4' : m.mem (e.toNat + offThreadCount.toNat) = 0 := h4
      rw [h4', if_neg (by decide)]
      generalize hm0 : m.st (lockA g (idRegion g e)) 1 = m0
      have hl0 : LockWords g m0 := by
        intro i hi; rw [← hm0, mem_st]; split
        · exact Or.inr rfl
        · exact hl i hi
      have hP : InBitmap g m0 e (idRegion g e) = InBitmap g m e (idRegion g e) := by
        funext k; unfold InBitmap; rw [← hm0, bmBit_lockSt h hre m hid]
      have hlk0 : ∀ k, k ≠ idRegion g e → m0.mem (lockA g k) = m.mem (lockA g k) := by
        intro k hk; rw [← hm0, mem_st, if_neg (by simpa using hk)]
      obtain ⟨j, a1, a2, a3, a4, a5⟩ := run_deleteLockLoop h c hre h0 (clampedDramRegionFor g e) g.regionCount.toNat 0 m0 hl0 (by simp; rfl)
      rw [clamped_eq h] at a1 a4 a5
      rw [show (0 : W).toNat = 0 from rfl] at a1 a2 a4
      have hPm : ∀ v, InBitmap g (m0.lockMany g (InBitmap g m0 e (idRegion g e)) 0 j.toNat v) e (idRegion g e) = InBitmap g m0 e (idRegion g e) := by
        intro v; funext k; unfold InBitmap; rw [bmBit_lockMany h hre _ _ _ a3]
      have hz : ∀ i, 0 ≤ i → i < j.toNat → InBitmap g m0 e (idRegion g e) i → m0.mem (lockA g i) = 0 := by
        intro i b1 b2 b3; exact (not_locked _).1 (a4 i b1 b2 b3)
      have hlast : run g c (clearLock g (clampedDramRegionFor g e)) m0 = some ((), m) := by
        rw [run_clearLock h (clamped_lt h e), clamped_eq h, ← hm0, lock_restore _ ((not_locked m).1 hr.2)]
      rw [run_bind, a1, Option.bind_some]
      dsimp only
      by_cases hj : j < g.regionCount
      · have hj' : j.toNat < g.regions := (W.lt_iff _ _).1 hj
        rw [if_pos hj, run_bind, run_deleteUnlockLoop h c hre h0 _ _ _ _ (by show 0 + _ ≤ _; omega), Option.bind_some]
        dsimp only
        rw [clamped_eq h, show (0 : W).toNat = 0 from rfl, Nat.zero_add, hPm, lockMany_restore _ _ _ _ hz, run_bind, hlast, Option.bind_some, run_pure]
        refine ⟨_, rfl, iff_of_false (by decide) (fun hh => ?_), fun _ _ _ => rfl⟩
        obtain ⟨b1, b2⟩ := a5 hj'
        rw [hP] at b1
        have := hh.2.2 j.toNat hj' b1.1 b1.2
        have h5 := (not_locked m).1 this
        rw [← hlk0 _ b1.1] at h5
        rw [(not_locked m0).2 h5] at b2; cases b2
      · have hj' : j.toNat = g.regions := by
          have : ¬ j.toNat < g.regions := fun hh => hj ((W.lt_iff _ _).2 hh)
          omega
        have hjr : j = g.regionCount := (W.eq_iff _ _).2 hj'
        have hab : (m0.lockMany g (InBitmap g m0 e (idRegion g e)) 0 j.toNat 1).afterBit g e = false := by
          rw [← hb]
          unfold Machine.afterBit
          rw [lockMany_mem_ne _ _ _ _ _ (fun i b1 b2 b3 => by have := hlocks i (by omega); omega), ← hm0, mem_st, if_neg (by omega)]
        rw [if_neg hj, run_bind, hjr, run_deleteFreeLoop_clear h c r1 (hd hr.1) (by rw [← hjr]; exact hab), Option.bind_some, ← hjr]
        dsimp only
        rw [run_bind, run_deleteUnlockLoop h c hre h0 _ _ _ _ (by show 0 + _ ≤ _; rw [Nat.zero_add]; exact a3), Option.bind_some]
        dsimp only
        rw [clamped_eq h, show (0 : W).toNat = 0 from rfl, Nat.zero_add, hPm,
          lockMany_restore _ _ _ _ hz, run_bind, hlast, Option.bind_some, run_pure]
        refine ⟨_, rfl, iff_of_true rfl ⟨hr, h4, fun i b1 b2 b3 => ?_⟩, fun _ _ hx => absurd rfl hx⟩
        have h5 := hz i (by omega) (by omega) (by rw [hP]; exact ⟨b2, b3⟩)
        rw [hlk0 i b2] at h5
        exact (not_locked m).2 h5
    · have h4' : (m.mem (e.toNat + offThreadCount.toNat) != 0) = true := bne_iff_ne.2 h4
      rw [if_pos h4', run_finish h c hr]
      exact ⟨_, rfl, iff_of_false (by decide) (fun hh => h4 hh.2.1), fun _ hx => absurd hx h4⟩
  · obtain ⟨x, h4, h5⟩ := run_withLocked_err h c e hl (fun r => _) hr
    rw [h4]
    exact ⟨x, rfl, iff_of_false h5 (fun hh => hr hh.1), fun hx => absurd hx hr⟩

theorem run_deleteEnclave (h : g.WF) (c : Nat) (e : W) {m : Machine} (hl : LockWords g m) (he : ValidId g m e → RecordOk g e)
    (hd : ValidId g m e → e.toNat + 304 + 8 * (g.regions / 64) + 8 ≤ g.dramSize.toNat) (hb : m.afterBit g e = false) :
    ∃ x, run g c (deleteEnclave g e) m = some (x, m) ∧ (x = monitorOk ↔ DeleteOk g m e) := by
  obtain ⟨x, h1, h2, -⟩ := run_deleteEnclave_code h c e hl he hd hb
  exact ⟨x, h1, h2⟩

/-! ### create_thread, delete_thread, exit_enclave -/

theorem dram_mod (h : g.WF) : g.dramSize.toNat % 4096 = 0 := by
  rw [h.dramSize, show (4096 : Nat) = 2 ^ 12 from rfl]
  exact Nat.mod_eq_zero_of_dvd (Nat.pow_dvd_pow 2 (by have := h.fits; omega))

/-- The word and bit that `create_thread` reads for address `p` when `e` is running. -/
def threadBit (g : Cfg) (m : Machine) (e : W) (p : Nat) : Bool :=
  (m.mem (e.toNat + 304 + 8 * (regionOf g p / 64))).getLsbD (regionOf g p % 64)

theorem run_createThread_code (h : g.WF) {c : Nat} (hc : c < g.cores) (t p : W) {m : Machine} (hl : LockWords g m) (he : RecordOk g (m.running c)) :
    run g c (createThread g t p) m = some (createThreadCode g c m p,
      if createThreadCode g c m p = monitorOk then m.st (lockA g (regionOf g (m.running c).toNat)) 1 else m) := by
  unfold createThread createThreadCode
  have hdm := dram_mod h
  have hlt := g.dramSize.isLt
  by_cases h1 : isPageAligned p = true
  · by_cases h2 : isDramAddress g p = true
    · have hdp := (dramPage_iff p).2 ⟨h1, h2⟩
      have hd1 := hdp.1
      have hd2 := hdp.2
      have h3 : isDramAddress g (p + threadInfoSize - 1) = true := by
        have : (p + threadInfoSize - 1).toNat = p.toNat + 551 := by
          rw [BitVec.toNat_sub, BitVec.toNat_add, show threadInfoSize.toNat = 552 from rfl, show (1 : W).toNat = 1 from rfl]; omega
        rw [isDramAddress_iff, this]; omega
      have hr := dramRegionFor_lt h (m.running c)
      have hrr := regionOf_lt h (m.running c).toNat
      rw [h1, h2, h3, if_neg (by decide), if_neg (by decide), if_neg (by decide), run_bind, run_currentEnclave h hc, Option.bind_some]
      dsimp only
      rw [run_bind, run_tasLock h hr, Option.bind_some, dramRegionFor_toNat h]
      dsimp only
      by_cases hlk : m.locked g (regionOf g (m.running c).toNat) = true
      · rw [if_pos hlk, run_pure, st_locked hl hrr hlk]
        simp only [if_neg (not_not_intro hdp), if_pos hlk]
        rw [if_neg (show ¬ monitorConcurrentCall = monitorOk by decide)]
      · simp only [if_neg (not_not_intro hdp), if_neg hlk]
        rw [Bool.not_eq_true] at hlk
        have hz := (not_locked m).1 hlk
        have hpr := regionOf_lt h p.toNat
        have hwl :  regionOf g p.toNat / 64 < g.bitmapWords.toNat := by rw [h.words]; omega
        have hb : (m.running c).toNat % 8 = 0 ∧ (m.running c).toNat + 304 + 8 * g.bitmapWords.toNat ≤ g.dramSize.toNat := by
          by_cases h0 : m.running c = 0
          · have hsz := h.dram_ge
            have hsz2 := h.stripe_ge
            obtain ⟨l1, l2, l3, l4, l5, l6, l7, l8, l9, l10, l11, l12⟩ := h.layout
            have hal := h.arrays_le
            have htl := h.top_le
            rw [h0]
            refine ⟨rfl, ?_⟩
            show 0 + 304 + _ ≤ _
            omega
          · obtain ⟨r1, r2, r3⟩ := he h0; exact ⟨r1, r3⟩
        have hw : (bitWordA (enclaveRegionBitmap (m.running c)) (dramRegionFor g p)).toNat =
            (m.running c).toNat + 304 + 8 * (regionOf g p.toNat / 64) := by
          simp only [bitWordA, bitmapOffset, enclaveRegionBitmap, enclaveInfoSize, BitVec.toNat_add, BitVec.toNat_mul, div64_toNat,
            show (8 : W).toNat = 8 from rfl, show (304 : W).toNat = 304 from rfl, dramRegionFor_toNat h]
          omega
        rw [run_bind, run_readBitmapBit _ _ _ _ _ (by rw [okAddr_iff, hw]; omega), Option.bind_some]
        dsimp only
        rw [hw, dramRegionFor_toNat h]
        by_cases hbit : threadBit g (m.st (lockA g (regionOf g (m.running c).toNat)) 1) (m.running c) p.toNat = true
        · unfold threadBit at hbit
          simp only [hbit]
          rw [if_pos trivial, threadPagesLoop_ok h h1 h2]
          rfl
        · unfold threadBit at hbit
          have hbit' := Bool.eq_false_iff.2 hbit
          simp only [if_neg hbit, if_pos hbit']
          rw [if_neg (show ¬ monitorInvalidState = monitorOk by decide), run_bind, run_clearLock h hr, Option.bind_some, dramRegionFor_toNat h, run_pure, lock_restore _ hz]
    · rw [Bool.not_eq_true] at h2
      have hnd : ¬ DramPage g p := fun hd => by
        have := (isDramAddress_iff p).2 hd.2
        rw [h2] at this; exact absurd this (by decide)
      simp only [if_pos hnd]
      rw [h1, h2, if_neg (by decide), if_pos (by decide), run_pure, if_neg (show ¬ monitorInvalidValue = monitorOk by decide)]
  · rw [Bool.not_eq_true] at h1
    have hnd : ¬ DramPage g p := fun hd => by
      have := (isPageAligned_iff p).2 hd.1
      rw [h1] at this; exact absurd this (by decide)
    simp only [if_pos hnd]
    rw [h1, if_pos (by decide), run_pure, if_neg (show ¬ monitorInvalidValue = monitorOk by decide)]

theorem createThreadCode_ok {c : Nat} {m : Machine} {p : W} (hx : createThreadCode g c m p = monitorOk) :
    DramPage g p ∧ m.locked g (regionOf g (m.running c).toNat) = false ∧
      threadBit g (m.st (lockA g (regionOf g (m.running c).toNat)) 1) (m.running c) p.toNat = true := by
  unfold createThreadCode at hx
  split at hx
  · exact absurd hx (by decide)
  · rename_i h1
    split at hx
    · exact absurd hx (by decide)
    · rename_i h2
      split at hx
      · exact absurd hx (by decide)
      · rename_i h3
        exact ⟨Classical.not_not.1 h1, Bool.eq_false_iff.2 h2, Bool.not_eq_false _ ▸ h3⟩

theorem run_createThread (h : g.WF) {c : Nat} (hc : c < g.cores) (t p : W) {m : Machine} (hl : LockWords g m) (he : RecordOk g (m.running c)) :
    (∃ x, run g c (createThread g t p) m = some (x, m) ∧ x ≠ monitorOk) ∨
    (run g c (createThread g t p) m = some (monitorOk, m.st (lockA g (regionOf g (m.running c).toNat)) 1) ∧
      DramPage g p ∧ m.locked g (regionOf g (m.running c).toNat) = false ∧
      threadBit g (m.st (lockA g (regionOf g (m.running c).toNat)) 1) (m.running c) p.toNat = true) := by
  have h1 := run_createThread_code h hc t p hl he
  by_cases hx : createThreadCode g c m p = monitorOk
  · rw [if_pos hx, hx] at h1
    exact Or.inr ⟨h1, createThreadCode_ok hx⟩
  · rw [if_neg hx] at h1
    exact Or.inl ⟨_, h1, hx⟩

theorem run_deleteThread (h : g.WF) {c : Nat} (hc : c < g.cores) (t : W) {m : Machine} (hl : LockWords g m) :
    run g c (deleteThread g t) m = some (if m.locked g (regionOf g (m.running c).toNat) then monitorConcurrentCall else monitorOk,
      m.st (lockA g (regionOf g (m.running c).toNat)) 1) := by
  unfold deleteThread
  rw [run_bind, run_currentEnclave h hc, Option.bind_some]
  dsimp only
  rw [run_bind, run_tasLock h (dramRegionFor_lt h _), Option.bind_some, dramRegionFor_toNat h]
  dsimp only
  cases hlk : m.locked g (regionOf g (m.running c).toNat)
  · rw [if_neg Bool.false_ne_true, if_neg Bool.false_ne_true, run_pure]
  · rw [if_pos rfl, if_pos rfl, run_pure]

theorem run_exitEnclave (h : g.WF) {c : Nat} (hc : c < g.cores) (m : Machine) : run g c (exitEnclave g) m = some (monitorOk, m) := by
  unfold exitEnclave
  rw [run_bind, run_act, exec, Option.bind_some]
  dsimp only
  rw [run_bind, run_load _ _ _ _ (core_ok h hc _ (by decide) (by decide)), Option.bind_some]
  dsimp only
  rw [run_bind, run_load _ _ _ _ (core_ok h hc _ (by decide) (by decide)), Option.bind_some]
  dsimp only
  rw [run_bind, run_load _ _ _ _ (core_ok h hc _ (by decide) (by decide)), Option.bind_some, run_pure]

end Sanctum
