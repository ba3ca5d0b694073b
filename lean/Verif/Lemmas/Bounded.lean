import Verif.Lemmas.Wipe
import Verif.Lemmas.EnclaveCalls
import Verif.Lemmas.RegionCalls3
import Verif.Spec.Conc
/-
Every call makes at most `stepBound g` actions, whatever responses it gets.
-/
namespace Sanctum

variable {g : Cfg} {α β : Type}

/-- The program makes at most `n` actions, whatever the responses, and then returns. -/
def Bnd : Nat → Prog α → Prop
  | _, .ret _ => True
  | 0, .op _ _ => False
  | n + 1, .op _ k => ∀ v, Bnd n (k v)
  | _, .fault => False
  | _, .diverge => False

theorem Bnd.pure {n : Nat} (a : α) : Bnd n (pure a : Prog α) := by cases n <;> exact trivial

theorem Bnd.mono {n n' : Nat} {p : Prog α} (h : Bnd n p) (hn : n ≤ n') : Bnd n' p := by
  induction p generalizing n n' with
  | ret a => exact Bnd.pure a
  | op o k ih =>
      cases n with
      | zero => cases n' <;> exact False.elim h
      | succ n =>
          cases n' with
          | zero => omega
          | succ n' => exact fun v => ih v (h v) (by omega)
  | fault => cases n <;> exact False.elim h
  | diverge => cases n <;> exact False.elim h

theorem Bnd.bind {n1 n : Nat} {p : Prog α} {f : α → Prog β} (hp : Bnd n1 p) (hn : n1 ≤ n) (hf : ∀ a, Bnd (n - n1) (f a)) : Bnd n (p >>= f) := by
  show Bnd n (p.bind f)
  induction p generalizing n n1 with
  | ret a => exact (hf a).mono (by omega)
  | op o k ih =>
      cases n1 with
      | zero => exact False.elim hp
      | succ n1 =>
          cases n with
          | zero => omega
          | succ n => exact fun v => ih v (hp v) (by omega) (fun a => (hf a).mono (by omega))
  | fault => cases n1 <;> exact False.elim hp
  | diverge => cases n1 <;> exact False.elim hp

theorem Bnd.ite {n : Nat} {b : Prop} [Decidable b] {p q : Prog α} (hp : b → Bnd n p) (hq : ¬ b → Bnd n q) : Bnd n (if b then p else q) := by
  split
  · exact hp ‹_›
  · exact hq ‹_›

theorem bnd_load (a : W) : Bnd 1 (load a) := fun _ => trivial
theorem bnd_store (a v : W) : Bnd 1 (store a v) := fun _ => trivial
theorem bnd_load32 (a : W) : Bnd 1 (load32 a) := fun _ => trivial
theorem bnd_store32 (a : W) (v : W32) : Bnd 1 (store32 a v) := fun _ => trivial
theorem bnd_act (o : Op) : Bnd 1 (act o) := fun _ => trivial
theorem bnd_act_ (o : Op) : Bnd 1 (act_ o) := fun _ => trivial
theorem bnd_tas (a : W) : Bnd 1 (tas a) := fun _ => trivial
theorem bnd_tasLock (r : W) : Bnd 1 (tasLock g r) := fun _ => trivial
theorem bnd_clearLock (r : W) : Bnd 1 (clearLock g r) := fun _ => trivial
theorem bnd_readOwner (r : W) : Bnd 1 (readOwner g r) := fun _ => trivial
theorem bnd_currentEnclave : Bnd 2 (currentEnclave g) := fun _ _ => trivial
theorem bnd_readBitmapBit (a b : W) : Bnd 1 (readBitmapBit a b) := fun _ => trivial
theorem bnd_unlockEnclave (e : W) : Bnd 1 (unlockEnclave e) := fun _ => trivial
theorem bnd_isValidEnclaveId (e : W) : Bnd 1 (isValidEnclaveId g e) := fun _ => trivial
theorem bnd_isEnclaveVirtualAddress (v e : W) : Bnd 2 (isEnclaveVirtualAddress v e) := fun _ _ => trivial
theorem bnd_readEnclaveBit (e r : W) : Bnd 1 (readEnclaveRegionBitmapBit g e r) := by
  unfold readEnclaveRegionBitmapBit; exact .ite (fun _ => bnd_readBitmapBit _ _) (fun _ => bnd_readBitmapBit _ _)
theorem bnd_setBitmapBit (a b : W) (v : Bool) : Bnd 2 (setBitmapBit a b v) := by
  intro x
  show Bnd 1 (if v = true then store _ _ else store _ _)
  exact .ite (fun _ => bnd_store _ _) (fun _ => bnd_store _ _)
theorem bnd_setEnclaveBit (e r : W) (v : Bool) : Bnd 2 (setEnclaveRegionBitmapBit g e r v) := by
  unfold setEnclaveRegionBitmapBit; exact .ite (fun _ => bnd_setBitmapBit _ _ _) (fun _ => bnd_setBitmapBit _ _ _)

theorem bnd_snapshotLoop (n : Nat) : ∀ p, Bnd n (snapshotLoop n p) := by
  induction n with
  | zero => intro p; exact .pure _
  | succ n ih => intro p; exact .bind (bnd_load _) (by omega) (fun _ => .bind (ih _) (by omega) (fun _ => .pure _))
theorem bnd_setDrbMap (a : W) : Bnd (g.bitmapWords.toNat + 1) (setDrbMap g a) := .bind (bnd_snapshotLoop _ _) (by omega) (fun _ => (bnd_act_ _).mono (by omega))
theorem bnd_setEdrbMap (a : W) : Bnd (g.bitmapWords.toNat + 1) (setEdrbMap g a) := .bind (bnd_snapshotLoop _ _) (by omega) (fun _ => (bnd_act_ _).mono (by omega))
theorem bnd_dmaTest (o1 o2 : Op) (p q : W → Bool) : Bnd 2 (dmaTest o1 p o2 q) := by
  unfold dmaTest
  exact .bind (bnd_act _) (by omega) (fun _ => .ite (fun _ => .bind (bnd_act _) (by omega) (fun _ => .pure _)) (fun _ => .pure _))
theorem bnd_dmaRangeCrossed (r : W) : Bnd 8 (dmaRangeCrossed g r) := by
  unfold dmaRangeCrossed
  exact .bind (bnd_dmaTest _ _ _ _) (by omega) (fun _ => .bind (bnd_dmaTest _ _ _ _) (by omega) (fun _ => .bind (bnd_dmaTest _ _ _ _) (by omega) (fun _ =>
    .bind (bnd_dmaTest _ _ _ _) (by omega) (fun _ => .pure _))))
theorem bnd_flush : Bnd 4 (flushCachedDramRegions g) := fun _ _ _ _ => trivial

/-- Bounds of the primitives. -/
macro "bnd1" : tactic => `(tactic| first
  | exact bnd_load _ | exact bnd_store _ _ | exact bnd_act _ | exact bnd_act_ _ | exact bnd_tas _ | exact bnd_tasLock _ | exact bnd_clearLock _
  | exact bnd_readOwner _ | exact bnd_currentEnclave | exact bnd_readBitmapBit _ _ | exact bnd_unlockEnclave _ | exact bnd_isValidEnclaveId _
  | exact bnd_isEnclaveVirtualAddress _ _ | exact bnd_readEnclaveBit _ _ | exact bnd_setEnclaveBit _ _ _ | exact bnd_load32 _ | exact bnd_store32 _ _
  | exact Bnd.ite (fun _ => bnd_load _) (fun _ => Bnd.pure _) | exact Bnd.ite (fun _ => Bnd.pure _) (fun _ => bnd_load _)
  | exact Bnd.ite (fun _ => bnd_act_ _) (fun _ => bnd_act_ _) | exact Bnd.ite (fun _ => bnd_act_ _) (fun _ => Bnd.pure _)
  | exact Bnd.ite (fun _ => Bnd.pure _) (fun _ => bnd_isValidEnclaveId _)
  | exact Bnd.ite (fun _ => bnd_tasLock _) (fun _ => Bnd.pure _) | exact Bnd.ite (fun _ => bnd_clearLock _) (fun _ => Bnd.pure _)
  | exact Bnd.ite (fun _ => bnd_isEnclaveVirtualAddress _ _) (fun _ => Bnd.pure _))

/-- Works through straight-line code. -/
macro "bnd" : tactic => `(tactic| repeat' first
  | exact Bnd.pure _
  | (refine Bnd.ite (fun _ => ?_) (fun _ => ?_))
  | (refine Bnd.bind (by bnd1) (show _ ≤ _ by omega) (fun _ => ?_))
  | dsimp only)

/-! ### Loops -/

theorem bnd_bzeroWords (n : Nat) : ∀ a, Bnd n (bzeroWords a n) := by
  induction n with
  | zero => exact fun a => trivial
  | succ n ih => exact fun a _ => ih _

theorem bnd_bzero (a b : W) : Bnd (b.toNat / 8) (bzero a b) := bnd_bzeroWords _ _

theorem bnd_copyWords (n : Nat) : ∀ a b, Bnd (2 * n) (copyWords n a b) := by
  induction n with
  | zero => exact fun a b => trivial
  | succ n ih => exact fun a b _ _ => ih _ _

theorem bnd_coresFlushed (t : W) (n : Nat) : ∀ i, Bnd n (coresFlushedLoop g t n i) := by
  induction n with
  | zero => exact fun i => trivial
  | succ n ih =>
      intro i v
      show Bnd n (if v < t then pure false else coresFlushedLoop g t n (i + 1))
      exact .ite (fun _ => .pure _) (fun _ => ih _)

theorem bnd_pagesEmpty (n : Nat) : ∀ p, Bnd n (pagesEmptyLoop n p) := by
  induction n with
  | zero => exact fun p => trivial
  | succ n ih =>
      intro p v
      show Bnd n (if v != 0 then pure false else pagesEmptyLoop n (p + 8))
      exact .ite (fun _ => .pure _) (fun _ => ih _)

theorem bnd_innerPages (n : Nat) : ∀ p, Bnd n (innerPagesLoop n p) := by
  induction n with
  | zero => exact fun p => trivial
  | succ n ih => exact fun p _ => ih _

theorem bnd_deleteLock (main bm : W) (n : Nat) : ∀ i, Bnd (2 * n) (deleteLockLoop g main bm n i) := by
  induction n with
  | zero => exact fun i => trivial
  | succ n ih =>
      intro i
      unfold deleteLockLoop
      refine .ite (fun _ => (ih _).mono (by omega)) (fun _ => ?_)
      refine .bind (bnd_readBitmapBit _ _) (by omega) (fun _ => ?_)
      refine .ite (fun _ => ?_) (fun _ => (ih _).mono (by omega))
      refine .bind (bnd_tasLock _) (by omega) (fun _ => ?_)
      exact .ite (fun _ => .pure _) (fun _ => (ih _).mono (by omega))

theorem bnd_deleteUnlock (main bm : W) (n : Nat) : ∀ i, Bnd (2 * n) (deleteUnlockLoop g main bm n i) := by
  induction n with
  | zero => exact fun i => trivial
  | succ n ih =>
      intro i
      unfold deleteUnlockLoop
      refine .ite (fun _ => (ih _).mono (by omega)) (fun _ => ?_)
      refine .bind (bnd_readBitmapBit _ _) (by omega) (fun _ => ?_)
      refine .ite (fun _ => ?_) (fun _ => (ih _).mono (by omega))
      exact .bind (bnd_clearLock _) (by omega) (fun _ => (ih _).mono (by omega))

theorem bnd_bzeroRegionLoop (h : g.WF) (st : W) : ∀ (fuel j : Nat) (s : W),
    s.toNat + j * (g.regions * g.stripeSize.toNat) = g.dramSize.toNat → g.dramSize.toNat < s.toNat + fuel * (g.regions * g.stripeSize.toNat) →
    Bnd (j * (g.stripeSize.toNat / 8)) (bzeroRegionLoop g (g.regionCount <<< g.regionShift.toNat) st fuel s) := by
  have hdl := h.dram_le
  have hall := h.all_regions_le
  have hstep : (g.regionCount <<< g.regionShift.toNat).toNat = g.regions * g.stripeSize.toNat := by
    have := dramRegionStart_toNat h g.regionCount (Nat.le_refl _)
    exact this
  intro fuel
  induction fuel with
  | zero => intro j s h1 h2; omega
  | succ fuel ih =>
      intro j s h1 h2
      rw [bzeroRegionLoop]
      refine .ite (fun hlt => ?_) (fun _ => .pure _)
      rw [W.lt_iff] at hlt
      cases j with
      | zero => omega
      | succ j =>
          rw [Nat.succ_mul] at h1 h2
          have hs2 : (s + g.regionCount <<< g.regionShift.toNat).toNat = s.toNat + g.regions * g.stripeSize.toNat := by
            rw [BitVec.toNat_add, hstep]; omega
          refine .bind (bnd_bzero _ _) (by rw [Nat.succ_mul]; omega) (fun _ => ?_)
          refine (ih j _ ?_ ?_).mono (by rw [Nat.succ_mul]; omega)
          · rw [hs2]; omega
          · rw [hs2]; omega

theorem bnd_bzeroDramRegion (h : g.WF) (r : W) : Bnd (g.dramSize.toNat / 8) (bzeroDramRegion g r) := by
  have hdl := h.dram_le
  have hpos : 1 ≤ g.regions * g.stripeSize.toNat := Nat.mul_pos (by have := h.regions_ge; omega) (by have := h.stripe_ge; omega)
  have hrs : g.regions * g.stripeSize.toNat = 2 ^ (12 + g.sp + g.rb) := by
    rw [h.regions_eq, h.stripeSize, ← Nat.pow_add, Nat.add_comm]
  obtain ⟨q, hq⟩ : g.regions * g.stripeSize.toNat ∣ g.dramSize.toNat := by
    rw [hrs, h.dramSize]; exact Nat.pow_dvd_pow 2 h.fits
  refine (bnd_bzeroRegionLoop h (r <<< g.regionShift.toNat) (2 ^ 64) q 0 ?_ ?_).mono ?_
  · rw [hq, Nat.mul_comm q]; simp
  · have := Nat.mul_le_mul_left (2 ^ 64) hpos
    simp only [show (0 : W).toNat = 0 from rfl]
    omega
  · have hR : 1 ≤ g.regions := by have := h.regions_ge; omega
    have h8 : 8 * (g.stripeSize.toNat / 8) ≤ g.stripeSize.toNat := Nat.mul_div_le _ _
    have h1 : g.stripeSize.toNat ≤ g.regions * g.stripeSize.toNat := Nat.le_mul_of_pos_left _ hR
    have h2 := Nat.mul_le_mul_left q (Nat.le_trans h8 h1)
    rw [Nat.le_div_iff_mul_le (by omega), hq, Nat.mul_comm (g.regions * _) q]
    calc q * (g.stripeSize.toNat / 8) * 8 = q * (8 * (g.stripeSize.toNat / 8)) := by rw [Nat.mul_assoc, Nat.mul_comm _ 8]
      _ ≤ _ := h2

theorem bnd_deleteFree (h : g.WF) (it bm : W) (n : Nat) : ∀ i, Bnd (n * (g.dramSize.toNat / 8 + 3)) (deleteFreeLoop g it bm n i) := by
  induction n with
  | zero => exact fun i => by rw [Nat.zero_mul]; exact trivial
  | succ n ih =>
      intro i
      unfold deleteFreeLoop
      rw [Nat.succ_mul]
      refine .bind (bnd_readBitmapBit _ _) (by omega) (fun _ => ?_)
      refine .ite (fun _ => ?_) (fun _ => (ih _).mono (by omega))
      refine .bind (bnd_store _ _) (by omega) (fun _ => ?_)
      refine .bind (bnd_store _ _) (by omega) (fun _ => ?_)
      exact .bind (bnd_bzeroDramRegion h _) (by omega) (fun _ => (ih _).mono (by omega))

theorem bnd_dmaLoop (h : g.WF) (e : W) (he : e.toNat ≤ g.dramSize.toNat) : ∀ (fuel j : Nat) (a : W) (owns : Bool),
    e.toNat ≤ a.toNat + j * g.stripeSize.toNat → j < fuel → Bnd (3 * j) (dmaRangeLoop g e fuel a owns) := by
  have hdl := h.dram_le
  have hsl := h.stripe_le
  intro fuel
  induction fuel with
  | zero => intro j a owns h1 h2; omega
  | succ fuel ih =>
      intro j a owns h1 h2
      unfold dmaRangeLoop
      refine .ite (fun hlt => ?_) (fun _ => .pure _)
      rw [W.lt_iff] at hlt
      cases j with
      | zero => omega
      | succ j =>
          rw [Nat.succ_mul] at h1
          have hs2 : (a + g.stripeSize).toNat = a.toNat + g.stripeSize.toNat := by
            rw [BitVec.toNat_add, Nat.mod_eq_of_lt]; omega
          have hrec : ∀ o, Bnd (3 * j) (dmaRangeLoop g e fuel (a + g.stripeSize) o) := fun o => ih j _ o (by rw [hs2]; omega) (by omega)
          refine .bind (n1 := 1) (.ite (fun _ => bnd_tasLock _) (fun _ => .pure _)) (by omega) (fun _ => ?_)
          refine .ite (fun _ => ?_) (fun _ => ?_)
          · exact .bind (bnd_clearLock _) (by omega) (fun _ => .pure _)
          · refine .bind (bnd_readOwner _) (by omega) (fun _ => ?_)
            exact .bind (n1 := 1) (.ite (fun _ => bnd_clearLock _) (fun _ => .pure _)) (by omega) (fun _ => (hrec _).mono (by omega))

/-! ### The hash -/

theorem bnd_hashSchedule (w b : W) (i : Nat) : Bnd 6 (hashSchedule w b i) := by
  unfold hashSchedule
  refine .ite (fun _ => ?_) (fun _ => ?_)
  · exact fun _ _ _ => trivial
  · exact fun _ _ _ _ _ _ => trivial

theorem bnd_hashRounds (w b : W) (n : Nat) : ∀ i s, Bnd (6 * n) (hashRounds w b n i s) := by
  induction n with
  | zero => exact fun i s => trivial
  | succ n ih =>
      intro i s
      exact .bind (bnd_hashSchedule w b i) (by omega) (fun _ => (ih _ _).mono (by omega))

theorem bnd_hashAdd (a : W) (i : Nat) (x : W32) : Bnd 2 (hashAdd a i x) := fun _ _ => trivial

theorem bnd_extendHash (s b : W) : Bnd 410 (extendHash s b) := by
  unfold extendHash
  refine .bind (bnd_load32 _) (by omega) (fun _ => .bind (bnd_load32 _) (by omega) (fun _ => .bind (bnd_load32 _) (by omega) (fun _ =>
    .bind (bnd_load32 _) (by omega) (fun _ => .bind (bnd_load32 _) (by omega) (fun _ => .bind (bnd_load32 _) (by omega) (fun _ =>
    .bind (bnd_load32 _) (by omega) (fun _ => .bind (bnd_load32 _) (by omega) (fun _ => ?_))))))))
  refine .bind (bnd_hashRounds _ _ 64 _ _) (by omega) (fun _ => ?_)
  refine .bind (bnd_hashAdd _ _ _) (by omega) (fun _ => .bind (bnd_hashAdd _ _ _) (by omega) (fun _ => .bind (bnd_hashAdd _ _ _) (by omega) (fun _ =>
    .bind (bnd_hashAdd _ _ _) (by omega) (fun _ => .bind (bnd_hashAdd _ _ _) (by omega) (fun _ => .bind (bnd_hashAdd _ _ _) (by omega) (fun _ =>
    .bind (bnd_hashAdd _ _ _) (by omega) (fun _ => .bind (bnd_hashAdd _ _ _) (by omega) (fun _ => ?_))))))))
  exact .bind (bnd_load32 _) (by omega) (fun _ => (bnd_store32 _ _).mono (by omega))

attribute [irreducible] Bnd

end Sanctum
