import Verif.Lemmas.Bitmap
import Verif.Lemmas.Boot
/-
Closed forms of the loops that write memory.
-/
namespace Sanctum
open Machine

/-- Zeroes the aligned words with addresses in `[s, e)`. -/
def Machine.zero (m : Machine) (s e : Nat) : Machine :=
  { m with mem := fun a => if s ≤ a ∧ a < e ∧ a % 8 = 0 then 0 else m.mem a }

theorem zero_mem (m : Machine) (s e a : Nat) : (m.zero s e).mem a = if s ≤ a ∧ a < e ∧ a % 8 = 0 then 0 else m.mem a := rfl

theorem zero_empty (m : Machine) (s : Nat) : m.zero s s = m := by
  unfold Machine.zero
  have : (fun a => if s ≤ a ∧ a < s ∧ a % 8 = 0 then 0 else m.mem a) = m.mem := by
    funext a; rw [if_neg]; omega
  rw [this]

theorem st_zero (m : Machine) (s e : Nat) (hs : s % 8 = 0) (he : s + 8 ≤ e) : (m.st s 0).zero (s + 8) e = m.zero s e := by
  simp only [Machine.zero, Machine.st, upd]
  congr 1
  funext a
  by_cases h1 : a = s
  · subst h1
    rw [if_neg (by omega), if_pos rfl, if_pos (by omega)]
  · rw [if_neg h1]
    by_cases h2 : s ≤ a ∧ a < e ∧ a % 8 = 0
    · rw [if_pos h2, if_pos (by omega)]
    · rw [if_neg h2, if_neg (by omega)]

theorem zero_zero (m : Machine) (s t e : Nat) (h1 : s ≤ t) (h2 : t ≤ e) : (m.zero s t).zero t e = m.zero s e := by
  simp only [Machine.zero]
  congr 1
  funext a
  by_cases h3 : t ≤ a ∧ a < e ∧ a % 8 = 0
  · rw [if_pos h3, if_pos (by omega)]
  · rw [if_neg h3]
    by_cases h4 : s ≤ a ∧ a < t ∧ a % 8 = 0
    · rw [if_pos h4, if_pos (by omega)]
    · rw [if_neg h4, if_neg (by omega)]

/-- `run_bzeroWords` without a bound on DRAM. -/
theorem run_bzeroWords' (g : Cfg) (c n : Nat) : ∀ (s : W) (m : Machine), s.toNat % 8 = 0 → s.toNat + 8 * n ≤ g.dramSize.toNat →
    run g c (bzeroWords s n) m = some ((), m.zero s.toNat (s.toNat + 8 * n)) := by
  have hlt := g.dramSize.isLt
  induction n with
  | zero => intro s m _ _; rw [bzeroWords]; simp [zero_empty]
  | succ n ih =>
      intro s m h1 h2
      have hs : (s + 8).toNat = s.toNat + 8 := by
        rw [BitVec.toNat_add, show (8 : W).toNat = 8 from rfl]; omega
      rw [bzeroWords, run_bind, run_store _ _ _ _ _ ((okAddr_iff s).2 (by omega)), Option.bind_some, ih _ _ (by omega) (by omega), hs,
        show s.toNat + 8 + 8 * n = s.toNat + 8 * (n + 1) by omega, st_zero _ _ _ h1 (by omega)]

theorem run_bzeroWords (g : Cfg) (c n : Nat) : ∀ (s : W) (m : Machine), s.toNat % 8 = 0 → s.toNat + 8 * n ≤ g.dramSize.toNat →
    g.dramSize.toNat ≤ 9223372036854775808 →
    run g c (bzeroWords s n) m = some ((), m.zero s.toNat (s.toNat + 8 * n)) := by
  induction n with
  | zero => intro s m _ _ _; rw [bzeroWords]; simp [zero_empty]
  | succ n ih =>
      intro s m h1 h2 h3
      have hs : (s + 8).toNat = s.toNat + 8 := by
        rw [BitVec.toNat_add, show (8 : W).toNat = 8 from rfl]; omega
      rw [bzeroWords, run_bind, run_store _ _ _ _ _ ((okAddr_iff s).2 (by omega)), Option.bind_some, ih _ _ (by omega) (by omega) h3, hs,
        show s.toNat + 8 + 8 * n = s.toNat + 8 * (n + 1) by omega, st_zero _ _ _ h1 (by omega)]

theorem run_bzero (g : Cfg) (c : Nat) (s bytes : W) (m : Machine) (h1 : s.toNat % 8 = 0) (h2 : bytes.toNat % 8 = 0)
    (h3 : s.toNat + bytes.toNat ≤ g.dramSize.toNat) (h4 : g.dramSize.toNat ≤ 9223372036854775808) :
    run g c (bzero s bytes) m = some ((), m.zero s.toNat (s.toNat + bytes.toNat)) := by
  rw [bzero, run_bzeroWords g c _ s m h1 (by omega) h4, show 8 * (bytes.toNat / 8) = bytes.toNat by omega]

/-! ### Boot loops -/

theorem run_bootRegionLoop {g : Cfg} (h : g.WF) (n : Nat) : ∀ (i : W) (m : Machine), i.toNat + n ≤ g.regions →
    run g 0 (bootRegionLoop g n i) m =
      some ((), m.zero (g.regionBase.toNat + 40 * i.toNat) (g.regionBase.toNat + 40 * (i.toNat + n))) := by
  induction n with
  | zero => intro i m _; rw [bootRegionLoop]; simp [zero_empty]
  | succ n ih =>
      intro i m hi
      have hlt : i.toNat < g.regions := by omega
      have hb : g.regionBase.toNat % 8 = 0 := by rw [h.regionBase]; omega
      have hi1 : (i + 1).toNat = i.toNat + 1 := by
        have := h.regions_le
        rw [BitVec.toNat_add, show (1 : W).toNat = 1 from rfl]; omega
      rw [bootRegionLoop]
      simp only [run_bind, run_store _ _ _ _ _ (field_ok h hlt offLock (by decide) (by decide)),
        run_storeOwner h hlt, run_storePrev h hlt, run_storePinned h hlt, run_storeBlocked h hlt, Option.bind_some, lockA_toNat h hlt]
      rw [ih _ _ (by omega), hi1]
      congr 2
      have e1 : g.regionBase.toNat + 40 * (i.toNat + 1) = blockedA g i.toNat + 8 := by unfold blockedA; omega
      have e2 : blockedA g i.toNat = pinnedA g i.toNat + 8 := by unfold blockedA pinnedA; omega
      have e3 : pinnedA g i.toNat = prevA g i.toNat + 8 := by unfold prevA pinnedA; omega
      have e4 : prevA g i.toNat = ownerA g i.toNat + 8 := by unfold prevA ownerA; omega
      have e5 : ownerA g i.toNat = lockA g i.toNat + 8 := by unfold lockA ownerA; omega
      have hl : lockA g i.toNat % 8 = 0 := by unfold lockA; omega
      have he : blockedA g i.toNat + 8 ≤ g.regionBase.toNat + 40 * (i.toNat + 1 + n) := by unfold blockedA; omega
      rw [e1, show nullEnclaveId = 0 from rfl, st_zero _ _ _ (by omega) he]
      rw [e2] at he ⊢
      rw [st_zero _ _ _ (by omega) (by omega)]
      rw [e3] at he ⊢
      rw [st_zero _ _ _ (by omega) (by omega)]
      rw [e4] at he ⊢
      rw [st_zero _ _ _ (by omega) (by omega)]
      rw [e5] at he ⊢
      rw [st_zero _ _ _ (by omega) (by omega)]
      unfold lockA
      rw [show i.toNat + 1 + n = i.toNat + (n + 1) by omega]

theorem run_bootBitmapLoop {g : Cfg} (h : g.WF) (n : Nat) : ∀ (i : W) (m : Machine), i.toNat + n ≤ g.regions →
    ∃ mem', run g 0 (bootBitmapLoop g n i) m = some ((), { m with mem := mem' }) ∧
      (∀ a, ¬ (g.osBitmap.toNat ≤ a ∧ a < g.osBitmap.toNat + 8 * g.bitmapWords.toNat) → mem' a = m.mem a) ∧
      (∀ j, ({ m with mem := mem' } : Machine).osBit g j = if i.toNat ≤ j ∧ j < i.toNat + n then true else m.osBit g j) := by
  induction n with
  | zero =>
      intro i m _
      refine ⟨m.mem, rfl, fun _ _ => rfl, fun j => ?_⟩
      rw [if_neg (by omega)]
  | succ n ih =>
      intro i m hi
      have hlt : i.toNat < g.regions := by omega
      have hi1 : (i + 1).toNat = i.toNat + 1 := by
        have := h.regions_le
        rw [BitVec.toNat_add, show (1 : W).toNat = 1 from rfl]; omega
      obtain ⟨mem', h1, h2, h3⟩ := ih (i + 1) (m.setOsBit g i.toNat true) (by omega)
      refine ⟨mem', ?_, ?_, ?_⟩
      · rw [bootBitmapLoop, run_bind, run_setOsBit h hlt, Option.bind_some]
        exact h1
      · intro a ha
        rw [h2 a ha]
        unfold Machine.setOsBit
        rw [st_mem, upd_ne]
        rintro rfl
        apply ha
        have := h.words
        unfold osWordA; omega
      · intro j
        have := h3 j
        rw [hi1] at this
        refine Eq.trans this ?_
        rw [osBit_setOsBit]
        by_cases hj : j = i.toNat
        · subst hj; simp
        · rw [if_neg hj]
          by_cases hj2 : i.toNat + 1 ≤ j ∧ j < i.toNat + 1 + n
          · rw [if_pos hj2, if_pos (by omega)]
          · rw [if_neg hj2, if_neg (by omega)]

end Sanctum
