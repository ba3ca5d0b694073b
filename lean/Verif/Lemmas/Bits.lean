import Verif.Lemmas.Basic
/-
Bit-level lemmas about the pure functions of `Model/BitMasking.lean`.
-/
namespace Sanctum

/-- Masks are all-ones words. -/
theorem isValidRangeMask_iff (mask : W) : isValidRangeMask mask = true ↔ ∃ k, k ≤ 64 ∧ mask.toNat = 2 ^ k - 1 := by
  have hm := mask.isLt
  simp only [isValidRangeMask, beq_iff_eq, W.eq_iff, BitVec.toNat_and, BitVec.toNat_add,
    show (1 : W).toNat = 1 from rfl, show (0 : W).toNat = 0 from rfl]
  by_cases hf : mask.toNat = 2 ^ 64 - 1
  · simp only [hf]
    exact ⟨fun _ => ⟨64, by omega, rfl⟩, fun _ => by decide⟩
  · have h1 : (mask.toNat + 1) % 2 ^ 64 = mask.toNat + 1 := by omega
    rw [h1, Nat.and_comm]
    have := Nat.and_sub_one_eq_zero_iff_isPowerOfTwo (n := mask.toNat + 1) (by omega)
    rw [Nat.add_sub_cancel] at this
    rw [this]
    constructor
    · rintro ⟨k, hk⟩
      refine ⟨k, ?_, by omega⟩
      apply Nat.le_of_not_lt; intro hlt
      have : 2 ^ 65 ≤ 2 ^ k := Nat.pow_le_pow_right (by decide) hlt
      omega
    · rintro ⟨k, _, hk⟩
      refine ⟨k, ?_⟩
      have := Nat.two_pow_pos k
      omega

theorem and_mask_toNat (a mask : W) {k : Nat} (h : mask.toNat = 2 ^ k - 1) : (a &&& mask).toNat = a.toNat % 2 ^ k := by
  rw [BitVec.toNat_and, h, Nat.and_two_pow_sub_one_eq_mod]

theorem isAlignedToMask_iff (a mask : W) {k : Nat} (h : mask.toNat = 2 ^ k - 1) :
    isAlignedToMask a mask = true ↔ 2 ^ k ∣ a.toNat := by
  rw [isAlignedToMask, beq_iff_eq, W.eq_iff, and_mask_toNat a mask h, Nat.dvd_iff_mod_eq_zero]; rfl

theorem or_mask_toNat (a mask : W) {k : Nat} (h : mask.toNat = 2 ^ k - 1) (ha : 2 ^ k ∣ a.toNat) :
    (a ||| mask).toNat = a.toNat + mask.toNat := by
  obtain ⟨b, hb⟩ := ha
  have := Nat.two_pow_pos k
  rw [BitVec.toNat_or, hb, ← Nat.two_pow_add_eq_or_of_lt (by omega)]

theorem pageSize_toNat : pageSize.toNat = 4096 := rfl
theorem pageMask_toNat : (pageSize - 1).toNat = 2 ^ 12 - 1 := rfl
theorem isPageAligned_iff (a : W) : isPageAligned a = true ↔ a.toNat % 4096 = 0 := by
  rw [isPageAligned, isAlignedToMask_iff _ _ pageMask_toNat, Nat.dvd_iff_mod_eq_zero]

theorem pagesNeededFor_toNat (n : W) (h : n.toNat ≤ 2 ^ 64 - 4096) : (pagesNeededFor n).toNat = (n.toNat + 4095) / 4096 := by
  have : (n + pageSize - 1).toNat = n.toNat + 4095 := by
    rw [BitVec.toNat_sub, BitVec.toNat_add, pageSize_toNat, show (1 : W).toNat = 1 from rfl]; omega
  rw [pagesNeededFor, BitVec.toNat_ushiftRight, this, Nat.shiftRight_eq_div_pow]; rfl

/-- Number of bits of a natural number. -/
def bitLen (n : Nat) : Nat := if n = 0 then 0 else n.log2 + 1

theorem bitLen_le_iff (n b : Nat) : bitLen n ≤ b ↔ n < 2 ^ b := by
  unfold bitLen; split
  · subst_vars; simp [Nat.two_pow_pos]
  · rw [← Nat.log2_lt ‹_›]; omega

theorem bitLen_half (n : Nat) (h : n ≠ 0) : bitLen n = bitLen (n / 2) + 1 := by
  have key : ∀ b, bitLen n ≤ b ↔ bitLen (n / 2) + 1 ≤ b := by
    intro b
    cases b with
    | zero => rw [bitLen_le_iff]; omega
    | succ b => rw [bitLen_le_iff, Nat.add_le_add_iff_right, bitLen_le_iff, Nat.pow_succ]; omega
  have h1 := (key (bitLen n)).1 (Nat.le_refl _)
  have h2 := (key (bitLen (n / 2) + 1)).2 (Nat.le_refl _)
  omega

theorem addressBitsLoop_toNat (fuel : Nat) : ∀ n bits : W, n.toNat < 2 ^ fuel → bits.toNat + fuel < 2 ^ 64 →
    (addressBitsLoop fuel n bits).toNat = bits.toNat + bitLen n.toNat := by
  induction fuel with
  | zero => intro n bits h _; simp only [addressBitsLoop]; simp [bitLen, show n.toNat = 0 by omega]
  | succ f ih =>
      intro n bits h hb
      rw [addressBitsLoop]
      split
      · rename_i hn
        have hn : n.toNat ≠ 0 := by have : (0 : W) < n := hn; rw [W.lt_iff] at this; simp at this; omega
        have h1 : (n >>> 1).toNat = n.toNat / 2 := by
          rw [BitVec.toNat_ushiftRight, Nat.shiftRight_eq_div_pow]
        have h2 : (bits + 1).toNat = bits.toNat + 1 := by
          rw [BitVec.toNat_add, show (1 : W).toNat = 1 from rfl]; omega
        rw [ih _ _ (by rw [h1]; rw [Nat.pow_succ] at h; omega) (by omega), h1, h2, bitLen_half _ hn]; omega
      · rename_i hn
        have hn : n.toNat = 0 := by
          have : ¬ (0 : W) < n := hn
          rw [W.lt_iff, show (0 : W).toNat = 0 from rfl] at this; omega
        simp [bitLen, hn]

/-- The fuel of `addressBitsFor` is enough: more would not change the result. -/
theorem addressBitsLoop_fuel (n : W) (extra : Nat) (h : extra < 2 ^ 32) :
    (addressBitsLoop (64 + extra) n 0).toNat = (addressBitsLoop 64 n 0).toNat := by
  rw [addressBitsLoop_toNat, addressBitsLoop_toNat]
  · exact n.isLt
  · simp
  · exact Nat.lt_of_lt_of_le n.isLt (Nat.pow_le_pow_right (by decide) (by omega))
  · simp; omega

theorem addressBitsFor_toNat (n : W) : (addressBitsFor n).toNat = bitLen (n - 1).toNat := by
  rw [addressBitsFor, addressBitsLoop_toNat _ _ _ (n - 1).isLt (by simp)]; simp

theorem sub_one_toNat (n : W) (h : 1 ≤ n.toNat) : (n - 1).toNat = n.toNat - 1 := by
  have := n.isLt
  rw [BitVec.toNat_sub, show (1 : W).toNat = 1 from rfl]; omega

theorem addressBitsFor_le_iff (n : W) (h : 1 ≤ n.toNat) (b : Nat) : (addressBitsFor n).toNat ≤ b ↔ n.toNat ≤ 2 ^ b := by
  rw [addressBitsFor_toNat, bitLen_le_iff, sub_one_toNat n h]; omega

theorem addressBitsFor_pow (n : W) (k : Nat) (h : n.toNat = 2 ^ k) : (addressBitsFor n).toNat = k := by
  have h0 : 1 ≤ n.toNat := by rw [h]; exact Nat.two_pow_pos k
  have h1 := (addressBitsFor_le_iff n h0 k).2 (by omega)
  have h2 := (addressBitsFor_le_iff n h0 (addressBitsFor n).toNat).1 (Nat.le_refl _)
  rw [h] at h2
  have := (Nat.pow_le_pow_iff_right (by decide : 1 < 2)).1 h2
  omega

end Sanctum
