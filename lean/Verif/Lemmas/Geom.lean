import Verif.Lemmas.Addr
import Verif.Lemmas.Bits
/-
Address arithmetic in a well-formed configuration, as `Nat` division and remainder.
-/
namespace Sanctum

/-- Bits of a shifted all-ones mask. -/
theorem testBit_mask (n k i : Nat) : ((2 ^ n - 1) * 2 ^ k).testBit i = decide (k ≤ i ∧ i < k + n) := by
  rw [← Nat.shiftLeft_eq, Nat.testBit_shiftLeft, Nat.testBit_two_pow_sub_one]
  by_cases h : k ≤ i <;> simp [h] <;> omega

theorem and_mask_nat (x n k : Nat) : x &&& (2 ^ n - 1) * 2 ^ k = x / 2 ^ k % 2 ^ n * 2 ^ k := by
  apply Nat.eq_of_testBit_eq
  intro i
  rw [Nat.testBit_and, testBit_mask, ← Nat.shiftLeft_eq, Nat.testBit_shiftLeft, Nat.testBit_mod_two_pow, Nat.testBit_div_two_pow]
  by_cases h : k ≤ i
  · simp only [h, true_and, decide_true, Bool.true_and, show i - k + k = i by omega]
    rw [Bool.and_comm]
    congr 1
    simp; omega
  · simp [h]

variable {g : Cfg}

theorem Cfg.WF.regions_eq (h : g.WF) : g.regions = 2 ^ g.rb := h.regionCount

theorem dramRegionFor_toNat (h : g.WF) (a : W) : (dramRegionFor g a).toNat = regionOf g a.toNat := by
  rw [dramRegionFor, BitVec.toNat_ushiftRight, BitVec.toNat_and, h.regionMask, h.regionShift, and_mask_nat, Nat.shiftRight_eq_div_pow,
    Nat.mul_div_cancel _ (Nat.two_pow_pos _)]; rfl

theorem and_regionMask_toNat (h : g.WF) (a : W) :
    (a &&& g.regionMask).toNat = regionOf g a.toNat * g.stripeSize.toNat := by
  rw [BitVec.toNat_and, h.regionMask, h.stripeSize, and_mask_nat]; rfl

theorem regionOf_lt (h : g.WF) (a : Nat) : regionOf g a < g.regions := by
  rw [h.regions_eq]; exact Nat.mod_lt _ (Nat.two_pow_pos _)

theorem dramRegionFor_lt (h : g.WF) (a : W) : (dramRegionFor g a).toNat < g.regions := by
  rw [dramRegionFor_toNat h]; exact regionOf_lt h _

theorem isDramAddress_iff (a : W) : isDramAddress g a = true ↔ a.toNat < g.dramSize.toNat := by
  simp [isDramAddress, W.lt_iff]
theorem isValidDramRegion_iff (r : W) : isValidDramRegion g r = true ↔ r.toNat < g.regions := by
  simp [isValidDramRegion, W.lt_iff, Cfg.regions]
theorem isDynamicDramRegion_iff (r : W) : isDynamicDramRegion g r = true ↔ r.toNat ≠ 0 ∧ r.toNat < g.regions := by
  rw [isDynamicDramRegion, Bool.and_eq_true, isValidDramRegion_iff, bne_iff_ne, Ne, W.eq_iff]; rfl

theorem clampedDramRegionFor_toNat (h : g.WF) (a : W) :
    (clampedDramRegionFor g a).toNat = if a.toNat < g.dramSize.toNat then regionOf g a.toNat else 0 := by
  unfold clampedDramRegionFor
  by_cases ha : a.toNat < g.dramSize.toNat
  · rw [if_pos ((isDramAddress_iff a).2 ha), if_pos ha, dramRegionFor_toNat h]
  · rw [if_neg (by rw [isDramAddress_iff]; exact ha), if_neg ha]; rfl

theorem clamped_lt (h : g.WF) (a : W) : (clampedDramRegionFor g a).toNat < g.regions := by
  rw [clampedDramRegionFor_toNat h]
  have := h.regions_ge
  split
  · exact regionOf_lt h _
  · omega

theorem dramStripePageFor_toNat (h : g.WF) (a : W) : (dramStripePageFor g a).toNat = a.toNat / 2 ^ 12 % 2 ^ g.sp := by
  rw [dramStripePageFor, BitVec.toNat_ushiftRight, BitVec.toNat_and, h.stripePageMask, and_mask_nat, Nat.shiftRight_eq_div_pow, pageShift,
    Nat.mul_div_cancel _ (Nat.two_pow_pos _)]

theorem dramStripeFor_toNat (h : g.WF) (a : W) : (dramStripeFor g a).toNat = a.toNat / 2 ^ (12 + g.sp + g.rb) := by
  rw [dramStripeFor, BitVec.toNat_ushiftRight, h.stripeShift, Nat.shiftRight_eq_div_pow]

/-- All regions together fit in DRAM. -/
theorem Cfg.WF.all_regions_le (h : g.WF) : g.regions * g.stripeSize.toNat ≤ g.dramSize.toNat := by
  rw [h.regions_eq, h.stripeSize, h.dramSize, ← Nat.pow_add]
  exact Nat.pow_le_pow_right (by decide) (by have := h.fits; omega)

theorem Cfg.WF.region_end_le (h : g.WF) {i : Nat} (hi : i < g.regions) : (i + 1) * g.stripeSize.toNat ≤ g.dramSize.toNat :=
  Nat.le_trans (Nat.mul_le_mul_right _ hi) h.all_regions_le

theorem dramRegionStart_toNat (h : g.WF) (r : W) (hr : r.toNat ≤ g.regions) :
    (dramRegionStart g r).toNat = r.toNat * g.stripeSize.toNat := by
  have h1 := Nat.le_trans (Nat.mul_le_mul_right g.stripeSize.toNat hr) h.all_regions_le
  have h2 := h.dram_le
  rw [dramRegionStart, BitVec.toNat_shiftLeft, h.regionShift, Nat.shiftLeft_eq, ← h.stripeSize, Nat.mod_eq_of_lt (by omega)]

/-- `regionOf` is unchanged by an offset inside the stripe. -/
theorem regionOf_start (h : g.WF) {i : Nat} (hi : i < g.regions) (x : Nat) (hx : x < g.stripeSize.toNat) :
    regionOf g (i * g.stripeSize.toNat + x) = i := by
  rw [h.stripeSize] at *
  rw [h.regions_eq] at hi
  rw [regionOf, Nat.add_comm, Nat.add_mul_div_right _ _ (Nat.two_pow_pos _), Nat.div_eq_of_lt hx, Nat.zero_add, Nat.mod_eq_of_lt hi]

/-- An address of a region other than 0 is beyond the first stripe. -/
theorem stripe_le_of_regionOf (h : g.WF) {a : Nat} (ha : regionOf g a ≠ 0) : g.stripeSize.toNat ≤ a := by
  rw [h.stripeSize]
  apply Nat.le_of_not_lt
  intro hlt
  apply ha
  rw [regionOf, Nat.div_eq_of_lt hlt, Nat.zero_mod]

theorem top_le_of_regionOf (h : g.WF) {a : Nat} (ha : regionOf g a ≠ 0) : g.monitorTop.toNat ≤ a :=
  Nat.le_trans h.top_le (stripe_le_of_regionOf h ha)

end Sanctum
