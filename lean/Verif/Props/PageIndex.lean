import Verif.Props.Geometry
import Verif.Model.Metadata
/-
C11, once more: what the page index is on every machine that boots.
-/
namespace Sanctum

/-- C11: whatever the geometry, the amount of the shift in the page index of a region is negative, as an unsigned number far out of range: the index is the
page's number in its stripe, combined with whatever the processor makes of the stripe's number and such an amount. (The code subtracts the shifts the wrong
way round.) -/
theorem C11_shift_out_of_range {p : Platform} (hp : p.Sane) {m m' : Machine} {g : Cfg} (h : boot p m = .ok (g, m')) (a : W) :
    (g.regionShift - g.stripeShift).toNat + g.rb = 2 ^ 64 ∧
    dramRegionPageFor g a = BitVec.ofNat 64 (a.toNat / 4096 % 2 ^ g.sp) |||
      p.oobShl (BitVec.ofNat 64 (a.toNat / 2 ^ (12 + g.sp + g.rb))) (g.regionShift - g.stripeShift) := by
  have hw := boot_wf hp h
  have h1 := hw.regionShift
  have h2 := hw.stripeShift
  have h3 := hw.rb_pos
  have h4 := hw.rb_lt
  have h5 := g.stripeShift.isLt
  have hn : (g.regionShift - g.stripeShift).toNat + g.rb = 2 ^ 64 := by
    rw [BitVec.toNat_sub]; omega
  refine ⟨hn, ?_⟩
  unfold dramRegionPageFor shlC
  rw [if_neg (by omega), boot_oobShl h]
  congr 1
  · rw [W.eq_iff, dramStripePageFor_toNat hw, BitVec.toNat_ofNat]
    refine (Nat.mod_eq_of_lt (b := 2 ^ 64) ?_).symm
    have := Nat.mod_lt (a.toNat / 4096) (Nat.two_pow_pos g.sp)
    have : 2 ^ g.sp ≤ 2 ^ 63 := Nat.pow_le_pow_right (by decide) (by
      have := hw.fits; have := hw.dramSize; have := g.dramSize.isLt
      have hd : g.d < 64 := by
        refine (Nat.pow_lt_pow_iff_right (by decide : 1 < 2)).1 ?_
        omega
      omega)
    omega
  · congr 1
    rw [W.eq_iff, dramStripeFor_toNat hw, BitVec.toNat_ofNat, Nat.mod_eq_of_lt]
    exact Nat.lt_of_le_of_lt (Nat.div_le_self _ _) a.isLt

/-- C11: on processors that take the amount of a shift modulo 64 (x86-64 and RISC-V are such), the index is exactly this: the page's number in its
stripe, plus the last bits of the stripe's number, as the topmost bits of the word. So an address in the first stripe of its region has a proper index. -/
theorem C11_masked_shift {p : Platform} (hp : p.Sane) (hx : ∀ x n : W, p.oobShl x n = x <<< (n.toNat % 64)) {m m' : Machine} {g : Cfg}
    (h : boot p m = .ok (g, m')) (a : W) :
    (dramRegionPageFor g a).toNat = a.toNat / 4096 % 2 ^ g.sp + a.toNat / 2 ^ (12 + g.sp + g.rb) % 2 ^ g.rb * 2 ^ (64 - g.rb) := by
  have hw := boot_wf hp h
  have h3 := hw.rb_pos
  have h4 := hw.rb_lt
  have h5 := g.dramSize.isLt
  obtain ⟨hn, he⟩ := C11_shift_out_of_range hp h a
  have hd : g.d < 64 := by
    refine (Nat.pow_lt_pow_iff_right (by decide : 1 < 2)).1 ?_
    have := hw.dramSize; omega
  have hf := hw.fits
  have hk : (g.regionShift - g.stripeShift).toNat % 64 = 64 - g.rb := by omega
  have hlt : a.toNat / 4096 % 2 ^ g.sp < 2 ^ (64 - g.rb) :=
    Nat.lt_of_lt_of_le (Nat.mod_lt _ (Nat.two_pow_pos _)) (Nat.pow_le_pow_right (by decide) (by omega))
  have h64 : 2 ^ (64 - g.rb) < 2 ^ 64 := Nat.pow_lt_pow_right (by decide) (by omega)
  have hs : a.toNat / 2 ^ (12 + g.sp + g.rb) < 2 ^ 64 := Nat.lt_of_le_of_lt (Nat.div_le_self _ _) a.isLt
  have hy : (BitVec.ofNat 64 (a.toNat / 2 ^ (12 + g.sp + g.rb)) <<< (64 - g.rb) : W).toNat =
      2 ^ (64 - g.rb) * (a.toNat / 2 ^ (12 + g.sp + g.rb) % 2 ^ g.rb) := by
    rw [BitVec.toNat_shiftLeft, BitVec.toNat_ofNat, Nat.mod_eq_of_lt hs, Nat.shiftLeft_eq, Nat.mul_comm,
      show 2 ^ 64 = 2 ^ (64 - g.rb) * 2 ^ g.rb from by rw [← Nat.pow_add]; congr 1; omega, Nat.mul_mod_mul_left]
  rw [he, hx, hk, BitVec.toNat_or, hy, BitVec.toNat_ofNat, Nat.mod_eq_of_lt (Nat.lt_trans hlt h64), Nat.or_comm,
    ← Nat.two_pow_add_eq_or_of_lt hlt, Nat.mul_comm, Nat.add_comm]

/-- C11 on such processors: the index of an address whose stripe number does not end in zeroes is larger than the number of pages of a region, so it is
the number of no page. -/
theorem C11_masked_too_large {p : Platform} (hp : p.Sane) (hx : ∀ x n : W, p.oobShl x n = x <<< (n.toNat % 64)) {m m' : Machine} {g : Cfg}
    (h : boot p m = .ok (g, m')) (a : W) (hs : a.toNat / 2 ^ (12 + g.sp + g.rb) % 2 ^ g.rb ≠ 0) :
    g.dramSize.toNat / g.regionCount.toNat / 4096 < (dramRegionPageFor g a).toNat := by
  have hw := boot_wf hp h
  have h4 := hw.rb_lt
  have h5 := hw.dramSize
  rw [C11_masked_shift hp hx h a]
  have h1 : 2 ^ (64 - g.rb) ≤ a.toNat / 2 ^ (12 + g.sp + g.rb) % 2 ^ g.rb * 2 ^ (64 - g.rb) := Nat.le_mul_of_pos_left _ (Nat.pos_of_ne_zero hs)
  have hf := hw.fits
  have hd : g.d < 64 := by
    refine (Nat.pow_lt_pow_iff_right (by decide : 1 < 2)).1 ?_
    have := g.dramSize.isLt; omega
  refine Nat.lt_of_lt_of_le ?_ (Nat.le_trans h1 (Nat.le_add_left _ _))
  rw [hw.regionCount, h5, Nat.div_div_eq_div_mul, Nat.div_lt_iff_lt_mul (by have := Nat.two_pow_pos g.rb; omega),
    show (4096 : Nat) = 2 ^ 12 from rfl, ← Nat.pow_add, ← Nat.pow_add]
  exact Nat.pow_lt_pow_right (by decide) (by omega)

/-- C11 on such processors: what the index tells apart. Addresses with the same page in the stripe and stripe numbers that end in the same bits share it. -/
theorem C11_masked_collisions {p : Platform} (hp : p.Sane) (hx : ∀ x n : W, p.oobShl x n = x <<< (n.toNat % 64)) {m m' : Machine} {g : Cfg}
    (h : boot p m = .ok (g, m')) (a b : W) :
    dramRegionPageFor g a = dramRegionPageFor g b ↔ a.toNat / 4096 % 2 ^ g.sp = b.toNat / 4096 % 2 ^ g.sp ∧
      a.toNat / 2 ^ (12 + g.sp + g.rb) % 2 ^ g.rb = b.toNat / 2 ^ (12 + g.sp + g.rb) % 2 ^ g.rb := by
  rw [W.eq_iff, C11_masked_shift hp hx h, C11_masked_shift hp hx h]
  have hw := boot_wf hp h
  have h4 := hw.rb_lt
  have hf := hw.fits
  have hd : g.d < 64 := by
    refine (Nat.pow_lt_pow_iff_right (by decide : 1 < 2)).1 ?_
    have := g.dramSize.isLt; have := hw.dramSize; omega
  have hlt : ∀ x : W, x.toNat / 4096 % 2 ^ g.sp < 2 ^ (64 - g.rb) := fun x =>
    Nat.lt_of_lt_of_le (Nat.mod_lt _ (Nat.two_pow_pos _)) (Nat.pow_le_pow_right (by decide) (by omega))
  constructor
  · intro hh
    have e1 := congrArg (· % 2 ^ (64 - g.rb)) hh
    simp only [Nat.add_mul_mod_self_right, Nat.mod_eq_of_lt (hlt _)] at e1
    refine ⟨e1, ?_⟩
    rw [e1] at hh
    exact Nat.eq_of_mul_eq_mul_right (Nat.two_pow_pos (64 - g.rb)) (Nat.add_left_cancel hh)
  · rintro ⟨e1, e2⟩
    rw [e1, e2]

/-- `manyStripesPlatform` with a processor that takes the amount modulo 64. -/
def maskedPlatform : Platform := { manyStripesPlatform with oobShl := fun x n => x <<< (n.toNat % 64) }

theorem masked_sane : maskedPlatform.Sane := by
  obtain ⟨h1, h2, h3, h4⟩ := manyStripes_sane
  exact ⟨h1, h2, h3, h4⟩

set_option maxRecDepth 100000 in
theorem masked_boots : (boot maskedPlatform zeroMachine).isOk = true := by decide +kernel

/-- The full C11 is false on such a processor too: here two pages of a region share an index, and on such a machine there is an index that is too large. -/
theorem C11_masked_false : ¬ C11_statement (booted maskedPlatform).1 ∧
    ∃ a : W, a.toNat < (booted maskedPlatform).1.dramSize.toNat ∧
      (booted maskedPlatform).1.dramSize.toNat / (booted maskedPlatform).1.regionCount.toNat / 4096 <
        (dramRegionPageFor (booted maskedPlatform).1 a).toNat := by
  constructor
  · intro h
    have := h 0 0x8000 (by set_option maxRecDepth 100000 in decide +kernel) (by set_option maxRecDepth 100000 in decide +kernel)
      (by set_option maxRecDepth 100000 in decide +kernel)
    have h2 := this.1 (by set_option maxRecDepth 100000 in decide +kernel)
    revert h2; decide
  · exact ⟨0x4000, by set_option maxRecDepth 100000 in decide +kernel, C11_masked_too_large masked_sane (fun _ _ => rfl) (booted_ok masked_boots) _
      (by set_option maxRecDepth 100000 in decide +kernel)⟩

/-- C11, what follows on such processors with at most 8 regions: pages of different stripes of a region have the same entry in the page map of the region (the
bits of the stripe's number fall off the address of the entry). -/
theorem C11_masked_entries {p : Platform} (hp : p.Sane) (hx : ∀ x n : W, p.oobShl x n = x <<< (n.toNat % 64)) {m m' : Machine} {g : Cfg}
    (h : boot p m = .ok (g, m')) (h8 : g.regionCount.toNat ≤ 8) (a b : W) (hr : dramRegionFor g a = dramRegionFor g b)
    (hs : a.toNat / 4096 % 2 ^ g.sp = b.toNat / 4096 % 2 ^ g.sp) : metadataPageInfoFor g a = metadataPageInfoFor g b := by
  have hw := boot_wf hp h
  have h3 := hw.rb_pos
  have hrb : g.rb ≤ 3 := by
    rw [hw.regionCount] at h8
    exact (Nat.pow_le_pow_iff_right (by decide : 1 < 2)).1 (show 2 ^ g.rb ≤ 2 ^ 3 from h8)
  have key : ∀ x : W, dramRegionPageFor g x * 8 = BitVec.ofNat 64 (8 * (x.toNat / 4096 % 2 ^ g.sp)) := by
    intro x
    rw [W.eq_iff, BitVec.toNat_mul, C11_masked_shift hp hx h x, BitVec.toNat_ofNat]
    have e : (8 : W).toNat = 8 := rfl
    rw [e, Nat.add_mul, Nat.mul_assoc,
      show 2 ^ (64 - g.rb) * 8 = 2 ^ (3 - g.rb) * 2 ^ 64 from by
        rw [show (8 : Nat) = 2 ^ 3 from rfl, ← Nat.pow_add, ← Nat.pow_add]; congr 1; omega,
      ← Nat.mul_assoc, Nat.add_mul_mod_self_right, Nat.mul_comm]
  have hm : a &&& g.regionMask = b &&& g.regionMask := by
    rw [W.eq_iff, dramRegionFor_toNat hw, dramRegionFor_toNat hw] at hr
    rw [W.eq_iff, and_regionMask_toNat hw, and_regionMask_toNat hw, hr]
  unfold metadataPageInfoFor
  rw [key, key, hs, hm]

set_option maxRecDepth 100000 in
/-- What a user sees of it: in a new metadata region, an enclave is created at one page, and then none can be created at another page of the region that
nobody ever used. -/
theorem C11_masked_taken : (runCalls (booted maskedPlatform).1 [(0, .blockDramRegion 1), (0, .flushCachedDramRegions), (0, .freeDramRegion 1),
    (0, .createMetadataRegion 1), (0, .createEnclave 0x3000 0x100000 0xfffff 0 false), (0, .createEnclave 0x7000 0x100000 0xfffff 0 false)]
      (booted maskedPlatform).2).map (·.1) =
    some [monitorOk, monitorOk, monitorOk, monitorOk, monitorOk, monitorInvalidState] := by decide +kernel

/-- Both kinds of machine boot: with regions of one stripe, and of several. -/
example : toyPlatform.Sane ∧ (∃ x, boot toyPlatform zeroMachine = .ok x) ∧ manyStripesPlatform.Sane ∧ ∃ x, boot manyStripesPlatform zeroMachine = .ok x :=
  ⟨toy_sane, ⟨_, booted_ok toy_boots⟩, manyStripes_sane, ⟨_, booted_ok manyStripes_boots⟩⟩

end Sanctum
