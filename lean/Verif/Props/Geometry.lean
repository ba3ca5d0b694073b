import Verif.Lemmas.Boot
import Verif.Spec.Toy
/-
Properties C09, C10, C11, C14: DRAM geometry computed at boot.
-/
namespace Sanctum

theorem toy_sane : toyPlatform.Sane :=
  { dram := ⟨18, by decide, by decide⟩, cache := by decide, cores_pos := by decide, cores_le := by decide }
theorem striped_sane : stripedPlatform.Sane :=
  { dram := ⟨18, by decide, by decide⟩, cache := by decide, cores_pos := by decide, cores_le := by decide }
theorem manyStripes_sane : manyStripesPlatform.Sane :=
  { dram := ⟨18, by decide, by decide⟩, cache := by decide, cores_pos := by decide, cores_le := by decide }
/-- A well-formed configuration with single-stripe regions. -/
theorem toy_wf : (booted toyPlatform).1.WF := boot_wf toy_sane (booted_ok toy_boots)
/-- A well-formed configuration with four stripes per region. -/
theorem striped_wf : (booted stripedPlatform).1.WF := boot_wf striped_sane (booted_ok striped_boots)
theorem manyStripes_wf : (booted manyStripesPlatform).1.WF := boot_wf manyStripes_sane (booted_ok manyStripes_boots)

/-! ### C09 -/

/-- The page-offset mask. -/
def pageMask : W := 0xfff

/-- A consistent DRAM geometry. -/
structure GeometryOk (g : Cfg) : Prop where
  disjoint : pageMask &&& g.stripePageMask = 0 ∧ pageMask &&& g.regionMask = 0 ∧ pageMask &&& g.stripeMask = 0 ∧
    g.stripePageMask &&& g.regionMask = 0 ∧ g.stripePageMask &&& g.stripeMask = 0 ∧ g.regionMask &&& g.stripeMask = 0
  cover : pageMask ||| g.stripePageMask ||| g.regionMask ||| g.stripeMask = g.dramSize - 1
  counts : g.stripePages.toNat * 4096 = g.stripeSize.toNat ∧ g.stripeSize.toNat = 2 ^ g.regionShift.toNat ∧
    g.regionCount.toNat * g.stripeSize.toNat = 2 ^ g.stripeShift.toNat
  masks : g.stripePageMask.toNat = g.stripeSize.toNat - 4096 ∧
    g.regionMask.toNat = 2 ^ g.stripeShift.toNat - g.stripeSize.toNat ∧
    g.stripeMask.toNat = g.dramSize.toNat - 2 ^ g.stripeShift.toNat
  inside : ∀ r : W, r.toNat < g.regionCount.toNat →
    (dramRegionStart g r).toNat + g.stripeSize.toNat ≤ g.dramSize.toNat

/-- The full C09. -/
def C09_statement : Prop := ∀ p m g m', boot p m = .ok (g, m') → GeometryOk g

/-- It is false: when the DRAM is smaller than the cache's index range, an unsigned subtraction wraps and
the machine boots with regions outside DRAM. -/
theorem C09_statement_false : ¬ C09_statement := by
  intro h
  have hin := (h _ _ _ _ (booted_ok tinyDram_boots)).inside 7
  have h1 : (7 : W).toNat < (booted tinyDramPlatform).1.regionCount.toNat := by
    set_option maxRecDepth 100000 in decide +kernel
  have h2 : ¬ (dramRegionStart (booted tinyDramPlatform).1 7).toNat + (booted tinyDramPlatform).1.stripeSize.toNat ≤
      (booted tinyDramPlatform).1.dramSize.toNat := by set_option maxRecDepth 100000 in decide +kernel
  exact h2 (hin h1)

/-- It is also false for a DRAM whose size is not a power of two: the masks do not cover it. -/
theorem C09_odd_dram_false : boot oddDramPlatform zeroMachine = .ok ((booted oddDramPlatform).1, (booted oddDramPlatform).2) ∧
    ¬ GeometryOk (booted oddDramPlatform).1 := by
  refine ⟨booted_ok oddDram_boots, fun h => ?_⟩
  have h2 : ¬ (pageMask ||| (booted oddDramPlatform).1.stripePageMask ||| (booted oddDramPlatform).1.regionMask |||
    (booted oddDramPlatform).1.stripeMask = (booted oddDramPlatform).1.dramSize - 1) := by
    set_option maxRecDepth 100000 in decide +kernel
  exact h2 h.cover

theorem wf_geometry {g : Cfg} (h : g.WF) : GeometryOk g := by
  have hp : pageMask.toNat = (2 ^ 12 - 1) * 2 ^ 0 := by decide
  have hst := h.stripePageMask
  have hre := h.regionMask
  have hsm := h.stripeMask
  have hd : g.dramSize.toNat - 1 = (2 ^ g.d - 1) * 2 ^ 0 := by rw [h.dramSize]; simp
  have hfit := h.fits
  have disj : ∀ x y : W, ∀ n k n' k', x.toNat = (2 ^ n - 1) * 2 ^ k → y.toNat = (2 ^ n' - 1) * 2 ^ k' → k + n ≤ k' → x &&& y = 0 := by
    intro x y n k n' k' hx hy hle
    rw [W.eq_iff, BitVec.toNat_and, hx, hy]
    apply Nat.eq_of_testBit_eq
    intro i
    rw [Nat.testBit_and, testBit_mask, testBit_mask]
    rw [show (0 : W).toNat = 0 from rfl, Nat.zero_testBit, ← Bool.decide_and, decide_eq_false_iff_not]
    omega
  have hdpos : 1 ≤ g.dramSize.toNat := by rw [h.dramSize]; exact Nat.two_pow_pos _
  refine ⟨⟨disj _ _ _ _ _ _ hp hst (by omega), disj _ _ _ _ _ _ hp hre (by omega), disj _ _ _ _ _ _ hp hsm (by omega),
    disj _ _ _ _ _ _ hst hre (by omega), disj _ _ _ _ _ _ hst hsm (by omega), disj _ _ _ _ _ _ hre hsm (by omega)⟩,
    ?_, ⟨?_, ?_, ?_⟩, ⟨?_, ?_, ?_⟩, ?_⟩
  · rw [W.eq_iff, sub_one_toNat _ hdpos, hd]
    apply Nat.eq_of_testBit_eq
    intro i
    simp only [BitVec.toNat_or, Nat.testBit_or]
    rw [hp, hst, hre, hsm, testBit_mask, testBit_mask, testBit_mask, testBit_mask, testBit_mask]
    simp only [← Bool.decide_or]
    congr 1
    simp only [eq_iff_iff]
    omega
  · rw [h.stripePages, h.stripeSize, Nat.pow_add, Nat.mul_comm]
  · rw [h.stripeSize, h.regionShift]
  · rw [h.regionCount, h.stripeSize, h.stripeShift, ← Nat.pow_add, Nat.add_comm]
  · rw [hst, h.stripeSize, Nat.sub_mul, Nat.pow_add, Nat.mul_comm]
  · rw [hre, h.stripeSize, h.stripeShift, Nat.sub_mul, ← Nat.pow_add, Nat.add_comm g.rb]; simp
  · rw [hsm, h.dramSize, h.stripeShift, Nat.sub_mul, ← Nat.pow_add, show g.d - (12 + g.sp + g.rb) + (12 + g.sp + g.rb) = g.d by omega]; simp
  · intro r hr
    rw [dramRegionStart_toNat h r (Nat.le_of_lt hr)]
    have := h.region_end_le hr
    rw [Nat.add_mul, Nat.one_mul] at this
    exact this

/-- C09 on every platform whose DRAM size is a power of two at least as large as the cache index range. -/
theorem C09_geometry_partial {p : Platform} (hp : p.Sane) {m m' : Machine} {g : Cfg} (h : boot p m = .ok (g, m')) :
    GeometryOk g := wf_geometry (boot_wf hp h)

example : GeometryOk (booted stripedPlatform).1 := C09_geometry_partial striped_sane (booted_ok striped_boots)

/-! ### C10 -/

/-- What holds of the constants of *every* machine that boots, sane or not. -/
theorem boot_shape {p : Platform} {m m' : Machine} {g : Cfg} (h : boot p m = .ok (g, m')) : ∃ sp rb : Nat,
    12 + sp < 31 ∧ 1 ≤ rb ∧ rb < 31 ∧ g.regionShift.toNat = 12 + sp ∧ g.stripeShift.toNat = 12 + sp + rb ∧
    g.stripeSize.toNat = 4096 * 2 ^ sp ∧ g.stripePages.toNat = 2 ^ sp ∧ g.regionCount.toNat = 2 ^ rb ∧
    g.stripePageMask.toNat = (2 ^ sp - 1) * 2 ^ 12 ∧ g.regionMask.toNat = (2 ^ rb - 1) * 2 ^ (12 + sp) := by
  obtain ⟨g0, s, m1, top, h0, -, htop, hle, hg, -⟩ := boot_ok h
  obtain ⟨lb, sb, hlb, hsb, hgt, -, -, -, -, hrs, hrs31, hs31, hrb31, hss, hsz, hspg, hrc, hspm, hrm, -, -, hds, -⟩ := bootInitDramRegions_ok h0
  have e2 : g.regionShift = g0.regionShift := by simp only [hg, bl_regionShift]
  have e3 : g.stripeShift = g0.stripeShift := by simp only [hg, bl_stripeShift]
  have e4 : g.stripePageMask = g0.stripePageMask := by simp only [hg, bl_stripePageMask]
  have e5 : g.regionMask = g0.regionMask := by simp only [hg, bl_regionMask]
  have e7 : g.regionCount = g0.regionCount := by simp only [hg, bl_regionCount]
  have e8 : g.stripeSize = g0.stripeSize := by simp only [hg, bl_stripeSize]
  have e9 : g.stripePages = g0.stripePages := by simp only [hg, bl_stripePages]
  have hrsn : g0.regionShift.toNat = 12 + s.toNat := by
    rw [hrs, BitVec.toNat_add, show (12 : W).toNat = 12 from rfl]; omega
  have hssn : g0.stripeShift.toNat = 12 + s.toNat + (lb + sb - 12) := by
    rw [hss, BitVec.toNat_add, hrsn, BitVec.toNat_ofNat]; omega
  have hsub1 : ∀ x : W, ∀ k, x.toNat = 2 ^ k → (x - 1).toNat = 2 ^ k - 1 := by
    intro x k hx; rw [sub_one_toNat _ (by rw [hx]; exact Nat.two_pow_pos k), hx]
  have hmul_lt : ∀ n k, n + k ≤ 63 → (2 ^ n - 1) * 2 ^ k < 2 ^ 64 := by
    intro n k hnk
    have h1 : (2 ^ n - 1) * 2 ^ k ≤ 2 ^ n * 2 ^ k := Nat.mul_le_mul_right _ (Nat.sub_le _ _)
    rw [← Nat.pow_add] at h1
    have h2 : 2 ^ (n + k) ≤ 2 ^ 63 := Nat.pow_le_pow_right (by decide) hnk
    omega
  refine ⟨s.toNat, lb + sb - 12, by omega, by omega, by omega, by rw [e2, hrsn], by rw [e3, hssn], ?_, by rw [e9, hspg], by rw [e7, hrc], ?_, ?_⟩
  · rw [e8, hsz, hrsn, Nat.pow_add]
  · rw [e4, hspm, BitVec.toNat_shiftLeft, hsub1 _ _ hspg, Nat.shiftLeft_eq, Nat.mod_eq_of_lt (hmul_lt _ _ (by omega))]
  · rw [e5, hrm, BitVec.toNat_shiftLeft, hsub1 _ _ hrc, Nat.shiftLeft_eq, hrsn, Nat.mod_eq_of_lt (hmul_lt _ _ (by omega))]

/-- The tuple an address decomposes into: stripe, region, page in the stripe, offset in the page. -/
def decompose (g : Cfg) (a : W) : Nat × Nat × Nat × Nat :=
  ((dramStripeFor g a).toNat, (dramRegionFor g a).toNat, (dramStripePageFor g a).toNat, a.toNat % 4096)

/-- C10, on every booted machine: the components of every address are in range and recompose to the
address (so distinct addresses have distinct tuples), region indices are always in range, the clamping
accessor gives the same index inside DRAM and 0 outside, and the reported mask determines shift and count. -/
theorem C10_address_decomposition {p : Platform} {m m' : Machine} {g : Cfg} (h : boot p m = .ok (g, m')) :
    (∀ a : W,
      (dramRegionFor g a).toNat < g.regionCount.toNat ∧ (dramStripePageFor g a).toNat < g.stripePages.toNat ∧
      a.toNat = (dramStripeFor g a).toNat * (g.regionCount.toNat * g.stripeSize.toNat) +
        (dramRegionFor g a).toNat * g.stripeSize.toNat + (dramStripePageFor g a).toNat * 4096 + a.toNat % 4096) ∧
    (∀ a b : W, decompose g a = decompose g b → a = b) ∧
    (∀ a : W, (clampedDramRegionFor g a).toNat < g.regionCount.toNat ∧
      (a.toNat < g.dramSize.toNat → clampedDramRegionFor g a = dramRegionFor g a) ∧
      (g.dramSize.toNat ≤ a.toNat → clampedDramRegionFor g a = 0)) ∧
    (∀ p' n n' g', boot p' n = .ok (g', n') → g'.regionMask = g.regionMask →
      g'.regionShift = g.regionShift ∧ g'.regionCount = g.regionCount) := by
  obtain ⟨sp, rb, hsp, hrb1, hrb, hrs, hss, hsz, hpg, hrc, hspm, hrm⟩ := boot_shape h
  have hreg : ∀ a : W, (dramRegionFor g a).toNat = a.toNat / 4096 / 2 ^ sp % 2 ^ rb := by
    intro a
    rw [dramRegionFor, BitVec.toNat_ushiftRight, BitVec.toNat_and, hrm, hrs, and_mask_nat, Nat.shiftRight_eq_div_pow,
      Nat.mul_div_cancel _ (Nat.two_pow_pos _), Nat.pow_add, ← Nat.div_div_eq_div_mul]
  have hpag : ∀ a : W, (dramStripePageFor g a).toNat = a.toNat / 4096 % 2 ^ sp := by
    intro a
    rw [dramStripePageFor, BitVec.toNat_ushiftRight, BitVec.toNat_and, hspm, and_mask_nat, Nat.shiftRight_eq_div_pow, pageShift,
      Nat.mul_div_cancel _ (Nat.two_pow_pos _)]
  have hstr : ∀ a : W, (dramStripeFor g a).toNat = a.toNat / 4096 / 2 ^ sp / 2 ^ rb := by
    intro a
    rw [dramStripeFor, BitVec.toNat_ushiftRight, hss, Nat.shiftRight_eq_div_pow, Nat.pow_add, Nat.pow_add, ← Nat.div_div_eq_div_mul,
      ← Nat.div_div_eq_div_mul]
  have hlt : ∀ a : W, (dramRegionFor g a).toNat < g.regionCount.toNat := by
    intro a; rw [hreg, hrc]; exact Nat.mod_lt _ (Nat.two_pow_pos _)
  have hrec : ∀ a : W, a.toNat = (dramStripeFor g a).toNat * (g.regionCount.toNat * g.stripeSize.toNat) +
        (dramRegionFor g a).toNat * g.stripeSize.toNat + (dramStripePageFor g a).toNat * 4096 + a.toNat % 4096 := by
    intro a
    rw [hstr, hreg, hpag, hrc, hsz]
    have e1 := Nat.div_add_mod a.toNat 4096
    have e2 := Nat.div_add_mod (a.toNat / 4096) (2 ^ sp)
    have e3 := Nat.div_add_mod (a.toNat / 4096 / 2 ^ sp) (2 ^ rb)
    generalize a.toNat / 4096 / 2 ^ sp / 2 ^ rb = s at *
    generalize a.toNat / 4096 / 2 ^ sp % 2 ^ rb = r at *
    generalize a.toNat / 4096 / 2 ^ sp = t at *
    generalize a.toNat / 4096 % 2 ^ sp = q at *
    have e4 : s * (2 ^ rb * (4096 * 2 ^ sp)) + r * (4096 * 2 ^ sp) = 4096 * (2 ^ sp * t) := by
      rw [← e3]; generalize 2 ^ sp = A; generalize 2 ^ rb = B; grind
    rw [e4]; omega
  refine ⟨fun a => ⟨hlt a, by rw [hpag, hpg]; exact Nat.mod_lt _ (Nat.two_pow_pos _), hrec a⟩, ?_, fun a => ⟨?_, fun ha => ?_, fun ha => ?_⟩, ?_⟩
  · intro a b hab
    simp only [decompose, Prod.mk.injEq] at hab
    obtain ⟨h1, h2, h3, h4⟩ := hab
    rw [W.eq_iff, hrec a, hrec b, h1, h2, h3, h4]
  · unfold clampedDramRegionFor
    split
    · exact hlt a
    · rw [hrc]; exact Nat.two_pow_pos _
  · rw [clampedDramRegionFor, if_pos ((isDramAddress_iff a).2 ha)]
  · rw [clampedDramRegionFor, if_neg (by rw [isDramAddress_iff]; omega)]
  · intro p' n n' g' h' hm
    obtain ⟨sp', rb', hsp', hrb1', hrb', hrs', hss', hsz', hpg', hrc', hspm', hrm'⟩ := boot_shape h'
    have hbit : ∀ i, decide (12 + sp ≤ i ∧ i < 12 + sp + rb) = decide (12 + sp' ≤ i ∧ i < 12 + sp' + rb') := by
      intro i
      rw [← testBit_mask, ← testBit_mask, ← hrm, ← hrm', hm]
    simp only [decide_eq_decide] at hbit
    have b1 := (hbit (12 + sp)).1 (by omega)
    have b2 := (hbit (12 + sp')).2 (by omega)
    have b3 := (hbit (12 + sp + rb - 1)).1 (by omega)
    have b4 := (hbit (12 + sp' + rb' - 1)).2 (by omega)
    have hsp : sp = sp' := by omega
    have hrb : rb = rb' := by omega
    constructor
    · rw [W.eq_iff, hrs, hrs', hsp]
    · rw [W.eq_iff, hrc, hrc', hrb]

/-- C10, on a sane machine: additionally every tuple in range is the decomposition of a DRAM address (the map from
DRAM addresses to tuples is a bijection). -/
theorem C10_bijection_on_dram {g : Cfg} (h : g.WF) :
    (∀ a : W, a.toNat < g.dramSize.toNat →
      (dramStripeFor g a).toNat < g.dramSize.toNat / (g.regionCount.toNat * g.stripeSize.toNat) ∧
      (dramRegionFor g a).toNat < g.regionCount.toNat ∧
      (dramStripePageFor g a).toNat < g.stripePages.toNat ∧
      a.toNat = (dramStripeFor g a).toNat * (g.regionCount.toNat * g.stripeSize.toNat) +
        (dramRegionFor g a).toNat * g.stripeSize.toNat + (dramStripePageFor g a).toNat * 4096 + a.toNat % 4096) ∧
    (∀ s r p o : Nat, s < g.dramSize.toNat / (g.regionCount.toNat * g.stripeSize.toNat) → r < g.regionCount.toNat →
      p < g.stripePages.toNat → o < 4096 →
      ∃ a : W, a.toNat < g.dramSize.toNat ∧
        a.toNat = s * (g.regionCount.toNat * g.stripeSize.toNat) + r * g.stripeSize.toNat + p * 4096 + o ∧
        (dramStripeFor g a).toNat = s ∧ (dramRegionFor g a).toNat = r ∧ (dramStripePageFor g a).toNat = p ∧ a.toNat % 4096 = o) := by
  have hS : g.stripeSize.toNat = g.stripePages.toNat * 4096 := by rw [h.stripeSize, h.stripePages, Nat.pow_add, Nat.mul_comm]
  have hP : g.stripePages.toNat = 2 ^ g.sp := h.stripePages
  have hR : g.regionCount.toNat = 2 ^ g.rb := h.regionCount
  have hPpos : 0 < g.stripePages.toNat := by rw [hP]; exact Nat.two_pow_pos _
  have hRpos : 0 < g.regionCount.toNat := by rw [hR]; exact Nat.two_pow_pos _
  have hst : ∀ a : W, (dramStripeFor g a).toNat = a.toNat / 4096 / g.stripePages.toNat / g.regionCount.toNat := by
    intro a; rw [dramStripeFor_toNat h, Nat.pow_add, Nat.pow_add, ← Nat.div_div_eq_div_mul, ← Nat.div_div_eq_div_mul, hP, hR]
  have hrg : ∀ a : W, (dramRegionFor g a).toNat = a.toNat / 4096 / g.stripePages.toNat % g.regionCount.toNat := by
    intro a; rw [dramRegionFor_toNat h, regionOf, Nat.pow_add, ← Nat.div_div_eq_div_mul, hP, hR]
  have hpg : ∀ a : W, (dramStripePageFor g a).toNat = a.toNat / 4096 % g.stripePages.toNat := by
    intro a; rw [dramStripePageFor_toNat h, hP]
  obtain ⟨q, hq⟩ : g.regionCount.toNat * g.stripeSize.toNat ∣ g.dramSize.toNat := by
    rw [h.regionCount, h.stripeSize, h.dramSize, ← Nat.pow_add]; exact Nat.pow_dvd_pow 2 (by have := h.fits; omega)
  have hRSpos : 0 < g.regionCount.toNat * g.stripeSize.toNat := Nat.mul_pos hRpos (by rw [hS]; exact Nat.mul_pos hPpos (by decide))
  have hqq : g.dramSize.toNat / (g.regionCount.toNat * g.stripeSize.toNat) = q := by rw [hq, Nat.mul_div_cancel_left _ hRSpos]
  have hdl := h.dram_le
  constructor
  · intro a ha
    rw [hst, hrg, hpg, hqq]
    refine ⟨?_, Nat.mod_lt _ hRpos, Nat.mod_lt _ hPpos, ?_⟩
    · rw [Nat.div_div_eq_div_mul, Nat.div_div_eq_div_mul, Nat.div_lt_iff_lt_mul (Nat.mul_pos (by decide) (Nat.mul_pos hPpos hRpos))]
      have : q * (4096 * (g.stripePages.toNat * g.regionCount.toNat)) = g.dramSize.toNat := by
        rw [hq, hS]; grind
      omega
    · have e1 := Nat.div_add_mod a.toNat 4096
      have e2 := Nat.div_add_mod (a.toNat / 4096) g.stripePages.toNat
      have e3 := Nat.div_add_mod (a.toNat / 4096 / g.stripePages.toNat) g.regionCount.toNat
      generalize a.toNat / 4096 / g.stripePages.toNat / g.regionCount.toNat = s at *
      generalize a.toNat / 4096 / g.stripePages.toNat % g.regionCount.toNat = r at *
      generalize a.toNat / 4096 / g.stripePages.toNat = t at *
      generalize a.toNat / 4096 % g.stripePages.toNat = p at *
      rw [hS]
      have e4 : s * (g.regionCount.toNat * (g.stripePages.toNat * 4096)) + r * (g.stripePages.toNat * 4096) =
          4096 * (g.stripePages.toNat * t) := by
        rw [← e3]; grind
      rw [e4]; omega
  · intro s r p o hs hr hp ho
    rw [hqq] at hs
    have hx : s * (g.regionCount.toNat * g.stripeSize.toNat) + r * g.stripeSize.toNat + p * 4096 + o =
        4096 * (g.stripePages.toNat * (g.regionCount.toNat * s + r) + p) + o := by
      rw [hS]; grind
    have hlt : s * (g.regionCount.toNat * g.stripeSize.toNat) + r * g.stripeSize.toNat + p * 4096 + o < g.dramSize.toNat := by
      have h1 : (s + 1) * (g.regionCount.toNat * g.stripeSize.toNat) ≤ g.dramSize.toNat := by
        rw [hq, Nat.mul_comm (g.regionCount.toNat * g.stripeSize.toNat)]; exact Nat.mul_le_mul_right _ hs
      have h2 : (r + 1) * g.stripeSize.toNat ≤ g.regionCount.toNat * g.stripeSize.toNat := Nat.mul_le_mul_right _ hr
      have h3 : (p + 1) * 4096 ≤ g.stripeSize.toNat := by rw [hS]; exact Nat.mul_le_mul_right _ hp
      rw [Nat.add_mul, Nat.one_mul] at h1 h2 h3
      omega
    refine ⟨BitVec.ofNat 64 (s * (g.regionCount.toNat * g.stripeSize.toNat) + r * g.stripeSize.toNat + p * 4096 + o), ?_⟩
    have hn : (BitVec.ofNat 64 (s * (g.regionCount.toNat * g.stripeSize.toNat) + r * g.stripeSize.toNat + p * 4096 + o)).toNat =
        s * (g.regionCount.toNat * g.stripeSize.toNat) + r * g.stripeSize.toNat + p * 4096 + o := by
      rw [BitVec.toNat_ofNat, Nat.mod_eq_of_lt (by omega)]
    rw [hst, hrg, hpg, hn]
    refine ⟨hlt, rfl, ?_⟩
    rw [hx]
    have d1 : (4096 * (g.stripePages.toNat * (g.regionCount.toNat * s + r) + p) + o) / 4096 =
        g.stripePages.toNat * (g.regionCount.toNat * s + r) + p := by omega
    have d2 : (g.stripePages.toNat * (g.regionCount.toNat * s + r) + p) / g.stripePages.toNat = g.regionCount.toNat * s + r := by
      rw [Nat.mul_add_div hPpos, Nat.div_eq_of_lt hp, Nat.add_zero]
    have d3 : (g.regionCount.toNat * s + r) / g.regionCount.toNat = s := by
      rw [Nat.mul_add_div hRpos, Nat.div_eq_of_lt hr, Nat.add_zero]
    rw [d1, d2, d3, Nat.mul_add_mod, Nat.mod_eq_of_lt hr, Nat.mul_add_mod, Nat.mod_eq_of_lt hp]
    refine ⟨rfl, rfl, rfl, by omega⟩

example : boot stripedPlatform zeroMachine = .ok ((booted stripedPlatform).1, (booted stripedPlatform).2) := booted_ok striped_boots

/-! ### C11 -/

/-- The full C11, for a configuration. -/
def C11_statement (g : Cfg) : Prop := ∀ a b : W, a.toNat < g.dramSize.toNat → b.toNat < g.dramSize.toNat →
  dramRegionFor g a = dramRegionFor g b →
  (dramRegionPageFor g a = dramRegionPageFor g b ↔ a.toNat / 4096 = b.toNat / 4096)

/-- It is false on a booted multi-stripe machine: the shift amount has the wrong sign, and different stripes
get the same index. -/
theorem C11_statement_false : ∃ p m g m', p.Sane ∧ boot p m = .ok (g, m') ∧ ¬ C11_statement g := by
  refine ⟨_, _, _, _, manyStripes_sane, booted_ok manyStripes_boots, fun h => ?_⟩
  have := h 0 0x8000 (by set_option maxRecDepth 100000 in decide +kernel) (by set_option maxRecDepth 100000 in decide +kernel)
    (by set_option maxRecDepth 100000 in decide +kernel)
  have h2 := this.1 (by set_option maxRecDepth 100000 in decide +kernel)
  revert h2; decide

/-- The page index of an address in a single-stripe configuration. -/
theorem dramRegionPageFor_single {g : Cfg} (h : g.WF) (hs : g.SingleStripe) (hz : g.ShiftOk) (a : W) (ha : a.toNat < g.dramSize.toNat) :
    dramRegionPageFor g a = dramStripePageFor g a := by
  have h0 : dramStripeFor g a = 0 := by
    rw [W.eq_iff, dramStripeFor_toNat h, ← hs, Nat.div_eq_of_lt (by rw [← h.dramSize]; exact ha)]; rfl
  have h1 : shlC g 0 (g.regionShift - g.stripeShift) = 0 := by
    unfold shlC; split
    · simp
    · exact hz _
  rw [dramRegionPageFor, h0, h1]; simp

/-- C11 for regions of a single stripe (where the shifted stripe number is 0), on platforms where an
out-of-range shift of 0 is 0. -/
theorem C11_page_index_unique_partial {g : Cfg} (h : g.WF) (hs : g.SingleStripe) (hz : g.ShiftOk) : C11_statement g := by
  intro a b ha hb hr
  rw [dramRegionPageFor_single h hs hz a ha, dramRegionPageFor_single h hs hz b hb, W.eq_iff, dramStripePageFor_toNat h, dramStripePageFor_toNat h]
  rw [W.eq_iff, dramRegionFor_toNat h, dramRegionFor_toNat h, regionOf, regionOf, Nat.pow_add, ← Nat.div_div_eq_div_mul, ← Nat.div_div_eq_div_mul] at hr
  have small : ∀ x : W, x.toNat < g.dramSize.toNat → x.toNat / 2 ^ 12 / 2 ^ g.sp < 2 ^ g.rb := by
    intro x hx
    rw [Nat.div_div_eq_div_mul, ← Nat.pow_add, Nat.div_lt_iff_lt_mul (Nat.two_pow_pos _), ← Nat.pow_add, Nat.add_comm g.rb, ← hs, ← h.dramSize]
    exact hx
  rw [Nat.mod_eq_of_lt (small a ha), Nat.mod_eq_of_lt (small b hb)] at hr
  constructor
  · intro heq
    have e1 := Nat.div_add_mod (a.toNat / 2 ^ 12) (2 ^ g.sp)
    have e2 := Nat.div_add_mod (b.toNat / 2 ^ 12) (2 ^ g.sp)
    rw [hr, heq, e2] at e1
    exact e1.symm
  · intro heq
    rw [show (4096 : Nat) = 2 ^ 12 from rfl] at heq
    rw [heq]

theorem toy_single : (booted toyPlatform).1.SingleStripe := by
  unfold Cfg.SingleStripe; set_option maxRecDepth 100000 in decide +kernel
theorem boot_oobShl {p : Platform} {m m' : Machine} {g : Cfg} (h : boot p m = .ok (g, m')) : g.oobShl = p.oobShl := by
  obtain ⟨g0, s, m1, top, h0, -, -, -, hg, -⟩ := boot_ok h
  obtain ⟨lb, sb, -, -, -, -, -, -, -, -, -, -, -, -, -, -, -, -, -, -, -, -, ho⟩ := bootInitDramRegions_ok h0
  simp only [hg, bl_oobShl, ho]
theorem toy_shiftOk : (booted toyPlatform).1.ShiftOk := by
  intro n
  rw [boot_oobShl (booted_ok toy_boots)]
  simp [toyPlatform]

example : C11_statement (booted toyPlatform).1 := C11_page_index_unique_partial toy_wf toy_single toy_shiftOk

/-! ### C14 -/

/-- C14. On every booted machine the page map fits in the pages reserved for it, which lie in the first
stripe of the region, and no smaller number of pages would hold it. -/
theorem C14_metadata_map {p : Platform} {m m' : Machine} {g : Cfg} (h : boot p m = .ok (g, m')) :
    g.metaPages.toNat * 8 ≤ g.metaStart.toNat * 4096 ∧ g.metaStart.toNat ≤ g.stripePages.toNat ∧
    ∀ n : Nat, g.metaPages.toNat * 8 ≤ n * 4096 → g.metaStart.toNat ≤ n := by
  obtain ⟨g0, s, m1, top, h0, -, htop, hle, hg, -⟩ := boot_ok h
  obtain ⟨lb, sb, hlb, hsb, hgt, -, -, -, -, hrs, hrs31, hs31, hrb31, hss, hsz, hspg, hrc, -, -, -, -, hds, -⟩ := bootInitDramRegions_ok h0
  have e1 : g.metaPages = (bootInitMetadata g0).metaPages := by simp only [hg, bl_metaPages]
  have e2 : g.metaStart = (bootInitMetadata g0).metaStart := by simp only [hg, bl_metaStart]
  have e3 : g.stripePages = g0.stripePages := by simp only [hg, bl_stripePages]
  have hrsn : g0.regionShift.toNat = 12 + s.toNat := by
    rw [hrs, BitVec.toNat_add, show (12 : W).toNat = 12 from rfl]; omega
  have hshift : (g0.stripeShift - g0.regionShift + BitVec.ofNat 64 pageShift).toNat = lb + sb := by
    rw [hss, BitVec.toNat_add, BitVec.toNat_sub, BitVec.toNat_add, hrsn, pageShift, BitVec.toNat_ofNat, BitVec.toNat_ofNat]; omega
  have hS : g0.stripeSize.toNat = 4096 * g0.stripePages.toNat := by rw [hsz, hspg, hrsn, Nat.pow_add]
  have hS30 : g0.stripeSize.toNat ≤ 2 ^ 30 := by rw [hsz]; exact Nat.pow_le_pow_right (by decide) (by omega)
  have hpg : (g0.dramSize >>> (lb + sb)).toNat < 2 ^ 51 := by
    rw [BitVec.toNat_ushiftRight, Nat.shiftRight_eq_div_pow, Nat.div_lt_iff_lt_mul (Nat.two_pow_pos _)]
    have h1 := g0.dramSize.isLt
    have h2 : 2 ^ 13 ≤ 2 ^ (lb + sb) := Nat.pow_le_pow_right (by decide) (by omega)
    have h3 : 2 ^ 51 * 2 ^ 13 ≤ 2 ^ 51 * 2 ^ (lb + sb) := Nat.mul_le_mul_left _ h2
    omega
  rw [e1, e2, e3]
  unfold bootInitMetadata
  simp only [hshift]
  have hmap : (g0.dramSize >>> (lb + sb) * 8).toNat = (g0.dramSize >>> (lb + sb)).toNat * 8 := by
    rw [BitVec.toNat_mul, show (8 : W).toNat = 8 from rfl]; omega
  split
  · simp only
    rw [pagesNeededFor_toNat _ (by omega), BitVec.toNat_udiv, show (8 : W).toNat = 8 from rfl]
    refine ⟨by omega, by omega, fun n => by omega⟩
  · rename_i hbig
    have hbig : ¬ g0.stripeSize < g0.dramSize >>> (lb + sb) * 8 := hbig
    rw [W.lt_iff, hmap] at hbig
    simp only
    rw [pagesNeededFor_toNat _ (by omega), hmap]
    refine ⟨by omega, by omega, fun n => by omega⟩

example : (booted toyPlatform).1.metaPages.toNat = 8 ∧ (booted toyPlatform).1.metaStart.toNat = 1 := by
  set_option maxRecDepth 100000 in decide +kernel

end Sanctum
