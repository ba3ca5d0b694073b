import Verif.Lemmas.Geom
/-
A successful boot on a sane platform yields a well-formed configuration.
-/
namespace Sanctum

theorem boot_bind_ok {α β : Type} {x : Boot α} {f : α → Boot β} {b : β} (h : (x >>= f) = .ok b) :
    ∃ a, x = .ok a ∧ f a = .ok b := by
  cases x with
  | ok a => exact ⟨a, rfl, h⟩
  | panic => cases h
  | ub => cases h
  | fault => cases h

theorem bootShl_ok {n v : W} (h : bootShl n = .ok v) : n.toNat < 31 ∧ v.toNat = 2 ^ n.toNat := by
  unfold bootShl intShl1 at h
  by_cases hn : n.toNat < 31
  · rw [if_pos hn] at h
    injection h with h
    refine ⟨hn, ?_⟩
    rw [← h, BitVec.toNat_ofNat, Nat.mod_eq_of_lt (Nat.pow_lt_pow_right (by decide) (by omega))]
  · rw [if_neg hn] at h; cases h

/-- What the checks of `boot_init_dram_regions` establish. -/
theorem bootInitDramRegions_ok {p : Platform} {g0 : Cfg} {s : W} (h : bootInitDramRegions p = .ok (g0, s)) :
    ∃ lb sb : Nat, lb < 31 ∧ sb < 31 ∧ 12 < lb + sb ∧
      (p.lineSize (p.cacheLevels.toNat - 1)).toNat = 2 ^ lb ∧ (p.setCount (p.cacheLevels.toNat - 1)).toNat = 2 ^ sb ∧
      (let sp0 := addressBitsFor p.dramSize - BitVec.ofNat 64 (lb + sb)
       s = (if sp0 > p.maxShift then p.maxShift else sp0)) ∧
      p.minShift.toNat ≤ s.toNat ∧
      g0.regionShift = 12 + s ∧ g0.regionShift.toNat < 31 ∧ s.toNat < 31 ∧ lb + sb - 12 < 31 ∧
      g0.stripeShift = g0.regionShift + BitVec.ofNat 64 (lb + sb - 12) ∧
      g0.stripeSize.toNat = 2 ^ g0.regionShift.toNat ∧ g0.stripePages.toNat = 2 ^ s.toNat ∧
      g0.regionCount.toNat = 2 ^ (lb + sb - 12) ∧
      g0.stripePageMask = (g0.stripePages - 1) <<< 12 ∧
      g0.regionMask = (g0.regionCount - 1) <<< g0.regionShift.toNat ∧
      g0.stripeMask = ((p.dramSize - 1) >>> g0.stripeShift.toNat) <<< g0.stripeShift.toNat ∧
      g0.bitmapWords = (g0.regionCount + 64 - 1) / 64 ∧ g0.dramSize = p.dramSize ∧ g0.oobShl = p.oobShl := by
  unfold bootInitDramRegions at h
  simp only at h
  split at h
  · cases h
  split at h
  · cases h
  obtain ⟨l, hl, h⟩ := boot_bind_ok h
  split at h
  · cases h
  rename_i hlb
  obtain ⟨sc, hsc, h⟩ := boot_bind_ok h
  split at h
  · cases h
  rename_i hsb
  split at h
  · cases h
  rename_i hcb
  generalize hspv : (if addressBitsFor p.dramSize - (addressBitsFor (p.setCount (p.cacheLevels.toNat - 1)) +
    addressBitsFor (p.lineSize (p.cacheLevels.toNat - 1))) > p.maxShift then p.maxShift else
    addressBitsFor p.dramSize - (addressBitsFor (p.setCount (p.cacheLevels.toNat - 1)) +
    addressBitsFor (p.lineSize (p.cacheLevels.toNat - 1)))) = spv at h
  split at h
  · cases h
  rename_i hmin
  obtain ⟨ss, hss, h⟩ := boot_bind_ok h
  obtain ⟨spg, hspg, h⟩ := boot_bind_ok h
  obtain ⟨rc, hrc, h⟩ := boot_bind_ok h
  have hll := bootShl_ok hl
  have hscc := bootShl_ok hsc
  have hsss := bootShl_ok hss
  have hspgg := bootShl_ok hspg
  have hrcc := bootShl_ok hrc
  simp only [ne_eq, Decidable.not_not] at hlb hsb
  rw [← hlb] at hll
  rw [← hsb] at hscc
  injection h with h
  obtain ⟨hg, hs⟩ := Prod.mk.inj h
  generalize hLb : addressBitsFor (p.lineSize (p.cacheLevels.toNat - 1)) = Lb at *
  generalize hSb : addressBitsFor (p.setCount (p.cacheLevels.toNat - 1)) = Sb at *
  have hsum : (Sb + Lb).toNat = Lb.toNat + Sb.toNat := by rw [BitVec.toNat_add]; omega
  have hof : BitVec.ofNat 64 (Lb.toNat + Sb.toNat) = Sb + Lb := by
    rw [W.eq_iff, hsum, BitVec.toNat_ofNat]; omega
  have hgt : 12 < Lb.toNat + Sb.toNat := by
    rw [W.le_iff, hsum] at hcb
    simp only [pageShift, BitVec.toNat_ofNat] at hcb; omega
  have hsub : (Sb + Lb - BitVec.ofNat 64 pageShift).toNat = Lb.toNat + Sb.toNat - 12 := by
    rw [BitVec.toNat_sub, hsum]
    simp only [pageShift, BitVec.toNat_ofNat]; omega
  have hof2 : BitVec.ofNat 64 (Lb.toNat + Sb.toNat - 12) = Sb + Lb - BitVec.ofNat 64 pageShift := by
    rw [W.eq_iff, hsub, BitVec.toNat_ofNat]; omega
  rw [hsub] at hrcc
  rw [hs] at hsss hspgg hg
  refine ⟨Lb.toNat, Sb.toNat, hll.1, hscc.1, hgt, hll.2, hscc.2, ?_, ?_, ?_⟩
  · simp only [hof]; rw [hspv]; exact hs.symm
  · rw [hs, W.lt_iff] at hmin; omega
  · subst hg
    rw [hof2]
    refine ⟨rfl, hsss.1, hspgg.1, hrcc.1, rfl, hsss.2, hspgg.2, hrcc.2, rfl, rfl, rfl, rfl, rfl, rfl⟩

theorem bootRun_ok {g : Cfg} {p : Prog Unit} {m m' : Machine} (h : bootRun g p m = .ok m') : run g 0 p m = some ((), m') := by
  unfold bootRun at h
  split at h
  · rename_i heq; injection h with h; subst h; exact heq
  · cases h

section layout
variable (p : Platform) (g : Cfg)
theorem bl_dramSize : (bootLayout p (bootInitMetadata g)).dramSize = g.dramSize := by
  unfold bootLayout bootInitMetadata; simp only; split <;> rfl
theorem bl_regionShift : (bootLayout p (bootInitMetadata g)).regionShift = g.regionShift := by
  unfold bootLayout bootInitMetadata; simp only; split <;> rfl
theorem bl_stripeShift : (bootLayout p (bootInitMetadata g)).stripeShift = g.stripeShift := by
  unfold bootLayout bootInitMetadata; simp only; split <;> rfl
theorem bl_stripePageMask : (bootLayout p (bootInitMetadata g)).stripePageMask = g.stripePageMask := by
  unfold bootLayout bootInitMetadata; simp only; split <;> rfl
theorem bl_regionMask : (bootLayout p (bootInitMetadata g)).regionMask = g.regionMask := by
  unfold bootLayout bootInitMetadata; simp only; split <;> rfl
theorem bl_stripeMask : (bootLayout p (bootInitMetadata g)).stripeMask = g.stripeMask := by
  unfold bootLayout bootInitMetadata; simp only; split <;> rfl
theorem bl_regionCount : (bootLayout p (bootInitMetadata g)).regionCount = g.regionCount := by
  unfold bootLayout bootInitMetadata; simp only; split <;> rfl
theorem bl_stripeSize : (bootLayout p (bootInitMetadata g)).stripeSize = g.stripeSize := by
  unfold bootLayout bootInitMetadata; simp only; split <;> rfl
theorem bl_stripePages : (bootLayout p (bootInitMetadata g)).stripePages = g.stripePages := by
  unfold bootLayout bootInitMetadata; simp only; split <;> rfl
theorem bl_bitmapWords : (bootLayout p (bootInitMetadata g)).bitmapWords = g.bitmapWords := by
  unfold bootLayout bootInitMetadata; simp only; split <;> rfl
theorem bl_oobShl : (bootLayout p (bootInitMetadata g)).oobShl = g.oobShl := by
  unfold bootLayout bootInitMetadata; simp only; split <;> rfl
theorem bl_coreCount : (bootLayout p g).coreCount = p.coreCount := rfl
theorem bl_coreBase : (bootLayout p g).coreBase = 0 := rfl
theorem bl_regionBase : (bootLayout p g).regionBase = 0 + p.coreCount * coreInfoSize := rfl
theorem bl_regionsBase : (bootLayout p g).regionsBase = (bootLayout p g).regionBase + g.regionCount * regionInfoSize := rfl
theorem bl_osBitmap : (bootLayout p g).osBitmap = (bootLayout p g).regionsBase + 8 := rfl
theorem bl_top : (bootLayout p g).monitorTop = (bootLayout p g).osBitmap + g.bitmapWords * 8 := rfl
theorem bm_regionCount : (bootInitMetadata g).regionCount = g.regionCount := by
  unfold bootInitMetadata; simp only; split <;> rfl
theorem bm_bitmapWords : (bootInitMetadata g).bitmapWords = g.bitmapWords := by
  unfold bootInitMetadata; simp only; split <;> rfl
theorem bl_metaPages : (bootLayout p g).metaPages = g.metaPages := rfl
theorem bl_metaStart : (bootLayout p g).metaStart = g.metaStart := rfl
end layout

theorem boot_ok {p : Platform} {m m' : Machine} {g : Cfg} (h : boot p m = .ok (g, m')) :
    ∃ g0 s m1 top, bootInitDramRegions p = .ok (g0, s) ∧
      run (bootLayout p (bootInitMetadata g0)) 0
        (do act_ (.setCacheShift s); bootArrays (bootLayout p (bootInitMetadata g0))) m = some ((), m1) ∧
      ceilPowerOfTwo (bootLayout p (bootInitMetadata g0)).monitorTop = some top ∧
      top.toNat ≤ g0.stripeSize.toNat ∧ g = { bootLayout p (bootInitMetadata g0) with monitorTop := top } ∧
      run g 0 (bootProtection g top) m1 = some ((), m') := by
  unfold boot at h
  obtain ⟨⟨g0, s⟩, h0, h⟩ := boot_bind_ok h
  simp only at h
  obtain ⟨m1, h1, h⟩ := boot_bind_ok h
  split at h
  · cases h
  rename_i top htop
  split at h
  · cases h
  rename_i hle
  obtain ⟨m2, h2, h⟩ := boot_bind_ok h
  injection h with h
  obtain ⟨rfl, rfl⟩ := Prod.mk.inj h
  refine ⟨g0, s, m1, top, h0, bootRun_ok h1, htop, ?_, rfl, bootRun_ok h2⟩
  rw [bl_stripeSize] at hle
  have : ¬ g0.stripeSize < top := hle
  rw [W.lt_iff] at this; omega

/-- A successful boot on a sane platform yields a well-formed configuration. -/
theorem boot_wf {p : Platform} (hp : p.Sane) {m m' : Machine} {g : Cfg} (h : boot p m = .ok (g, m')) : g.WF := by
  obtain ⟨g0, s, m1, top, h0, -, htop, hle, hg, -⟩ := boot_ok h
  obtain ⟨lb, sb, hlb, hsb, hgt, hline, hset, hs, -, hrs, hrs31, hs31, hrb31, hss, hsz, hspg, hrc, hspm, hrm, hsm, hbw, hds, -⟩ :=
    bootInitDramRegions_ok h0
  obtain ⟨⟨d, hd63, hd⟩, hcache, hc1, hc2⟩ := hp
  rw [hline, hset, hd, ← Nat.pow_add] at hcache
  have hcd : lb + sb ≤ d := (Nat.pow_le_pow_iff_right (by decide : 1 < 2)).1 hcache
  have hab : (addressBitsFor p.dramSize).toNat = d := addressBitsFor_pow _ _ hd
  have hsp0 : (addressBitsFor p.dramSize - BitVec.ofNat 64 (lb + sb)).toNat = d - (lb + sb) := by
    rw [BitVec.toNat_sub, hab, BitVec.toNat_ofNat]; omega
  have hsle : s.toNat ≤ d - (lb + sb) := by
    simp only at hs
    rw [hs]; split
    · rename_i hlt
      have : p.maxShift < addressBitsFor p.dramSize - BitVec.ofNat 64 (lb + sb) := hlt
      rw [W.lt_iff, hsp0] at this; omega
    · rw [hsp0]; omega
  have hrsn : g0.regionShift.toNat = 12 + s.toNat := by
    rw [hrs, BitVec.toNat_add, show (12 : W).toNat = 12 from rfl]; omega
  have hssn : g0.stripeShift.toNat = 12 + s.toNat + (lb + sb - 12) := by
    rw [hss, BitVec.toNat_add, hrsn, BitVec.toNat_ofNat]; omega
  -- projections of the final configuration
  have e1 : g.dramSize = p.dramSize := by
    simp only [hg, bl_dramSize, hds]
  have e2 : g.regionShift = g0.regionShift := by
    simp only [hg, bl_regionShift]
  have e3 : g.stripeShift = g0.stripeShift := by
    simp only [hg, bl_stripeShift]
  have e4 : g.stripePageMask = g0.stripePageMask := by
    simp only [hg, bl_stripePageMask]
  have e5 : g.regionMask = g0.regionMask := by
    simp only [hg, bl_regionMask]
  have e6 : g.stripeMask = g0.stripeMask := by
    simp only [hg, bl_stripeMask]
  have e7 : g.regionCount = g0.regionCount := by
    simp only [hg, bl_regionCount]
  have e8 : g.stripeSize = g0.stripeSize := by
    simp only [hg, bl_stripeSize]
  have e9 : g.stripePages = g0.stripePages := by
    simp only [hg, bl_stripePages]
  have e10 : g.bitmapWords = g0.bitmapWords := by
    simp only [hg, bl_bitmapWords]
  have e11 : g.coreCount = p.coreCount := by simp only [hg, bl_coreCount]
  have e12 : g.coreBase = 0 := by simp only [hg, bl_coreBase]
  have e13 : g.regionBase = 0 + p.coreCount * coreInfoSize := by simp only [hg, bl_regionBase]
  have e14 : g.regionsBase = g.regionBase + g.regionCount * regionInfoSize := by
    rw [e7, ← bm_regionCount, hg]; simp only [bl_regionsBase]
  have e15 : g.osBitmap = g.regionsBase + 8 := by simp only [hg, bl_osBitmap]
  have e16 : (bootLayout p (bootInitMetadata g0)).monitorTop = g.osBitmap + g.bitmapWords * 8 := by
    rw [e10, ← bm_bitmapWords, hg]; simp only [bl_top]
  have e17 : g.monitorTop = top := by rw [hg]
  have hsp : g.sp = s.toNat := by rw [Cfg.sp, e2, hrsn]; omega
  have hrb : g.rb = lb + sb - 12 := by rw [Cfg.rb, e3, e2, hrsn, hssn]; omega
  have hdd : g.d = d := by rw [Cfg.d, e1, hd, Nat.log2_two_pow]
  have hreg : g.regions = 2 ^ g.rb := by rw [Cfg.regions, e7, hrc, hrb]
  have hrc30 : g.regions ≤ 2 ^ 30 := by
    rw [hreg]; exact Nat.pow_le_pow_right (by decide) (by omega)
  have hregn : g.regionCount.toNat = g.regions := rfl
  have hrcpos : 1 ≤ g.regions := by rw [hreg]; exact Nat.two_pow_pos _
  have hbwn : g.bitmapWords.toNat = (2 ^ g.rb + 63) / 64 := by
    rw [e10, hbw, BitVec.toNat_udiv, BitVec.toNat_sub, BitVec.toNat_add, ← e7, hregn, ← hreg, show (64 : W).toNat = 64 from rfl,
      show (1 : W).toNat = 1 from rfl]
    rw [show (2 ^ 64 - 1 + (g.regions + 64) % 2 ^ 64) % 2 ^ 64 = g.regions + 63 by omega]
  have hbase : g.regionBase.toNat = 32 * g.cores := by
    rw [e13, BitVec.toNat_add, BitVec.toNat_mul, coreInfoSize, Cfg.cores, e11, show (32 : W).toNat = 32 from rfl,
      show (0 : W).toNat = 0 from rfl]; omega
  have hcores : g.cores = p.coreCount.toNat := by rw [Cfg.cores, e11]
  have hbases : g.regionsBase.toNat = g.regionBase.toNat + 40 * g.regions := by
    rw [e14, BitVec.toNat_add, BitVec.toNat_mul, hregn, regionInfoSize, show (40 : W).toNat = 40 from rfl]; omega
  have hos : g.osBitmap.toNat = g.regionsBase.toNat + 8 := by
    rw [e15, BitVec.toNat_add, show (8 : W).toNat = 8 from rfl]; omega
  have htopn : (bootLayout p (bootInitMetadata g0)).monitorTop.toNat = g.osBitmap.toNat + 8 * g.bitmapWords.toNat := by
    rw [e16, BitVec.toNat_add, BitVec.toNat_mul, show (8 : W).toNat = 8 from rfl]
    rw [← hreg] at hbwn; omega
  obtain ⟨htl, htp⟩ : (addressBitsFor (bootLayout p (bootInitMetadata g0)).monitorTop).toNat < 31 ∧
      top.toNat = 2 ^ (addressBitsFor (bootLayout p (bootInitMetadata g0)).monitorTop).toNat := by
    apply bootShl_ok
    unfold bootShl; rw [ceilPowerOfTwo] at htop; rw [htop]
  have hge := (addressBitsFor_le_iff (bootLayout p (bootInitMetadata g0)).monitorTop (by omega) _).1 (Nat.le_refl _)
  rw [← htp, htopn] at hge
  -- metadata
  have hmeta : g.metaPages.toNat = min (2 ^ (g.d - g.rb - 12)) (2 ^ (9 + g.sp)) ∧
      g.metaStart.toNat = (8 * g.metaPages.toNat + 4095) / 4096 := by
    have hshift : (g0.stripeShift - g0.regionShift + BitVec.ofNat 64 pageShift).toNat = g.rb + 12 := by
      rw [BitVec.toNat_add, BitVec.toNat_sub, hssn, hrsn, hrb, pageShift, BitVec.toNat_ofNat]; omega
    have hpages : (g0.dramSize >>> (g0.stripeShift - g0.regionShift + BitVec.ofNat 64 pageShift).toNat).toNat = 2 ^ (g.d - g.rb - 12) := by
      rw [hshift, hds, BitVec.toNat_ushiftRight, hd, Nat.shiftRight_eq_div_pow, Nat.pow_div (by omega) (by decide), hdd,
        show d - (g.rb + 12) = d - g.rb - 12 by omega]
    have hp2 : 2 ^ (g.d - g.rb - 12) ≤ 2 ^ 50 := Nat.pow_le_pow_right (by decide) (by omega)
    have hmap : ((g0.dramSize >>> (g0.stripeShift - g0.regionShift + BitVec.ofNat 64 pageShift).toNat) * 8).toNat
        = 2 ^ (g.d - g.rb - 12) * 8 := by
      rw [BitVec.toNat_mul, hpages, show (8 : W).toNat = 8 from rfl]; omega
    have hstr : g0.stripeSize.toNat = 8 * 2 ^ (9 + g.sp) := by
      rw [hsz, hrsn, hsp, show 12 + s.toNat = 3 + (9 + s.toNat) by omega, Nat.pow_add]
    have hstr30 : g0.stripeSize.toNat ≤ 2 ^ 30 := by
      rw [hsz]; exact Nat.pow_le_pow_right (by decide) (by omega)
    have e18 : g.metaPages = (bootInitMetadata g0).metaPages := by simp only [hg, bl_metaPages]
    have e19 : g.metaStart = (bootInitMetadata g0).metaStart := by simp only [hg, bl_metaStart]
    rw [e18, e19]
    unfold bootInitMetadata
    simp only
    split
    · rename_i hbig
      have hbig : g0.stripeSize < (g0.dramSize >>> (g0.stripeShift - g0.regionShift + BitVec.ofNat 64 pageShift).toNat) * 8 := hbig
      rw [W.lt_iff, hmap, hstr] at hbig
      constructor
      · rw [BitVec.toNat_udiv, hstr, show (8 : W).toNat = 8 from rfl]; omega
      · rw [pagesNeededFor_toNat _ (by omega), BitVec.toNat_udiv, hstr, show (8 : W).toNat = 8 from rfl,
          Nat.mul_div_cancel_left _ (by decide)]
    · rename_i hbig
      have hbig : ¬ g0.stripeSize < (g0.dramSize >>> (g0.stripeShift - g0.regionShift + BitVec.ofNat 64 pageShift).toNat) * 8 := hbig
      rw [W.lt_iff, hmap, hstr] at hbig
      constructor
      · rw [hpages]; omega
      · rw [pagesNeededFor_toNat _ (by omega), hmap, hpages, Nat.mul_comm]
  have hsub1 : ∀ x : W, ∀ k, x.toNat = 2 ^ k → (x - 1).toNat = 2 ^ k - 1 := by
    intro x k hx; rw [sub_one_toNat _ (by rw [hx]; exact Nat.two_pow_pos k), hx]
  have hmul_lt : ∀ n k, n + k ≤ 63 → (2 ^ n - 1) * 2 ^ k < 2 ^ 64 := by
    intro n k hnk
    have h1 : (2 ^ n - 1) * 2 ^ k ≤ 2 ^ n * 2 ^ k := Nat.mul_le_mul_right _ (Nat.sub_le _ _)
    rw [← Nat.pow_add] at h1
    have h2 : 2 ^ (n + k) ≤ 2 ^ 63 := Nat.pow_le_pow_right (by decide) hnk
    omega
  refine
    { d_le := by omega
      rb_pos := by omega
      rb_lt := by omega
      sp_lt := by omega
      fits := by omega
      dramSize := by rw [e1, hdd, hd]
      regionShift := by rw [e2, hrsn, hsp]
      stripeShift := by rw [e3, hssn, hsp, hrb]
      stripePageMask := ?_
      regionMask := ?_
      stripeMask := ?_
      regionCount := hreg
      stripeSize := by rw [e8, hsz, hrsn, hsp]
      stripePages := by rw [e9, hspg, hsp]
      bitmapWords := hbwn
      metaPages := hmeta.1
      metaStart := hmeta.2
      cores_pos := by omega
      coreBase := by rw [e12]; rfl
      regionBase := hbase
      regionsBase := hbases
      osBitmap := hos
      arrays_le := by rw [e17]; exact hge
      top_pow := ⟨_, by rw [e17, htp]⟩
      top_le := by rw [e17, e8]; exact hle }
  · rw [e4, hspm, BitVec.toNat_shiftLeft, hsub1 _ _ hspg, Nat.shiftLeft_eq, hsp, Nat.mod_eq_of_lt (hmul_lt _ _ (by omega))]
  · rw [e5, hrm, BitVec.toNat_shiftLeft, hsub1 _ _ hrc, Nat.shiftLeft_eq, hsp, hrb, hrsn, Nat.mod_eq_of_lt (hmul_lt _ _ (by omega))]
  · rw [e6, hsm, BitVec.toNat_shiftLeft, BitVec.toNat_ushiftRight, hsub1 _ _ hd, Nat.shiftLeft_eq, Nat.shiftRight_eq_div_pow, hssn,
      hdd, hsp, hrb]
    have hpow : 2 ^ d = 2 ^ (12 + s.toNat + (lb + sb - 12)) * 2 ^ (d - (12 + s.toNat + (lb + sb - 12))) := by
      rw [← Nat.pow_add, show 12 + s.toNat + (lb + sb - 12) + (d - (12 + s.toNat + (lb + sb - 12))) = d by omega]
    have hdiv : (2 ^ d - 1) / 2 ^ (12 + s.toNat + (lb + sb - 12)) = 2 ^ (d - (12 + s.toNat + (lb + sb - 12))) - 1 := by
      have hpos := Nat.two_pow_pos (12 + s.toNat + (lb + sb - 12))
      have hpos2 := Nat.two_pow_pos (d - (12 + s.toNat + (lb + sb - 12)))
      generalize 2 ^ (12 + s.toNat + (lb + sb - 12)) = A at *
      generalize 2 ^ (d - (12 + s.toNat + (lb + sb - 12))) = B at *
      rw [hpow, Nat.div_eq_iff hpos]
      have hAB : B * A = A * B := Nat.mul_comm _ _
      have : (B - 1) * A = A * B - A := by rw [Nat.sub_mul, hAB, Nat.one_mul]
      have : A ≤ A * B := Nat.le_mul_of_pos_right _ hpos2
      omega
    rw [hdiv, Nat.mod_eq_of_lt (hmul_lt _ _ (by omega))]

end Sanctum
