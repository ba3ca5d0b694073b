import Verif.Spec.Boot
import Verif.Props.Boot
import Verif.Props.Bits
/-
C80: boot accepts exactly the supported machines.
-/
namespace Sanctum

/-- Every action of the program succeeds, whatever the machine. -/
def Prog.AllOk {α : Type} (g : Cfg) : Prog α → Prop
  | .ret _ => True
  | .op o k => (∀ m, (exec g 0 o m).isSome = true) ∧ ∀ v, (k v).AllOk g
  | .fault => False
  | .diverge => False

theorem Prog.AllOk.run {α : Type} {g : Cfg} {p : Prog α} (h : p.AllOk g) (m : Machine) : ∃ x, run g 0 p m = some x := by
  induction p generalizing m with
  | ret a => exact ⟨_, rfl⟩
  | op o k ih =>
      obtain ⟨h1, h2⟩ := h
      have h1 := h1 m
      cases he : exec g 0 o m with
      | none => rw [he] at h1; cases h1
      | some x =>
          obtain ⟨y, hy⟩ := ih x.1 (h2 x.1) x.2
          exact ⟨y, by rw [Sanctum.run, he]; exact hy⟩
  | fault => exact False.elim h
  | diverge => exact False.elim h

theorem Prog.AllOk.bind {α β : Type} {g : Cfg} {p : Prog α} {f : α → Prog β} (h : p.AllOk g) (hf : ∀ a, (f a).AllOk g) : (p >>= f).AllOk g := by
  induction p with
  | ret a => exact hf a
  | op o k ih => exact ⟨h.1, fun v => ih v (h.2 v)⟩
  | fault => exact False.elim h
  | diverge => exact False.elim h

theorem allOk_load {g : Cfg} {a : W} (h : okAddr g a = true) : (load a).AllOk g :=
  ⟨fun m => by simp only [exec, h]; rfl, fun _ => trivial⟩

theorem allOk_store {g : Cfg} {a : W} (v : W) (h : okAddr g a = true) : (store a v).AllOk g :=
  ⟨fun m => by simp only [exec, h]; rfl, fun _ => trivial⟩

theorem allOk_regionLoop {g : Cfg} {n : Nat} : ∀ {i : W}, g.regionBase.toNat % 8 = 0 → i.toNat + n < 2 ^ 32 →
    g.regionBase.toNat + 40 * (i.toNat + n) ≤ g.dramSize.toNat → (bootRegionLoop g n i).AllOk g := by
  induction n with
  | zero => intro i _ _ _; exact trivial
  | succ n ih =>
      intro i h1 h2 h3
      have hlt := g.dramSize.isLt
      have e : (regionA g i).toNat = g.regionBase.toNat + 40 * i.toNat := by
        unfold regionA regionInfoSize
        rw [BitVec.toNat_add, BitVec.toNat_mul, show (40 : W).toNat = 40 from rfl]; omega
      have hi : (i + 1).toNat = i.toNat + 1 := by rw [BitVec.toNat_add, show (1 : W).toNat = 1 from rfl]; omega
      have hf : ∀ o : W, o.toNat % 8 = 0 → o.toNat < 40 → okAddr g (regionA g i + o) = true := by
        intro o ho1 ho2
        rw [okAddr_iff, BitVec.toNat_add, e]; omega
      rw [bootRegionLoop]
      refine .bind (allOk_store _ (hf _ (by decide) (by decide))) fun _ => ?_
      refine .bind (allOk_store _ (hf _ (by decide) (by decide))) fun _ => ?_
      refine .bind (allOk_store _ (hf _ (by decide) (by decide))) fun _ => ?_
      refine .bind (allOk_store _ (hf _ (by decide) (by decide))) fun _ => ?_
      refine .bind (allOk_store _ (hf _ (by decide) (by decide))) fun _ => ?_
      exact ih h1 (by omega) (by omega)

theorem allOk_bitmapLoop {g : Cfg} {w n : Nat} : ∀ {i : W}, g.osBitmap.toNat % 8 = 0 → i.toNat + n < 2 ^ 32 →
    i.toNat + n ≤ 64 * w → g.osBitmap.toNat + 8 * w ≤ g.dramSize.toNat → (bootBitmapLoop g n i).AllOk g := by
  induction n with
  | zero => intro i _ _ _ _; exact trivial
  | succ n ih =>
      intro i h1 h2 h3 h4
      have hlt := g.dramSize.isLt
      have hi : (i + 1).toNat = i.toNat + 1 := by rw [BitVec.toNat_add, show (1 : W).toNat = 1 from rfl]; omega
      have ha : okAddr g (g.osBitmap + bitmapOffset i * 8) = true := by
        rw [okAddr_iff]
        unfold bitmapOffset
        rw [BitVec.toNat_add, BitVec.toNat_mul, BitVec.toNat_udiv, show (64 : W).toNat = 64 from rfl, show (8 : W).toNat = 8 from rfl]
        omega
      rw [bootBitmapLoop]
      refine .bind ?_ fun _ => ih h1 (by omega) (by omega) h4
      unfold setBitmapBit
      refine .bind (allOk_load ha) fun w => ?_
      exact allOk_store _ ha

theorem allOk_snapshot {g : Cfg} {n : Nat} : ∀ {a : W}, a.toNat % 8 = 0 → a.toNat + 8 * n ≤ g.dramSize.toNat → (snapshotLoop n a).AllOk g := by
  induction n with
  | zero => intro a _ _; exact trivial
  | succ n ih =>
      intro a h1 h2
      have hlt := g.dramSize.isLt
      have ha : (a + 8).toNat % 8 = 0 ∧ ((a + 8).toNat = a.toNat + 8 ∨ n = 0) := by
        rw [BitVec.toNat_add, show (8 : W).toNat = 8 from rfl]; omega
      rw [snapshotLoop]
      refine .bind (allOk_load (by rw [okAddr_iff]; omega)) fun _ => ?_
      refine .bind ?_ fun _ => trivial
      rcases ha.2 with h | h
      · exact ih ha.1 (by omega)
      · subst h; exact trivial

theorem hasShared_iff (p : Platform) : hasSharedInnerCache p = false ↔ ∀ i, i + 1 < p.cacheLevels.toNat → p.shared i = false := by
  unfold hasSharedInnerCache
  rw [List.any_eq_false]
  constructor
  · intro h i hi
    have := h i (List.mem_range.2 (by omega))
    simp only [Bool.and_eq_true, bne_iff_ne, ne_eq, not_and, Decidable.not_not] at this
    cases hs : p.shared i with
    | false => rfl
    | true => have := this hs; omega
  · intro h i hi
    rw [List.mem_range] at hi
    simp only [Bool.and_eq_true, bne_iff_ne, ne_eq, not_and, Decidable.not_not]
    intro hs
    rcases Nat.lt_or_ge (i + 1) p.cacheLevels.toNat with h1 | h1
    · rw [h i h1] at hs; cases hs
    · omega

theorem bootShl_small {n : W} (h : n.toNat < 31) : ∃ v, bootShl n = .ok v ∧ v.toNat = 2 ^ n.toNat := by
  unfold bootShl intShl1
  rw [if_pos h]
  refine ⟨_, rfl, ?_⟩
  rw [BitVec.toNat_ofNat, Nat.mod_eq_of_lt (Nat.pow_lt_pow_right (by decide) (by omega))]

/-- `n` is the power of two that `address_bits_for` suggests, if it is one. -/
theorem pow_check {n v : W} (hv : v.toNat = 2 ^ (addressBitsFor n).toNat) : n = v ↔ ∃ k, n.toNat = 2 ^ k := by
  constructor
  · intro h; exact ⟨_, by rw [h]; rw [h] at hv; exact hv⟩
  · rintro ⟨k, hk⟩
    rw [W.eq_iff, hv, addressBitsFor_pow _ _ hk, hk]

/-- The conditions of `Supported` that `boot_init_dram_regions` checks. -/
def Platform.Geo (p : Platform) : Prop :=
  (∀ i, i + 1 < p.cacheLevels.toNat → p.shared i = false) ∧ (∃ l, p.line = 2 ^ l) ∧ (∃ s, p.sets = 2 ^ s) ∧ 4096 < p.line * p.sets ∧
    p.minShift.toNat ≤ p.shiftN

theorem shiftN_eq {p : Platform} {d l s : Nat} (hd : p.dramSize.toNat = 2 ^ d) (hl : p.line = 2 ^ l) (hs : p.sets = 2 ^ s) (h : l + s ≤ d) :
    p.shiftN = min (d - (l + s)) p.maxShift.toNat := by
  unfold Platform.shiftN
  rw [hd, hl, hs, ← Nat.pow_add, Nat.pow_div h (by decide), Nat.log2_two_pow]

theorem pow_log {n k : Nat} (h : 4096 * 2 ^ n ≤ 2 ^ (12 + k)) : n ≤ k := by
  rw [show 4096 = 2 ^ 12 from rfl, ← Nat.pow_add] at h
  have := (Nat.pow_le_pow_iff_right (by decide : 1 < 2)).1 h
  omega

theorem boot_ok_bind {α β : Type} (a : α) (f : α → Boot β) : ((Boot.ok a) >>= f) = f a := rfl

theorem init_decide {p : Platform} (hp : p.Sane) (ho : p.Ordinary) :
    (p.Geo ∧ ∃ x, bootInitDramRegions p = .ok x) ∨ (¬ p.Geo ∧ bootInitDramRegions p = .panic) := by
  obtain ⟨⟨d, hd63, hd⟩, hcache, -, -⟩ := hp
  obtain ⟨h1, h2, h3, h4, h5, h6, h7, -, -⟩ := ho
  unfold bootInitDramRegions
  simp only
  rcases Bool.eq_false_or_eq_true (hasSharedInnerCache p) with hs | hs
  · right
    rw [if_pos hs]
    refine ⟨fun h => ?_, rfl⟩
    rw [(hasShared_iff p).2 h.1] at hs; cases hs
  rw [if_neg (by rw [hs]; decide), if_neg (by intro h; rw [h] at h1; exact absurd h1 (by decide))]
  have hline : (p.lineSize (p.cacheLevels.toNat - 1)).toNat = p.line := rfl
  have hsets : (p.setCount (p.cacheLevels.toNat - 1)).toNat = p.sets := rfl
  generalize p.lineSize (p.cacheLevels.toNat - 1) = L at *
  generalize p.setCount (p.cacheLevels.toNat - 1) = S at *
  have hL : (addressBitsFor L).toNat < 31 := by
    have := (addressBitsFor_le_iff L (by omega) 30).2 (by omega); omega
  have hS : (addressBitsFor S).toNat < 31 := by
    have := (addressBitsFor_le_iff S (by omega) 30).2 (by omega); omega
  obtain ⟨v, hv, hv2⟩ := bootShl_small hL
  rw [hv, boot_ok_bind]
  by_cases e1 : L = v
  case neg =>
    right
    rw [if_pos e1]
    refine ⟨fun h => e1 ((pow_check hv2).2 ?_), rfl⟩
    rw [hline]; exact h.2.1
  rw [if_neg (by intro h; exact h e1)]
  obtain ⟨w, hw, hw2⟩ := bootShl_small hS
  rw [hw, boot_ok_bind]
  by_cases e2 : S = w
  case neg =>
    right
    rw [if_pos e2]
    refine ⟨fun h => e2 ((pow_check hw2).2 ?_), rfl⟩
    rw [hsets]; exact h.2.2.1
  rw [if_neg (by intro h; exact h e2)]
  have hLn : p.line = 2 ^ (addressBitsFor L).toNat := by rw [← hline, e1, hv2, ← e1]
  have hSn : p.sets = 2 ^ (addressBitsFor S).toNat := by rw [← hsets, e2, hw2, ← e2]
  generalize addressBitsFor L = lb at *
  generalize addressBitsFor S = sb at *
  have hsum : (sb + lb).toNat = lb.toNat + sb.toNat := by rw [BitVec.toNat_add]; omega
  have hprod : p.line * p.sets = 2 ^ (lb.toNat + sb.toNat) := by rw [hLn, hSn, Nat.pow_add]
  have hcd : lb.toNat + sb.toNat ≤ d := by
    rw [hline, hsets, hprod, hd] at hcache
    exact (Nat.pow_le_pow_iff_right (by decide : 1 < 2)).1 hcache
  have hc42 : lb.toNat + sb.toNat ≤ 42 := by
    rw [hprod] at h6
    exact (Nat.pow_le_pow_iff_right (by decide : 1 < 2)).1 h6
  have hlarge : 4096 < p.line * p.sets ↔ 12 < lb.toNat + sb.toNat := by
    rw [hprod, show 4096 = 2 ^ 12 from rfl]
    exact Nat.pow_lt_pow_iff_right (by decide : 1 < 2)
  have hbits : sb + lb ≤ BitVec.ofNat 64 pageShift ↔ lb.toNat + sb.toNat ≤ 12 := by
    rw [W.le_iff, hsum]; rfl
  by_cases e3 : sb + lb ≤ BitVec.ofNat 64 pageShift
  · right
    rw [if_pos e3]
    refine ⟨fun h => ?_, rfl⟩
    have := hlarge.1 h.2.2.2.1
    have := hbits.1 e3
    omega
  rw [if_neg e3]
  have e3 : 12 < lb.toNat + sb.toNat := by
    rcases Nat.lt_or_ge 12 (lb.toNat + sb.toNat) with h | h
    · exact h
    · exact absurd (hbits.2 h) e3
  have hsp0 : (addressBitsFor p.dramSize - (sb + lb)).toNat = d - (lb.toNat + sb.toNat) := by
    rw [BitVec.toNat_sub, addressBitsFor_pow _ _ hd, hsum]; omega
  have hshift := shiftN_eq hd hLn hSn hcd
  have hsp : (if addressBitsFor p.dramSize - (sb + lb) > p.maxShift then p.maxShift else addressBitsFor p.dramSize - (sb + lb)).toNat = p.shiftN := by
    rw [hshift]
    split
    · rename_i h
      have h : p.maxShift < addressBitsFor p.dramSize - (sb + lb) := h
      rw [W.lt_iff, hsp0] at h; omega
    · rename_i h
      have h : ¬ p.maxShift < addressBitsFor p.dramSize - (sb + lb) := h
      rw [W.lt_iff, hsp0] at h; omega
  generalize (if addressBitsFor p.dramSize - (sb + lb) > p.maxShift then p.maxShift else addressBitsFor p.dramSize - (sb + lb)) = sp at *
  have hs18 : p.shiftN ≤ 18 := pow_log (k := 18) h7
  by_cases e4 : sp < p.minShift
  · right
    rw [if_pos e4]
    refine ⟨fun h => ?_, rfl⟩
    have := h.2.2.2.2
    rw [W.lt_iff] at e4; omega
  rw [if_neg e4]
  rw [W.lt_iff] at e4
  left
  refine ⟨⟨(hasShared_iff p).1 hs, ⟨_, hLn⟩, ⟨_, hSn⟩, hlarge.2 e3, by omega⟩, ?_⟩
  have hrs : (BitVec.ofNat 64 pageShift + sp).toNat < 31 := by
    rw [BitVec.toNat_add]; simp only [pageShift, BitVec.toNat_ofNat]; omega
  have hrb : (sb + lb - BitVec.ofNat 64 pageShift).toNat < 31 := by
    rw [BitVec.toNat_sub, hsum]
    simp only [pageShift, BitVec.toNat_ofNat]; omega
  obtain ⟨a, ha, -⟩ := bootShl_small hrs
  obtain ⟨b, hb, -⟩ := bootShl_small (n := sp) (by omega)
  obtain ⟨c, hc, -⟩ := bootShl_small hrb
  rw [ha, hb, hc]
  exact ⟨_, rfl⟩

theorem init_guards {p : Platform} {x : Cfg × W} (h : bootInitDramRegions p = .ok x) :
    hasSharedInnerCache p = false ∧ p.cacheLevels ≠ 0 := by
  unfold bootInitDramRegions at h
  simp only at h
  split at h
  · cases h
  rename_i h1
  split at h
  · cases h
  rename_i h2
  exact ⟨by cases hh : hasSharedInnerCache p with
    | false => rfl
    | true => exact absurd hh h1, h2⟩

/-- What a successful `boot_init_dram_regions` says about the platform, and the layout that follows. -/
theorem init_facts {p : Platform} (hp : p.Sane) {g0 : Cfg} {s : W} (h : bootInitDramRegions p = .ok (g0, s)) :
    p.Geo ∧ 1 ≤ p.cacheLevels.toNat ∧ 1 ≤ p.line ∧ p.line ≤ 2 ^ 30 ∧ 1 ≤ p.sets ∧ p.sets ≤ 2 ^ 30 ∧ p.line * p.sets ≤ 2 ^ 42 ∧ p.stripeN ≤ 2 ^ 30 ∧
      p.stripeN ≤ p.dramSize.toNat ∧ g0.stripeSize.toNat = p.stripeN ∧ g0.regionCount.toNat = p.regionsN ∧ p.regionsN ≤ 2 ^ 30 ∧
      g0.bitmapWords.toNat = (p.regionsN + 63) / 64 ∧ g0.dramSize = p.dramSize := by
  obtain ⟨lb, sb, hlb, hsb, hgt, hline, hset, hs, hmin, hrs, hrs31, hs31, hrb31, hss, hsz, hspg, hrc, hspm, hrm, hsm, hbw, hds, -⟩ :=
    bootInitDramRegions_ok h
  obtain ⟨hsh, hlev⟩ := init_guards h
  obtain ⟨⟨d, hd63, hd⟩, hcache, hc1, hc2⟩ := hp
  rw [hline, hset, hd, ← Nat.pow_add] at hcache
  have hcd : lb + sb ≤ d := (Nat.pow_le_pow_iff_right (by decide : 1 < 2)).1 hcache
  have hline : p.line = 2 ^ lb := hline
  have hset : p.sets = 2 ^ sb := hset
  have hsp0 : (addressBitsFor p.dramSize - BitVec.ofNat 64 (lb + sb)).toNat = d - (lb + sb) := by
    rw [BitVec.toNat_sub, addressBitsFor_pow _ _ hd, BitVec.toNat_ofNat]; omega
  have hshift := shiftN_eq hd hline hset hcd
  have hsn : s.toNat = p.shiftN := by
    simp only at hs
    rw [hs, hshift]; split
    · rename_i h
      have h : p.maxShift < addressBitsFor p.dramSize - BitVec.ofNat 64 (lb + sb) := h
      rw [W.lt_iff, hsp0] at h; omega
    · rename_i h
      have h : ¬ p.maxShift < addressBitsFor p.dramSize - BitVec.ofNat 64 (lb + sb) := h
      rw [W.lt_iff, hsp0] at h; omega
  have hrsn : g0.regionShift.toNat = 12 + s.toNat := by
    rw [hrs, BitVec.toNat_add, show (12 : W).toNat = 12 from rfl]; omega
  have hprod : p.line * p.sets = 2 ^ (lb + sb) := by rw [hline, hset, Nat.pow_add]
  have hstripe : p.stripeN = 2 ^ (12 + s.toNat) := by
    unfold Platform.stripeN; rw [← hsn, Nat.pow_add]
  have hregs : p.regionsN = 2 ^ (lb + sb - 12) := by
    unfold Platform.regionsN
    rw [hprod, show 4096 = 2 ^ 12 from rfl, Nat.pow_div (by omega) (by decide)]
  have hreg30 : p.regionsN ≤ 2 ^ 30 := by rw [hregs]; exact Nat.pow_le_pow_right (by decide) (by omega)
  refine ⟨⟨(hasShared_iff p).1 hsh, ⟨_, hline⟩, ⟨_, hset⟩, ?_, by omega⟩, ?_, ?_, ?_, ?_, ?_, ?_, ?_, ?_, ?_, ?_, hreg30, ?_, hds⟩
  · rw [hprod]; exact (Nat.pow_lt_pow_iff_right (n := 12) (by decide : 1 < 2)).2 hgt
  · have : p.cacheLevels.toNat ≠ 0 := fun hh => hlev (by rw [W.eq_iff]; exact hh)
    omega
  · rw [hline]; exact Nat.two_pow_pos _
  · rw [hline]; exact Nat.pow_le_pow_right (by decide) (by omega)
  · rw [hset]; exact Nat.two_pow_pos _
  · rw [hset]; exact Nat.pow_le_pow_right (by decide) (by omega)
  · rw [hprod]; exact Nat.pow_le_pow_right (by decide) (by omega)
  · rw [hstripe]; exact Nat.pow_le_pow_right (by decide) (by omega)
  · rw [hstripe, hd]; exact Nat.pow_le_pow_right (by decide) (by omega)
  · rw [hsz, hstripe, hrsn]
  · rw [hrc, hregs]
  · rw [← hregs] at hrc
    rw [hbw, BitVec.toNat_udiv, BitVec.toNat_sub, BitVec.toNat_add, hrc, show (64 : W).toNat = 64 from rfl, show (1 : W).toNat = 1 from rfl]
    rw [show (2 ^ 64 - 1 + (p.regionsN + 64) % 2 ^ 64) % 2 ^ 64 = p.regionsN + 63 by omega]

/-- Where the monitor's arrays go. -/
theorem layout_facts {p : Platform} (hp : p.Sane) {g0 : Cfg} {s : W} (h : bootInitDramRegions p = .ok (g0, s)) {g : Cfg}
    (hg : g = bootLayout p (bootInitMetadata g0)) :
    g.dramSize = p.dramSize ∧ g.regionCount.toNat = p.regionsN ∧ g.bitmapWords.toNat = (p.regionsN + 63) / 64 ∧ g.stripeSize.toNat = p.stripeN ∧
      g.regionBase.toNat = 32 * p.coreCount.toNat ∧ g.regionsBase.toNat = 32 * p.coreCount.toNat + 40 * p.regionsN ∧
      g.osBitmap.toNat = 32 * p.coreCount.toNat + 40 * p.regionsN + 8 ∧ g.monitorTop.toNat = p.monitorN := by
  obtain ⟨-, -, -, -, -, -, -, -, -, hsz, hrc, hr30, hbw, hds⟩ := init_facts hp h
  have hc2 := hp.cores_le
  have e1 : g.dramSize = p.dramSize := by rw [hg, bl_dramSize, hds]
  have e7 : g.regionCount = g0.regionCount := by rw [hg, bl_regionCount]
  have e8 : g.stripeSize = g0.stripeSize := by rw [hg, bl_stripeSize]
  have e10 : g.bitmapWords = g0.bitmapWords := by rw [hg, bl_bitmapWords]
  have e13 : g.regionBase = 0 + p.coreCount * coreInfoSize := by rw [hg, bl_regionBase]
  have e14 : g.regionsBase = g.regionBase + g.regionCount * regionInfoSize := by
    rw [e7, ← bm_regionCount, hg, bl_regionsBase]
  have e15 : g.osBitmap = g.regionsBase + 8 := by rw [hg, bl_osBitmap]
  have e16 : g.monitorTop = g.osBitmap + g.bitmapWords * 8 := by
    rw [e10, ← bm_bitmapWords, hg, bl_top]
  rw [← e7] at hrc
  rw [← e8] at hsz
  rw [← e10] at hbw
  clear hg
  have hbase : g.regionBase.toNat = 32 * p.coreCount.toNat := by
    rw [e13, BitVec.toNat_add, BitVec.toNat_mul, coreInfoSize, show (32 : W).toNat = 32 from rfl, show (0 : W).toNat = 0 from rfl]; omega
  have hbases : g.regionsBase.toNat = 32 * p.coreCount.toNat + 40 * p.regionsN := by
    rw [e14, BitVec.toNat_add, BitVec.toNat_mul, hrc, hbase, regionInfoSize, show (40 : W).toNat = 40 from rfl]; omega
  have hos : g.osBitmap.toNat = 32 * p.coreCount.toNat + 40 * p.regionsN + 8 := by
    rw [e15, BitVec.toNat_add, hbases, show (8 : W).toNat = 8 from rfl]; omega
  refine ⟨e1, hrc, hbw, hsz, hbase, hbases, hos, ?_⟩
  unfold Platform.monitorN
  rw [e16, BitVec.toNat_add, BitVec.toNat_mul, hos, hbw, show (8 : W).toNat = 8 from rfl]; omega

theorem allOk_top {α : Type} {g : Cfg} {t : W} {q : Prog α} (h : q.AllOk g) : q.AllOk { g with monitorTop := t } := by
  induction q with
  | ret a => trivial
  | op o k ih => exact ⟨fun m => by rw [exec_top]; exact h.1 m, fun v => ih v (h.2 v)⟩
  | fault => exact False.elim h
  | diverge => exact False.elim h

theorem allOk_act {g : Cfg} {o : Op} (h : ∀ m, (exec g 0 o m).isSome = true) : (act_ o).AllOk g := ⟨h, fun _ => trivial⟩

theorem bootRun_allOk {g : Cfg} {q : Prog Unit} (h : q.AllOk g) (m : Machine) : ∃ m', bootRun g q m = .ok m' := by
  obtain ⟨⟨u, m'⟩, hm⟩ := h.run m
  exact ⟨m', by unfold bootRun; rw [hm]⟩

theorem allOk_arrays {g : Cfg} {s : W} {r b c : Nat} (hr : g.regionCount.toNat = r) (h30 : r ≤ 2 ^ 30) (h1 : g.regionBase.toNat = 32 * c)
    (h2 : g.regionsBase.toNat = 32 * c + 40 * r) (h3 : g.osBitmap.toNat = 32 * c + 40 * r + 8) (hb : b = (r + 63) / 64)
    (hd : 32 * c + 40 * r + 8 + 8 * b ≤ g.dramSize.toNat) : (do act_ (.setCacheShift s); bootArrays g).AllOk g := by
  refine .bind (allOk_act fun m => rfl) fun _ => ?_
  unfold bootArrays
  refine .bind (allOk_regionLoop (by omega) (by rw [show (0 : W).toNat = 0 from rfl]; omega) (by rw [show (0 : W).toNat = 0 from rfl]; omega)) fun _ => ?_
  refine .bind (allOk_store _ (by rw [okAddr_iff]; omega)) fun _ => ?_
  exact allOk_bitmapLoop (w := b) (by omega) (by rw [show (0 : W).toNat = 0 from rfl]; omega) (by rw [show (0 : W).toNat = 0 from rfl]; omega) (by omega)

theorem allOk_protection {g : Cfg} (top : W) (h1 : g.osBitmap.toNat % 8 = 0) (h2 : g.osBitmap.toNat + 8 * g.bitmapWords.toNat ≤ g.dramSize.toNat) :
    (bootProtection g top).AllOk g := by
  unfold bootProtection
  refine .bind (allOk_act fun m => rfl) fun _ => ?_
  refine .bind (allOk_act fun m => rfl) fun _ => ?_
  refine .bind ?_ fun _ => ?_
  · unfold setDrbMap
    exact .bind (allOk_snapshot h1 h2) fun _ => allOk_act fun m => rfl
  refine .bind (allOk_act fun m => rfl) fun _ => ?_
  refine .bind (allOk_act fun m => rfl) fun _ => ?_
  refine .bind (allOk_act fun m => rfl) fun _ => ?_
  exact allOk_act fun m => rfl

section decision
attribute [local irreducible] bootLayout bootInitMetadata ceilPowerOfTwo bootInitDramRegions

/-- What boot does once the geometry is accepted and the arrays fit in DRAM. -/
theorem tail_decide {p : Platform} (hp : p.Sane) (ho : p.Ordinary) {g0 : Cfg} {s : W} (h0 : bootInitDramRegions p = .ok (g0, s)) (m : Machine) :
    (p.monitorN ≤ p.stripeN ∧ ∃ g m', boot p m = .ok (g, m')) ∨ (p.stripeN < p.monitorN ∧ boot p m = .panic) := by
  obtain ⟨hds, hrc, hbw, hsz, hb1, hb2, hb3, htop⟩ := layout_facts hp h0 rfl
  have hr30 := (init_facts hp h0).2.2.2.2.2.2.2.2.2.2.2.1
  have hdram := ho.monitor_dram
  have hm30 := ho.monitor_le
  have hmon : p.monitorN = 32 * p.coreCount.toNat + 40 * p.regionsN + 8 + 8 * ((p.regionsN + 63) / 64) := rfl
  unfold boot
  rw [h0, boot_ok_bind]
  simp only
  generalize bootLayout p (bootInitMetadata g0) = g at *
  have hA := allOk_arrays (s := s) (g := g) (r := p.regionsN) (c := p.coreCount.toNat) hrc hr30 hb1 hb2 hb3 rfl (by rw [hds]; omega)
  obtain ⟨m1, hm1⟩ := bootRun_allOk hA m
  rw [hm1, boot_ok_bind]
  obtain ⟨top, b, ht, hb, hle, hmin⟩ := (C03_ceil_power_of_two_partial g.monitorTop (by omega)).1 (by omega)
  rw [ht]
  simp only
  have hpow : p.stripeN = 2 ^ (12 + p.shiftN) := by unfold Platform.stripeN; rw [Nat.pow_add]
  by_cases hf : top > g.stripeSize
  · right
    have hf' : g.stripeSize < top := hf
    rw [if_pos hf]
    refine ⟨?_, rfl⟩
    rw [W.lt_iff, hsz, hb] at hf'
    rcases Nat.lt_or_ge p.stripeN p.monitorN with h | h
    · exact h
    · rw [hpow, ← htop] at h
      have := Nat.pow_le_pow_right (n := 2) (by decide) (hmin _ h)
      rw [hpow] at hf'
      omega
  · left
    rw [if_neg hf]
    have hf' : ¬ g.stripeSize < top := hf
    rw [W.lt_iff, hsz, hb] at hf'
    refine ⟨by omega, ?_⟩
    have hP : (bootProtection { g with monitorTop := top } top).AllOk { g with monitorTop := top } :=
      allOk_protection top (by show g.osBitmap.toNat % 8 = 0; omega) (by show g.osBitmap.toNat + 8 * g.bitmapWords.toNat ≤ g.dramSize.toNat; rw [hds]; omega)
    obtain ⟨m2, hm2⟩ := bootRun_allOk hP m1
    rw [hm2]
    exact ⟨_, _, rfl⟩

/-- A machine that boots is supported and ordinary. -/
theorem boots_only {p : Platform} (hp : p.Sane) {m m' : Machine} {g : Cfg} (h : boot p m = .ok (g, m')) : p.Supported ∧ p.Ordinary := by
  obtain ⟨g0, s, m1, top, h0, -, htop, hle, -, -⟩ := boot_ok h
  obtain ⟨hgeo, f1, f2, f3, f4, f5, f6, f7, f8, f9, f10, f11, -, -⟩ := init_facts hp h0
  obtain ⟨-, -, -, -, -, -, -, hmon⟩ := layout_facts hp h0 rfl
  have hge : p.monitorN ≤ top.toNat := by
    have hpos : 1 ≤ p.monitorN := by unfold Platform.monitorN; omega
    obtain ⟨-, hn⟩ := C03_ceil_power_of_two_partial _ (by rw [hmon]; exact hpos)
    obtain ⟨hy, -⟩ := C03_ceil_power_of_two_partial _ (by rw [hmon]; exact hpos)
    rcases Nat.lt_or_ge (2 ^ 30) (bootLayout p (bootInitMetadata g0)).monitorTop.toNat with h | h
    · rw [hn h] at htop; cases htop
    · obtain ⟨v, b, e1, e2, e3, -⟩ := hy h
      rw [e1] at htop
      injection htop with htop
      rw [← htop, e2, ← hmon]; exact e3
  have hfit : p.monitorN ≤ p.stripeN := by omega
  exact ⟨⟨hgeo.1, hgeo.2.1, hgeo.2.2.1, hgeo.2.2.2.1, hgeo.2.2.2.2, hfit⟩, ⟨f1, f2, f3, f4, f5, f6, f7, by omega, by omega⟩⟩

/-- C80, which machines boot: those the design supports, as long as the code's `int` arithmetic is defined on their sizes. -/
theorem C80_boots_iff {p : Platform} (hp : p.Sane) (m : Machine) : (∃ g m', boot p m = .ok (g, m')) ↔ p.Supported ∧ p.Ordinary := by
  constructor
  · rintro ⟨g, m', h⟩; exact boots_only hp h
  · rintro ⟨hs, ho⟩
    rcases init_decide hp ho with ⟨-, ⟨g0, s⟩, h0⟩ | ⟨hn, -⟩
    · rcases tail_decide hp ho h0 m with h | h
      · exact h.2
      · have := hs.fits; omega
    · exact absurd ⟨hs.shared, hs.line, hs.sets, hs.large, hs.shift⟩ hn

/-- C80, the others halt: on an ordinary machine that the design does not support, boot panics. -/
theorem C80_halts_partial {p : Platform} (hp : p.Sane) (ho : p.Ordinary) (hs : ¬ p.Supported) (m : Machine) : boot p m = .panic := by
  rcases init_decide hp ho with ⟨hg, ⟨g0, s⟩, h0⟩ | ⟨-, hpanic⟩
  · rcases tail_decide hp ho h0 m with h | h
    · exact absurd ⟨hg.1, hg.2.1, hg.2.2.1, hg.2.2.2.1, hg.2.2.2.2, h.1⟩ hs
    · exact h.2
  · unfold boot
    rw [hpanic]; rfl

end decision

/-- The full property: every supported machine boots and every other one is halted. -/
def C80_statement : Prop :=
  ∀ p : Platform, p.Sane → ∀ m, (p.Supported → ∃ g m', boot p m = .ok (g, m')) ∧ (¬ p.Supported → boot p m = .panic)

/-- 16 GiB of DRAM in 8 regions, contiguous: a region is 2 GiB, which `1 << dram_region_shift` cannot express. -/
def hugePlatform : Platform := { toyPlatform with dramSize := 0x400000000, maxShift := 19 }

/-- 16384 cores and 256 KiB of DRAM: the core records fill DRAM. -/
def manyCoresPlatform : Platform := { toyPlatform with coreCount := 16384 }

theorem huge_sane : hugePlatform.Sane := ⟨⟨34, by decide, by decide⟩, by decide, by decide, by decide⟩
theorem manyCores_sane : manyCoresPlatform.Sane := ⟨⟨18, by decide, by decide⟩, by decide, by decide, by decide⟩

theorem toy_shared (p : Platform) (h1 : p.cacheLevels = 3) (h2 : p.shared = fun i => i == 2) : ∀ i, i + 1 < p.cacheLevels.toNat → p.shared i = false := by
  intro i hi
  rw [h1] at hi
  have hi : i + 1 < 3 := hi
  rw [h2]
  simp only [beq_eq_false_iff_ne, ne_eq]; omega

theorem huge_shiftN : hugePlatform.shiftN = 19 := by
  rw [shiftN_eq (p := hugePlatform) (d := 34) (l := 6) (s := 9) (by decide) (by decide) (by decide) (by decide)]; decide

theorem huge_supported : hugePlatform.Supported := by
  refine ⟨toy_shared _ rfl rfl, ⟨6, by decide⟩, ⟨9, by decide⟩, by decide, ?_, ?_⟩
  · rw [huge_shiftN]; decide
  · unfold Platform.stripeN
    rw [huge_shiftN]; decide

/-- A supported machine that does not boot. -/
theorem C80_huge (m : Machine) : ¬ ∃ g m', boot hugePlatform m = .ok (g, m') := by
  rw [C80_boots_iff huge_sane]
  rintro ⟨-, ho⟩
  have := ho.stripe_le
  unfold Platform.stripeN at this
  rw [huge_shiftN] at this
  exact absurd this (by decide)

theorem manyCores_not : ¬ manyCoresPlatform.Supported := by
  intro h
  have := h.fits
  unfold Platform.stripeN at this
  rw [shiftN_eq (p := manyCoresPlatform) (d := 18) (l := 6) (s := 9) (by decide) (by decide) (by decide) (by decide)] at this
  exact absurd this (by decide)

theorem manyCores_boot : (match boot manyCoresPlatform zeroMachine with | .fault => true | _ => false) = true := by
  decide +kernel

/-- C80 is false as stated: boot goes wrong on a supported machine, and on an unsupported one it writes outside DRAM before it would halt. -/
theorem C80_statement_false : ¬ C80_statement := fun h => C80_huge zeroMachine ((h _ huge_sane zeroMachine).1 huge_supported)

theorem C80_unsupported_not_halted : ¬ (∀ p : Platform, p.Sane → ∀ m, ¬ p.Supported → boot p m = .panic) := by
  intro h
  have := h _ manyCores_sane zeroMachine manyCores_not
  have h2 := manyCores_boot
  rw [this] at h2
  cases h2

theorem toy_shiftN : toyPlatform.shiftN = 3 := by
  rw [shiftN_eq (p := toyPlatform) (d := 18) (l := 6) (s := 9) (by decide) (by decide) (by decide) (by decide)]; decide

example : toyPlatform.Supported ∧ toyPlatform.Ordinary := by
  refine ⟨⟨toy_shared _ rfl rfl, ⟨6, by decide⟩, ⟨9, by decide⟩, by decide, ?_, ?_⟩, ⟨by decide, by decide, by decide, by decide, by decide, by decide, ?_, by decide, by decide⟩⟩
  · rw [toy_shiftN]; decide
  · unfold Platform.stripeN
    rw [toy_shiftN]; decide
  · unfold Platform.stripeN
    rw [toy_shiftN]; decide

/-- An ordinary machine that boot halts: a third-level cache with 48-byte lines. -/
example : ∃ p : Platform, p.Sane ∧ p.Ordinary ∧ ¬ p.Supported := by
  refine ⟨{ toyPlatform with lineSize := fun _ => 48 }, ⟨⟨18, by decide, by decide⟩, by decide, by decide, by decide⟩,
    ⟨by decide, by decide, by decide, by decide, by decide, by decide, by decide, by decide, by decide⟩, fun h => ?_⟩
  obtain ⟨l, hl⟩ := h.line
  have hl : 48 = 2 ^ l := hl
  rcases Nat.lt_or_ge l 6 with h6 | h6
  · have h6 : l = 0 ∨ l = 1 ∨ l = 2 ∨ l = 3 ∨ l = 4 ∨ l = 5 := by omega
    rcases h6 with h | h | h | h | h | h <;> (subst h; exact absurd hl (by decide))
  · have := Nat.pow_le_pow_right (n := 2) (by decide) h6
    omega

end Sanctum
