import Verif.Spec.Cache
import Verif.Props.Boot
import Verif.Props.Registers
import Verif.Props.Threads
/-
C83: different DRAM regions never share a set of the last-level cache (src/monitor/dram_regions.h:8-12).
-/
namespace Sanctum

/-! ### The shift register after boot -/

/-- A program that does not set the cache index shift. -/
def Prog.KeepsShift {α : Type} : Prog α → Prop
  | .ret _ => True
  | .op o k => (∀ v, o ≠ .setCacheShift v) ∧ ∀ r, (k r).KeepsShift
  | .fault => True
  | .diverge => True

theorem exec_shift {g : Cfg} {c : Nat} {o : Op} {m : Machine} {r : W} {m' : Machine} (ho : ∀ v, o ≠ .setCacheShift v) (h : exec g c o m = some (r, m')) :
    m'.cacheShift = m.cacheShift := by
  cases o <;> simp only [exec] at h
  case setCacheShift v => exact absurd rfl (ho v)
  all_goals first
    | (injection h with h; rw [← (Prod.mk.inj h).2])
    | (split at h <;> first | (injection h with h; rw [← (Prod.mk.inj h).2]) | cases h)

theorem run_shift {α : Type} {g : Cfg} {c : Nat} (p : Prog α) (hp : p.KeepsShift) {m m' : Machine} {a : α} (h : run g c p m = some (a, m')) :
    m'.cacheShift = m.cacheShift := by
  induction p generalizing m with
  | ret x => simp only [run] at h; injection h with h; rw [← (Prod.mk.inj h).2]
  | op o k ih =>
      simp only [run] at h
      cases he : exec g c o m with
      | none => rw [he] at h; cases h
      | some x =>
          obtain ⟨r, m1⟩ := x
          rw [he] at h
          exact (ih r (hp.2 r) h).trans (exec_shift hp.1 he)
  | fault => simp only [run] at h; cases h
  | diverge => simp only [run] at h; cases h

theorem keeps_bind {α β : Type} {p : Prog α} {f : α → Prog β} (hp : p.KeepsShift) (hf : ∀ a, (f a).KeepsShift) : (p >>= f).KeepsShift := by
  show (p.bind f).KeepsShift
  induction p with
  | ret a => exact hf a
  | op o k ih => exact ⟨hp.1, fun r => ih r (hp.2 r)⟩
  | fault => trivial
  | diverge => trivial

theorem keeps_act_ {o : Op} (ho : ∀ v, o ≠ .setCacheShift v) : (act_ o).KeepsShift := ⟨ho, fun _ => trivial⟩
theorem keeps_store (a v : W) : (store a v).KeepsShift := keeps_act_ (fun _ h => by cases h)
theorem keeps_load (a : W) : (load a).KeepsShift := ⟨fun _ h => (by cases h), fun _ => trivial⟩

theorem keeps_setBitmapBit (b i : W) (v : Bool) : (setBitmapBit b i v).KeepsShift := by
  refine keeps_bind (keeps_load _) fun w => ?_
  cases v
  · exact keeps_store _ _
  · exact keeps_store _ _

theorem keeps_snapshot : ∀ (n : Nat) (a : W), (snapshotLoop n a).KeepsShift
  | 0, _ => trivial
  | n + 1, a => keeps_bind (keeps_load _) fun _ => keeps_bind (keeps_snapshot n _) fun _ => trivial

theorem keeps_regionLoop (g : Cfg) : ∀ (n : Nat) (i : W), (bootRegionLoop g n i).KeepsShift
  | 0, _ => trivial
  | n + 1, _ => keeps_bind (keeps_store _ _) fun _ => keeps_bind (keeps_store _ _) fun _ => keeps_bind (keeps_store _ _) fun _ =>
      keeps_bind (keeps_store _ _) fun _ => keeps_bind (keeps_store _ _) fun _ => keeps_regionLoop g n _

theorem keeps_bitmapLoop (g : Cfg) : ∀ (n : Nat) (i : W), (bootBitmapLoop g n i).KeepsShift
  | 0, _ => trivial
  | n + 1, _ => keeps_bind (keeps_setBitmapBit _ _ _) fun _ => keeps_bitmapLoop g n _

theorem keeps_arrays (g : Cfg) : (bootArrays g).KeepsShift :=
  keeps_bind (keeps_regionLoop g _ _) fun _ => keeps_bind (keeps_store _ _) fun _ => keeps_bitmapLoop g _ _

theorem keeps_protection (g : Cfg) (top : W) : (bootProtection g top).KeepsShift :=
  keeps_bind (keeps_act_ (fun _ h => by cases h)) fun _ => keeps_bind (keeps_act_ (fun _ h => by cases h)) fun _ =>
  keeps_bind (keeps_bind (keeps_snapshot _ _) fun _ => keeps_act_ (fun _ h => by cases h)) fun _ =>
  keeps_bind (keeps_act_ (fun _ h => by cases h)) fun _ => keeps_bind (keeps_act_ (fun _ h => by cases h)) fun _ =>
  keeps_bind (keeps_act_ (fun _ h => by cases h)) fun _ => keeps_act_ (fun _ h => by cases h)

/-- What boot leaves in the shift registers, and how the cache's index range relates to the number of regions. -/
theorem boot_cache {p : Platform} (hp : p.Sane) {m m' : Machine} {g : Cfg} (h : boot p m = .ok (g, m')) :
    (m'.cacheShift 0).toNat = g.sp ∧ (∀ c, c ≠ 0 → m'.cacheShift c = m.cacheShift c) ∧ p.line * p.sets = 4096 * 2 ^ g.rb ∧ ∃ lb, p.line = 2 ^ lb := by
  have hw := boot_wf hp h
  obtain ⟨g0, s, m1, top, h0, hrun, -, -, hg, hprot⟩ := boot_ok h
  obtain ⟨lb, sb, hlb, hsb, hgt, hline, hset, -, -, hrs, hrs31, hs31, hrb31, hss, -⟩ := bootInitDramRegions_ok h0
  have e2 : g.regionShift = g0.regionShift := by simp only [hg, bl_regionShift]
  have e3 : g.stripeShift = g0.stripeShift := by simp only [hg, bl_stripeShift]
  have hrsn : g0.regionShift.toNat = 12 + s.toNat := by
    rw [hrs, BitVec.toNat_add, show (12 : W).toNat = 12 from rfl]; omega
  have hssn : g0.stripeShift.toNat = 12 + s.toNat + (lb + sb - 12) := by
    rw [hss, BitVec.toNat_add, hrsn, BitVec.toNat_ofNat]; omega
  have hsp : g.sp = s.toNat := by have := hw.regionShift; rw [e2, hrsn] at this; omega
  have hrb : g.rb = lb + sb - 12 := by have := hw.stripeShift; rw [e3, hssn] at this; omega
  have k2 := run_shift _ (keeps_protection g top) hprot
  have k1 : m1.cacheShift = upd m.cacheShift 0 s := by
    simp only [run_bind, run_act_, exec, Option.map_some, Option.bind_some] at hrun
    have := run_shift _ (keeps_arrays _) hrun
    exact this
  refine ⟨?_, fun c hc => ?_, ?_, lb, hline⟩
  · rw [k2, k1, upd_same, hsp]
  · rw [k2, k1, upd_ne _ _ hc]
  · show (p.lineSize (p.cacheLevels.toNat - 1)).toNat * (p.setCount (p.cacheLevels.toNat - 1)).toNat = 4096 * 2 ^ g.rb
    rw [hline, hset, ← Nat.pow_add, hrb, show (4096 : Nat) = 2 ^ 12 from rfl, ← Nat.pow_add]
    congr 1; omega

/-! ### The property -/

/-- C83 in full: on every machine that boots, in every reachable state, under the index shift that *any* of its cores uses, addresses that differ in the bits of
`dram_region_mask()` are in different sets of the last-level cache. -/
def C83_statement : Prop :=
  ∀ (p : Platform) (m : Machine) (g : Cfg) (s s' : Conf) (t : List Label) (w : Nat) (f : Nat → Nat) (c : Nat) (a b : W),
    p.Sane → boot p m = .ok (g, s.m) → (∀ c, s.cores c = .idle) → Steps g s t s' → p.dramSize.toNat = 4096 * 2 ^ w →
    c < p.coreCount.toNat → Shifter w (s'.m.cacheShift c).toNat f → a.toNat < p.dramSize.toNat → b.toNat < p.dramSize.toNat →
    a &&& g.regionMask ≠ b &&& g.regionMask → llcSet p f a.toNat ≠ llcSet p f b.toNat

/-- Under the booting core's index shift (or that of a core `c` with the same shift), the set of an address is given by its region and its offset in the page: region `i` has the sets from `i * k` to
`i * k + k - 1`, where `k` is the number of cache lines in a page. -/
theorem C83_set_of_address {p : Platform} {m : Machine} {g : Cfg} {s s' : Conf} {t : List Label} {w : Nat} {f : Nat → Nat} {c a : Nat}
    (hp : p.Sane) (hl : p.line ≤ 4096) (h : boot p m = .ok (g, s.m)) (hi : ∀ c, s.cores c = .idle) (hs : Steps g s t s')
    (hc : s.m.cacheShift c = s.m.cacheShift 0) (hd : p.dramSize.toNat = 4096 * 2 ^ w) (hf : Shifter w (s'.m.cacheShift c).toNat f) (ha : a < p.dramSize.toNat) :
    llcSet p f a = regionOf g a * (4096 / p.line) + a % 4096 / p.line ∧ a % 4096 / p.line < 4096 / p.line := by
  have hw := boot_wf hp h
  obtain ⟨k1, -, k3, lb, k4⟩ := boot_cache hp h
  have hds : g.dramSize = p.dramSize := boot_dramSize h
  have hsh : (s'.m.cacheShift c).toNat = g.sp := by rw [(C71_shield hi hs).2.2, hc, k1]
  rw [hsh] at hf
  -- the width
  have hwd : w = g.d - 12 := by
    have e := hw.dramSize
    rw [hds, hd, show (4096 : Nat) = 2 ^ 12 from rfl, ← Nat.pow_add] at e
    have := (Nat.pow_right_inj (by decide)).1 e
    omega
  have hfit := hw.fits
  have hn : a / 4096 < 2 ^ w := by rw [hd] at ha; exact Nat.div_lt_of_lt_mul ha
  have hlow : f (a / 4096) % 2 ^ g.rb = regionOf g a := by
    have e := hf.low _ hn
    have hle : 2 ^ g.rb ∣ 2 ^ (w - g.sp) := Nat.pow_dvd_pow 2 (by omega)
    rw [← Nat.mod_mod_of_dvd (f (a / 4096)) hle, e, Nat.div_div_eq_div_mul]
    unfold regionOf
    rw [Nat.pow_add]
  -- the line divides the page
  have hlp : 0 < p.line := by rw [k4]; exact Nat.two_pow_pos _
  have hlb : lb ≤ 12 := by
    rcases Classical.em (lb ≤ 12) with hh | hh
    · exact hh
    · have : 2 ^ 13 ≤ 2 ^ lb := Nat.pow_le_pow_right (by decide) (by omega)
      omega
  have hdvd : 4096 = p.line * (4096 / p.line) := by
    have : p.line ∣ 4096 := by rw [k4, show (4096 : Nat) = 2 ^ 12 from rfl]; exact Nat.pow_dvd_pow 2 hlb
    exact (Nat.mul_div_cancel' this).symm
  generalize hk : 4096 / p.line = k at hdvd ⊢
  have hsets : p.sets = k * 2 ^ g.rb := by
    rw [hdvd, Nat.mul_assoc] at k3
    exact Nat.eq_of_mul_eq_mul_left hlp k3
  have hoff : a % 4096 / p.line < k := by
    refine Nat.div_lt_of_lt_mul ?_
    rw [← hdvd]; exact Nat.mod_lt _ (by decide)
  refine ⟨?_, hoff⟩
  unfold llcSet
  have e1 : (f (a / 4096) * 4096 + a % 4096) / p.line = a % 4096 / p.line + k * f (a / 4096) := by
    have : f (a / 4096) * 4096 + a % 4096 = a % 4096 + p.line * (k * f (a / 4096)) := by
      rw [← Nat.mul_assoc, ← hdvd, Nat.mul_comm (f _), Nat.add_comm]
    rw [this, Nat.add_mul_div_left _ _ hlp]
  rw [e1, hsets, Nat.mod_mul, Nat.add_mul_mod_self_left, Nat.add_mul_div_left _ _ (Nat.lt_of_le_of_lt (Nat.zero_le _) hoff), Nat.mod_eq_of_lt hoff, Nat.div_eq_of_lt hoff,
    Nat.zero_add, hlow, Nat.add_comm, Nat.mul_comm]

/-- C83, as far as it holds: if a cache line is not larger than a page (boot does not check it), then in every state that is reached from boot, addresses in
different regions are in different sets under the index shift of the core that booted, and of every other core whose shift something else made the same (boot
sets it on its own core only, `C83_other_cores_false`). Every region has as many sets as a page has
cache lines, and they are the same ones at every instant. -/
theorem C83_cache_isolation_partial {p : Platform} {m : Machine} {g : Cfg} {s s' : Conf} {t : List Label} {w : Nat} {f : Nat → Nat} {c : Nat}
    (hp : p.Sane) (hl : p.line ≤ 4096) (h : boot p m = .ok (g, s.m)) (hi : ∀ c, s.cores c = .idle) (hs : Steps g s t s')
    (hc : s.m.cacheShift c = s.m.cacheShift 0) (hd : p.dramSize.toNat = 4096 * 2 ^ w) (hf : Shifter w (s'.m.cacheShift c).toNat f) :
    (∀ a b : W, a.toNat < p.dramSize.toNat → b.toNat < p.dramSize.toNat →
      a &&& g.regionMask ≠ b &&& g.regionMask → llcSet p f a.toNat ≠ llcSet p f b.toNat) ∧
    (∀ i x, i < g.regions → ((∃ a, a < p.dramSize.toNat ∧ regionOf g a = i ∧ llcSet p f a = x) ↔ i * (4096 / p.line) ≤ x ∧ x < (i + 1) * (4096 / p.line))) := by
  have hw := boot_wf hp h
  have hds : g.dramSize = p.dramSize := boot_dramSize h
  obtain ⟨-, -, -, lb, k4⟩ := boot_cache hp h
  have hlp : 0 < p.line := by rw [k4]; exact Nat.two_pow_pos _
  refine ⟨fun a b ha hb hne heq => ?_, fun i x hir => ⟨?_, fun ⟨h1, h2⟩ => ?_⟩⟩
  · obtain ⟨a1, a2⟩ := C83_set_of_address hp hl h hi hs hc hd hf ha
    obtain ⟨b1, b2⟩ := C83_set_of_address hp hl h hi hs hc hd hf hb
    rw [a1, b1] at heq
    generalize 4096 / p.line = k at *
    have hk : 0 < k := Nat.lt_of_le_of_lt (Nat.zero_le _) a2
    have : regionOf g a.toNat = regionOf g b.toNat := by
      have e := congrArg (· / k) heq
      simp only [Nat.mul_comm _ k, Nat.mul_add_div hk, Nat.div_eq_of_lt a2, Nat.div_eq_of_lt b2, Nat.add_zero] at e
      exact e
    apply hne
    rw [W.eq_iff, and_regionMask_toNat hw, and_regionMask_toNat hw, this]
  · rintro ⟨a, ha, rfl, rfl⟩
    obtain ⟨a1, a2⟩ := C83_set_of_address hp hl h hi hs hc hd hf ha
    rw [a1, Nat.succ_mul]
    exact ⟨Nat.le_add_right _ _, Nat.add_lt_add_left a2 _⟩
  · have hge : 4096 ≤ g.stripeSize.toNat := hw.stripe_ge
    have hpk : p.line * (4096 / p.line) ≤ 4096 := Nat.mul_div_le _ _
    have hx : x - i * (4096 / p.line) < 4096 / p.line := by rw [Nat.succ_mul] at h2; omega
    have hy : (x - i * (4096 / p.line)) * p.line < 4096 := by
      refine Nat.lt_of_lt_of_le (Nat.mul_lt_mul_of_pos_right hx hlp) ?_
      rw [Nat.mul_comm]; exact hpk
    have hreg := regionOf_start hw hir _ (Nat.lt_of_lt_of_le hy hge)
    have hlt : i * g.stripeSize.toNat + (x - i * (4096 / p.line)) * p.line < p.dramSize.toNat := by
      have e1 : (i + 1) * g.stripeSize.toNat ≤ g.regions * g.stripeSize.toNat := Nat.mul_le_mul_right _ hir
      have e2 : g.regions * g.stripeSize.toNat ≤ g.dramSize.toNat := by
        rw [hw.regions_eq, hw.stripeSize, hw.dramSize, ← Nat.pow_add]; exact Nat.pow_le_pow_right (by decide) (by have := hw.fits; omega)
      rw [Nat.succ_mul] at e1
      rw [hds] at e2; omega
    refine ⟨_, hlt, hreg, ?_⟩
    rw [(C83_set_of_address hp hl h hi hs hc hd hf hlt).1, hreg]
    have e4 : (i * g.stripeSize.toNat + (x - i * (4096 / p.line)) * p.line) % 4096 = (x - i * (4096 / p.line)) * p.line := by
      rw [hw.stripeSize, Nat.pow_add, ← Nat.mul_assoc, Nat.mul_right_comm, show (2 : Nat) ^ 12 = 4096 from rfl, Nat.add_comm, Nat.add_mul_mod_self_right,
        Nat.mod_eq_of_lt hy]
    rw [e4, Nat.mul_div_cancel _ hlp]; omega

/-! ### It is not true in full -/

/-- A machine whose last-level cache has 4 sets of lines of 8 KiB: two pages each. -/
def wideLinePlatform : Platform := { toyPlatform with lineSize := fun _ => 8192, setCount := fun _ => 4 }

theorem wide_sane : wideLinePlatform.Sane :=
  ⟨⟨18, by decide, by decide⟩, by decide, by decide, by decide⟩
set_option maxRecDepth 100000 in
theorem wide_boots : (boot wideLinePlatform zeroMachine).isOk = true := by decide +kernel

/-- C83 fails on machines that boot supports: a cache line of two pages has pages of two regions in it, so the two regions share it. -/
theorem C83_wide_lines_false : ∃ (p : Platform) (m : Machine) (g : Cfg) (s : Conf) (w : Nat) (f : Nat → Nat) (a b : W),
    p.Sane ∧ boot p m = .ok (g, s.m) ∧ (∀ c, s.cores c = .idle) ∧ p.dramSize.toNat = 4096 * 2 ^ w ∧ Shifter w (s.m.cacheShift 0).toNat f ∧
    a.toNat < p.dramSize.toNat ∧ b.toNat < p.dramSize.toNat ∧ a &&& g.regionMask ≠ b &&& g.regionMask ∧ llcSet p f a.toNat = llcSet p f b.toNat := by
  have e : ((booted wideLinePlatform).2.cacheShift 0).toNat = 3 := by set_option maxRecDepth 100000 in decide +kernel
  refine ⟨wideLinePlatform, zeroMachine, (booted wideLinePlatform).1, ⟨(booted wideLinePlatform).2, fun _ => .idle⟩, 6, fun n => n / 2 ^ 3 + n % 2 ^ 3 * 2 ^ (6 - 3), 0, 0x8000, wide_sane, booted_ok wide_boots,
    fun _ => rfl, by decide, ?_, by decide, by decide, by set_option maxRecDepth 100000 in decide +kernel, ?_⟩
  · show Shifter 6 ((booted wideLinePlatform).2.cacheShift 0).toNat _
    rw [e]; exact shifter_rotate 6 3 (by decide)
  · decide

/-- C83 fails for the other cores: boot sets the shift of its own core only, and under the shift that another core is left with (here 0, on a machine with an
ordinary cache), two regions share sets. -/
theorem C83_other_cores_false : ∃ (p : Platform) (m : Machine) (g : Cfg) (s : Conf) (w : Nat) (f : Nat → Nat) (c : Nat) (a b : W),
    p.Sane ∧ p.line = 64 ∧ boot p m = .ok (g, s.m) ∧ (∀ c, s.cores c = .idle) ∧ p.dramSize.toNat = 4096 * 2 ^ w ∧ c < p.coreCount.toNat ∧
    Shifter w (s.m.cacheShift c).toNat f ∧ a.toNat < p.dramSize.toNat ∧ b.toNat < p.dramSize.toNat ∧
    a &&& g.regionMask ≠ b &&& g.regionMask ∧ llcSet p f a.toNat = llcSet p f b.toNat := by
  have e : ((booted toyPlatform).2.cacheShift 1).toNat = 0 := by set_option maxRecDepth 100000 in decide +kernel
  refine ⟨toyPlatform, zeroMachine, (booted toyPlatform).1, ⟨(booted toyPlatform).2, fun _ => .idle⟩, 6, fun n => n / 2 ^ 0 + n % 2 ^ 0 * 2 ^ (6 - 0), 1, 0, 0x8000, toy_sane,
    by decide, booted_ok toy_boots, fun _ => rfl, by decide, by decide, ?_, by decide, by decide, by set_option maxRecDepth 100000 in decide +kernel, by decide⟩
  show Shifter 6 ((booted toyPlatform).2.cacheShift 1).toNat _
  rw [e]; exact shifter_rotate 6 0 (by decide)

theorem C83_statement_false : ¬ C83_statement := by
  intro hst
  obtain ⟨p, m, g, s, w, f, c, a, b, h1, -, h2, h3, h4, h5, h6, h7, h8, h9, h10⟩ := C83_other_cores_false
  exact hst p m g s s [] w f c a b h1 h2 h3 (.refl _) h4 h5 h6 h7 h8 h9 h10

/-- The hypotheses are met: on the toy machine, where regions are contiguous, and on one where they are not; with the hardware's circular shift. Two addresses of
regions 0 and 1 have different sets; so have their neighbours after a core has run `block_dram_region`. -/
example : ∀ a b : W, a.toNat < 0x40000 → b.toNat < 0x40000 → a &&& (booted stripedPlatform).1.regionMask ≠ b &&& (booted stripedPlatform).1.regionMask →
    llcSet stripedPlatform (fun n => n / 2 ^ 1 + n % 2 ^ 1 * 2 ^ (6 - 1)) a.toNat ≠ llcSet stripedPlatform (fun n => n / 2 ^ 1 + n % 2 ^ 1 * 2 ^ (6 - 1)) b.toNat := by
  have e : ((booted stripedPlatform).2.cacheShift 0).toNat = 1 := by set_option maxRecDepth 100000 in decide +kernel
  refine (C83_cache_isolation_partial (s := ⟨(booted stripedPlatform).2, fun _ => .idle⟩) (w := 6) (c := 0) striped_sane (by decide) (booted_ok striped_boots) (fun _ => rfl) (.refl _)
    rfl (by decide) ?_).1
  show Shifter 6 ((booted stripedPlatform).2.cacheShift 0).toNat _
  rw [e]; exact shifter_rotate 6 1 (by decide)

example : (booted stripedPlatform).1.regionMask = 0xe000 := by set_option maxRecDepth 100000 in decide +kernel
example : llcSet stripedPlatform (fun n => n / 2 ^ 1 + n % 2 ^ 1 * 2 ^ (6 - 1)) 0x2040 = 65 := by decide

end Sanctum
