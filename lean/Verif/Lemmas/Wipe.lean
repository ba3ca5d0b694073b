import Verif.Lemmas.Loops
/-
Closed form of the region wipe.
-/
namespace Sanctum

variable {g : Cfg}

/-- The machine with region `r` zeroed from address `lo` on. -/
def Machine.wipeFrom (m : Machine) (g : Cfg) (r lo : Nat) : Machine :=
  { m with mem := fun a => if regionOf g a = r ∧ lo ≤ a ∧ a < g.dramSize.toNat ∧ a % 8 = 0 then 0 else m.mem a }

/-- `stripe | start` is a sum. -/
theorem stripe_or (h : g.WF) {r : W} (hr : r.toNat < g.regions) (s : W) (k : Nat) (hs : s.toNat = k * (g.regions * g.stripeSize.toNat))
    (hlt : s.toNat < g.dramSize.toNat) :
    (s ||| r <<< g.regionShift.toNat).toNat = s.toNat + r.toNat * g.stripeSize.toNat ∧
    s.toNat + g.regions * g.stripeSize.toNat ≤ g.dramSize.toNat := by
  have hst := dramRegionStart_toNat h r (Nat.le_of_lt hr)
  unfold dramRegionStart at hst
  have hrs : g.regions * g.stripeSize.toNat = 2 ^ (12 + g.sp + g.rb) := by
    rw [h.regions_eq, h.stripeSize, ← Nat.pow_add, Nat.add_comm]
  have hlt2 : r.toNat * g.stripeSize.toNat < 2 ^ (12 + g.sp + g.rb) := by
    rw [← hrs]
    exact Nat.mul_lt_mul_of_pos_right hr (by have := h.stripe_ge; omega)
  constructor
  · rw [BitVec.toNat_or, hst, hs, hrs, Nat.mul_comm k, ← Nat.two_pow_add_eq_or_of_lt hlt2]
  · obtain ⟨q, hq⟩ : g.regions * g.stripeSize.toNat ∣ g.dramSize.toNat := by
      rw [hrs, h.dramSize]; exact Nat.pow_dvd_pow 2 h.fits
    have hpos : 0 < g.regions * g.stripeSize.toNat := by rw [hrs]; exact Nat.two_pow_pos _
    rw [hs, hq, Nat.mul_comm k] at hlt
    have hkq : k < q := Nat.lt_of_mul_lt_mul_left hlt
    rw [hs, hq, Nat.mul_comm k]
    have := Nat.mul_le_mul_left (g.regions * g.stripeSize.toNat) (show k + 1 ≤ q from hkq)
    rw [Nat.mul_add, Nat.mul_one] at this
    exact this

/-- Addresses in stripe `k` of region `r`. -/
theorem regionOf_stripe (h : g.WF) (k r a : Nat) (hr : r < g.regions)
    (h1 : k * (g.regions * g.stripeSize.toNat) ≤ a) (h2 : a < k * (g.regions * g.stripeSize.toNat) + g.regions * g.stripeSize.toNat) :
    regionOf g a = r ↔ k * (g.regions * g.stripeSize.toNat) + r * g.stripeSize.toNat ≤ a ∧
      a < k * (g.regions * g.stripeSize.toNat) + r * g.stripeSize.toNat + g.stripeSize.toNat := by
  have hS : 0 < g.stripeSize.toNat := by have := h.stripe_ge; omega
  have hR : 0 < g.regions := by have := h.regions_ge; omega
  rw [regionOf, ← h.stripeSize, ← h.regions_eq]
  generalize g.stripeSize.toNat = S at *
  generalize g.regions = R at *
  obtain ⟨x, rfl⟩ : ∃ x, a = k * (R * S) + x := ⟨a - k * (R * S), by omega⟩
  have hx : x < R * S := by omega
  have hq : (k * (R * S) + x) / S = k * R + x / S := by
    rw [← Nat.mul_assoc, Nat.add_comm, Nat.add_mul_div_right _ _ hS, Nat.add_comm]
  have hlt : x / S < R := (Nat.div_lt_iff_lt_mul hS).2 hx
  rw [hq, Nat.add_comm, Nat.add_mul_mod_self_right, Nat.mod_eq_of_lt hlt]
  constructor
  · rintro rfl
    have := Nat.div_add_mod x S
    have := Nat.mod_lt x hS
    rw [Nat.mul_comm] at *
    omega
  · rintro ⟨h3, h4⟩
    rw [Nat.div_eq_iff hS]
    omega

theorem run_bzeroRegionLoop (h : g.WF) {r : W} (hr : r.toNat < g.regions) (c : Nat) : ∀ (fuel k : Nat) (s : W) (m : Machine),
    s.toNat = k * (g.regions * g.stripeSize.toNat) → s.toNat ≤ g.dramSize.toNat → g.dramSize.toNat < s.toNat + fuel * (g.regions * g.stripeSize.toNat) →
    run g c (bzeroRegionLoop g (g.regionCount <<< g.regionShift.toNat) (r <<< g.regionShift.toNat) fuel s) m =
      some ((), m.wipeFrom g r.toNat s.toNat) := by
  have hdl := h.dram_le
  have hall := h.all_regions_le
  have hstep : (g.regionCount <<< g.regionShift.toNat).toNat = g.regions * g.stripeSize.toNat := by
    have := dramRegionStart_toNat h g.regionCount (Nat.le_refl _)
    exact this
  intro fuel
  induction fuel with
  | zero => intro k s m h1 h2 h3; omega
  | succ fuel ih =>
      intro k s m h1 h2 h3
      rw [bzeroRegionLoop]
      by_cases hlt : s < g.dramSize
      · rw [if_pos hlt]
        rw [W.lt_iff] at hlt
        obtain ⟨hor, hle⟩ := stripe_or h hr s k h1 hlt
        have hmul : r.toNat * g.stripeSize.toNat + g.stripeSize.toNat ≤ g.regions * g.stripeSize.toNat := by
          have := Nat.mul_le_mul_right g.stripeSize.toNat hr
          rw [Nat.succ_mul] at this; exact this
        have hal : g.stripeSize.toNat % 8 = 0 := by
          rw [h.stripeSize, Nat.pow_add]; omega
        obtain ⟨t, ht⟩ := Nat.dvd_of_mod_eq_zero hal
        have hal2 : (r.toNat * g.stripeSize.toNat) % 8 = 0 := by rw [Nat.mul_mod, hal]; simp
        have hal3 : s.toNat % 8 = 0 := by rw [h1, Nat.mul_mod, Nat.mul_mod g.regions, hal]; simp
        rw [run_bind, run_bzero g c _ _ _ (by rw [hor]; omega) hal (by rw [hor]; omega) hdl, Option.bind_some]
        have hs2 : (s + g.regionCount <<< g.regionShift.toNat).toNat = s.toNat + g.regions * g.stripeSize.toNat := by
          rw [BitVec.toNat_add, hstep]; omega
        rw [ih (k + 1) _ _ (by rw [hs2, h1, Nat.succ_mul]) (by omega) (by rw [hs2]; rw [Nat.succ_mul] at h3; omega), hs2, hor]
        congr 2
        simp only [Machine.wipeFrom, Machine.zero]
        congr 1
        funext a
        by_cases ha : s.toNat + g.regions * g.stripeSize.toNat ≤ a
        · by_cases hb : regionOf g a = r.toNat ∧ a < g.dramSize.toNat ∧ a % 8 = 0
          · rw [if_pos (by omega), if_pos (by omega)]
          · rw [if_neg (by omega), if_neg (by omega), if_neg (by omega)]
        · rw [if_neg (by omega)]
          by_cases hs : s.toNat ≤ a
          · have hro := regionOf_stripe h k r.toNat a hr (by omega) (by omega)
            rw [← h1] at hro
            by_cases hb : regionOf g a = r.toNat
            · have := hro.1 hb
              by_cases h8 : a % 8 = 0
              · rw [if_pos (by omega), if_pos (by omega)]
              · rw [if_neg (by omega), if_neg (by omega)]
            · have : ¬ (s.toNat + r.toNat * g.stripeSize.toNat ≤ a ∧ a < s.toNat + r.toNat * g.stripeSize.toNat + g.stripeSize.toNat) :=
                fun hx => hb (hro.2 hx)
              rw [if_neg (by omega), if_neg (by omega)]
          · rw [if_neg (by omega), if_neg (by omega)]
      · rw [if_neg hlt, run_pure]
        rw [W.lt_iff] at hlt
        congr 2
        simp only [Machine.wipeFrom]
        have : (fun a => if regionOf g a = r.toNat ∧ s.toNat ≤ a ∧ a < g.dramSize.toNat ∧ a % 8 = 0 then 0 else m.mem a) = m.mem := by
          funext a; rw [if_neg (by omega)]
        rw [this]

theorem run_bzeroDramRegion (h : g.WF) {r : W} (hr : r.toNat < g.regions) (c : Nat) (m : Machine) :
    run g c (bzeroDramRegion g r) m = some ((), m.wipeFrom g r.toNat 0) := by
  have hdl := h.dram_le
  have hpos : 1 ≤ g.regions * g.stripeSize.toNat := Nat.mul_pos (by have := h.regions_ge; omega) (by have := h.stripe_ge; omega)
  rw [bzeroDramRegion, run_bzeroRegionLoop h hr c _ 0 0 m (by simp) (by simp)]
  · rfl
  · have := Nat.mul_le_mul_left (2 ^ 64) hpos
    simp only [show (0 : W).toNat = 0 from rfl]
    omega

end Sanctum
