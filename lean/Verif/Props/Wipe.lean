import Verif.Lemmas.Wipe
import Verif.Props.Geometry
/-
Property C13: wiping a region. Memory is made of aligned 8-byte words, so "every byte" is "every aligned
word"; `regionOf g a` (Spec/View.lean) is the region an address belongs to.
-/
namespace Sanctum

/-- C13. Wiping region `r` completes, zeroes every word of DRAM that belongs to `r` (in all its stripes)
and changes nothing else: no other word, no register. -/
theorem C13_wipe_exact {g : Cfg} (h : g.WF) {r : W} (hr : r.toNat < g.regions) (c : Nat) (m : Machine) :
    ∃ mem', run g c (bzeroDramRegion g r) m = some ((), { m with mem := mem' }) ∧
      (∀ a, a % 8 = 0 → a < g.dramSize.toNat → regionOf g a = r.toNat → mem' a = 0) ∧
      (∀ a, regionOf g a ≠ r.toNat → mem' a = m.mem a) := by
  refine ⟨_, run_bzeroDramRegion h hr c m, ?_, ?_⟩
  · intro a h8 hd ha
    exact if_pos ⟨ha, Nat.zero_le _, hd, h8⟩
  · intro a ha
    exact if_neg (fun hx => ha hx.1)

/-- A region of 16 stripes: both its first and its last stripe contain words that the theorem covers. -/
example : (booted manyStripesPlatform).1.WF ∧ (1 : W).toNat < (booted manyStripesPlatform).1.regions ∧
    regionOf (booted manyStripesPlatform).1 0x2000 = 1 ∧ regionOf (booted manyStripesPlatform).1 0x3fff8 = 1 ∧
    regionOf (booted manyStripesPlatform).1 0x4000 = 0 := by
  refine ⟨manyStripes_wf, ?_⟩
  set_option maxRecDepth 100000 in decide +kernel

end Sanctum
