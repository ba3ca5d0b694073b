import Verif.Lemmas.Geom
import Verif.Lemmas.Bits
import Verif.Model.Enclaves
/-
The page loop of `create_thread` always succeeds: a thread record is smaller than a page.
-/
namespace Sanctum

variable {g : Cfg}

theorem threadPagesLoop_step (g : Cfg) (r e : W) (fuel : Nat) (page : W) : threadPagesLoop g r e (fuel + 1) page =
    if page < e then (if dramRegionFor g page ≠ r then pure false else threadPagesLoop g r e fuel (page + pageSize)) else pure true := rfl

theorem threadPagesLoop_fuel (h : g.WF) {p : W} (h1 : isPageAligned p = true) (h2 : isDramAddress g p = true) (n : Nat) :
    threadPagesLoop g (dramRegionFor g p) (p + threadInfoSize) (n + 2) p = pure true := by
  have d1 := (isPageAligned_iff p).1 h1
  have d2 := (isDramAddress_iff p).1 h2
  have hm : g.dramSize.toNat % 4096 = 0 := by
    rw [h.dramSize, show (4096 : Nat) = 2 ^ 12 from rfl]
    exact Nat.mod_eq_zero_of_dvd (Nat.pow_dvd_pow 2 (by have := h.fits; omega))
  have hlt := g.dramSize.isLt
  have e1 : (p + threadInfoSize).toNat = p.toNat + 552 := by
    rw [BitVec.toNat_add, show threadInfoSize.toNat = 552 from rfl]; omega
  have e2 : (p + pageSize).toNat = p.toNat + 4096 := by
    rw [BitVec.toNat_add, show pageSize.toNat = 4096 from rfl]; omega
  rw [threadPagesLoop_step, if_pos (show p < p + threadInfoSize by rw [W.lt_iff]; omega), if_neg (fun hh => hh rfl), threadPagesLoop_step,
    if_neg (show ¬ p + pageSize < p + threadInfoSize by rw [W.lt_iff]; omega)]

theorem threadPagesLoop_ok (h : g.WF) {p : W} (h1 : isPageAligned p = true) (h2 : isDramAddress g p = true) :
    threadPagesLoop g (dramRegionFor g p) (p + threadInfoSize) (2 ^ 64) p = pure true := by
  rw [show (2 : Nat) ^ 64 = (2 ^ 64 - 2) + 2 from rfl]
  exact threadPagesLoop_fuel h h1 h2 _

end Sanctum
