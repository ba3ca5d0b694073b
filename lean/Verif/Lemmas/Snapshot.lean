import Verif.Lemmas.Basic
/-
Loading a region bitmap into a register, run without interference.
-/
namespace Sanctum
open Machine

variable {g : Cfg}

/-- The loop that loads a DRB register, run without interference, reads the words at `p`. -/
theorem snapshot_loop {g : Cfg} {c : Nat} (n : Nat) : ∀ (p : W) (m : Machine), okRange g p n = true →
    run g c (snapshotLoop n p) m = some (snapshot m p.toNat n, m) := by
  induction n with
  | zero => intro p m _; rfl
  | succ n ih =>
      intro p m h
      simp only [okRange, decide_eq_true_eq] at h
      have hlt := g.dramSize.isLt
      have h8 : (p + 8).toNat = p.toNat + 8 := by rw [BitVec.toNat_add, show (8 : W).toNat = 8 from rfl]; omega
      rw [snapshotLoop, run_bind, run_load _ _ _ _ (by simp only [okAddr, decide_eq_true_eq]; omega), Option.bind_some, run_bind,
        ih _ _ (by simp only [okRange, decide_eq_true_eq]; omega), Option.bind_some, h8]
      show some (_, m) = some (_, m)
      congr 2
      unfold snapshot
      rw [List.range_succ_eq_map, List.map_cons, List.map_map]
      congr 1
      refine List.map_congr_left fun i _ => ?_
      show _ = m.mem (p.toNat + 8 * (i + 1))
      congr 1
      omega

theorem run_setDrbMap {c : Nat} {a : W} (h : okRange g a g.bitmapWords.toNat = true) (m : Machine) :
    run g c (setDrbMap g a) m = some ((), { m with drb := upd m.drb c (snapshot m a.toNat g.bitmapWords.toNat) }) := by
  rw [setDrbMap, run_bind, snapshot_loop _ _ _ h, Option.bind_some]; rfl

theorem run_setEdrbMap {c : Nat} {a : W} (h : okRange g a g.bitmapWords.toNat = true) (m : Machine) :
    run g c (setEdrbMap g a) m = some ((), { m with edrb := upd m.edrb c (snapshot m a.toNat g.bitmapWords.toNat) }) := by
  rw [setEdrbMap, run_bind, snapshot_loop _ _ _ h, Option.bind_some]; rfl

end Sanctum
