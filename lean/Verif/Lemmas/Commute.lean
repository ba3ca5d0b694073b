import Verif.Lemmas.RaceSound
/-
Actions of different cores on different locations commute.
-/
namespace Sanctum
open Machine

variable {g : Cfg}

theorem upd_swap {β : Type} {f : Nat → β} {a b : Nat} (h : a ≠ b) (v w : β) : upd (upd f a v) b w = upd (upd f b w) a v := by
  funext x; unfold upd
  split
  · rename_i h1; rw [if_neg (fun h2 => h (h2.symm.trans h1))]
  · rfl

set_option linter.unusedSimpArgs false in
/-- Two actions of different cores, neither of which writes what the other accesses, can be swapped. -/
theorem exec_comm {c c' : Nat} {o o' : Op} {m m1 m2 : Machine} {v v' : W} (hne : c ≠ c') (h1 : exec g c o m = some (v, m1)) (h2 : exec g c' o' m1 = some (v', m2))
    (hd : ∀ l, o.writes l → ¬ o'.touches l) (hd' : ∀ l, o'.writes l → ¬ o.touches l) :
    ∃ m3, exec g c' o' m = some (v', m3) ∧ exec g c o m3 = some (v, m2) := by
  cases o <;> simp only [exec, Option.ite_none_right_eq_some, Option.some.injEq, Prod.mk.injEq] at h1 <;> (first | obtain ⟨rfl, rfl⟩ := h1 | obtain ⟨k1, rfl, rfl⟩ := h1) <;>
  cases o' <;> simp only [exec, Option.ite_none_right_eq_some, Option.some.injEq, Prod.mk.injEq] at h2 <;> (first | obtain ⟨rfl, rfl⟩ := h2 | obtain ⟨k2, rfl, rfl⟩ := h2) <;>
  simp only [Op.writes, Op.touches, Op.reads, forall_eq, Loc.word.injEq, reduceCtorEq, false_or, or_false, or_self, not_false_eq_true, not_true_eq_false, false_implies, implies_true] at hd hd' <;>
  (try (exact hd.elim)) <;> (try (exact hd'.elim)) <;>
  first | (simp only [exec, *, if_true, Option.some.injEq, Prod.mk.injEq, exists_eq_left', true_and, and_self, upd_swap hne, upd_ne _ _ hne, upd_ne _ _ (Ne.symm hne), upd_ne _ _ hd, upd_ne _ _ (Ne.symm hd), upd_swap hd, upd_ne _ _ hd', upd_ne _ _ (Ne.symm hd')]; done) | (simp only [exec, *, if_true, Option.some.injEq, Prod.mk.injEq, exists_eq_left', true_and, and_self, upd_swap hne, upd_ne _ _ hne, upd_ne _ _ (Ne.symm hne), upd_ne _ _ hd, upd_ne _ _ (Ne.symm hd), upd_swap hd]; done) | (simp only [exec, *, if_true, Option.some.injEq, Prod.mk.injEq, exists_eq_left', true_and, and_self, upd_swap hne, upd_ne _ _ hne, upd_ne _ _ (Ne.symm hne), upd_ne _ _ hd', upd_ne _ _ (Ne.symm hd')]; done) | (simp only [exec, *, if_true, Option.some.injEq, Prod.mk.injEq, exists_eq_left', true_and, and_self, upd_swap hne, upd_ne _ _ hne, upd_ne _ _ (Ne.symm hne)]; done)
end Sanctum
