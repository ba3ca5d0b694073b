import Verif.Spec.View
/-
Symbolic execution of programs.
-/
namespace Sanctum
open Machine

@[simp] theorem upd_same {β : Type} (f : Nat → β) (a : Nat) (v : β) : upd f a v a = v := by simp [upd]
theorem upd_ne {β : Type} (f : Nat → β) {a b : Nat} (v : β) (h : b ≠ a) : upd f a v b = f b := by simp [upd, h]
theorem upd_apply {β : Type} (f : Nat → β) (a b : Nat) (v : β) : upd f a v b = if b = a then v else f b := rfl
@[simp] theorem upd_upd {β : Type} (f : Nat → β) (a : Nat) (v w : β) : upd (upd f a v) a w = upd f a w := by
  funext x; simp only [upd]; split <;> rfl
@[simp] theorem upd_eq_self {β : Type} (f : Nat → β) (a : Nat) : upd f a (f a) = f := by
  funext x; simp only [upd]; split <;> simp_all
theorem upd_comm {β : Type} (f : Nat → β) {a b : Nat} (v w : β) (h : a ≠ b) :
    upd (upd f a v) b w = upd (upd f b w) a v := by
  funext x; simp only [upd]; split <;> split <;> simp_all

theorem st_mem (m : Machine) (a : Nat) (v : W) : (m.st a v).mem = upd m.mem a v := rfl
@[simp] theorem st_dmaStart (m : Machine) (a : Nat) (v : W) : (m.st a v).dmaStart = m.dmaStart := rfl
@[simp] theorem st_dmaEnd (m : Machine) (a : Nat) (v : W) : (m.st a v).dmaEnd = m.dmaEnd := rfl
@[simp] theorem st_dmarBase (m : Machine) (a : Nat) (v : W) : (m.st a v).dmarBase = m.dmarBase := rfl
@[simp] theorem st_dmarMask (m : Machine) (a : Nat) (v : W) : (m.st a v).dmarMask = m.dmarMask := rfl
@[simp] theorem st_drb (m : Machine) (a : Nat) (v : W) : (m.st a v).drb = m.drb := rfl
@[simp] theorem st_edrb (m : Machine) (a : Nat) (v : W) : (m.st a v).edrb = m.edrb := rfl
@[simp] theorem st_tlb (m : Machine) (a : Nat) (v : W) : (m.st a v).tlbFlushes = m.tlbFlushes := rfl
@[simp] theorem st_st (m : Machine) (a : Nat) (v w : W) : (m.st a v).st a w = m.st a w := by simp [Machine.st]
theorem st_self (m : Machine) (a : Nat) (v : W) (h : m.mem a = v) : m.st a v = m := by
  subst h; simp [Machine.st]
theorem st_comm (m : Machine) {a b : Nat} (v w : W) (h : a ≠ b) : (m.st a v).st b w = (m.st b w).st a v := by
  simp [Machine.st, upd_comm _ _ _ h]

section
variable {α β : Type} (g : Cfg) (c : Nat)

@[simp] theorem run_pure (a : α) (m : Machine) : run g c (pure a) m = some (a, m) := rfl
@[simp] theorem run_ret (a : α) (m : Machine) : run g c (Prog.ret a) m = some (a, m) := rfl
@[simp] theorem run_fault (m : Machine) : run g c (Prog.fault : Prog α) m = none := rfl
@[simp] theorem run_diverge (m : Machine) : run g c (Prog.diverge : Prog α) m = none := rfl

theorem run_bind (p : Prog α) (f : α → Prog β) (m : Machine) :
    run g c (p >>= f) m = (run g c p m).bind (fun x => run g c (f x.1) x.2) := by
  show run g c (p.bind f) m = _
  induction p generalizing m with
  | ret a => rfl
  | op o k ih =>
      simp only [Prog.bind, run]
      cases exec g c o m with
      | none => rfl
      | some x => exact ih _ _
  | fault => rfl
  | diverge => rfl

theorem run_ite (b : Prop) [Decidable b] (p q : Prog α) (m : Machine) :
    run g c (if b then p else q) m = if b then run g c p m else run g c q m := by
  split <;> rfl

theorem run_load (a : W) (m : Machine) (h : okAddr g a = true) :
    run g c (load a) m = some (m.mem a.toNat, m) := by
  simp [load, act, run, exec, h]
theorem run_store (a v : W) (m : Machine) (h : okAddr g a = true) :
    run g c (store a v) m = some ((), m.st a.toNat v) := by
  simp [store, run, exec, h, Machine.st]
theorem run_tas (a : W) (m : Machine) (h : okAddr g a = true) :
    run g c (tas a) m = some (m.mem a.toNat != 0, m.st a.toNat 1) := by
  simp only [tas, run, exec, h, if_true, Machine.st, b2w]
  cases m.mem a.toNat != 0 <;> simp
theorem run_act (o : Op) (m : Machine) : run g c (act o) m = exec g c o m := by
  simp only [act, run]; cases exec g c o m <;> rfl
theorem run_act_ (o : Op) (m : Machine) : run g c (act_ o) m = (exec g c o m).map (fun x => ((), x.2)) := by
  simp only [act_, run]; cases exec g c o m <;> rfl
end

/-! ### Bit-vector comparison helpers -/

theorem W.lt_iff (a b : W) : a < b ↔ a.toNat < b.toNat := BitVec.lt_def
theorem W.le_iff (a b : W) : a ≤ b ↔ a.toNat ≤ b.toNat := BitVec.le_def
theorem W.eq_iff (a b : W) : a = b ↔ a.toNat = b.toNat := ⟨fun h => h ▸ rfl, BitVec.eq_of_toNat_eq⟩
theorem W.toNat_lt (a : W) : a.toNat < 18446744073709551616 := a.isLt

end Sanctum
