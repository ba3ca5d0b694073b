import Verif.Lemmas.Tree
import Verif.Spec.Metadata
/-
Programs that write at most to a given set of words if they complete, whatever the loads return.
-/
namespace Sanctum
open Machine

variable {g : Cfg} {α β : Type}

/-- The action changes at most words of `S`. -/
def OpTouches (S : Nat → Prop) : Op → Prop
  | .load _ => True
  | .store a _ => S a.toNat
  | .load32 _ => True
  | .store32 a _ => S (a.toNat / 8 * 8)
  | .tas a => S a.toNat
  | .fetchAdd a _ => S a.toNat
  | .curCore => True
  | .getDmaStart => True
  | .getDmaEnd => True
  | _ => False

/-- All actions of the program are such actions, for all responses. -/
def Prog.Touches (S : Nat → Prop) : Prog α → Prop
  | .ret _ => True
  | .op o k => OpTouches S o ∧ ∀ v, Prog.Touches S (k v)
  | .fault => True
  | .diverge => True

theorem Touches.bind {S : Nat → Prop} {p : Prog α} {f : α → Prog β} (hp : p.Touches S) (hf : ∀ a, (f a).Touches S) : (p >>= f).Touches S := by
  show (p.bind f).Touches S
  induction p with
  | ret a => exact hf a
  | op o k ih => exact ⟨hp.1, fun v => ih v (hp.2 v)⟩
  | fault => exact hp
  | diverge => exact hp

theorem Touches.pure {S : Nat → Prop} (a : α) : (pure a : Prog α).Touches S := trivial

theorem Touches.ite {S : Nat → Prop} {b : Prop} [Decidable b] {p q : Prog α} (hp : b → p.Touches S) (hq : ¬ b → q.Touches S) :
    (if b then p else q).Touches S := by
  split
  · exact hp ‹_›
  · exact hq ‹_›

theorem touches_load {S : Nat → Prop} (a : W) : (load a).Touches S := ⟨trivial, fun _ => trivial⟩
theorem touches_store {S : Nat → Prop} {a v : W} (h : S a.toNat) : (store a v).Touches S := ⟨h, fun _ => trivial⟩
theorem touches_tas {S : Nat → Prop} {a : W} (h : S a.toNat) : (tas a).Touches S := ⟨h, fun _ => trivial⟩

theorem sameRegs_refl (m : Machine) (mem' : Nat → W) : SameRegs m { m with mem := mem' } := ⟨⟨rfl, rfl, rfl, rfl⟩, ⟨rfl, rfl, rfl, rfl⟩, rfl, rfl⟩

theorem SameRegs.trans {m m1 m2 : Machine} (h1 : SameRegs m m1) (h2 : SameRegs m1 m2) : SameRegs m m2 := by
  obtain ⟨⟨a1, a2, a3, a4⟩, ⟨a5, a6, a7, a8⟩, a9, a10⟩ := h1
  obtain ⟨⟨b1, b2, b3, b4⟩, ⟨b5, b6, b7, b8⟩, b9, b10⟩ := h2
  exact ⟨⟨b1.trans a1, b2.trans a2, b3.trans a3, b4.trans a4⟩, ⟨b5.trans a5, b6.trans a6, b7.trans a7, b8.trans a8⟩, b9.trans a9, b10.trans a10⟩

theorem exec_touches {S : Nat → Prop} {c : Nat} {o : Op} {m m' : Machine} {v : W} (h : OpTouches S o) (he : exec g c o m = some (v, m')) :
    OnlyMem S m m' ∧ SameRegs m m' := by
  have hself : OnlyMem S m m ∧ SameRegs m m := ⟨fun _ _ => rfl, sameRegs_refl m m.mem⟩
  have hupd : ∀ a x, S a → OnlyMem S m { m with mem := upd m.mem a x } ∧ SameRegs m { m with mem := upd m.mem a x } :=
    fun a x ha => ⟨fun y hy => upd_ne _ _ (fun hh => hy (hh ▸ ha)), sameRegs_refl _ _⟩
  cases o <;> simp only [exec] at he <;> simp only [OpTouches] at h <;>
    first
    | exact absurd h id
    | (split at he
       · injection he with he; injection he with h1 h2; subst h2; first | exact hself | exact hupd _ _ h
       · cases he)
    | (injection he with he; injection he with h1 h2; subst h2; exact hself)

theorem Touches.run {S : Nat → Prop} {c : Nat} {p : Prog α} (hp : p.Touches S) {m m' : Machine} {a : α} (hr : Sanctum.run g c p m = some (a, m')) :
    OnlyMem S m m' ∧ SameRegs m m' := by
  induction p generalizing m with
  | ret x =>
      injection hr with hr; injection hr with h1 h2; subst h2
      exact ⟨fun _ _ => rfl, sameRegs_refl m m.mem⟩
  | op o k ih =>
      simp only [Sanctum.run] at hr
      cases he : exec g c o m with
      | none => rw [he] at hr; cases hr
      | some x =>
          obtain ⟨v, m1⟩ := x
          rw [he] at hr
          obtain ⟨q1, q2⟩ := exec_touches hp.1 he
          obtain ⟨q3, q4⟩ := ih v (hp.2 v) hr
          exact ⟨fun y hy => (q3 y hy).trans (q1 y hy), q2.trans q4⟩
  | fault => cases hr
  | diverge => cases hr

end Sanctum
