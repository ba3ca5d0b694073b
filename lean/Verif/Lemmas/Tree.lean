import Verif.Lemmas.Views
/-
Programs that only touch memory, and write only to a given set of words, whatever the loads return.
-/
namespace Sanctum
open Machine

variable {g : Cfg} {α β : Type}

/-- The action is a memory access that cannot fault and writes at most inside `S`. -/
def OpIn (g : Cfg) (S : Nat → Prop) : Op → Prop
  | .load a => okAddr g a = true
  | .store a _ => okAddr g a = true ∧ S a.toNat
  | .load32 a => okAddr32 g a = true
  | .store32 a _ => okAddr32 g a = true ∧ S (a.toNat / 8 * 8)
  | .tas a => okAddr g a = true ∧ S a.toNat
  | _ => False

/-- All actions of the program are such accesses, for all responses. -/
def Prog.Within (g : Cfg) (S : Nat → Prop) : Prog α → Prop
  | .ret _ => True
  | .op o k => OpIn g S o ∧ ∀ v, Prog.Within g S (k v)
  | .fault => False
  | .diverge => False

theorem Within.bind {S : Nat → Prop} {p : Prog α} {f : α → Prog β} (hp : p.Within g S) (hf : ∀ a, (f a).Within g S) :
    (p >>= f).Within g S := by
  show (p.bind f).Within g S
  induction p with
  | ret a => exact hf a
  | op o k ih => exact ⟨hp.1, fun v => ih v (hp.2 v)⟩
  | fault => exact hp
  | diverge => exact hp

theorem Within.pure {S : Nat → Prop} (a : α) : (pure a : Prog α).Within g S := trivial
theorem Within.ret {S : Nat → Prop} (a : α) : (Prog.ret a).Within g S := trivial

theorem Within.mono {S T : Nat → Prop} (hST : ∀ a, S a → T a) {p : Prog α} (hp : p.Within g S) : p.Within g T := by
  induction p with
  | ret a => trivial
  | op o k ih =>
      refine ⟨?_, fun v => ih v (hp.2 v)⟩
      have h1 := hp.1
      cases o <;> simp only [OpIn] at * <;> first | exact h1 | exact ⟨h1.1, hST _ h1.2⟩
  | fault => exact hp
  | diverge => exact hp

theorem Within.ite {S : Nat → Prop} {b : Prop} [Decidable b] {p q : Prog α} (hp : b → p.Within g S) (hq : ¬ b → q.Within g S) :
    (if b then p else q).Within g S := by
  split
  · exact hp ‹_›
  · exact hq ‹_›

/-- Such a program completes; only words of `S` change. -/
theorem Within.run {S : Nat → Prop} (c : Nat) {p : Prog α} (hp : p.Within g S) (m : Machine) :
    ∃ a mem', Sanctum.run g c p m = some (a, { m with mem := mem' }) ∧ ∀ x, ¬ S x → mem' x = m.mem x := by
  induction p generalizing m with
  | ret a => exact ⟨a, m.mem, rfl, fun _ _ => rfl⟩
  | op o k ih =>
      obtain ⟨h1, h2⟩ := hp
      have key : ∃ v mem1, exec g c o m = some (v, { m with mem := mem1 }) ∧ ∀ x, ¬ S x → mem1 x = m.mem x := by
        cases o <;> simp only [OpIn] at h1
        case load a => exact ⟨_, m.mem, by simp only [exec, h1, if_true]; rfl, fun _ _ => rfl⟩
        case store a v =>
          refine ⟨_, _, by simp only [exec, h1.1, if_true]; rfl, ?_⟩
          intro x hx
          refine upd_ne _ _ ?_
          rintro rfl; exact hx h1.2
        case load32 a => exact ⟨_, m.mem, by simp only [exec, h1, if_true]; rfl, fun _ _ => rfl⟩
        case store32 a v =>
          refine ⟨_, _, by simp only [exec, h1.1, if_true]; rfl, ?_⟩
          intro x hx
          refine upd_ne _ _ ?_
          rintro rfl; exact hx h1.2
        case tas a =>
          refine ⟨_, _, by simp only [exec, h1.1, if_true]; rfl, ?_⟩
          intro x hx
          refine upd_ne _ _ ?_
          rintro rfl; exact hx h1.2
      obtain ⟨v, mem1, h3, h4⟩ := key
      obtain ⟨a, mem2, h5, h6⟩ := ih v (h2 v) { m with mem := mem1 }
      refine ⟨a, mem2, ?_, fun x hx => (h6 x hx).trans (h4 x hx)⟩
      simp only [Sanctum.run, h3]
      exact h5
  | fault => exact hp.elim
  | diverge => exact hp.elim

/-! ### Building blocks -/

section
variable {S : Nat → Prop}

theorem within_load {a : W} (h : okAddr g a = true) : (load a).Within g S := ⟨h, fun _ => trivial⟩
theorem within_store {a v : W} (h : okAddr g a = true) (hs : S a.toNat) : (store a v).Within g S := ⟨⟨h, hs⟩, fun _ => trivial⟩
theorem within_load32 {a : W} (h : okAddr32 g a = true) : (load32 a).Within g S := ⟨h, fun _ => trivial⟩
theorem within_store32 {a : W} {v : W32} (h : okAddr32 g a = true) (hs : S (a.toNat / 8 * 8)) : (store32 a v).Within g S :=
  ⟨⟨h, hs⟩, fun _ => trivial⟩
end

/-- The addresses from `lo` up to but excluding `hi`. -/
def Span (lo hi : Nat) : Nat → Prop := fun a => lo ≤ a ∧ a < hi

theorem okAddr32_iff (a : W) : okAddr32 g a = true ↔ a.toNat % 4 = 0 ∧ a.toNat + 4 ≤ g.dramSize.toNat := by
  simp [okAddr32]

/-- `e + off` without wrap-around. -/
theorem add_off {e off : W} (h : e.toNat + off.toNat < 2 ^ 64) : (e + off).toNat = e.toNat + off.toNat := by
  rw [BitVec.toNat_add, Nat.mod_eq_of_lt h]

theorem at32_toNat {b : W} {i : Nat} (h : b.toNat + 4 * i < 2 ^ 64) : (at32 b i).toNat = b.toNat + 4 * i := by
  unfold at32
  rw [BitVec.toNat_add, BitVec.toNat_ofNat, Nat.mod_eq_of_lt (a := 4 * i) (by omega), Nat.mod_eq_of_lt h]

section
variable {lo hi : Nat}

theorem within_load32_at {b : W} {i : Nat} (h4 : b.toNat % 4 = 0) (hd : b.toNat + 4 * i + 4 ≤ g.dramSize.toNat) :
    (load32 (at32 b i)).Within g (Span lo hi) := by
  have := g.dramSize.isLt
  apply within_load32
  rw [okAddr32_iff, at32_toNat (by omega)]
  omega

theorem within_store32_at {b : W} {i : Nat} {v : W32} (h4 : b.toNat % 4 = 0) (hd : b.toNat + 4 * i + 4 ≤ g.dramSize.toNat)
    (hlo : lo % 8 = 0) (h1 : lo ≤ b.toNat + 4 * i) (h2 : b.toNat + 4 * i < hi) :
    (store32 (at32 b i) v).Within g (Span lo hi) := by
  have := g.dramSize.isLt
  apply within_store32
  · rw [okAddr32_iff, at32_toNat (by omega)]; omega
  · rw [at32_toNat (by omega)]; unfold Span; omega

/-- The state of the hash is at `s` (160 bytes); all writes go there. -/
theorem within_hashRounds {s b : W} (hs : s.toNat % 8 = 0) (hb : b.toNat % 4 = 0) (h1 : s.toNat + 160 ≤ g.dramSize.toNat)
    (h2 : b.toNat + 64 ≤ g.dramSize.toNat) : ∀ (n i : Nat) (r : HashRegs), i + n ≤ 64 →
    (hashRounds (s + offWorkArea) b n i r).Within g (Span s.toNat (s.toNat + 160)) := by
  have hlt := g.dramSize.isLt
  have hw : (s + offWorkArea).toNat = s.toNat + 32 := add_off (by show s.toNat + 32 < _; omega)
  have hld : ∀ j, j < 16 → (load32 (at32 (s + offWorkArea) j)).Within g (Span s.toNat (s.toNat + 160)) := by
    intro j hj; exact within_load32_at (by omega) (by omega)
  have hst : ∀ j v, j < 16 → (store32 (at32 (s + offWorkArea) j) v).Within g (Span s.toNat (s.toNat + 160)) := by
    intro j v hj; exact within_store32_at (by omega) (by omega) (by omega) (by omega) (by omega)
  intro n
  induction n with
  | zero => intro i r _; exact Within.pure _
  | succ n ih =>
      intro i r hi
      rw [hashRounds]
      refine Within.bind ?_ (fun _ => ih _ _ (by omega))
      unfold hashSchedule
      refine Within.ite (fun h16 => ?_) (fun h16 => ?_)
      · exact Within.bind (within_load32_at (by omega) (by omega)) fun _ => Within.bind (hst _ _ (by omega)) fun _ => hld _ (by omega)
      · refine Within.bind (hld _ (by omega)) fun _ => Within.bind (hld _ (by omega)) fun _ => Within.bind (hld _ (by omega)) fun _ =>
          Within.bind (hld _ (by omega)) fun _ => Within.bind (hst _ _ (by omega)) fun _ => hld _ (by omega)

theorem within_extendHash {s b : W} (hs : s.toNat % 8 = 0) (hb : b.toNat % 4 = 0) (h1 : s.toNat + 160 ≤ g.dramSize.toNat)
    (h2 : b.toNat + 64 ≤ g.dramSize.toNat) : (extendHash s b).Within g (Span s.toNat (s.toNat + 160)) := by
  have hlt := g.dramSize.isLt
  have hld : ∀ j, j < 8 → (load32 (at32 s j)).Within g (Span s.toNat (s.toNat + 160)) := by
    intro j hj; exact within_load32_at (by omega) (by omega)
  have hst : ∀ j v, j < 8 → (store32 (at32 s j) v).Within g (Span s.toNat (s.toNat + 160)) := by
    intro j v hj; exact within_store32_at (by omega) (by omega) (by omega) (by omega) (by omega)
  have hadd : ∀ j x, j < 8 → (hashAdd s j x).Within g (Span s.toNat (s.toNat + 160)) := by
    intro j x hj; exact Within.bind (hld j hj) fun _ => hst j _ hj
  have hpad : (s + offPadding + 60).toNat = s.toNat + 156 := by
    have : (s + offPadding).toNat = s.toNat + 96 := add_off (by show s.toNat + 96 < _; omega)
    rw [add_off (by rw [this]; show s.toNat + 96 + 60 < _; omega), this]; rfl
  unfold extendHash
  refine Within.bind (hld _ (by omega)) fun _ => Within.bind (hld _ (by omega)) fun _ => Within.bind (hld _ (by omega)) fun _ =>
    Within.bind (hld _ (by omega)) fun _ => Within.bind (hld _ (by omega)) fun _ => Within.bind (hld _ (by omega)) fun _ =>
    Within.bind (hld _ (by omega)) fun _ => Within.bind (hld _ (by omega)) fun _ =>
    Within.bind (within_hashRounds hs hb h1 h2 _ _ _ (by omega)) fun _ =>
    Within.bind (hadd _ _ (by omega)) fun _ => Within.bind (hadd _ _ (by omega)) fun _ => Within.bind (hadd _ _ (by omega)) fun _ =>
    Within.bind (hadd _ _ (by omega)) fun _ => Within.bind (hadd _ _ (by omega)) fun _ => Within.bind (hadd _ _ (by omega)) fun _ =>
    Within.bind (hadd _ _ (by omega)) fun _ => Within.bind (hadd _ _ (by omega)) fun _ =>
    Within.bind (within_load32 (by rw [okAddr32_iff, hpad]; omega)) fun _ =>
    within_store32 (by rw [okAddr32_iff, hpad]; omega) (by rw [hpad]; unfold Span; omega)

theorem within_bzeroWords (n : Nat) : ∀ (s : W), s.toNat % 8 = 0 → s.toNat + 8 * n ≤ g.dramSize.toNat →
    (bzeroWords s n).Within g (Span s.toNat (s.toNat + 8 * n)) := by
  have hlt := g.dramSize.isLt
  induction n with
  | zero => intro s _ _; exact Within.pure _
  | succ n ih =>
      intro s h8 hd
      rw [bzeroWords]
      refine Within.bind (within_store ?_ ?_) fun _ => ?_
      · simp only [okAddr, decide_eq_true_eq]; omega
      · unfold Span; omega
      · by_cases hn : n = 0
        · subst hn; exact Within.pure _
        have h1 : (s + 8).toNat = s.toNat + 8 := add_off (by show s.toNat + 8 < _; omega)
        refine Within.mono ?_ (ih (s + 8) (by omega) (by omega))
        intro a; unfold Span; omega

theorem within_bzero {s n : W} (h8 : s.toNat % 8 = 0) (hd : s.toNat + n.toNat ≤ g.dramSize.toNat) :
    (bzero s n).Within g (Span s.toNat (s.toNat + n.toNat)) := by
  refine Within.mono ?_ (within_bzeroWords (n.toNat / 8) s h8 (by omega))
  intro a; unfold Span; omega

theorem within_initHash {s : W} (hs : s.toNat % 8 = 0) (h1 : s.toNat + 160 ≤ g.dramSize.toNat) :
    (initHash s).Within g (Span s.toNat (s.toNat + 160)) := by
  have hlt := g.dramSize.isLt
  have hst : ∀ j v, j < 8 → (store32 (at32 s j) v).Within g (Span s.toNat (s.toNat + 160)) := by
    intro j v hj; exact within_store32_at (by omega) (by omega) (by omega) (by omega) (by omega)
  have hpad : (s + offPadding).toNat = s.toNat + 96 := add_off (by show s.toNat + 96 < _; omega)
  unfold initHash
  refine Within.bind (hst _ _ (by omega)) fun _ => Within.bind (hst _ _ (by omega)) fun _ => Within.bind (hst _ _ (by omega)) fun _ =>
    Within.bind (hst _ _ (by omega)) fun _ => Within.bind (hst _ _ (by omega)) fun _ => Within.bind (hst _ _ (by omega)) fun _ =>
    Within.bind (hst _ _ (by omega)) fun _ => Within.bind (hst _ _ (by omega)) fun _ =>
    Within.bind (Within.mono ?_ (within_bzero (n := 64) (by omega) (by rw [hpad]; show s.toNat + 96 + 64 ≤ _; omega))) fun _ =>
    within_store32 (by rw [okAddr32_iff, hpad]; omega) (by rw [hpad]; unfold Span; omega)
  intro a; unfold Span; rw [hpad, show (64 : W).toNat = 64 from rfl]; omega
end

end Sanctum
