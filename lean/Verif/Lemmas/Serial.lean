import Verif.Spec.Serial
import Verif.Lemmas.Tso
/-
Reduction: programs that take locks, access what the locks protect, and release them, run as if they were alone.
-/
namespace Sanctum
open Machine

variable {g : Cfg} {c : Nat} {α β : Type} {H : Nat → Prop}

/-! ### What locks own -/

/-- The registers of core `c`. -/
def Machine.regs (m : Machine) (c : Nat) : List W × List W × W × W × W × Nat :=
  (m.drb c, m.edrb c, m.parBase c, m.parMask c, m.cacheShift c, m.tlbFlushes c)

theorem machine_ext2 {m m' : Machine} (h : ∀ l, m.at l = m'.at l) (hr : ∀ c, m.regs c = m'.regs c) : m = m' := by
  refine machine_ext h ?_
  cases m; cases m'
  simp only [Machine.regs, Prod.mk.injEq] at hr
  simp only [Machine.rest, Machine.mk.injEq, true_and]
  exact ⟨funext fun c => (hr c).1, funext fun c => (hr c).2.1, funext fun c => (hr c).2.2.1, funext fun c => (hr c).2.2.2.1, funext fun c => (hr c).2.2.2.2.1,
    funext fun c => (hr c).2.2.2.2.2⟩

theorem exec_regs {o : Op} {m m1 : Machine} {v : W} (h : exec g c o m = some (v, m1)) {c' : Nat} (hc : c' ≠ c) : m1.regs c' = m.regs c' := by
  cases o <;> simp only [exec, Option.ite_none_right_eq_some, Option.some.injEq, Prod.mk.injEq] at h <;>
    (first | obtain ⟨rfl, rfl⟩ := h | obtain ⟨_, rfl, rfl⟩ := h) <;> first | rfl | (simp only [Machine.regs, upd_ne _ _ hc])

/-- An action on another machine that agrees on the locations it accesses and the core's registers. -/
theorem exec_loc {o : Op} {m m1 M : Machine} {v : W} (h : exec g c o m = some (v, m1)) (ht : ∀ l, o.touches l → M.at l = m.at l) (hr : M.regs c = m.regs c) :
    ∃ M1, exec g c o M = some (v, M1) ∧ (∀ l, o.writes l → M1.at l = m1.at l) ∧ (∀ l, ¬ o.writes l → M1.at l = M.at l) ∧ M1.regs c = m1.regs c ∧
      ∀ c', c' ≠ c → M1.regs c' = M.regs c' := by
  have key : ∀ M1, exec g c o M = some (v, M1) → (∀ l, o.writes l → M1.at l = m1.at l) → M1.regs c = m1.regs c → ∃ M1, exec g c o M = some (v, M1) ∧
      (∀ l, o.writes l → M1.at l = m1.at l) ∧ (∀ l, ¬ o.writes l → M1.at l = M.at l) ∧ M1.regs c = m1.regs c ∧ ∀ c', c' ≠ c → M1.regs c' = M.regs c' :=
    fun M1 h1 h2 h3 => ⟨M1, h1, h2, fun l => exec_at h1, h3, fun c' hc => exec_regs h1 hc⟩
  simp only [Machine.regs, Prod.mk.injEq] at hr
  obtain ⟨e1, e2, e3, e4, e5, e6⟩ := hr
  cases o <;> simp only [exec, Option.ite_none_right_eq_some, Option.some.injEq, Prod.mk.injEq] at h <;>
    (first | obtain ⟨rfl, rfl⟩ := h | obtain ⟨k1, rfl, rfl⟩ := h) <;>
    simp only [Op.touches, Op.reads, Op.writes, or_self, false_or, or_false, forall_eq, Machine.at] at ht <;>
    refine key _ (by simp only [exec, *, if_true]; rfl) (fun l hl => ?_) (by simp only [Machine.regs, upd_same, *]) <;>
    simp only [Op.writes] at hl <;> subst hl <;> simp only [Machine.at, upd_same, *]

/-- `i < g.regions`: the lock of region `i` protects the location. `g.regions + i`: the location is in a page of region `i`; a core owns these pages if it holds the lock of a region that
is free or holds metadata. -/
def OwnBy (g : Cfg) (i : Nat) : Loc → Prop
  | .word x => (x < g.monitorTop.toNat ∧ Shields g i x) ∨ (g.monitorTop.toNat ≤ x ∧ i = g.regions + regionOf g x)
  | _ => i = 0

/-- Something in `H` protects the location. -/
def Owned (g : Cfg) (H : Nat → Prop) (l : Loc) : Prop := ∃ i, H i ∧ OwnBy g i l

/-- The location holds a lock. -/
def LockLoc (g : Cfg) (l : Loc) : Prop := ∃ i, i < g.regions ∧ l = .word (lockA g i)

/-- The location never changes. -/
def Fixed (g : Cfg) (l : Loc) : Prop := ¬ AtomicLoc g l ∧ ∀ i, ¬ OwnBy g i l

theorem ownBy_inj (hw : g.WF) {i j : Nat} {l : Loc} (h1 : OwnBy g i l) (h2 : OwnBy g j l) : i = j := by
  cases l with
  | word x =>
      rcases h1 with ⟨a1, a2⟩ | ⟨a1, a2⟩ <;> rcases h2 with ⟨b1, b2⟩ | ⟨b1, b2⟩
      · exact (shields_inj hw a2 b2).1
      · omega
      · omega
      · exact a2.trans b2.symm
  | _ => exact Eq.trans h1 (Eq.symm h2)

theorem atomic_low (hw : g.WF) {l : Loc} (h : AtomicLoc g l) : ∃ x, l = .word x ∧ x < g.monitorTop.toNat ∧ ∀ i, ¬ Shields g i x := by
  have h0 : 0 < g.regions := by have := hw.regions_ge; omega
  rcases h with ⟨i, hi, rfl⟩ | rfl | ⟨c, hc, rfl⟩
  · refine ⟨_, rfl, by have := lockA_lt hw hi; omega, ?_⟩
    rintro j (⟨_, q1, q2⟩ | ⟨_, k, hk, q⟩)
    · unfold RecordWord ownerA prevA pinnedA blockedA at q2; unfold lockA at q2; omega
    · simp [hw, hi, hk] at q
  · refine ⟨_, rfl, by have := clockA_lt hw; omega, ?_⟩
    rintro j (⟨_, q1, q2⟩ | ⟨_, k, hk, q⟩)
    · rcases q2 with q | q | q | q <;> simp [hw, q1] at q
    · simp [hw, hk] at q
  · refine ⟨_, rfl, by have := flushedA_lt hw hc; omega, ?_⟩
    rintro j (⟨_, q1, q2⟩ | ⟨_, k, hk, q⟩)
    · rcases q2 with q | q | q | q <;> simp [hw, q1, hc] at q
    · simp [hw, hk, hc] at q

theorem atomic_not_own (hw : g.WF) {l : Loc} (h : AtomicLoc g l) (i : Nat) : ¬ OwnBy g i l := by
  obtain ⟨x, rfl, h1, h2⟩ := atomic_low hw h
  rintro (⟨_, q⟩ | ⟨q, _⟩)
  · exact h2 i q
  · omega

theorem lock_atomic {l : Loc} (h : LockLoc g l) : AtomicLoc g l := Or.inl h

theorem owned_not_atomic (hw : g.WF) {l : Loc} (h : Owned g H l) : ¬ AtomicLoc g l := fun hh => by
  obtain ⟨i, _, h1⟩ := h
  exact atomic_not_own hw hh i h1

theorem Owned.mono {H H' : Nat → Prop} {l : Loc} (h : Owned g H l) (hh : ∀ i, H i → H' i) : Owned g H' l := by
  obtain ⟨i, h1, h2⟩ := h
  exact ⟨i, hh i h1, h2⟩

/-! ### The logic -/

/-- The action accesses only what the locks in `H` protect and what never changes. -/
structure Prot (g : Cfg) (c : Nat) (H : Nat → Prop) (o : Op) : Prop where
  acc : ∀ l, o.touches l → Owned g H l ∨ (Fixed g l ∧ ¬ o.writes l)
  ok : ∀ m, (exec g c o m).isSome = true
  /-- regions whose pages it owns stay free or metadata -/
  hot : ∀ i, i < g.regions → H (g.regions + i) → o.writes (.word (ownerA g i)) → ∃ a v, o = .store a v ∧ (v = freeEnclaveId ∨ v = metadataEnclaveId)

/-- What is owned after the release of the lock of region `i`. -/
def dropL (g : Cfg) (H : Nat → Prop) (i : Nat) : Nat → Prop := fun j => H j ∧ j ≠ i ∧ j ≠ g.regions + i

theorem Prot.writes {o : Op} (h : Prot g c H o) {l : Loc} (hl : o.writes l) : Owned g H l :=
  (h.acc l (Or.inr hl)).resolve_right fun hh => hh.2 hl

theorem Prot.atomic (hw : g.WF) {o : Op} (h : Prot g c H o) {l : Loc} (hl : AtomicLoc g l) : ¬ o.touches l := fun hh =>
  (h.acc l hh).elim (fun h1 => owned_not_atomic hw h1 hl) fun h1 => h1.1.1 hl

/-- Programs of such actions. -/
def Prog.Pro (g : Cfg) (c : Nat) (H : Nat → Prop) : Prog α → Prop
  | .ret _ => True
  | .op o f => Prot g c H o ∧ ∀ v, Prog.Pro g c H (f v)
  | .fault => False
  | .diverge => False

/-- The action releases the lock of region `i`. -/
def IsRelease (g : Cfg) (i : Nat) (o : Op) : Prop := ∃ a, o = .store a 0 ∧ i < g.regions ∧ a.toNat = lockA g i

/-- The program takes no more locks, and returns without locks. -/
def Prog.Tail (g : Cfg) (c : Nat) : (Nat → Prop) → Prog W → Prop
  | H, .ret _ => ∀ i, ¬ H i
  | H, .op o f => (Prot g c H o ∧ ∀ v, Prog.Tail g c H (f v)) ∨ ∃ i, IsRelease g i o ∧ H i ∧ Prog.Tail g c (dropL g H i) (f 0)
  | _, .fault => False
  | _, .diverge => False

/-- The program releases its locks and returns `b`. -/
def Prog.Rel (g : Cfg) (b : W) : (Nat → Prop) → Prog W → Prop
  | H, .ret v => v = b ∧ ∀ i, ¬ H i
  | H, .op o f => ∃ i, IsRelease g i o ∧ H i ∧ Prog.Rel g b (dropL g H i) (f 0)
  | _, .fault => False
  | _, .diverge => False

/-- Actions that change nothing. -/
def Op.isRead : Op → Bool
  | .load _ => true
  | .load32 _ => true
  | .curCore => true
  | .getDmaStart => true
  | .getDmaEnd => true
  | _ => false

theorem exec_isRead {o : Op} {m m1 : Machine} {v : W} (ho : o.isRead = true) (h : exec g c o m = some (v, m1)) : m1 = m := by
  cases o <;> first | cases ho; done | (simp only [exec, Option.ite_none_right_eq_some, Option.some.injEq, Prod.mk.injEq] at h; first | exact h.2.symm | exact h.2.2.symm)

/-- `M` is `x` with the locks in `H` set. -/
structure WithLocks (g : Cfg) (H : Nat → Prop) (x M : Machine) : Prop where
  set : ∀ i, i < g.regions → H i → M.mem (lockA g i) = 1
  clear : ∀ i, i < g.regions → ¬ H i → M.mem (lockA g i) = 0
  out : ∀ l, ¬ LockLoc g l → M.at l = x.at l
  regs : ∀ c, M.regs c = x.regs c

/-- No lock is set. -/
def Rested (g : Cfg) (m : Machine) : Prop := ∀ i, i < g.regions → m.mem (lockA g i) = 0

/-- Running `p` with the locks in `H` does what the call does, whatever the machine. -/
def Redo (g : Cfg) (c : Nat) (k : Call) (H : Nat → Prop) (p : Prog W) : Prop :=
  ∀ x M, Rested g x → WithLocks g H x M → run g c (k.prog g) x = run g c p M

/-- The program takes locks, one after the other; then it releases them. `w`: it has written what the locks protect. -/
def Prog.Two (g : Cfg) (c : Nat) (k : Call) : Bool → (Nat → Prop) → Prog W → Prop
  | _, H, .ret _ => ∀ i, ¬ H i
  | w, H, .op o f =>
      (Prog.op o f).Tail g c H ∨
      (Prot g c H o ∧ ∀ v, RespOk g c H o v → Prog.Two g c k (w || !o.isRead) H (f v)) ∨
      (w = false ∧ ∃ a i, o = .tas a ∧ i < g.regions ∧ a.toNat = lockA g i ∧
        (¬ H i → Prog.Two g c k false (addL H i) (f 0) ∧ ∃ b, TurnedAway k b ∧ (f 1).Rel g b H) ∧ (H i → Prog.Two g c k false H (f 1))) ∨
      (w = false ∧ ∃ i, IsRelease g i o ∧ H i ∧ Prog.Two g c k false (dropL g H i) (f 0) ∧ Redo g c k (dropL g H i) (f 0)) ∨
      (∃ a, o = .fetchAdd a 1 ∧ a.toNat = clockA g ∧ ∀ v, (f v).Tail g c H) ∨
      (∃ a j, o = .load a ∧ j < g.cores ∧ a.toNat = flushedA j ∧ ∀ v, (f v).Tail g c H ∨ (Prog.Two g c k w H (f v) ∧ ∀ v', v.toNat ≤ v'.toNat → f v' = f v)) ∨
      (∃ a i, o = .load a ∧ i < g.regions ∧ a.toNat = ownerA g i ∧ i ≠ 0 ∧ H i ∧ ∀ v, RespOk g c H o v →
        Prog.Two g c k w H (f v) ∨ ((v = freeEnclaveId ∨ v = metadataEnclaveId) ∧ Prog.Two g c k w (addL H (g.regions + i)) (f v)))
  | _, _, .fault => False
  | _, _, .diverge => False

/-! ### Running the rest of a program -/

theorem exec_release (hw : g.WF) {o : Op} {i : Nat} (ho : IsRelease g i o) (m : Machine) : ∃ m1, exec g c o m = some (0, m1) ∧ m1.mem (lockA g i) = 0 ∧
    (∀ l, l ≠ .word (lockA g i) → m1.at l = m.at l) ∧ ∀ c, m1.regs c = m.regs c := by
  obtain ⟨a, rfl, hi, ha⟩ := ho
  have hok : okAddr g a = true := by
    have := lockA_lt hw hi; have := hw.top_le; have := hw.stripe_le; have := hw.regionBase; have := hw.dram_ge
    rw [okAddr_iff, ha]
    exact ⟨by unfold lockA; omega, by omega⟩
  refine ⟨{ m with mem := upd m.mem a.toNat 0 }, by simp only [exec, hok, if_true], ?_, fun l hl => ?_, fun _ => rfl⟩
  · show upd m.mem a.toNat 0 (lockA g i) = 0
    rw [ha, upd_same]
  · cases l with
    | word x => exact upd_ne _ _ fun hh => hl (by rw [hh, ha])
    | _ => rfl

/-- A program that takes no more locks runs to its end; it changes only what it owns and its locks, and depends only on what it owns and on what never changes. -/
theorem tail_run (hw : g.WF) {p : Prog W} : ∀ {H : Nat → Prop} (_ : p.Tail g c H) (m : Machine), ∃ b m', run g c p m = some (b, m') ∧
    (∀ l, ¬ LockLoc g l → ¬ Owned g H l → m'.at l = m.at l) ∧ (∀ i, i < g.regions → ¬ H i → m'.mem (lockA g i) = m.mem (lockA g i)) ∧
    (∀ i, i < g.regions → H i → m'.mem (lockA g i) = 0) ∧ (∀ c', c' ≠ c → m'.regs c' = m.regs c') ∧
    ∀ M, (∀ l, Owned g H l → M.at l = m.at l) → (∀ l, Fixed g l → M.at l = m.at l) → M.regs c = m.regs c →
      ∃ M', run g c p M = some (b, M') ∧ (∀ l, Owned g H l → M'.at l = m'.at l) ∧ M'.regs c = m'.regs c := by
  induction p with
  | ret a =>
      intro H hp m
      exact ⟨a, m, rfl, fun _ _ _ => rfl, fun _ _ _ => rfl, fun i _ hi => absurd hi (hp i), fun _ _ => rfl, fun M _ _ h3 => ⟨M, rfl, fun l ⟨i, hi, _⟩ => absurd hi (hp i), h3⟩⟩
  | op o f ih =>
      intro H hp m
      rcases hp with ⟨h1, h2⟩ | ⟨i, h1, h2, h3⟩
      · have hok := h1.ok m
        cases he : exec g c o m with
        | none => rw [he] at hok; cases hok
        | some x =>
            obtain ⟨v, m1⟩ := x
            obtain ⟨b, m', q1, q2, q3, q4, q5, q6⟩ := ih v (h2 v) m1
            refine ⟨b, m', by simp only [run, he, q1], fun l l1 l2 => ?_, fun i i1 i2 => ?_, q4, fun c' hc => (q5 c' hc).trans (exec_regs he hc), fun M e1 e2 e3 => ?_⟩
            · rw [q2 l l1 l2, exec_at he fun hh => l2 (h1.writes hh)]
            · rw [q3 i i1 i2]
              exact exec_at he (l := .word (lockA g i)) fun hh => h1.atomic hw (lock_atomic ⟨i, i1, rfl⟩) (Or.inr hh)
            · obtain ⟨M1, r1, r2, r3, r4, r5⟩ := exec_loc (M := M) he (fun l hl => (h1.acc l hl).elim (e1 l) fun hh => e2 l hh.1) e3
              have key : ∀ l, M.at l = m.at l → M1.at l = m1.at l := fun l hl => exec_at_congr he r1 hl
              obtain ⟨M', s1, s2, s3⟩ := q6 M1 (fun l hl => key l (e1 l hl)) (fun l hl => key l (e2 l hl)) r4
              exact ⟨M', by simp only [run, r1, s1], s2, s3⟩
      · obtain ⟨m1, p1, p2, p3, p4⟩ := exec_release (c := c) hw h1 m
        have hi : i < g.regions := by obtain ⟨a, _, hi, _⟩ := h1; exact hi
        obtain ⟨b, m', q1, q2, q3, q4, q5, q6⟩ := ih 0 h3 m1
        have hsub : ∀ l, Owned g (dropL g H i) l → Owned g H l := fun l hl => hl.mono fun _ hh => hh.1
        have hnl : ∀ l, ¬ LockLoc g l → l ≠ .word (lockA g i) := fun l hl hh => hl ⟨i, hi, hh⟩
        have hown : ∀ l, Owned g H l → ¬ LockLoc g l := fun l hl hh => owned_not_atomic hw hl (lock_atomic hh)
        refine ⟨b, m', by simp only [run, p1, q1], fun l l1 l2 => ?_, fun j j1 j2 => ?_, fun j j1 j2 => ?_, fun c' hc => (q5 c' hc).trans (p4 c'), fun M e1 e2 e3 => ?_⟩
        · rw [q2 l l1 fun hh => l2 (hsub l hh), p3 l (hnl l l1)]
        · rw [q3 j j1 fun hh => j2 hh.1]
          exact p3 (.word (lockA g j)) fun hh => j2 (by rw [lockA_inj.1 (Loc.word.inj hh)]; exact h2)
        · by_cases hj : j = i
          · subst hj
            rw [q3 j j1 fun hh => hh.2.1 rfl, p2]
          · exact q4 j j1 ⟨j2, hj, by omega⟩
        · obtain ⟨M1, r1, r2, r3, r4⟩ := exec_release (c := c) hw h1 M
          have key : ∀ l, l ≠ .word (lockA g i) → M.at l = m.at l → M1.at l = m1.at l := fun l h1 hl => by rw [r3 l h1, p3 l h1, hl]
          have hfix : ∀ l, Fixed g l → l ≠ .word (lockA g i) := fun l hl => hnl l fun hh => hl.1 (lock_atomic hh)
          obtain ⟨M', s1, s2, s3⟩ := q6 M1 (fun l hl => key l (hnl l (hown l (hsub l hl))) (e1 l (hsub l hl))) (fun l hl => key l (hfix l hl) (e2 l hl)) (by rw [r4, p4, e3])
          have hM : ∀ l, ¬ LockLoc g l → ¬ Owned g (dropL g H i) l → M'.at l = M1.at l := by
            obtain ⟨b', M'', t1, t2, _⟩ := ih 0 h3 M1
            rw [s1] at t1
            cases t1
            exact t2
          refine ⟨M', by simp only [run, r1, s1], fun l hl => ?_, s3⟩
          by_cases hl' : Owned g (dropL g H i) l
          · exact s2 l hl'
          · rw [hM l (hown l hl) hl', q2 l (hown l hl) hl']
            exact key l (hnl l (hown l hl)) (e1 l hl)
  | fault => intro H hp; exact hp.elim
  | diverge => intro H hp; exact hp.elim

theorem Prog.Rel.tail {p : Prog W} {b : W} : ∀ {H : Nat → Prop}, p.Rel g b H → p.Tail g c H := by
  induction p with
  | ret a => intro H hp; exact hp.2
  | op o f ih =>
      intro H hp
      obtain ⟨i, h1, h2, h3⟩ := hp
      exact Or.inr ⟨i, h1, h2, ih 0 h3⟩
  | fault => intro H hp; exact hp.elim
  | diverge => intro H hp; exact hp.elim

/-- Programs that only release locks change nothing else. -/
theorem rel_run (hw : g.WF) {p : Prog W} {b : W} : ∀ {H : Nat → Prop} (_ : p.Rel g b H) (m : Machine), ∃ m', run g c p m = some (b, m') ∧
    (∀ l, ¬ LockLoc g l → m'.at l = m.at l) ∧ ∀ c', m'.regs c' = m.regs c' := by
  induction p with
  | ret a => intro H hp m; exact ⟨m, by rw [hp.1]; rfl, fun _ _ => rfl, fun _ => rfl⟩
  | op o f ih =>
      intro H hp m
      obtain ⟨i, h1, h2, h3⟩ := hp
      obtain ⟨m1, p1, p2, p3, p4⟩ := exec_release (c := c) hw h1 m
      obtain ⟨m', q1, q2, q3⟩ := ih 0 h3 m1
      have hi : i < g.regions := by obtain ⟨a, _, hi, _⟩ := h1; exact hi
      exact ⟨m', by simp only [run, p1, q1], fun l hl => (q2 l hl).trans (p3 l fun hh => hl ⟨i, hi, hh⟩), fun c' => (q3 c').trans (p4 c')⟩
  | fault => intro H hp; exact hp.elim
  | diverge => intro H hp; exact hp.elim

end Sanctum
