import Verif.Lemmas.Serial
/-
The serial machine follows the interleaving.
-/
namespace Sanctum
open Machine

variable {g : Cfg} {c : Nat} {H : Nat → Prop}

/-- `M` is `x` in which core `c` holds the locks in `H` and has changed what they protect, and its registers, to what they are in `m`. -/
structure Blend (g : Cfg) (c : Nat) (H : Nat → Prop) (x m M : Machine) : Prop where
  set : ∀ i, i < g.regions → H i → M.mem (lockA g i) = 1
  clear : ∀ i, i < g.regions → ¬ H i → M.mem (lockA g i) = 0
  own : ∀ l, Owned g H l → M.at l = m.at l
  out : ∀ l, ¬ LockLoc g l → ¬ Owned g H l → M.at l = x.at l
  mine : M.regs c = m.regs c
  other : ∀ c', c' ≠ c → M.regs c' = x.regs c'

/-- The machine `x` is, as far as core `c` with the locks in `H` can tell, the serial machine `n`; no lock is set, and no flush was forgotten. -/
structure Alike (g : Cfg) (c : Nat) (H : Nat → Prop) (n m x : Machine) : Prop where
  rested : Rested g x
  own : ∀ l, Owned g H l → x.at l = n.at l
  mine : x.regs c = n.regs c
  fixed : ∀ l, Fixed g l → x.at l = m.at l
  flushed : ∀ j, j < g.cores → (m.flushedAt j).toNat ≤ (x.flushedAt j).toNat

/-- What is left of the call does, after what core `c` did so far, what the call does. -/
def Pre (g : Cfg) (c : Nat) (k : Call) (H : Nat → Prop) (p : Prog W) (n m : Machine) : Prop :=
  ∀ x, Alike g c H n m x → ∃ M, Blend g c H x m M ∧ run g c (k.prog g) x = run g c p M

/-- What is left of a flush. -/
def flushP3 (g : Cfg) (core w : W) : Prog W := .op (.store (coreA g core + offFlushedAt) w) fun _ => .ret monitorOk
@[inherit_doc flushP3] def flushP2 (g : Cfg) (core : W) : Prog W := .op (.load g.regionsBase) fun w => flushP3 g core w
@[inherit_doc flushP3] def flushP1 (g : Cfg) : Prog W := .op .curCore fun core => flushP2 g core

theorem flush_prog : flushCachedDramRegions g = .op .flushTlbs fun _ => flushP1 g := rfl

/-- A core of the interleaving and the same core of the serial machine `n`. -/
inductive CoreOk (g : Cfg) (c : Nat) (H : Nat → Prop) (n m : Machine) : SPhase → CoreState → Prop
  | idle : n.regs c = m.regs c → CoreOk g c H n m .idle .idle
  | pending {k : Call} {p : Prog W} (w : Bool) : p.Two g c k w H → Pre g c k H p n m → (w = false → (∀ l, Owned g H l → n.at l = m.at l) ∧ n.regs c = m.regs c) →
      CoreOk g c H n m (.pending k) (.running k p)
  | flush0 : (∀ i, ¬ H i) → n.regs c = m.regs c → CoreOk g c H n m (.pending .flushCachedDramRegions) (.running .flushCachedDramRegions (flushCachedDramRegions g))
  | flush1 : (∀ i, ¬ H i) → (n.flushTlb c).regs c = m.regs c → CoreOk g c H n m (.pending .flushCachedDramRegions) (.running .flushCachedDramRegions (flushP1 g))
  | flush2 : (∀ i, ¬ H i) → (n.flushTlb c).regs c = m.regs c → CoreOk g c H n m (.pending .flushCachedDramRegions) (.running .flushCachedDramRegions (flushP2 g (BitVec.ofNat 64 c)))
  | flush3 {w : W} : (∀ i, ¬ H i) → n.regs c = m.regs c → CoreOk g c H n m (.flushing w) (.running .flushCachedDramRegions (flushP3 g (BitVec.ofNat 64 c) w))
  | decided {k : Call} {p : Prog W} {b : W} {m' : Machine} : p.Tail g c H → run g c p m = some (b, m') → (∀ l, Owned g H l → m'.at l = n.at l) → m'.regs c = n.regs c →
      CoreOk g c H n m (.decided k b) (.running k p)

theorem flushTlb_regs (m : Machine) {n : Machine} (h : n.regs c = m.regs c) : (n.flushTlb c).regs c = (m.flushTlb c).regs c := by
  simp only [Machine.regs, Prod.mk.injEq] at h
  obtain ⟨h1, h2, h3, h4, h5, h6⟩ := h
  simp only [Machine.regs, Machine.flushTlb, upd_same, *]

/-- What other cores do does not matter. -/
theorem CoreOk.frame (hw : g.WF) {n m n' m' : Machine} {ph : SPhase} {cs : CoreState} (h : CoreOk g c H n m ph cs)
    (n1 : ∀ l, Owned g H l → n'.at l = n.at l) (n2 : n'.regs c = n.regs c) (m1 : ∀ l, Owned g H l → m'.at l = m.at l) (m2 : m'.regs c = m.regs c)
    (m3 : ∀ l, Fixed g l → m'.at l = m.at l) (m4 : ∀ j, j < g.cores → (m.flushedAt j).toNat ≤ (m'.flushedAt j).toNat) : CoreOk g c H n' m' ph cs := by
  cases h with
  | idle h1 => exact .idle (by rw [n2, m2, h1])
  | pending w h1 h2 h3 =>
      refine .pending w h1 (fun x hx => ?_) fun hh => ⟨fun l hl => by rw [n1 l hl, m1 l hl]; exact (h3 hh).1 l hl, by rw [n2, m2]; exact (h3 hh).2⟩
      obtain ⟨M, q1, q2⟩ := h2 x ⟨hx.rested, fun l hl => (hx.own l hl).trans (n1 l hl), hx.mine.trans n2, fun l hl => (hx.fixed l hl).trans (m3 l hl),
        fun j hj => Nat.le_trans (m4 j hj) (hx.flushed j hj)⟩
      exact ⟨M, ⟨q1.set, q1.clear, fun l hl => (q1.own l hl).trans (m1 l hl).symm, q1.out, q1.mine.trans m2.symm, q1.other⟩, q2⟩
  | flush0 h0 h1 => exact .flush0 h0 (by rw [n2, m2, h1])
  | flush1 h0 h1 => exact .flush1 h0 (by rw [flushTlb_regs _ n2, m2, h1])
  | flush2 h0 h1 => exact .flush2 h0 (by rw [flushTlb_regs _ n2, m2, h1])
  | flush3 h0 h1 => exact .flush3 h0 (by rw [n2, m2, h1])
  | @decided k p b r h1 h2 h3 h4 =>
      obtain ⟨b', r', t1, _, _, _, _, t6⟩ := tail_run hw h1 m
      rw [h2] at t1
      cases t1
      obtain ⟨M', s1, s2, s3⟩ := t6 m' m1 m3 m2
      exact .decided h1 s1 (fun l hl => by rw [s2 l hl, n1 l hl]; exact h3 l hl) (by rw [s3, n2]; exact h4)

/-- The times are ordered and have not wrapped around. -/
structure Times (g : Cfg) (t : List Label) (m : Machine) (S : SerialState) : Prop where
  clock : (m.clock g).toNat ≤ t.length
  flushed : ∀ j, j < g.cores → (m.flushedAt j).toNat ≤ (m.clock g).toNat
  sampled : ∀ j w, j < g.cores → S.phase j = .flushing w → (m.flushedAt j).toNat ≤ w.toNat ∧ w.toNat ≤ (m.clock g).toNat

/-- The region is free or holds metadata. -/
def FreeOrMeta (g : Cfg) (m : Machine) (i : Nat) : Prop := m.owner g i = freeEnclaveId ∨ m.owner g i = metadataEnclaveId

/-- The interleaving and the serial machine. `K` is what the cores own. -/
structure Sim (g : Cfg) (t : List Label) (K : Nat → Nat → Prop) (s : Conf) (S : SerialState) : Prop where
  rested : Rested g S.m
  eq : ∀ l, ¬ LockLoc g l → (∀ c, ¬ Owned g (K c) l) → S.m.at l = s.m.at l
  core : ∀ c, CoreOk g c (K c) S.m s.m (S.phase c) (s.cores c)
  times : Times g t s.m S
  low : ∀ c i, i < g.regions → (K c i ↔ holds g t c i)
  hot : ∀ c i, K c (g.regions + i) → i < g.regions ∧ i ≠ 0 ∧ K c i ∧ FreeOrMeta g s.m i

theorem ownBy_owner (hw : g.WF) {i : Nat} (hi : i < g.regions) (h0 : i ≠ 0) : OwnBy g i (.word (ownerA g i)) :=
  Or.inl ⟨record_lt hw hi (Or.inl rfl), shields_record h0 hi (Or.inl rfl)⟩

theorem owner_not_lock (hw : g.WF) {i : Nat} (hi : i < g.regions) : ¬ LockLoc g (.word (ownerA g i)) := by
  rintro ⟨j, hj, hh⟩
  have hh := Loc.word.inj hh
  simp [hw, hi, hj] at hh

theorem Sim.eq_other {t : List Label} {K : Nat → Nat → Prop} {s : Conf} {S : SerialState} (h : Sim g t K s S) (c : Nat) {l : Loc} (h1 : ¬ LockLoc g l)
    (h2 : ∀ c', c' ≠ c → ¬ Owned g (K c') l) (h3 : ¬ Owned g (K c) l) : S.m.at l = s.m.at l :=
  h.eq l h1 fun c' => by
    by_cases hc : c' = c
    · rw [hc]; exact h3
    · exact h2 c' hc

/-- The cores own nothing together. -/
theorem Sim.excl {t : List Label} {K : Nat → Nat → Prop} {s : Conf} {S : SerialState} (h : Sim g t K s S) (hg : Good g t s) {c c' : Nat} {i : Nat} (h1 : K c i) (h2 : K c' i) : c = c' := by
  by_cases hi : i < g.regions
  · exact hg.mutex c c' i hi ((h.low c i hi).1 h1) ((h.low c' i hi).1 h2)
  · obtain ⟨j, rfl⟩ := Nat.exists_eq_add_of_le (Nat.le_of_not_lt hi)
    obtain ⟨hj, _, a1, _⟩ := h.hot c j h1
    obtain ⟨_, _, a2, _⟩ := h.hot c' j h2
    exact hg.mutex c c' j hj ((h.low c j hj).1 a1) ((h.low c' j hj).1 a2)

theorem Sim.held {t : List Label} {K : Nat → Nat → Prop} {s : Conf} {S : SerialState} (h : Sim g t K s S) (hg : Good g t s) (c : Nat) : HeldOk g (K c) s.m :=
  fun i hi hh => hg.held c i hi ((h.low c i hi).1 hh)

/-- What a core owns when it is idle, or about to return. -/
theorem Sim.none {t : List Label} {K : Nat → Nat → Prop} {s : Conf} {S : SerialState} (h : Sim g t K s S) {c : Nat} (hno : ∀ i, ¬ holds g t c i) : ∀ i, ¬ K c i := fun i hi => by
  by_cases hlt : i < g.regions
  · exact hno i ((h.low c i hlt).1 hi)
  · obtain ⟨j, rfl⟩ := Nat.exists_eq_add_of_le (Nat.le_of_not_lt hlt)
    obtain ⟨hj, _, a1, _⟩ := h.hot c j hi
    exact hno j ((h.low c j hj).1 a1)

/-- Pages stay owned while the owner of the region does not change. -/
theorem Sim.keep {t : List Label} {K : Nat → Nat → Prop} {s : Conf} {S : SerialState} (h : Sim g t K s S) (hw : g.WF) {c : Nat} {H' : Nat → Prop} {m' : Machine}
    (h1 : ∀ i, H' (g.regions + i) → K c (g.regions + i)) (h2 : ∀ i, i < g.regions → H' (g.regions + i) → K c i → H' i)
    (h3 : ∀ l, ¬ LockLoc g l → m'.at l = s.m.at l) : ∀ i, H' (g.regions + i) → i < g.regions ∧ i ≠ 0 ∧ H' i ∧ FreeOrMeta g m' i := fun i hi => by
  obtain ⟨q1, q2, q3, q4⟩ := h.hot c i (h1 i hi)
  refine ⟨q1, q2, h2 i q1 hi q3, ?_⟩
  have : m'.owner g i = s.m.owner g i := h3 (.word (ownerA g i)) (owner_not_lock hw q1)
  unfold FreeOrMeta
  rw [this]; exact q4

theorem holds_lt (t : List Label) (c : Nat) : ∀ i, holds g t c i → i < g.regions := by
  have key : ∀ (t : List Label) (H : Nat → Prop), (∀ i, H i → i < g.regions) → ∀ i, t.foldl (heldLabel g c) H i → i < g.regions := by
    intro t
    induction t with
    | nil => intro H hH; exact hH
    | cons l t ih =>
        intro H hH
        refine ih _ ?_
        intro i hi
        cases l with
        | start c' k => exact hH i hi
        | act c' o v =>
            by_cases hc : c' = c
            · subst hc
              rw [heldLabel_act_self] at hi
              cases o <;> simp only [heldStep] at hi
              case tas a => exact hi.elim (hH i) fun hh => hh.1
              case store a w => exact hH i hi.1
              all_goals exact hH i hi
            · rw [heldLabel_act_other hc] at hi; exact hH i hi
        | done c' k v =>
            by_cases hc : c' = c
            · subst hc; rw [heldLabel_done_self] at hi; exact hi.elim
            · rw [heldLabel_done_other hc] at hi; exact hH i hi
        | soft => exact hH i hi
  exact key t _ fun _ hh => hh.elim

theorem Sim.owned_excl (hw : g.WF) {t : List Label} {K : Nat → Nat → Prop} {s : Conf} {S : SerialState} (h : Sim g t K s S) (hg : Good g t s) {c c' : Nat} {l : Loc}
    (h1 : Owned g (K c) l) (h2 : Owned g (K c') l) : c = c' := by
  obtain ⟨i, a1, a2⟩ := h1
  obtain ⟨j, b1, b2⟩ := h2
  obtain rfl := ownBy_inj hw a2 b2
  exact h.excl hg a1 b1

theorem fixed_not_owned {l : Loc} (h : Fixed g l) : ¬ Owned g H l := fun ⟨i, _, h1⟩ => h.2 i h1

/-- One core moves. -/
theorem Sim.next (hw : g.WF) {t t' : List Label} {K : Nat → Nat → Prop} {s s' : Conf} {S S' : SerialState} (hg : Good g t s) (h : Sim g t K s S) {c : Nat} {H' : Nat → Prop}
    (hH : ∀ c', c' ≠ c → holds g t' c' = holds g t c') (hlow : ∀ i, i < g.regions → (H' i ↔ holds g t' c i))
    (hhot : ∀ i, H' (g.regions + i) → i < g.regions ∧ i ≠ 0 ∧ H' i ∧ FreeOrMeta g s'.m i)
    (hcs : ∀ c', c' ≠ c → s'.cores c' = s.cores c') (hph : ∀ c', c' ≠ c → S'.phase c' = S.phase c')
    (hm : ∀ l, s'.m.at l = s.m.at l ∨ AtomicLoc g l ∨ Owned g (K c) l) (hn : ∀ l, S'.m.at l = S.m.at l ∨ AtomicLoc g l ∨ Owned g (K c) l)
    (hmr : ∀ c', c' ≠ c → s'.m.regs c' = s.m.regs c') (hnr : ∀ c', c' ≠ c → S'.m.regs c' = S.m.regs c')
    (hfl : ∀ j, j < g.cores → (s.m.flushedAt j).toNat ≤ (s'.m.flushedAt j).toNat) (hrest : Rested g S'.m)
    (heq : ∀ l, ¬ LockLoc g l → (∀ c', c' ≠ c → ¬ Owned g (K c') l) → ¬ Owned g H' l → S'.m.at l = s'.m.at l) (htm : Times g t' s'.m S')
    (hc : CoreOk g c H' S'.m s'.m (S'.phase c) (s'.cores c)) : Sim g t' (upd K c H') s' S' := by
  have hno : ∀ c', c' ≠ c → ∀ {P : Prop} {l : Loc}, Owned g (K c') l → P ∨ AtomicLoc g l ∨ Owned g (K c) l → P := fun c' hcc {P l} hl hh =>
    hh.elim id fun hh => hh.elim (fun h1 => absurd h1 (owned_not_atomic hw hl)) fun h1 => absurd (h.owned_excl hw hg hl h1) hcc
  refine ⟨hrest, fun l l1 l2 => heq l l1 (fun c' hcc => by have := l2 c'; rwa [upd_ne _ _ hcc] at this) (by have := l2 c; rwa [upd_same] at this), fun c' => ?_, htm,
    fun c' i hi => ?_, fun c' i hi => ?_⟩
  · by_cases hcc : c' = c
    · rw [hcc, upd_same]; exact hc
    · rw [upd_ne _ _ hcc, hcs c' hcc, hph c' hcc]
      refine (h.core c').frame hw (fun l hl => hno c' hcc hl (hn l)) (hnr c' hcc) (fun l hl => hno c' hcc hl (hm l)) (hmr c' hcc) (fun l hl => ?_) hfl
      exact (hm l).elim id fun hh => hh.elim (fun h1 => absurd h1 hl.1) fun h1 => absurd h1 (fixed_not_owned hl)
  · by_cases hcc : c' = c
    · rw [hcc, upd_same]; exact hlow i hi
    · rw [upd_ne _ _ hcc, hH c' hcc]; exact h.low c' i hi
  · by_cases hcc : c' = c
    · rw [hcc, upd_same] at hi ⊢; exact hhot i hi
    · rw [upd_ne _ _ hcc] at hi ⊢
      obtain ⟨q1, q2, q3, q4⟩ := h.hot c' i hi
      refine ⟨q1, q2, q3, ?_⟩
      have : s'.m.owner g i = s.m.owner g i := hno c' hcc ⟨i, q3, ownBy_owner hw q1 q2⟩ (hm (.word (ownerA g i)))
      unfold FreeOrMeta
      rw [this]; exact q4

/-- The call takes effect on the serial machine. -/
theorem commit_core (hw : g.WF) {k : Call} {p : Prog W} {n x m M : Machine} (hT : p.Tail g c H) (hrun : run g c (k.prog g) n = run g c p M)
    (hM : Blend g c H x m M) (hfix : ∀ l, Fixed g l → x.at l = m.at l) : ∃ b M', call g c k n = some (b, M') ∧ Rested g M' ∧
    (∀ l, ¬ LockLoc g l → ¬ Owned g H l → M'.at l = x.at l) ∧ (∀ c', c' ≠ c → M'.regs c' = x.regs c') ∧ CoreOk g c H M' m (.decided k b) (.running k p) := by
  obtain ⟨b, M', q1, q2, q3, q4, q5, q6⟩ := tail_run hw hT M
  have hfl : ∀ l, Fixed g l → m.at l = M.at l := fun l hl => by
    rw [hM.out l (fun hh => hl.1 (lock_atomic hh)) (fixed_not_owned hl)]; exact (hfix l hl).symm
  obtain ⟨m', r1, r2, r3⟩ := q6 m (fun l hl => (hM.own l hl).symm) hfl hM.mine.symm
  refine ⟨b, M', hrun.trans q1, fun i hi => ?_, fun l l1 l2 => (q2 l l1 l2).trans (hM.out l l1 l2), fun c' hc => (q5 c' hc).trans (hM.other c' hc), .decided hT r1 r2 r3⟩
  by_cases hh : H i
  · exact q4 i hi hh
  · rw [q3 i hi hh, hM.clear i hi hh]

theorem Times.same {t t' : List Label} {m m' : Machine} {S S' : SerialState} (h : Times g t m S) (hc : m'.clock g = m.clock g)
    (hf : ∀ j, j < g.cores → m'.flushedAt j = m.flushedAt j) (ht : t.length ≤ t'.length) (hp : ∀ j w, S'.phase j = .flushing w → S.phase j = .flushing w) : Times g t' m' S' := by
  refine ⟨by rw [hc]; exact Nat.le_trans h.clock ht, fun j hj => by rw [hc, hf j hj]; exact h.flushed j hj, fun j w hj hh => ?_⟩
  rw [hc, hf j hj]; exact h.sampled j w hj (hp j w hh)

theorem upd_phase {S : SerialState} {c : Nat} {ph : SPhase} (hp : ∀ w, ph ≠ .flushing w) : ∀ j w, upd S.phase c ph j = .flushing w → S.phase j = .flushing w := by
  intro j w hh
  by_cases hj : j = c
  · subst hj; rw [upd_same] at hh; exact absurd hh (hp w)
  · rw [upd_ne _ _ hj] at hh; exact hh

/-- The serial machine itself is like itself. -/
theorem Sim.alike (hw : g.WF) {t : List Label} {K : Nat → Nat → Prop} {s : Conf} {S : SerialState} (h : Sim g t K s S) (c : Nat) : Alike g c (K c) S.m s.m S.m := by
  have hat : ∀ l, AtomicLoc g l → ¬ LockLoc g l → S.m.at l = s.m.at l := fun l h1 h2 => h.eq l h2 fun c' hh => owned_not_atomic hw hh h1
  refine ⟨h.rested, fun _ _ => rfl, rfl, fun l hl => h.eq l (fun hh => hl.1 (lock_atomic hh)) fun c' => fixed_not_owned hl, fun j hj => ?_⟩
  have : S.m.flushedAt j = s.m.flushedAt j := hat (.word (flushedA j)) (Or.inr (Or.inr ⟨j, hj, rfl⟩)) (by rintro ⟨i, hi, hh⟩; have hh := Loc.word.inj hh; simp [hw, hi, hj] at hh)
  rw [this]; exact Nat.le_refl _

/-- The call takes effect on the serial machine between two steps of the interleaving. -/
theorem Sim.commit (hw : g.WF) {t : List Label} {K : Nat → Nat → Prop} {s : Conf} {S : SerialState} (hg : Good g t s) (h : Sim g t K s S) {c : Nat} {k : Call} {p : Prog W}
    (hph : S.phase c = .pending k) (hcs : s.cores c = .running k p) (hT : p.Tail g c (K c)) (hp : Pre g c k (K c) p S.m s.m) :
    ∃ S', SerialStep g S [] S' ∧ Sim g t K s S' ∧ ∃ b, S'.phase c = .decided k b := by
  have hal := h.alike hw c
  obtain ⟨M, hM, hrun⟩ := hp S.m hal
  obtain ⟨b, M', q1, q2, q3, q4, q5⟩ := commit_core hw hT hrun hM hal.fixed
  refine ⟨⟨upd S.phase c (.decided k b), M'⟩, .effect hph q1, ?_, b, upd_same _ _ _⟩
  rw [← upd_eq_self K c]
  refine h.next (H' := K c) hw hg (fun _ _ => rfl) (h.low c) (h.hot c) (fun _ _ => rfl) (fun c' hc => upd_ne _ _ hc) (fun _ => Or.inl rfl) (fun l => ?_) (fun _ _ => rfl) q4 (fun _ _ => Nat.le_refl _) q2
    (fun l l1 l2 l3 => (q3 l l1 l3).trans (h.eq_other c l1 l2 l3)) (h.times.same rfl (fun _ _ => rfl) (Nat.le_refl _) (upd_phase fun w hh => by cases hh)) ?_
  · by_cases h1 : LockLoc g l
    · exact Or.inr (Or.inl (lock_atomic h1))
    · by_cases h2 : Owned g (K c) l
      · exact Or.inr (Or.inr h2)
      · exact Or.inl (q3 l h1 h2)
  · show CoreOk g c (K c) M' s.m (upd S.phase c _ c) _
    rw [upd_same, hcs]; exact q5

end Sanctum
