import Verif.Lemmas.SerialSim
import Verif.Lemmas.Lin
/-
One step of the interleaving and the steps of the serial machine that follow it.
-/
namespace Sanctum
open Machine

variable {g : Cfg} {c : Nat} {H : Nat → Prop}

theorem SerialRun.trans {a b d : SerialState} {h h' : List Seen} (h1 : SerialRun g a h b) (h2 : SerialRun g b h' d) : SerialRun g a (h ++ h') d := by
  induction h2 with
  | refl => rw [List.append_nil]; exact h1
  | tail _ hs ih => rw [← List.append_assoc]; exact ih.tail hs
  | load x _ ih => rw [← List.append_assoc]; exact ih.load x
  | store x v _ ih => rw [← List.append_assoc]; exact ih.store x v

theorem SerialRun.one {a b : SerialState} {h : List Label} (h1 : SerialStep g a h b) : SerialRun g a (h.map .call) b := (SerialRun.refl a).tail h1

/-! ### Locks -/

theorem held_prot (hw : g.WF) {t : List Label} {o : Op} (h : Prot g c H o) (v : W) : holds g (t ++ [.act c o v]) c = holds g t c := by
  rw [holds_snoc, heldLabel_act_self]
  refine heldStep_frame (fun i hi a w hh => fun ha => ?_) (holds_lt t c) v
  refine h.atomic hw (l := .word (lockA g i)) (lock_atomic ⟨i, hi, rfl⟩) ?_
  rcases hh with rfl | rfl
  · exact Or.inr (by show Loc.word _ = Loc.word _; rw [ha])
  · exact Or.inr (by show Loc.word _ = Loc.word _; rw [ha])

theorem held_other {t : List Label} {o : Op} {v : W} : ∀ c', c' ≠ c → holds g (t ++ [.act c o v]) c' = holds g t c' := fun c' hc => by
  rw [holds_snoc, heldLabel_act_other (Ne.symm hc)]

theorem held_release {t : List Label} {o : Op} {i : Nat} (h : IsRelease g i o) (v : W) : holds g (t ++ [.act c o v]) c = subL (holds g t c) i := by
  rw [holds_snoc, heldLabel_act_self]
  obtain ⟨a, rfl, hi, ha⟩ := h
  funext j
  simp only [heldStep, subL, ha]
  exact propext ⟨fun hh => ⟨hh.1, fun h1 => hh.2 (by rw [h1])⟩, fun hh => ⟨hh.1, fun h1 => hh.2 (lockA_inj.1 h1).symm⟩⟩

theorem held_tas0 {t : List Label} {a : W} {i : Nat} (hi : i < g.regions) (ha : a.toNat = lockA g i) : holds g (t ++ [.act c (.tas a) 0]) c = addL (holds g t c) i := by
  rw [holds_snoc, heldLabel_act_self]
  funext j
  simp only [heldStep, addL, ha, lockA_inj]
  exact propext ⟨fun hh => hh.imp id fun h1 => h1.2.2.symm, fun hh => hh.imp id fun h1 => ⟨by rw [h1]; exact hi, trivial, h1.symm⟩⟩

theorem held_tas1 {t : List Label} {a : W} : holds g (t ++ [.act c (.tas a) 1]) c = holds g t c := by
  rw [holds_snoc, heldLabel_act_self]
  funext j
  simp only [heldStep]
  exact propext ⟨fun hh => hh.elim id fun h1 => absurd h1.2.1 (by decide), Or.inl⟩

theorem held_plain {t : List Label} {o : Op} (h : ∀ i, i < g.regions → ∀ a v, o = .tas a ∨ o = .store a v → a.toNat ≠ lockA g i) (v : W) :
    holds g (t ++ [.act c o v]) c = holds g t c := by
  rw [holds_snoc, heldLabel_act_self]
  exact heldStep_frame h (holds_lt t c) v

theorem lock_ok (hw : g.WF) {a : W} {i : Nat} (hi : i < g.regions) (ha : a.toNat = lockA g i) : okAddr g a = true := by
  have := lockA_lt hw hi; have := hw.top_le; have := hw.stripe_le; have := hw.regionBase; have := hw.dram_ge
  rw [okAddr_iff, ha]
  exact ⟨by unfold lockA; omega, by omega⟩

theorem flushed_not_lock (hw : g.WF) {j : Nat} (hj : j < g.cores) : ¬ LockLoc g (.word (flushedA j)) := by
  rintro ⟨i, hi, hh⟩
  have hh := Loc.word.inj hh
  simp [hw, hi, hj] at hh

theorem clock_not_lock (hw : g.WF) : ¬ LockLoc g (.word (clockA g)) := by
  rintro ⟨i, hi, hh⟩
  have hh := Loc.word.inj hh
  simp [hw, hi] at hh

theorem flushed_atomic {j : Nat} (hj : j < g.cores) : AtomicLoc g (.word (flushedA j)) := Or.inr (Or.inr ⟨j, hj, rfl⟩)
theorem clock_atomic : AtomicLoc g (.word (clockA g)) := Or.inr (Or.inl rfl)

theorem Sim.atomic (hw : g.WF) {t : List Label} {K : Nat → Nat → Prop} {s : Conf} {S : SerialState} (h : Sim g t K s S) {l : Loc} (h1 : AtomicLoc g l) (h2 : ¬ LockLoc g l) : S.m.at l = s.m.at l :=
  h.eq l h2 fun _ hh => owned_not_atomic hw hh h1

theorem Sim.clock (hw : g.WF) {t : List Label} {K : Nat → Nat → Prop} {s : Conf} {S : SerialState} (h : Sim g t K s S) : S.m.clock g = s.m.clock g := h.atomic hw clock_atomic (clock_not_lock hw)

/-- Locks that are still held. -/
theorem Sim.low_same {t t' : List Label} {K : Nat → Nat → Prop} {s : Conf} {S : SerialState} (h : Sim g t K s S) (hH : holds g t' c = holds g t c) :
    ∀ i, i < g.regions → (K c i ↔ holds g t' c i) := fun i hi => by rw [hH]; exact h.low c i hi

theorem Sim.low_drop {t t' : List Label} {K : Nat → Nat → Prop} {s : Conf} {S : SerialState} (h : Sim g t K s S) {i : Nat} (hH : holds g t' c = subL (holds g t c) i) :
    ∀ j, j < g.regions → (dropL g (K c) i j ↔ holds g t' c j) := fun j hj => by
  rw [hH]
  exact ⟨fun hh => ⟨(h.low c j hj).1 hh.1, hh.2.1⟩, fun hh => ⟨(h.low c j hj).2 hh.1, hh.2, by omega⟩⟩

theorem Sim.low_add {t t' : List Label} {K : Nat → Nat → Prop} {s : Conf} {S : SerialState} (h : Sim g t K s S) {i : Nat} (hH : holds g t' c = addL (holds g t c) i) :
    ∀ j, j < g.regions → (addL (K c) i j ↔ holds g t' c j) := fun j hj => by
  rw [hH]
  exact ⟨fun hh => hh.imp (h.low c j hj).1 id, fun hh => hh.imp (h.low c j hj).2 id⟩

/-- A protected action keeps the pages of the core. -/
theorem Sim.keep_prot {t : List Label} {K : Nat → Nat → Prop} {s : Conf} {S : SerialState} (h : Sim g t K s S) (hw : g.WF) {o : Op} {v : W} {m' : Machine} (hp : Prot g c (K c) o)
    (he : exec g c o s.m = some (v, m')) : ∀ i, K c (g.regions + i) → i < g.regions ∧ i ≠ 0 ∧ K c i ∧ FreeOrMeta g m' i := fun i hi => by
  obtain ⟨q1, q2, q3, q4⟩ := h.hot c i hi
  refine ⟨q1, q2, q3, ?_⟩
  by_cases hwr : o.writes (.word (ownerA g i))
  · obtain ⟨a, w, rfl, hv⟩ := hp.hot i q1 hi hwr
    have ha : ownerA g i = a.toNat := Loc.word.inj hwr
    have hok := hp.ok s.m
    rw [he] at hok
    have : m'.owner g i = w := by
      simp only [exec, Option.ite_none_right_eq_some, Option.some.injEq, Prod.mk.injEq] at he
      obtain ⟨_, _, rfl⟩ := he
      show upd s.m.mem a.toNat w (ownerA g i) = w
      rw [ha, upd_same]
    unfold FreeOrMeta
    rw [this]; exact hv
  · have : m'.owner g i = s.m.owner g i := exec_at (l := .word (ownerA g i)) he hwr
    unfold FreeOrMeta
    rw [this]; exact q4

/-- Releasing a lock keeps the pages of other regions. -/
theorem Sim.keep_drop {t : List Label} {K : Nat → Nat → Prop} {s : Conf} {S : SerialState} (h : Sim g t K s S) (hw : g.WF) {i : Nat} {m' : Machine}
    (h3 : ∀ l, ¬ LockLoc g l → m'.at l = s.m.at l) : ∀ j, dropL g (K c) i (g.regions + j) → j < g.regions ∧ j ≠ 0 ∧ dropL g (K c) i j ∧ FreeOrMeta g m' j :=
  h.keep hw (fun j hj => hj.1) (fun j hj h1 h2 => ⟨h2, fun hh => h1.2.2 (by rw [hh]), by omega⟩) h3

/-! ### Calls that have taken effect -/

theorem Sim.decided_act (hw : g.WF) {t : List Label} {K : Nat → Nat → Prop} {s : Conf} {S : SerialState} (hg : Good g t s) (h : Sim g t K s S) {c : Nat} {k : Call} {o : Op} {f : W → Prog W} {b v : W}
    {m' : Machine} (hph : S.phase c = .decided k b) (hcs : s.cores c = .running k (.op o f)) (he : exec g c o s.m = some (v, m')) :
    ∃ K', Sim g (t ++ [.act c o v]) K' { m := m', cores := upd s.cores c (.running k (f v)) } S := by
  have hc := h.core c
  rw [hph, hcs] at hc
  cases hc with
  | @decided _ _ _ r h1 h2 h3 h4 =>
      have hcs' : ∀ c', c' ≠ c → upd s.cores c (.running k (f v)) c' = s.cores c' := fun c' hc => upd_ne _ _ hc
      have hlen : t.length ≤ (t ++ [Label.act c o v]).length := by simp
      rcases h1 with ⟨p1, p2⟩ | ⟨i, p1, p2, p3⟩
      · have hH := held_prot hw (t := t) p1 v
        have hat : ∀ l, ¬ Owned g (K c) l → m'.at l = s.m.at l := fun l hl => exec_at he fun hh => hl (p1.writes hh)
        have hato : ∀ l, AtomicLoc g l → m'.at l = s.m.at l := fun l hl => exec_at he fun hh => p1.atomic hw hl (Or.inr hh)
        have hfl : ∀ j, j < g.cores → m'.flushedAt j = s.m.flushedAt j := fun j hj => hato _ (flushed_atomic hj)
        refine ⟨_, h.next (H' := K c) hw hg held_other (h.low_same hH) (h.keep_prot hw p1 he) hcs' (fun _ _ => rfl) (fun l => ?_) (fun _ => Or.inl rfl)
          (fun c' hc => exec_regs he hc) (fun _ _ => rfl)
          (fun j hj => by show _ ≤ (m'.flushedAt j).toNat; rw [hfl j hj]; exact Nat.le_refl _) h.rested (fun l l1 l2 l3 => (h.eq_other c l1 l2 l3).trans (hat l l3).symm)
          (h.times.same (hato _ clock_atomic) hfl hlen fun _ _ hh => hh) ?_⟩
        · by_cases hl : Owned g (K c) l
          · exact Or.inr (Or.inr hl)
          · exact Or.inl (hat l hl)
        · show CoreOk g c _ S.m m' (S.phase c) (upd s.cores c _ c)
          rw [hph, upd_same]
          simp only [run, he] at h2
          exact .decided (p2 v) h2 h3 h4
      · obtain ⟨m1, q1, q2, q3, q4⟩ := exec_release (c := c) hw p1 s.m
        rw [he] at q1
        cases q1
        have hi : i < g.regions := by obtain ⟨a, _, hi, _⟩ := p1; exact hi
        have hH := held_release (t := t) (c := c) p1 0
        have hnl : ∀ l, ¬ LockLoc g l → m'.at l = s.m.at l := fun l hl => q3 l fun hh => hl ⟨i, hi, hh⟩
        have hfl : ∀ j, j < g.cores → m'.flushedAt j = s.m.flushedAt j := fun j hj => hnl _ (flushed_not_lock hw hj)
        simp only [run, he] at h2
        obtain ⟨b', r', s1, s2, _⟩ := tail_run hw p3 m'
        rw [h2] at s1
        cases s1
        refine ⟨_, h.next (H' := dropL g (K c) i) hw hg held_other (h.low_drop hH) (h.keep_drop hw hnl) hcs' (fun _ _ => rfl) (fun l => ?_) (fun _ => Or.inl rfl)
          (fun c' hc => q4 c') (fun _ _ => rfl)
          (fun j hj => by show _ ≤ (m'.flushedAt j).toNat; rw [hfl j hj]; exact Nat.le_refl _) h.rested (fun l l1 l2 l3 => ?_)
          (h.times.same (hnl _ (clock_not_lock hw)) hfl hlen fun _ _ hh => hh) ?_⟩
        · by_cases hl : LockLoc g l
          · exact Or.inr (Or.inl (lock_atomic hl))
          · exact Or.inl (hnl l hl)
        · by_cases hl : Owned g (K c) l
          · exact (h3 l hl).symm.trans (s2 l l1 l3)
          · exact (h.eq_other c l1 l2 hl).trans (hnl l l1).symm
        · show CoreOk g c _ S.m m' (S.phase c) (upd s.cores c _ c)
          rw [hph, upd_same]
          exact .decided p3 h2 (fun l hl => h3 l (hl.mono fun _ hh => hh.1)) h4

theorem Sim.decided_done (hw : g.WF) {t : List Label} {K : Nat → Nat → Prop} {s : Conf} {S : SerialState} (hg : Good g t s) (h : Sim g t K s S) {c : Nat} {k : Call} {b v : W}
    (hph : S.phase c = .decided k b) (hcs : s.cores c = .running k (.ret v)) : ∃ S', SerialStep g S [.done c k v] S' ∧
      Sim g (t ++ [.done c k v]) K { s with cores := upd s.cores c .idle } S' := by
  have hc := h.core c
  rw [hph, hcs] at hc
  cases hc with
  | @decided _ _ _ r h1 h2 h3 h4 =>
      obtain ⟨e1, e2⟩ := Prod.mk.inj (Option.some.inj h2)
      subst e1 e2
      have h1' : ∀ i, ¬ K c i := h1
      have hself : holds g (t ++ [.done c k v]) c = holds g t c := by
        rw [holds_snoc, heldLabel_done_self]
        exact funext fun i => propext ⟨False.elim, fun hh => h1' i ((h.low c i (holds_lt t c i hh)).2 hh)⟩
      have hoth : ∀ c', c' ≠ c → holds g (t ++ [.done c k v]) c' = holds g t c' := fun c' hc => by rw [holds_snoc, heldLabel_done_other (Ne.symm hc)]
      refine ⟨_, .done hph, ?_⟩
      rw [← upd_eq_self K c]
      refine h.next (H' := K c) hw hg hoth (h.low_same hself) (h.hot c) (fun c' hc => upd_ne _ _ hc) (fun c' hc => upd_ne _ _ hc) (fun _ => Or.inl rfl) (fun _ => Or.inl rfl) (fun _ _ => rfl) (fun _ _ => rfl)
        (fun _ _ => Nat.le_refl _) h.rested (fun l l1 l2 l3 => h.eq_other c l1 l2 l3)
        (h.times.same rfl (fun _ _ => rfl) (by simp) (upd_phase fun w hh => by cases hh)) ?_
      show CoreOk g c _ S.m s.m (upd S.phase c _ c) (upd s.cores c _ c)
      rw [upd_same, upd_same]
      exact .idle h4.symm

/-! ### Calls that have not taken effect -/

/-- Setting the locks in `H`. -/
theorem withLocks_exists (hw : g.WF) {x : Machine} (hx : Rested g x) (H : Nat → Prop) : ∃ M, WithLocks g H x M := by
  classical
  refine ⟨{ x with mem := fun y => if ∃ i, i < g.regions ∧ H i ∧ y = lockA g i then 1 else x.mem y }, fun i hi hh => if_pos ⟨i, hi, hh, rfl⟩, fun i hi hh => ?_, fun l hl => ?_,
    fun _ => rfl⟩
  · show (if _ then _ else _) = _
    rw [if_neg]
    · exact hx i hi
    · rintro ⟨j, _, h1, h2⟩
      exact hh (by rw [lockA_inj.1 h2]; exact h1)
  · cases l with
    | word y => exact if_neg fun ⟨i, hi, _, h2⟩ => hl ⟨i, hi, by rw [h2]⟩
    | _ => rfl

theorem Sim.start (hw : g.WF) {t : List Label} {K : Nat → Nat → Prop} {s : Conf} {S : SerialState} (hg : Good g t s) (h : Sim g t K s S) {c : Nat} {k : Call}
    (hk : k = .flushCachedDramRegions ∨ (k.prog g).Two g c k false noL) (hc : c < g.cores) (hcs : s.cores c = .idle) : ∃ S', SerialStep g S [.start c k] S' ∧
      Sim g (t ++ [.start c k]) K { s with cores := upd s.cores c (.running k (k.prog g)) } S' := by
  have hco := h.core c
  have hidle := h.none (hg.idle c hcs)
  rw [hcs] at hco
  have hph : S.phase c = .idle := by generalize S.phase c = ph at hco; cases hco; rfl
  have hall : ∀ c', holds g (t ++ [.start c k]) c' = holds g t c' := fun c' => by rw [holds_snoc]; rfl
  refine ⟨_, .start (k := k) hc hph, ?_⟩
  rw [← upd_eq_self K c]
  refine h.next (H' := K c) hw hg (fun c' _ => hall c') (h.low_same (hall c)) (h.hot c) (fun c' hc => upd_ne _ _ hc) (fun c' hc => upd_ne _ _ hc) (fun _ => Or.inl rfl) (fun _ => Or.inl rfl)
    (fun _ _ => rfl) (fun _ _ => rfl) (fun _ _ => Nat.le_refl _) h.rested (fun l l1 l2 l3 => h.eq_other c l1 l2 l3)
    (h.times.same rfl (fun _ _ => rfl) (by simp) (upd_phase fun w hh => by cases hh)) ?_
  show CoreOk g c _ S.m s.m (upd S.phase c _ c) (upd s.cores c _ c)
  rw [upd_same, upd_same]
  have hno : K c = noL := funext fun i => propext ⟨fun hh => hidle i hh, False.elim⟩
  rw [hph] at hco
  cases hco with
  | idle hr =>
      rcases hk with rfl | hk
      · exact .flush0 hidle hr
      · rw [hno]
        refine .pending false hk (fun x hx => ⟨x, ⟨fun i _ hh => hh.elim, fun i hi _ => hx.rested i hi, fun l ⟨i, hh, _⟩ => hh.elim, fun _ _ _ => rfl, hx.mine.trans hr, fun _ _ => rfl⟩, rfl⟩)
          fun _ => ⟨fun l ⟨i, hh, _⟩ => hh.elim, hr⟩

/-- Steps that change nothing but what the core owns and atomic locations, while the serial machine waits. -/
theorem Sim.wait (hw : g.WF) {t : List Label} {K : Nat → Nat → Prop} {s : Conf} {S : SerialState} (hg : Good g t s) (h : Sim g t K s S) {c : Nat} {k : Call} {o : Op} {f : W → Prog W} {v : W} {m' : Machine}
    (hn : Nat → Prop) (hlow : ∀ i, i < g.regions → (hn i ↔ holds g (t ++ [.act c o v]) c i)) (hhot : ∀ i, hn (g.regions + i) → i < g.regions ∧ i ≠ 0 ∧ hn i ∧ FreeOrMeta g m' i)
    (he : exec g c o s.m = some (v, m')) (hown : ∀ l, m'.at l = s.m.at l ∨ LockLoc g l ∨ Owned g (K c) l)
    (hlose : ∀ l, ¬ LockLoc g l → Owned g (K c) l → ¬ Owned g hn l → S.m.at l = m'.at l)
    (hcore : CoreOk g c hn S.m m' (S.phase c) (.running k (f v))) :
    Sim g (t ++ [.act c o v]) (upd K c hn) { m := m', cores := upd s.cores c (.running k (f v)) } S := by
  have hat : ∀ l, AtomicLoc g l → ¬ LockLoc g l → m'.at l = s.m.at l := fun l h1 h2 => (hown l).elim id fun hh => hh.elim (fun hh => absurd hh h2) fun hh => absurd h1 (owned_not_atomic hw hh)
  have hfl : ∀ j, j < g.cores → m'.flushedAt j = s.m.flushedAt j := fun j hj => hat _ (flushed_atomic hj) (flushed_not_lock hw hj)
  refine h.next hw hg held_other hlow hhot (fun c' hc => upd_ne _ _ hc) (fun _ _ => rfl) (fun l => (hown l).imp id fun hh => hh.imp lock_atomic id) (fun _ => Or.inl rfl) (fun c' hc => exec_regs he hc)
    (fun _ _ => rfl) (fun j hj => by show _ ≤ (m'.flushedAt j).toNat; rw [hfl j hj]; exact Nat.le_refl _) h.rested (fun l l1 l2 l3 => ?_)
    (h.times.same (hat _ clock_atomic (clock_not_lock hw)) hfl (by simp) fun _ _ hh => hh) ?_
  · by_cases hl : Owned g (K c) l
    · exact hlose l l1 hl l3
    · exact (h.eq_other c l1 l2 hl).trans ((hown l).elim Eq.symm fun hh => hh.elim (fun hh => absurd hh l1) fun hh => absurd hh hl)
  · show CoreOk g c _ S.m m' (S.phase c) (upd s.cores c _ c)
    rw [upd_same]; exact hcore

theorem Sim.phase_idle {t : List Label} {K : Nat → Nat → Prop} {s : Conf} {S : SerialState} (h : Sim g t K s S) {c : Nat} (hc : S.phase c = .idle) : s.cores c = .idle := by
  have := h.core c
  rw [hc] at this
  generalize s.cores c = cs at this
  cases this; rfl

theorem Sim.pending_act (hw : g.WF) {t : List Label} {K : Nat → Nat → Prop} {s : Conf} {S : SerialState} (hg : Good g t s) (h : Sim g t K s S) (hnl : OnlyCalls NoLeak t) (ht : t.length + 1 < 2 ^ 64)
    {c : Nat} {k : Call} {o : Op} {f : W → Prog W} {v : W} {m' : Machine} (hph : S.phase c = .pending k) (hcs : s.cores c = .running k (.op o f))
    (he : exec g c o s.m = some (v, m')) {w : Bool} (h1 : (Prog.op o f).Two g c k w (K c)) (h2 : Pre g c k (K c) (.op o f) S.m s.m)
    (h3 : w = false → (∀ l, Owned g (K c) l → S.m.at l = s.m.at l) ∧ S.m.regs c = s.m.regs c) :
    ∃ S' K', SerialRun g S [] S' ∧ Sim g (t ++ [.act c o v]) K' { m := m', cores := upd s.cores c (.running k (f v)) } S' := by
  have hclt : c < g.cores := (hg.safe c k _ hcs).1
  rcases h1 with h1 | ⟨p1, p2⟩ | ⟨rfl, a, i, rfl, hi, ha, p1, p2⟩ | ⟨rfl, i, p1, p2, p3, p4⟩ | ⟨a, rfl, ha, p1⟩ | ⟨a, j, rfl, hj, ha, p1⟩ |
    ⟨a, i, rfl, hi, ha, hi0, hHi, p1⟩
  · -- the call takes effect
    obtain ⟨S', q1, q2, b, q3⟩ := h.commit hw hg hph hcs h1 h2
    obtain ⟨K', r⟩ := q2.decided_act hw hg q3 hcs he
    exact ⟨S', K', .one q1, r⟩
  · -- an access to what the locks protect
    have hr := exec_respOk hg.inv (h.held hg c) he
    have hH := held_prot hw (t := t) p1 v
    refine ⟨S, _, .refl _, h.wait hw hg (K c) (h.low_same hH) (h.keep_prot hw p1 he) he (fun l => ?_) (fun l _ q1 q2 => absurd q1 q2) ?_⟩
    · by_cases hl : Owned g (K c) l
      · exact Or.inr (Or.inr hl)
      · exact Or.inl (exec_at he fun hh => hl (p1.writes hh))
    · rw [hph]
      refine .pending _ (p2 v hr) (fun x hx => ?_) fun hh => ?_
      · have hfix : ∀ l, Fixed g l → m'.at l = s.m.at l := fun l hl => exec_at he fun hh => fixed_not_owned hl (p1.writes hh)
        have hfl : ∀ j, j < g.cores → m'.flushedAt j = s.m.flushedAt j := fun j hj =>
          exec_at (l := .word (flushedA j)) he fun hh => p1.atomic hw (flushed_atomic hj) (Or.inr hh)
        obtain ⟨M, q1, q2⟩ := h2 x ⟨hx.rested, hx.own, hx.mine, fun l hl => (hx.fixed l hl).trans (hfix l hl), fun j hj => by have := hx.flushed j hj; rwa [hfl j hj] at this⟩
        have hMf : ∀ l, Fixed g l → M.at l = s.m.at l := fun l hl => by
          rw [q1.out l (fun hh => hl.1 (lock_atomic hh)) (fixed_not_owned hl), hx.fixed l hl, hfix l hl]
        obtain ⟨M1, r1, r2, r3, r4, r5⟩ := exec_loc (M := M) he (fun l hl => (p1.acc l hl).elim (q1.own l) fun hh => hMf l hh.1) q1.mine
        have hlock : ∀ i, i < g.regions → M1.mem (lockA g i) = M.mem (lockA g i) := fun i hi =>
          r3 (.word (lockA g i)) fun hh => p1.atomic hw (lock_atomic ⟨i, hi, rfl⟩) (Or.inr hh)
        refine ⟨M1, ⟨fun i hi hh => (hlock i hi).trans (q1.set i hi hh), fun i hi hh => (hlock i hi).trans (q1.clear i hi hh), fun l hl => exec_at_congr he r1 (q1.own l hl),
          fun l l1 l2 => (r3 l fun hh => l2 (p1.writes hh)).trans (q1.out l l1 l2), r4, fun c' hc => (r5 c' hc).trans (q1.other c' hc)⟩, ?_⟩
        rw [q2]
        simp only [run, r1]
      · simp only [Bool.or_eq_false_iff, Bool.not_eq_false'] at hh
        rw [exec_isRead hh.2 he]
        exact h3 hh.1
  · -- a test-and-set
    obtain ⟨h3, h3r⟩ := h3 rfl
    have hok := lock_ok hw hi ha
    simp only [exec, hok, if_true, Option.some.injEq, Prod.mk.injEq, ha] at he
    obtain ⟨he1, he2⟩ := he
    have hexM : ∀ M : Machine, exec g c (.tas a) M = some (b2w (M.mem (lockA g i) != 0), { M with mem := upd M.mem (lockA g i) 1 }) := fun M => by
      simp only [exec, hok, if_true, ha]
    have hat : ∀ l, m'.at l = s.m.at l ∨ LockLoc g l ∨ Owned g (K c) l := fun l => by
      by_cases hl : LockLoc g l
      · exact Or.inr (Or.inl hl)
      · left
        subst he2
        cases l with
        | word y => exact upd_ne _ _ fun hh => hl ⟨i, hi, by rw [hh]⟩
        | _ => rfl
    by_cases hz : s.m.mem (lockA g i) = 0
    · -- the lock is free
      have hv : v = 0 := by rw [← he1, hz]; rfl
      subst hv
      have hnh : ∀ c', ¬ K c' i := fun c' hh => by have := h.held hg c' i hi hh; rw [hz] at this; exact absurd this (by decide)
      have hnew : ∀ l, OwnBy g i l → S.m.at l = s.m.at l := fun l hl => by
        refine h.eq l (fun hh => atomic_not_own hw (lock_atomic hh) i hl) fun c' ⟨j, j1, j2⟩ => ?_
        rw [← ownBy_inj hw hl j2] at j1
        exact hnh c' j1
      have hH := held_tas0 (t := t) (c := c) hi ha
      have hsm : ∀ l, ¬ LockLoc g l → m'.at l = s.m.at l := fun l hl => by
        subst he2
        cases l with
        | word y => exact upd_ne _ _ fun hh => hl ⟨i, hi, by rw [hh]⟩
        | _ => rfl
      have hol : ∀ {H' : Nat → Prop} l, Owned g H' l → ¬ LockLoc g l := fun l hl hh => owned_not_atomic hw hl (lock_atomic hh)
      have hsub : ∀ l, Owned g (K c) l → Owned g (addL (K c) i) l := fun l hl => hl.mono fun _ => Or.inl
      have hsp : ∀ l, Owned g (addL (K c) i) l → S.m.at l = s.m.at l := by
        rintro l ⟨j, j1 | rfl, j2⟩
        · exact h3 l ⟨j, j1, j2⟩
        · exact hnew l j2
      refine ⟨S, _, .refl _, h.wait hw hg (addL (K c) i) (h.low_add hH) (h.keep hw (fun j hj => hj.elim id fun hh => by omega) (fun j _ _ hh => Or.inl hh) hsm)
        (show exec g c (.tas a) s.m = some (0, m') by rw [hexM, he1, he2]) hat (fun l _ q1 q2 => absurd (hsub l q1) q2) ?_⟩
      rw [hph]
      refine .pending false (p1 (hnh c)).1 (fun x hx => ?_) fun _ => ⟨fun l hl => (hsp l hl).trans (hsm l (hol l hl)).symm, by rw [h3r, ← he2]; rfl⟩
      obtain ⟨M, q1, q2⟩ := h2 x ⟨hx.rested, fun l hl => hx.own l (hsub l hl), hx.mine, fun l hl => (hx.fixed l hl).trans (hsm l fun hh => hl.1 (lock_atomic hh)), fun j hj => by
        have := hx.flushed j hj
        rwa [show m'.flushedAt j = s.m.flushedAt j from hsm _ (flushed_not_lock hw hj)] at this⟩
      have hM := hexM M
      rw [q1.clear i hi (hnh c)] at hM
      have hM1 : ∀ l, ¬ LockLoc g l → ({ M with mem := upd M.mem (lockA g i) 1 } : Machine).at l = M.at l := fun l hl => by
        cases l with
        | word y => exact upd_ne _ _ fun hh => hl ⟨i, hi, by rw [hh]⟩
        | _ => rfl
      refine ⟨{ M with mem := upd M.mem (lockA g i) 1 }, ⟨fun j hj hh => ?_, fun j hj hh => ?_, fun l hl => ?_, fun l l1 l2 => ?_, ?_, fun c' hc => q1.other c' hc⟩, ?_⟩
      · show upd M.mem (lockA g i) 1 (lockA g j) = 1
        rcases hh with hh | rfl
        · by_cases hji : j = i
          · rw [hji, upd_same]
          · rw [upd_ne _ _ fun hq => hji (lockA_inj.1 hq), q1.set j hj hh]
        · rw [upd_same]
      · show upd M.mem (lockA g i) 1 (lockA g j) = 0
        rw [upd_ne _ _ fun hq => hh (Or.inr (lockA_inj.1 hq)), q1.clear j hj fun hq => hh (Or.inl hq)]
      · rw [hM1 l (hol l hl), hsm l (hol l hl)]
        by_cases hl' : Owned g (K c) l
        · exact q1.own l hl'
        · rw [q1.out l (hol l hl) hl', hx.own l hl, hsp l hl]
      · rw [hM1 l l1, q1.out l l1 fun hh => l2 (hsub l hh)]
      · rw [← he2]; exact q1.mine
      · rw [q2]
        simp only [run, hM]
        rfl
    · -- the lock is taken
      obtain ⟨c', hc'⟩ := hg.noLeak hnl i hi hz
      have h1' := hg.held c' i hi hc'
      have hv : v = 1 := by rw [← he1, h1']; rfl
      have hupd : ∀ M : Machine, M.mem (lockA g i) = 1 → ({ M with mem := upd M.mem (lockA g i) 1 } : Machine) = M := fun M hM => by
        have : upd M.mem (lockA g i) 1 = M.mem := by
          funext y
          by_cases hy : y = lockA g i
          · rw [hy, upd_same, hM]
          · rw [upd_ne _ _ hy]
        rw [this]
      rw [hupd s.m h1'] at he2
      subst hv he2
      have hex : exec g c (.tas a) s.m = some (1, s.m) := by rw [hexM, hupd _ h1', h1']; rfl
      have hH := held_tas1 (g := g) (t := t) (c := c) (a := a)
      by_cases hHi : K c i
      · refine ⟨S, _, .refl _, h.wait hw hg (K c) (h.low_same hH) (h.hot c) hex (fun l => Or.inl rfl) (fun l _ q1 q2 => absurd q1 q2) ?_⟩
        rw [hph]
        refine .pending false (p2 hHi) (fun x hx => ?_) fun _ => ⟨h3, h3r⟩
        obtain ⟨M, q1, q2⟩ := h2 x hx
        refine ⟨M, q1, ?_⟩
        have hM := hexM M
        rw [hupd M (q1.set i hi hHi), q1.set i hi hHi] at hM
        rw [q2]
        simp only [run, hM]
        rfl
      · -- turned away
        obtain ⟨b, t1, t2⟩ := (p1 hHi).2
        have hcc : c' ≠ c := fun hh => hHi ((h.low c i hi).2 (by rw [← hh]; exact hc'))
        have hni : S.phase c' ≠ .idle := fun hh => hg.idle c' (h.phase_idle hh) i hc'
        refine ⟨_, K, .one (.busy (c := c) hph hcc hni t1), ?_⟩
        obtain ⟨r, r1, r2, r3⟩ := rel_run (c := c) hw t2 s.m
        rw [← upd_eq_self K c]
        refine h.next (H' := K c) hw hg held_other (h.low_same hH) (h.hot c) (fun c' hc => upd_ne _ _ hc) (fun c' hc => upd_ne _ _ hc) (fun l => Or.inl rfl) (fun _ => Or.inl rfl) (fun c' hc => rfl)
          (fun _ _ => rfl) (fun j hj => Nat.le_refl _) h.rested (fun l l1 l2 l3 => h.eq_other c l1 l2 l3)
          (h.times.same rfl (fun _ _ => rfl) (by simp) (upd_phase fun w hh => by cases hh)) ?_
        · show CoreOk g c _ S.m s.m (upd S.phase c _ c) (upd s.cores c _ c)
          rw [upd_same, upd_same]
          exact .decided t2.tail r1 (fun l hl => (r2 l fun hh => owned_not_atomic hw hl (lock_atomic hh)).trans (h3 l hl).symm) ((r3 c).trans h3r.symm)
  · -- an early release
    obtain ⟨h3, h3r⟩ := h3 rfl
    obtain ⟨m1, q1, q2, q3, q4⟩ := exec_release (c := c) hw p1 s.m
    rw [he] at q1
    obtain ⟨e1, e2⟩ := Prod.mk.inj (Option.some.inj q1)
    subst e1 e2
    have hi : i < g.regions := by obtain ⟨a, _, hi, _⟩ := p1; exact hi
    have hH := held_release (t := t) (c := c) p1 0
    have hsm : ∀ l, ¬ LockLoc g l → m'.at l = s.m.at l := fun l hl => q3 l fun hh => hl ⟨i, hi, hh⟩
    have hol : ∀ {H' : Nat → Prop} l, Owned g H' l → ¬ LockLoc g l := fun l hl hh => owned_not_atomic hw hl (lock_atomic hh)
    have hsub : ∀ l, Owned g (dropL g (K c) i) l → Owned g (K c) l := fun l hl => hl.mono fun _ hh => hh.1
    refine ⟨S, _, .refl _, h.wait hw hg (dropL g (K c) i) (h.low_drop hH) (h.keep_drop hw hsm) he (fun l => ?_) (fun l l1 r1 _ => (h3 l r1).trans (hsm l l1).symm) ?_⟩
    · by_cases hl : LockLoc g l
      · exact Or.inr (Or.inl hl)
      · exact Or.inl (hsm l hl)
    · rw [hph]
      have hse : ∀ l, Owned g (dropL g (K c) i) l → S.m.at l = m'.at l := fun l hl => (h3 l (hsub l hl)).trans (hsm l (hol l hl)).symm
      have hsr : S.m.regs c = m'.regs c := by rw [h3r, q4]
      refine .pending false p3 (fun x hx => ?_) fun _ => ⟨hse, hsr⟩
      obtain ⟨M, hM⟩ := withLocks_exists hw hx.rested (dropL g (K c) i)
      exact ⟨M, ⟨hM.set, hM.clear, fun l hl => by rw [hM.out l (hol l hl), hx.own l hl, hse l hl], fun l l1 _ => hM.out l l1, by rw [hM.regs, hx.mine, hsr], fun c' _ => hM.regs c'⟩, p4 x M hx.rested hM⟩
  · -- the block clock ticks
    have hat := h.alike hw c
    obtain ⟨M, q1, q2⟩ := h2 S.m hat
    have hnol : ∀ {H' : Nat → Prop}, ¬ Owned g H' (.word (clockA g)) := fun hh => owned_not_atomic hw hh clock_atomic
    have hMc : M.mem (clockA g) = s.m.mem (clockA g) := (q1.out (.word (clockA g)) (clock_not_lock hw) hnol).trans (h.atomic hw clock_atomic (clock_not_lock hw))
    have hok : okAddr g a = true := by
      have := clockA_lt hw; have := hw.top_le; have := hw.stripe_le; have := hw.regionBase; have := hw.dram_ge
      rw [okAddr_iff, ha]
      exact ⟨by have := hw.regionsBase; unfold clockA; omega, by omega⟩
    simp only [exec, hok, if_true, Option.some.injEq, Prod.mk.injEq, ha] at he
    obtain ⟨he1, he2⟩ := he
    have hexM : exec g c (.fetchAdd a 1) M = some (v, { M with mem := upd M.mem (clockA g) (v + 1) }) := by
      simp only [exec, hok, if_true, ha, hMc, he1]
    rw [he1] at he2
    have hupd : ∀ (x : Machine) l, l ≠ .word (clockA g) → ({ x with mem := upd x.mem (clockA g) (v + 1) } : Machine).at l = x.at l := fun x l hl => by
      cases l with
      | word y => exact upd_ne _ _ fun hh => hl (by rw [hh])
      | _ => rfl
    have hupc : ∀ (x : Machine), ({ x with mem := upd x.mem (clockA g) (v + 1) } : Machine).at (.word (clockA g)) = v + 1 := fun x => upd_same _ _ _
    have hlk : ∀ i, i < g.regions → lockA g i ≠ clockA g := fun i hi hh => clock_not_lock hw ⟨i, hi, by rw [hh]⟩
    have hsm : ∀ l, l ≠ .word (clockA g) → m'.at l = s.m.at l := fun l hl => by rw [← he2]; exact hupd _ l hl
    have hfixc : ∀ l, Fixed g l → l ≠ .word (clockA g) := fun l hl hh => hl.1 (by rw [hh]; exact clock_atomic)
    have hownc : ∀ {H' : Nat → Prop} l, Owned g H' l → l ≠ .word (clockA g) := fun l hl hh => owned_not_atomic hw hl (by rw [hh]; exact clock_atomic)
    have hB : Blend g c (K c) { S.m with mem := upd S.m.mem (clockA g) (v + 1) } m' { M with mem := upd M.mem (clockA g) (v + 1) } := by
      refine ⟨fun i hi hh => ?_, fun i hi hh => ?_, fun l hl => ?_, fun l l1 l2 => ?_, ?_, fun c' hc => q1.other c' hc⟩
      · exact (upd_ne _ _ (hlk i hi)).trans (q1.set i hi hh)
      · exact (upd_ne _ _ (hlk i hi)).trans (q1.clear i hi hh)
      · rw [hupd M l (hownc l hl), hsm l (hownc l hl), q1.own l hl]
      · by_cases hl : l = .word (clockA g)
        · rw [hl, hupc, hupc]
        · rw [hupd M l hl, hupd S.m l hl, q1.out l l1 l2]
      · rw [← he2]; exact q1.mine
    obtain ⟨b, M', r1, r2, r3, r4, r5⟩ := commit_core (k := k) (n := S.m) hw (p1 v) (by rw [q2]; simp only [run, hexM]) hB
      (fun l hl => by rw [hupd S.m l (hfixc l hl), hsm l (hfixc l hl), hat.fixed l hl])
    have hH : holds g (t ++ [.act c (.fetchAdd a 1) v]) c = holds g t c := held_plain (fun i hi a v hh => by rcases hh with hh | hh <;> cases hh) v
    have hfl : ∀ j, j < g.cores → m'.flushedAt j = s.m.flushedAt j := fun j hj => hsm (.word (flushedA j)) fun hh => by
      have hh := Loc.word.inj hh; simp [hw, hj] at hh
    have hcl : (m'.clock g).toNat = (s.m.clock g).toNat + 1 := by
      have hb := h.times.clock
      have : m'.clock g = s.m.clock g + 1 := by
        rw [← he2]; show upd s.m.mem (clockA g) (v + 1) (clockA g) = _; rw [upd_same, ← he1]; rfl
      rw [this, BitVec.toNat_add, show (1 : W).toNat = 1 from rfl]
      exact Nat.mod_eq_of_lt (by omega)
    refine ⟨⟨upd S.phase c (.decided k b), M'⟩, K, .one (.effect hph r1), ?_⟩
    have hhot : ∀ i, K c (g.regions + i) → i < g.regions ∧ i ≠ 0 ∧ K c i ∧ FreeOrMeta g m' i := fun i hi => by
      obtain ⟨x1, x2, x3, x4⟩ := h.hot c i hi
      refine ⟨x1, x2, x3, ?_⟩
      have : m'.owner g i = s.m.owner g i := hsm (.word (ownerA g i)) (hownc (H' := K c) _ ⟨i, x3, ownBy_owner hw x1 x2⟩)
      unfold FreeOrMeta
      rw [this]; exact x4
    rw [← upd_eq_self K c]
    refine h.next (H' := K c) hw hg held_other (h.low_same hH) hhot (fun c' hc => upd_ne _ _ hc) (fun c' hc => upd_ne _ _ hc) (fun l => ?_) (fun l => ?_) (fun c' _ => by rw [← he2]; rfl) r4
      (fun j hj => by show _ ≤ (m'.flushedAt j).toNat; rw [hfl j hj]; exact Nat.le_refl _) r2 (fun l l1 l2 l3 => ?_) ⟨?_, fun j hj => ?_, fun j w hj hh => ?_⟩ ?_
    · by_cases hl : l = .word (clockA g)
      · exact Or.inr (Or.inl (by rw [hl]; exact clock_atomic))
      · exact Or.inl (hsm l hl)
    · by_cases hl : LockLoc g l
      · exact Or.inr (Or.inl (lock_atomic hl))
      · by_cases hl2 : Owned g (K c) l
        · exact Or.inr (Or.inr hl2)
        · by_cases hl3 : l = .word (clockA g)
          · exact Or.inr (Or.inl (by rw [hl3]; exact clock_atomic))
          · exact Or.inl ((r3 l hl hl2).trans (hupd S.m l hl3))
    · show M'.at l = m'.at l
      rw [r3 l l1 l3]
      by_cases hl : l = .word (clockA g)
      · rw [hl, hupc, ← he2, hupc]
      · rw [hupd S.m l hl, hsm l hl]
        exact h.eq_other c l1 l2 l3
    · show (m'.clock g).toNat ≤ _
      have := h.times.clock
      simp; omega
    · show (m'.flushedAt j).toNat ≤ (m'.clock g).toNat
      rw [hfl j hj]
      have := h.times.flushed j hj
      omega
    · show (m'.flushedAt j).toNat ≤ _ ∧ _ ≤ (m'.clock g).toNat
      rw [hfl j hj]
      have := h.times.sampled j w hj (upd_phase (fun w hh => by cases hh) j w hh)
      omega
    · show CoreOk g c _ M' m' (upd S.phase c _ c) (upd s.cores c _ c)
      rw [upd_same, upd_same]; exact r5
  · -- a flush time
    have hH : holds g (t ++ [.act c (.load a) v]) c = holds g t c := held_plain (fun i hi a v hh => by rcases hh with hh | hh <;> cases hh) v
    have hok : okAddr g a = true := by
      have := flushedA_lt hw hj; have := hw.top_le; have := hw.stripe_le; have := hw.regionBase; have := hw.dram_ge
      rw [okAddr_iff, ha]
      exact ⟨by unfold flushedA; omega, by omega⟩
    have he0 := he
    simp only [exec, hok, if_true, Option.some.injEq, Prod.mk.injEq, ha] at he
    obtain ⟨he1, he2⟩ := he
    subst he2
    have hexM : ∀ M : Machine, exec g c (.load a) M = some (M.flushedAt j, M) := fun M => by simp only [exec, hok, if_true, ha]; rfl
    have hnol : ∀ {H' : Nat → Prop}, ¬ Owned g H' (.word (flushedA j)) := fun hh => owned_not_atomic hw hh (flushed_atomic hj)
    rcases p1 v with p1 | ⟨p1, p2⟩
    · have hat := h.alike hw c
      obtain ⟨M, q1, q2⟩ := h2 S.m hat
      have hM : M.flushedAt j = v := by
        rw [← he1]
        exact (q1.out (.word (flushedA j)) (flushed_not_lock hw hj) hnol).trans (h.atomic hw (flushed_atomic hj) (flushed_not_lock hw hj))
      obtain ⟨b, M', r1, r2, r3, r4, r5⟩ := commit_core (k := k) (n := S.m) hw p1 (by rw [q2]; simp only [run, hexM, hM]) q1 hat.fixed
      refine ⟨⟨upd S.phase c (.decided k b), M'⟩, K, .one (.effect hph r1), ?_⟩
      rw [← upd_eq_self K c]
      refine h.next (H' := K c) hw hg held_other (h.low_same hH) (h.hot c) (fun c' hc => upd_ne _ _ hc) (fun c' hc => upd_ne _ _ hc) (fun l => Or.inl rfl) (fun l => ?_) (fun c' _ => rfl) r4
        (fun j hj => Nat.le_refl _) r2 (fun l l1 l2 l3 => ?_) (h.times.same rfl (fun _ _ => rfl) (by simp) (upd_phase fun w hh => by cases hh)) ?_
      · by_cases hl : LockLoc g l
        · exact Or.inr (Or.inl (lock_atomic hl))
        · by_cases hl2 : Owned g (K c) l
          · exact Or.inr (Or.inr hl2)
          · exact Or.inl (r3 l hl hl2)
      · show M'.at l = s.m.at l
        rw [r3 l l1 l3]
        exact h.eq_other c l1 l2 l3
      · show CoreOk g c _ M' s.m (upd S.phase c _ c) (upd s.cores c _ c)
        rw [upd_same, upd_same]; exact r5
    · refine ⟨S, _, .refl _, h.wait hw hg (K c) (h.low_same hH) (h.hot c) he0 (fun l => Or.inl rfl) (fun l _ q1 q2 => absurd q1 q2) ?_⟩
      rw [hph]
      refine .pending w p1 (fun x hx => ?_) h3
      obtain ⟨M, q1, q2⟩ := h2 x hx
      refine ⟨M, q1, ?_⟩
      rw [q2]
      simp only [run, hexM]
      rw [p2 (M.flushedAt j) ?_]
      rw [show M.flushedAt j = x.flushedAt j from q1.out (.word (flushedA j)) (flushed_not_lock hw hj) hnol, ← he1]
      exact hx.flushed j hj
  · -- the owner of a region whose lock is held
    have hH : holds g (t ++ [.act c (.load a) v]) c = holds g t c := held_plain (fun i hi a v hh => by rcases hh with hh | hh <;> cases hh) v
    have hok : okAddr g a = true := by
      have := ownerA_lt hw hi; have := hw.top_le; have := hw.stripe_le; have := hw.regionBase; have := hw.dram_ge
      rw [okAddr_iff, ha]
      exact ⟨by unfold ownerA; omega, by omega⟩
    have he0 := he
    simp only [exec, hok, if_true, Option.some.injEq, Prod.mk.injEq, ha] at he
    obtain ⟨he1, he2⟩ := he
    subst he2
    have hexM : ∀ M : Machine, exec g c (.load a) M = some (M.at (.word (ownerA g i)), M) := fun M => by simp only [exec, hok, if_true, ha]; rfl
    have hr := exec_respOk hg.inv (h.held hg c) he0
    have hmine : Owned g (K c) (.word (ownerA g i)) := ⟨i, hHi, ownBy_owner hw hi hi0⟩
    rcases p1 v hr with p1 | ⟨hv, p1⟩
    · refine ⟨S, _, .refl _, h.wait hw hg (K c) (h.low_same hH) (h.hot c) he0 (fun l => Or.inl rfl) (fun l _ q1 q2 => absurd q1 q2) ?_⟩
      rw [hph]
      refine .pending w p1 (fun x hx => ?_) h3
      obtain ⟨M, q1, q2⟩ := h2 x hx
      refine ⟨M, q1, ?_⟩
      rw [q2]
      simp only [run, hexM]
      rw [q1.own _ hmine, ← he1]; rfl
    · -- its pages are the core's from now on
      have hFM : FreeOrMeta g s.m i := by
        have : s.m.owner g i = v := he1
        unfold FreeOrMeta
        rw [this]; exact hv
      have hno : ∀ c', ¬ K c' (g.regions + i) ∨ c' = c := fun c' => by
        by_cases hcc : c' = c
        · exact Or.inr hcc
        · exact Or.inl fun hh => hcc (h.excl hg (h.hot c' i hh).2.2.1 hHi)
      have hnew : ∀ l, OwnBy g (g.regions + i) l → ¬ Owned g (K c) l → S.m.at l = s.m.at l := fun l hl hn => by
        refine h.eq_other c (fun hh => atomic_not_own hw (lock_atomic hh) _ hl) (fun c' hcc ⟨j, j1, j2⟩ => ?_) hn
        rw [← ownBy_inj hw hl j2] at j1
        exact (hno c').elim (fun hh => hh j1) hcc
      have hsub : ∀ l, Owned g (K c) l → Owned g (addL (K c) (g.regions + i)) l := fun l hl => hl.mono fun _ => Or.inl
      have hsp : ∀ l, Owned g (addL (K c) (g.regions + i)) l → ¬ Owned g (K c) l → S.m.at l = s.m.at l := by
        rintro l ⟨j, j1 | rfl, j2⟩ hn
        · exact absurd ⟨j, j1, j2⟩ hn
        · exact hnew l j2 hn
      have hol : ∀ {H' : Nat → Prop} l, Owned g H' l → ¬ LockLoc g l := fun l hl hh => owned_not_atomic hw hl (lock_atomic hh)
      refine ⟨S, _, .refl _, h.wait hw hg (addL (K c) (g.regions + i)) (fun j hj => ?_) (fun j hj => ?_) he0 (fun l => Or.inl rfl) (fun l _ q1 q2 => absurd (hsub l q1) q2) ?_⟩
      · rw [hH]
        exact ⟨fun hh => hh.elim (h.low c j hj).1 fun hh => by omega, fun hh => Or.inl ((h.low c j hj).2 hh)⟩
      · rcases hj with hj | hj
        · obtain ⟨x1, x2, x3, x4⟩ := h.hot c j hj
          exact ⟨x1, x2, Or.inl x3, x4⟩
        · obtain rfl : j = i := by omega
          exact ⟨hi, hi0, Or.inl hHi, hFM⟩
      · rw [hph]
        refine .pending w p1 (fun x hx => ?_) fun hh => ⟨fun l hl => ?_, (h3 hh).2⟩
        · obtain ⟨M, q1, q2⟩ := h2 x ⟨hx.rested, fun l hl => hx.own l (hsub l hl), hx.mine, hx.fixed, hx.flushed⟩
          refine ⟨M, ⟨fun j hj hh => q1.set j hj (hh.elim id fun hh => by omega), fun j hj hh => q1.clear j hj fun hq => hh (Or.inl hq), fun l hl => ?_,
            fun l l1 l2 => q1.out l l1 fun hh => l2 (hsub l hh), q1.mine, q1.other⟩, ?_⟩
          · by_cases hl' : Owned g (K c) l
            · exact q1.own l hl'
            · rw [q1.out l (hol l hl) hl', hx.own l hl, hsp l hl hl']
          · rw [q2]
            simp only [run, hexM]
            rw [q1.own _ hmine, ← he1]; rfl
        · by_cases hl' : Owned g (K c) l
          · exact (h3 hh).1 l hl'
          · exact hsp l hl hl'

/-! ### Flushes -/

theorem Sim.flush_act (hw : g.WF) {t : List Label} {K : Nat → Nat → Prop} {s : Conf} {S : SerialState} (hg : Good g t s) (h : Sim g t K s S)
    {c : Nat} {k : Call} {o : Op} {f : W → Prog W} {v : W} {m' : Machine} (hcs : s.cores c = .running k (.op o f)) (he : exec g c o s.m = some (v, m'))
    (hno : ∀ i, ¬ K c i) (hfl : (S.phase c = .pending k ∧ k = .flushCachedDramRegions ∧ ((Prog.op o f = flushCachedDramRegions g ∧ S.m.regs c = s.m.regs c) ∨
      (Prog.op o f = flushP1 g ∧ (S.m.flushTlb c).regs c = s.m.regs c) ∨ (Prog.op o f = flushP2 g (BitVec.ofNat 64 c) ∧ (S.m.flushTlb c).regs c = s.m.regs c))) ∨
      (∃ w, S.phase c = .flushing w ∧ k = .flushCachedDramRegions ∧ Prog.op o f = flushP3 g (BitVec.ofNat 64 c) w ∧ S.m.regs c = s.m.regs c)) :
    ∃ S', SerialRun g S [] S' ∧ Sim g (t ++ [.act c o v]) K { m := m', cores := upd s.cores c (.running k (f v)) } S' := by
  have hclt : c < g.cores := (hg.safe c k _ hcs).1
  have hnh : ∀ (m : Machine) (i : Nat), K c (g.regions + i) → i < g.regions ∧ i ≠ 0 ∧ K c i ∧ FreeOrMeta g m i := fun m i hh => absurd hh (hno _)
  rcases hfl with ⟨hph, rfl, ⟨hp, hr⟩ | ⟨hp, hr⟩ | ⟨hp, hr⟩⟩ | ⟨w, hph, rfl, hp, hr⟩
  · rw [flush_prog] at hp
    obtain ⟨rfl, rfl⟩ := Prog.op.inj hp
    obtain ⟨rfl, rfl⟩ := Prod.mk.inj (Option.some.inj he)
    have hH : holds g (t ++ [.act c .flushTlbs 0]) c = holds g t c := held_plain (fun i hi a v hh => by rcases hh with hh | hh <;> cases hh) 0
    refine ⟨S, .refl _, ?_⟩
    rw [← upd_eq_self K c]
    refine h.wait (f := fun _ => flushP1 g) hw hg _ (h.low_same hH) (hnh _) he (fun l => Or.inl (by cases l <;> rfl)) (fun l _ q1 q2 => absurd q1 q2) ?_
    rw [hph]
    exact .flush1 hno (flushTlb_regs s.m hr)
  · obtain ⟨rfl, rfl⟩ := Prog.op.inj hp
    obtain ⟨rfl, rfl⟩ := Prod.mk.inj (Option.some.inj he)
    have hH : holds g (t ++ [.act c .curCore (BitVec.ofNat 64 c)]) c = holds g t c := held_plain (fun i hi a v hh => by rcases hh with hh | hh <;> cases hh) _
    refine ⟨S, .refl _, ?_⟩
    rw [← upd_eq_self K c]
    refine h.wait hw hg _ (h.low_same hH) (hnh _) rfl (fun l => Or.inl rfl) (fun l _ q1 q2 => absurd q1 q2) ?_
    rw [hph]
    exact .flush2 hno hr
  · obtain ⟨rfl, rfl⟩ := Prog.op.inj hp
    simp only [exec, clock_ok hw, if_true, Option.some.injEq, Prod.mk.injEq] at he
    obtain ⟨he1, rfl⟩ := he
    have hv : v = S.m.clock g := by rw [h.clock hw, ← he1]; rfl
    have hH : holds g (t ++ [.act c (.load g.regionsBase) v]) c = holds g t c := held_plain (fun i hi a v hh => by rcases hh with hh | hh <;> cases hh) v
    have hal : ∀ l, (S.m.flushTlb c).at l = S.m.at l := fun l => by cases l <;> rfl
    refine ⟨_, .one (.sample hph), ?_⟩
    rw [← upd_eq_self K c]
    refine h.next (H' := K c) hw hg held_other (h.low_same hH) (hnh _) (fun c' hc => upd_ne _ _ hc) (fun c' hc => upd_ne _ _ hc) (fun l => Or.inl rfl) (fun l => Or.inl (hal l)) (fun c' _ => rfl)
      (fun c' hc => by simp only [Machine.regs, Machine.flushTlb, upd_ne _ _ hc]) (fun j hj => Nat.le_refl _) h.rested (fun l l1 l2 l3 => (hal l).trans (h.eq_other c l1 l2 l3))
      ⟨?_, h.times.flushed, fun j w hj hh => ?_⟩ ?_
    · have := h.times.clock
      simp; omega
    · have hh : upd S.phase c (.flushing (S.m.clock g)) j = .flushing w := hh
      by_cases hjc : j = c
      · rw [hjc, upd_same] at hh
        cases hh
        rw [h.clock hw]
        exact ⟨h.times.flushed j hj, Nat.le_refl _⟩
      · rw [upd_ne _ _ hjc] at hh
        exact h.times.sampled j w hj hh
    · show CoreOk g c _ (S.m.flushTlb c) s.m (upd S.phase c _ c) (upd s.cores c _ c)
      rw [upd_same, upd_same, ← hv]
      exact .flush3 hno hr
  · obtain ⟨rfl, rfl⟩ := Prog.op.inj hp
    have ha : (coreA g (BitVec.ofNat 64 c) + offFlushedAt).toNat = flushedA c := coreA_toNat hw hclt _ (by decide)
    have hok : okAddr g (coreA g (BitVec.ofNat 64 c) + offFlushedAt) = true := by
      have := flushedA_lt hw hclt; have := hw.top_le; have := hw.stripe_le; have := hw.dram_ge
      rw [okAddr_iff, ha]
      exact ⟨by unfold flushedA; omega, by omega⟩
    simp only [exec, hok, if_true, Option.some.injEq, Prod.mk.injEq, ha] at he
    obtain ⟨rfl, he2⟩ := he
    have he2 : s.m.record c w = m' := he2
    subst he2
    have hno' : ∀ i, i < g.regions → flushedA c ≠ lockA g i := fun i hi hh => flushed_not_lock hw hclt ⟨i, hi, by rw [hh]⟩
    have hH : holds g (t ++ [.act c (.store (coreA g (BitVec.ofNat 64 c) + offFlushedAt) w) 0]) c = holds g t c := held_plain (fun i hi a v hh => by
      rcases hh with hh | hh
      · cases hh
      · cases hh; rw [ha]; exact hno' i hi) 0
    have hrec : ∀ (x : Machine) l, l ≠ .word (flushedA c) → (x.record c w).at l = x.at l := fun x l hl => by
      cases l with
      | word y => exact upd_ne _ _ fun hh => hl (by rw [hh])
      | _ => rfl
    have hrf : ∀ (x : Machine), (x.record c w).at (.word (flushedA c)) = w := fun x => upd_same _ _ _
    have hcl : (s.m.record c w).clock g = s.m.clock g := hrec s.m (.word (clockA g)) fun hh => by
      have hh := Loc.word.inj hh; simp [hw, hclt] at hh
    have hff : ∀ j, j < g.cores → (j = c ∧ (s.m.record c w).flushedAt j = w) ∨ (j ≠ c ∧ (s.m.record c w).flushedAt j = s.m.flushedAt j) := fun j hj => by
      by_cases hjc : j = c
      · exact Or.inl ⟨hjc, by rw [hjc]; exact hrf s.m⟩
      · refine Or.inr ⟨hjc, hrec s.m (.word (flushedA j)) fun hh => hjc ?_⟩
        have hh := Loc.word.inj hh
        unfold flushedA at hh
        omega
    obtain ⟨b1, b2⟩ := h.times.sampled c w hclt hph
    refine ⟨_, .one (.record hph), ?_⟩
    rw [← upd_eq_self K c]
    refine h.next (H' := K c) hw hg held_other (h.low_same hH) (hnh _) (fun c' hc => upd_ne _ _ hc) (fun c' hc => upd_ne _ _ hc) (fun l => ?_) (fun l => ?_) (fun c' _ => rfl) (fun c' _ => rfl)
      (fun j hj => ?_) (fun i hi => ?_) (fun l l1 l2 l3 => ?_) ⟨?_, fun j hj => ?_, fun j w' hj hh => ?_⟩ ?_
    · by_cases hl : l = .word (flushedA c)
      · exact Or.inr (Or.inl (by rw [hl]; exact flushed_atomic hclt))
      · exact Or.inl (hrec s.m l hl)
    · by_cases hl : l = .word (flushedA c)
      · exact Or.inr (Or.inl (by rw [hl]; exact flushed_atomic hclt))
      · exact Or.inl (hrec S.m l hl)
    · show _ ≤ ((s.m.record c w).flushedAt j).toNat
      rcases hff j hj with ⟨rfl, q⟩ | ⟨_, q⟩
      · rw [q]; exact b1
      · rw [q]; exact Nat.le_refl _
    · exact (upd_ne _ _ (hno' i hi).symm).trans (h.rested i hi)
    · show (S.m.record c w).at l = (s.m.record c w).at l
      by_cases hl : l = .word (flushedA c)
      · rw [hl, hrf, hrf]
      · rw [hrec S.m l hl, hrec s.m l hl]
        exact h.eq_other c l1 l2 l3
    · show ((s.m.record c w).clock g).toNat ≤ _
      have := h.times.clock
      rw [hcl]; simp; omega
    · show ((s.m.record c w).flushedAt j).toNat ≤ ((s.m.record c w).clock g).toNat
      rw [hcl]
      rcases hff j hj with ⟨rfl, q⟩ | ⟨_, q⟩
      · rw [q]; exact b2
      · rw [q]; exact h.times.flushed j hj
    · have hh : upd S.phase c (.decided .flushCachedDramRegions monitorOk) j = .flushing w' := hh
      show ((s.m.record c w).flushedAt j).toNat ≤ _ ∧ _ ≤ ((s.m.record c w).clock g).toNat
      rw [hcl]
      rcases hff j hj with ⟨rfl, q⟩ | ⟨hjc, q⟩
      · rw [upd_same] at hh; cases hh
      · rw [upd_ne _ _ hjc] at hh
        rw [q]; exact h.times.sampled j w' hj hh
    · show CoreOk g c _ (S.m.record c w) (s.m.record c w) (upd S.phase c _ c) (upd s.cores c _ c)
      rw [upd_same, upd_same]
      exact .decided (p := .ret monitorOk) hno rfl (fun l ⟨i, hh, _⟩ => absurd hh (hno i)) hr.symm

/-! ### All steps -/

/-- The serial machine follows each step. `hk` is the verification of the calls. -/
theorem Sim.step (hw : g.WF) {t : List Label} {K : Nat → Nat → Prop} {s s' : Conf} {l : Label} {S : SerialState} (hg : Good g t s) (h : Sim g t K s S) (hnl : OnlyCalls NoLeak t) (ht : t.length + 1 < 2 ^ 64)
    (hk : ∀ c k, l = .start c k → c < g.cores → k = .flushCachedDramRegions ∨ (k.prog g).Two g c k false noL) (hl : Step g s l s') (hs : l ≠ .soft) :
    ∃ S' K', SerialRun g S ((observed [l]).map .call) S' ∧ Sim g (t ++ [l]) K' s' S' := by
  cases hl with
  | @start c k hlt hidle =>
      obtain ⟨S', q1, q2⟩ := h.start hw hg (hk c k rfl hlt) hlt hidle
      exact ⟨S', K, .one q1, q2⟩
  | @act c k o f v m' hrun hex =>
      have hco := h.core c
      rw [hrun] at hco
      generalize hph : S.phase c = ph at hco
      generalize hp : Prog.op o f = p at hco
      cases hco with
      | pending w h1 h2 h3 => subst hp; exact h.pending_act hw hg hnl ht hph hrun hex h1 h2 h3
      | flush0 h1 h2 => obtain ⟨S2, r1, r2⟩ := h.flush_act hw hg hrun hex h1 (Or.inl ⟨hph, rfl, Or.inl ⟨hp, h2⟩⟩); exact ⟨S2, K, r1, r2⟩
      | flush1 h1 h2 => obtain ⟨S2, r1, r2⟩ := h.flush_act hw hg hrun hex h1 (Or.inl ⟨hph, rfl, Or.inr (Or.inl ⟨hp, h2⟩)⟩); exact ⟨S2, K, r1, r2⟩
      | flush2 h1 h2 => obtain ⟨S2, r1, r2⟩ := h.flush_act hw hg hrun hex h1 (Or.inl ⟨hph, rfl, Or.inr (Or.inr ⟨hp, h2⟩)⟩); exact ⟨S2, K, r1, r2⟩
      | @flush3 w h1 h2 => obtain ⟨S2, r1, r2⟩ := h.flush_act hw hg hrun hex h1 (Or.inr ⟨w, hph, rfl, hp, h2⟩); exact ⟨S2, K, r1, r2⟩
      | decided h1 h2 h3 h4 => obtain ⟨K2, r⟩ := h.decided_act hw hg hph hrun hex; exact ⟨S, K2, .refl _, r⟩
  | @done c k v hrun =>
      have hco := h.core c
      rw [hrun] at hco
      generalize hph : S.phase c = ph at hco
      generalize hp : Prog.ret v = p at hco
      cases hco with
      | pending w h1 h2 h3 =>
          subst hp
          obtain ⟨S1, q1, q2, b, q3⟩ := h.commit hw hg hph hrun h1 h2
          obtain ⟨S2, r1, r2⟩ := q2.decided_done hw hg q3 hrun
          exact ⟨S2, K, (SerialRun.one q1).trans (.one r1), r2⟩
      | flush0 h1 h2 => cases hp
      | flush1 h1 h2 => cases hp
      | flush2 h1 h2 => cases hp
      | flush3 h1 h2 => cases hp
      | decided h1 h2 h3 h4 =>
          obtain ⟨S2, r1, r2⟩ := h.decided_done hw hg hph hrun
          exact ⟨S2, K, .one r1, r2⟩
  | soft _ => exact absurd rfl hs

/-- No core owns the pages of a region that is neither free nor metadata. -/
theorem Sim.page_free {t : List Label} {K : Nat → Nat → Prop} {s : Conf} {S : SerialState} (h : Sim g t K s S) {a : Nat} (ha : g.monitorTop.toNat ≤ a)
    (h1 : s.m.owner g (regionOf g a) ≠ freeEnclaveId) (h2 : s.m.owner g (regionOf g a) ≠ metadataEnclaveId) (c : Nat) : ¬ Owned g (K c) (.word a) := by
  rintro ⟨i, i1, ⟨i2, _⟩ | ⟨_, rfl⟩⟩
  · omega
  · exact (h.hot c _ i1).2.2.2.elim h1 h2

theorem page_not_lock (hw : g.WF) {a : Nat} (ha : g.monitorTop.toNat ≤ a) : ¬ LockLoc g (.word a) := fun hh => by
  obtain ⟨x, hx, hx2, _⟩ := atomic_low hw (lock_atomic hh)
  have := Loc.word.inj hx
  omega

/-- The serial machine follows the stores of software. -/
theorem Sim.store (hw : g.WF) {t : List Label} {K : Nat → Nat → Prop} {s : Conf} {S : SerialState} (h : Sim g t K s S) {a : Nat} (v : W) (ha : g.monitorTop.toNat ≤ a)
    (h1 : s.m.owner g (regionOf g a) ≠ freeEnclaveId) (h2 : s.m.owner g (regionOf g a) ≠ metadataEnclaveId) :
    Sim g (t ++ [.soft]) K { s with m := s.m.put a v } { S with m := S.m.put a v } := by
  have hall : ∀ c', holds g (t ++ [.soft]) c' = holds g t c' := fun c' => by rw [holds_snoc]; rfl
  have hput : ∀ (x : Machine) l, l ≠ .word a → (x.put a v).at l = x.at l := fun x l hl => by
    cases l with
    | word y => exact upd_ne _ _ fun hh => hl (by rw [hh])
    | _ => rfl
  have hpa : ∀ (x : Machine), (x.put a v).at (.word a) = v := fun x => upd_same _ _ _
  have hnown : ∀ c, ¬ Owned g (K c) (.word a) := h.page_free ha h1 h2
  have hown : ∀ c l, Owned g (K c) l → l ≠ .word a := fun c l hl hh => hnown c (by rw [← hh]; exact hl)
  have hat : ∀ l, AtomicLoc g l → l ≠ .word a := fun l hl hh => by
    obtain ⟨x, hx, hx2, _⟩ := atomic_low hw hl
    rw [hx] at hh
    have := Loc.word.inj hh
    omega
  have hfix : ∀ l, Fixed g l → l ≠ .word a := fun l hl hh => hl.2 (g.regions + regionOf g a) (by rw [hh]; exact Or.inr ⟨ha, rfl⟩)
  have hfl : ∀ j, j < g.cores → (s.m.put a v).flushedAt j = s.m.flushedAt j := fun j hj => hput s.m _ (hat _ (flushed_atomic hj))
  refine ⟨fun i hi => (hput S.m (.word (lockA g i)) (hat _ (lock_atomic ⟨i, hi, rfl⟩))).trans (h.rested i hi), fun l l1 l2 => ?_, fun c => ?_,
    h.times.same (hput s.m _ (hat _ clock_atomic)) hfl (by simp) fun _ _ hh => hh, fun c i hi => by rw [hall]; exact h.low c i hi, fun c i hi => ?_⟩
  · show (S.m.put a v).at l = (s.m.put a v).at l
    by_cases hl : l = .word a
    · rw [hl, hpa, hpa]
    · rw [hput S.m l hl, hput s.m l hl]; exact h.eq l l1 l2
  · exact (h.core c).frame hw (fun l hl => hput S.m l (hown c l hl)) rfl (fun l hl => hput s.m l (hown c l hl)) rfl (fun l hl => hput s.m l (hfix l hl))
      fun j hj => by rw [hfl j hj]; exact Nat.le_refl _
  · obtain ⟨q1, q2, q3, q4⟩ := h.hot c i hi
    refine ⟨q1, q2, q3, ?_⟩
    have : (s.m.put a v).owner g i = s.m.owner g i := hput s.m (.word (ownerA g i)) (hown c _ ⟨i, q3, ownBy_owner hw q1 q2⟩)
    show FreeOrMeta g (s.m.put a v) i
    unfold FreeOrMeta
    rw [this]; exact q4

theorem SeenSteps.steps {s s' : Conf} {t : List Label} {h : List Seen} (hs : SeenSteps g s t h s') : Steps g s t s' := by
  induction hs with
  | refl => exact .refl _
  | step _ h2 _ ih => exact ih.tail h2
  | load _ _ _ _ _ ih => exact ih
  | store a v _ ha _ _ ih => exact ih.tail (.soft ⟨a, v, ha, rfl⟩)

theorem SeenSteps.trans {a b d : Conf} {t t' : List Label} {h h' : List Seen} (h1 : SeenSteps g a t h b) (h2 : SeenSteps g b t' h' d) : SeenSteps g a (t ++ t') (h ++ h') d := by
  induction h2 with
  | refl => rw [List.append_nil, List.append_nil]; exact h1
  | step _ hs hn ih => rw [← List.append_assoc, ← List.append_assoc]; exact ih.step hs hn
  | load x _ p q r ih => rw [← List.append_assoc]; exact ih.load x p q r
  | store x v _ p q r ih => rw [← List.append_assoc, ← List.append_assoc]; exact ih.store x v p q r

theorem Steps.seen {s s' : Conf} {t : List Label} (hs : Steps g s t s') (hn : Label.soft ∉ t) : SeenSteps g s t ((observed t).map .call) s' := by
  induction hs with
  | refl => exact .refl _
  | @tail s1 s2 t l _ h2 ih =>
      have := (ih fun hh => hn (List.mem_append_left _ hh)).step h2 fun hh => hn (by rw [hh]; exact List.mem_append_right _ List.mem_cons_self)
      have h3 : observed (t ++ [l]) = observed t ++ observed [l] := List.filter_append _ _
      rw [h3, List.map_append]
      exact this

/-- The serial machine follows the interleaving. -/
theorem sim_steps {s s' : Conf} {t : List Label} {hist : List Seen} (h : Fresh g s) (hs : SeenSteps g s t hist s') (hf : ∀ c, c < g.cores → s.m.flushedAt c = 0) (hclk : s.m.clock g = 0)
    (hrest : Rested g s.m)
    (hk : OnlyCalls (fun k => CoveredC g k ∧ NoLeak k ∧ (k = .flushCachedDramRegions ∨ ∀ c, c < g.cores → (k.prog g).Two g c k false noL)) t) (ht : t.length < 2 ^ 64) :
    ∃ S K, SerialRun g ⟨fun _ => .idle, s.m⟩ hist S ∧ Sim g t K s' S := by
  have hw := h.1.wf
  induction hs with
  | refl =>
      refine ⟨_, fun _ => noL, .refl _, hrest, fun _ _ _ => rfl, fun c => ?_, ⟨?_, ?_, fun j w _ hh => by cases hh⟩, fun c i _ => ⟨False.elim, False.elim⟩, fun c i hh => hh.elim⟩
      · rw [h.2 c]; exact .idle rfl
      · rw [hclk]; exact Nat.zero_le _
      · intro j hj; rw [hf j hj]; exact Nat.zero_le _
  | @step s1 s2 t hist l hst hl hns ih =>
      have hlen : t.length + 1 < 2 ^ 64 := by simpa using ht
      obtain ⟨S, K, q1, q2⟩ := ih hk.prefix (by omega)
      have hg := good_steps h hst.steps fun c k hm => (hk.prefix c k hm).1
      obtain ⟨S', K', r1, r2⟩ := q2.step hw hg (fun c k hm => (hk.prefix c k hm).2.1) hlen (fun c k hl hc => by
        subst hl
        exact (hk c k (List.mem_append_right _ List.mem_cons_self)).2.2.imp id fun hh => hh c hc) hl hns
      exact ⟨S', K', q1.trans r1, r2⟩
  | @load s1 t hist a hst ha h1 h2 ih =>
      obtain ⟨S, K, q1, q2⟩ := ih hk ht
      have : S.m.mem a = s1.m.mem a := q2.eq (.word a) (page_not_lock hw ha) fun c => q2.page_free ha h1 h2 c
      exact ⟨S, K, this ▸ q1.load a, q2⟩
  | @store s1 t hist a v hst ha h1 h2 ih =>
      have hlen : t.length + 1 < 2 ^ 64 := by simpa using ht
      obtain ⟨S, K, q1, q2⟩ := ih hk.prefix (by omega)
      exact ⟨_, K, q1.store a v, q2.store hw v ha h1 h2⟩

end Sanctum
