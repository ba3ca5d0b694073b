import Verif.Lemmas.Commute
import Verif.Props.Registers
import Verif.Props.Flush
import Verif.Props.Ids
/-
C75, C76: no two cores access the same location at the same time, except the words declared atomic.
-/
namespace Sanctum
open Machine

variable {g : Cfg}

/-! ### C75 -/

/-- C75, in full. -/
def C75_statement (g : Cfg) (s : Conf) : Prop := ∀ t s', Steps g s t s' → ¬ Race g s'

theorem shields_inj (hw : g.WF) {i j x : Nat} (h1 : Shields g i x) (h2 : Shields g j x) : i = j ∧ i < g.regions := by
  have h0 : 0 < g.regions := by have := hw.regions_ge; omega
  rcases h1 with ⟨a1, a2, a3⟩ | ⟨rfl, k, hk, rfl⟩ <;> rcases h2 with ⟨b1, b2, b3⟩ | ⟨rfl, k', hk', hx⟩
  · unfold RecordWord ownerA prevA pinnedA blockedA at a3 b3
    exact ⟨by omega, a2⟩
  · exact absurd hx (osBitmap_not_record hw a2 a3 (k := k' / 64))
  · exact absurd rfl (osBitmap_not_record hw b2 b3 (k := k / 64))
  · exact ⟨rfl, h0⟩

theorem Op.writes_mutates {o : Op} {x : Nat} (h : o.writes (.word x)) : o.mutates x ∧ o.accesses g x := by
  cases o <;> simp only [Op.writes, Loc.word.injEq, reduceCtorEq] at h <;> subst h <;> exact ⟨rfl, rfl⟩

theorem Op.touches_accesses {o : Op} {x : Nat} (h : o.touches (.word x)) : o.accesses g x := by
  cases o <;> simp only [Op.touches, Op.reads, Op.writes, Loc.word.injEq, reduceCtorEq, or_self, false_or, or_false] at h <;> subst h <;> rfl

theorem Op.touches_dma {o : Op} {l : Loc} (hl : ∀ x, l ≠ .word x) (h : o.touches l) : o.IsDma := by
  cases o <;> simp only [Op.touches, Op.reads, Op.writes, or_self, false_or, or_false] at h <;> first | exact absurd h (hl _) | trivial

/-- What a core that is about to access memory above the monitor's knows. -/
theorem high_access {s s' : Conf} {t : List Label} (h : Fresh g s) (hs : Steps g s t s') (hk : OnlyCalls (fun k => CoveredC g k ∧ Orderly k) t)
    {c : Nat} {o : Op} (hn : Next s' c o) {x : Nat} (hx : g.monitorTop.toNat ≤ x) (ha : o.accesses g x) :
    (holds g t c (regionOf g x) ∧ s'.m.owner g (regionOf g x) = metadataEnclaveId) ∨
    (holds g t c 0 ∧ s'.m.owner g (regionOf g x) = nullEnclaveId) := by
  have hcov : OnlyCalls (CoveredC g) t := fun c k hm => (hk c k hm).1
  have hg := good_steps h hs hcov
  obtain ⟨k, f, hrun⟩ := hn
  obtain ⟨-, -, ⟨t1, t2, ht⟩, -⟩ := hg.safe c k _ hrun
  have ho : Orderly k := (hk c k (by rw [ht]; exact List.mem_append_right _ List.mem_cons_self)).2
  have hcf : Confined g k := by
    cases k <;> simp only [Orderly] at ho <;> simp only [Confined]
    exact ho
  obtain ⟨T, h1, h2⟩ := goodC_steps h hs hcov c k _ hrun hcf
  rcases h1.1 x ha with q | q | q
  · omega
  · cases k <;> simp only [ArgWord] at q
    obtain ⟨m, z1, z2⟩ := (goodR_steps h hs hk).dbg c _ _ _ _ _ hrun
    exact Or.inr ((z2 s'.m z1 (goodM_steps h hs hcov).inv (hg.held c)).1 x hx ha)
  · exact Or.inl ⟨(h2 _ q).2.1, (h2 _ q).2.2⟩

/-- C75 for orderly calls: in every interleaving, no two cores are about to access the same location (one of them to write it) unless
the location is one of the words declared atomic. -/
theorem C75_no_race_partial {s s' : Conf} {t : List Label} (h : Fresh g s) (hs : Steps g s t s')
    (hk : OnlyCalls (fun k => CoveredC g k ∧ Orderly k) t) : ¬ Race g s' := by
  rintro ⟨c, c', o, o', l, hne, hn, hn', hw, ht, hat⟩
  have hwf := h.1.wf
  have h0 : 0 < g.regions := by have := hwf.regions_ge; omega
  have hcov : OnlyCalls (CoveredC g) t := fun c k hm => (hk c k hm).1
  have hg := good_steps h hs hcov
  have hr := goodR_steps h hs hk
  obtain ⟨k, f, hrun⟩ := id hn
  obtain ⟨k', f', hrun'⟩ := id hn'
  have g1 := (hr.grd c k _ hrun).1
  have g2 := (hr.grd c' k' _ hrun').1
  by_cases hl : ∃ x, l = .word x
  · obtain ⟨x, rfl⟩ := hl
    obtain ⟨w1, w2⟩ := Op.writes_mutates (g := g) hw
    have w3 := Op.touches_accesses (g := g) ht
    by_cases hx : x < g.monitorTop.toNat
    · rcases g1.low x hx w2 with q | ⟨i, q1, q2⟩ | ⟨_, q⟩
      · exact hat q
      · rcases g2.low x hx w3 with p | ⟨j, p1, p2⟩ | ⟨p, _⟩
        · exact hat p
        · obtain ⟨rfl, hi⟩ := shields_inj hwf q1 p1
          exact hne (hg.mutex c c' i hi q2 p2)
        · exact p i q1
      · exact q w1
    · have hx : g.monitorTop.toNat ≤ x := by omega
      rcases high_access h hs hk hn hx w2 with ⟨q1, q2⟩ | ⟨q1, q2⟩ <;> rcases high_access h hs hk hn' hx w3 with ⟨p1, p2⟩ | ⟨p1, p2⟩
      · exact hne (hg.mutex c c' _ (regionOf_lt hwf _) q1 p1)
      · rw [q2] at p2; exact absurd p2 (by decide)
      · rw [q2] at p2; exact absurd p2 (by decide)
      · exact hne (hg.mutex c c' 0 h0 q1 p1)
  · have hl : ∀ x, l ≠ .word x := fun x hh => hl ⟨x, hh⟩
    exact hne (hg.mutex c c' 0 h0 (g1.dma (Op.touches_dma hl (Or.inr hw))) (g2.dma (Op.touches_dma hl ht)))

/-- Core 0 blocks region 1 and flushes; then it copies, for the OS, a page into page 0x12000 of OS memory while core 1 makes a debug copy
for the "enclave" 0x12000. -/
def meetMoves : List Move :=
  [.start 0 (.blockDramRegion 1)] ++ List.replicate 22 (.go 0) ++ [.start 0 .flushCachedDramRegions] ++ List.replicate 5 (.go 0) ++
  [.start 0 (.copyDebugEnclavePage 0 0x12000 0x18000 false)] ++ List.replicate 13 (.go 0) ++
  [.start 1 (.copyDebugEnclavePage 0x12000 0x20000 0x28000 false)] ++ List.replicate 5 (.go 1)

/-- The address the next action of core `c` stores to. -/
def nextWrite (s : Conf) (c : Nat) : Option W := match s.cores c with
  | .running _ (.op (.store a _) _) => some a
  | _ => none

theorem next_of_load {s : Conf} {c : Nat} {a : W} (h : nextLoad s c = some a) : Next s c (.load a) := by
  unfold nextLoad at h
  split at h
  · rename_i k a' f hr; cases h; exact ⟨k, f, hr⟩
  · cases h

theorem next_of_store {s : Conf} {c : Nat} {a : W} (h : nextWrite s c = some a) : ∃ v, Next s c (.store a v) := by
  unfold nextWrite at h
  split at h
  · rename_i k a' v f hr; cases h; exact ⟨v, k, f, hr⟩
  · cases h

set_option maxRecDepth 100000 in
theorem meet_plays : (play toyG meetMoves toyS).map (fun x => (nextWrite x.2 0, nextLoad x.2 1)) = some (some 0x12018, some 0x12018) := by decide +kernel

theorem meet_plain : ¬ AtomicLoc toyG (.word 0x12018) := by
  have hlow : toyG.monitorTop.toNat ≤ 0x9000 := enclM_facts.2.2.2.2.2.2.2.1
  have hw := toyS_fresh.1.wf
  rintro (⟨i, hi, hh⟩ | hh | ⟨c, hc, hh⟩)
  · have := lockA_lt hw hi
    injection hh with hh; omega
  · injection hh with hh
    revert hh
    set_option maxRecDepth 100000 in decide +kernel
  · injection hh with hh
    have hc4 : toyG.cores = 4 := enclM_facts.2.2.2.2.1
    unfold flushedA at hh; omega

theorem meet_covered (c : Nat) (k : Call) (hk : Move.start c k ∈ meetMoves) : CoveredC toyG k := by
  simp only [meetMoves, List.replicate, List.cons_append, List.nil_append, List.mem_cons, Move.start.injEq, reduceCtorEq, or_false, false_or, List.not_mem_nil] at hk
  have hf := enclM_facts
  rcases hk with ⟨_, rfl⟩ | ⟨_, rfl⟩ | ⟨_, rfl⟩ | ⟨_, rfl⟩
  · exact ⟨trivial, fun _ _ _ _ hh => by cases hh⟩
  · exact ⟨trivial, fun _ _ _ _ hh => by cases hh⟩
  · refine ⟨Or.inr (Nat.le_trans hf.2.2.2.2.2.2.2.1 (by decide)), fun e a os d hh => ?_⟩
    cases hh
    exact fun h0 => absurd rfl h0
  · refine ⟨Or.inl (by decide), fun e a os d hh => ?_⟩
    cases hh
    exact fun _ => ⟨by decide, Nat.le_trans hf.2.2.2.2.2.2.2.1 (by decide), by rw [hf.2.2.2.2.2.2.2.2.1, hf.2.2.2.2.2.2.2.2.2]; decide⟩

/-- C75 is false of the code, even of covered calls: a debug copy reads the `is_debug` word of whatever ID it is given, while another
core's debug copy writes to that page. -/
theorem C75_statement_false : ∃ g s t s', Fresh g s ∧ Steps g s t s' ∧ OnlyCalls (CoveredC g) t ∧ Race g s' := by
  have h := meet_plays
  cases hp : play toyG meetMoves toyS with
  | none => rw [hp] at h; cases h
  | some x =>
      rw [hp] at h
      simp only [Option.map_some, Option.some.injEq, Prod.mk.injEq] at h
      obtain ⟨v, h1⟩ := next_of_store h.1
      exact ⟨toyG, toyS, x.1, x.2, toyS_fresh, play_steps _ hp, play_onlyCalls meetMoves meet_covered hp,
        0, 1, _, _, .word 0x12018, by decide, h1, next_of_load h.2, rfl, Or.inl rfl, meet_plain⟩

/-- Two cores flush at the same time, each about to publish its flush time; a third is in the middle of a block. -/
def busyMoves : List Move :=
  [.start 0 .flushCachedDramRegions, .go 0, .go 0, .start 1 .flushCachedDramRegions, .go 1, .go 1, .start 2 (.blockDramRegion 1)] ++ List.replicate 6 (.go 2)

/-- Is the core about to act? -/
def aboutTo (s : Conf) (c : Nat) : Bool := match s.cores c with
  | .running _ (.op _ _) => true
  | _ => false

/-- The hypotheses of C75 and C76 are met by an interleaving in which three cores are in the middle of calls. -/
example : ∃ t s', Fresh toyG toyS ∧ Steps toyG toyS t s' ∧ OnlyCalls (fun k => CoveredC toyG k ∧ Orderly k) t ∧
    aboutTo s' 0 = true ∧ aboutTo s' 1 = true ∧ aboutTo s' 2 = true ∧ s'.m.locked toyG 1 = true := by
  have h : (play toyG busyMoves toyS).map (fun x => (aboutTo x.2 0, aboutTo x.2 1, aboutTo x.2 2, x.2.m.locked toyG 1)) = some (true, true, true, true) := by
    set_option maxRecDepth 100000 in decide +kernel
  cases hp : play toyG busyMoves toyS with
  | none => rw [hp] at h; cases h
  | some x =>
      rw [hp] at h
      simp only [Option.map_some, Option.some.injEq, Prod.mk.injEq] at h
      refine ⟨x.1, x.2, toyS_fresh, play_steps _ hp, play_onlyCalls busyMoves (fun c k hk => ?_) hp, h.1, h.2.1, h.2.2.1, h.2.2.2⟩
      simp only [busyMoves, List.replicate, List.cons_append, List.nil_append, List.mem_cons, Move.start.injEq, reduceCtorEq, or_false, false_or, List.not_mem_nil] at hk
      rcases hk with ⟨_, rfl⟩ | ⟨_, rfl⟩ | ⟨_, rfl⟩
      all_goals exact ⟨⟨trivial, fun _ _ _ _ hh => by cases hh⟩, trivial⟩

/-! ### C76 -/

/-- C76, in full. -/
def C76_statement (g : Cfg) (s : Conf) : Prop := ∀ t s' c c' o o' v v' s1 s2, Steps g s t s' → c ≠ c' →
  Step g s' (.act c o v) s1 → Step g s1 (.act c' o' v') s2 → (∀ l, AtomicLoc g l → o.touches l → ¬ o'.touches l) →
  ∃ s3, Step g s' (.act c' o' v') s3 ∧ Step g s3 (.act c o v) s2

/-- C76 for orderly calls: two consecutive actions of different cores that do not meet at an atomic word can be swapped, with the same
responses and the same outcome. -/
theorem C76_swap_partial {s s' s1 s2 : Conf} {t : List Label} (h : Fresh g s) (hs : Steps g s t s')
    (hk : OnlyCalls (fun k => CoveredC g k ∧ Orderly k) t) {c c' : Nat} {o o' : Op} {v v' : W} (hne : c ≠ c')
    (h1 : Step g s' (.act c o v) s1) (h2 : Step g s1 (.act c' o' v') s2) (ha : ∀ l, AtomicLoc g l → o.touches l → ¬ o'.touches l) :
    ∃ s3, Step g s' (.act c' o' v') s3 ∧ Step g s3 (.act c o v) s2 := by
  have hnr := C75_no_race_partial h hs hk
  cases h1 with
  | @act _ k _ f _ m1 hrun hex =>
      cases h2 with
      | @act _ k' _ f' _ m2 hrun' hex' =>
          have hrun'' : upd s'.cores c (.running k (f v)) c' = CoreState.running k' (.op o' f') := hrun'
          rw [upd_ne _ _ (Ne.symm hne)] at hrun''
          have hn : Next s' c o := ⟨k, f, hrun⟩
          have hn' : Next s' c' o' := ⟨k', f', hrun''⟩
          obtain ⟨m3, e1, e2⟩ := exec_comm hne hex hex'
            (fun l w r => hnr ⟨c, c', o, o', l, hne, hn, hn', w, r, fun hh => ha l hh (Or.inr w) r⟩)
            (fun l w r => hnr ⟨c', c, o', o, l, Ne.symm hne, hn', hn, w, r, fun hh => ha l hh r (Or.inr w)⟩)
          refine ⟨_, Step.act hrun'' e1, ?_⟩
          have h3 := Step.act (g := g) (s := ⟨m3, upd s'.cores c' (.running k' (f' v'))⟩) (c := c) (k := k) (o := o) (f := f)
            (by rw [← hrun]; exact upd_ne _ _ hne) e2
          have hc : upd (upd s'.cores c' (.running k' (f' v'))) c (.running k (f v)) = upd (upd s'.cores c (.running k (f v))) c' (.running k' (f' v')) :=
            upd_swap (Ne.symm hne) _ _
          rw [hc] at h3
          exact h3

/-- The booted machine, after software wrote 1 at 0x18018. -/
def markedS : Conf := ⟨{ toyM with mem := upd toyM.mem 0x18018 1 }, fun _ => .idle⟩

set_option maxRecDepth 100000 in
theorem swap_plays : (play toyG meetMoves markedS).map (fun x => (nextWrite x.2 0, nextLoad x.2 1, x.2.m.mem 0x12018,
    ((playMove toyG (.go 0) x.2).bind fun y => (playMove toyG (.go 1) y.2).map fun z => (y.1, z.1)))) =
    some (some 0x12018, some 0x12018, 0, some (.act 0 (.store 0x12018 1) 0, .act 1 (.load 0x12018) 1)) := by decide +kernel

/-- C76 is false of the code: after a swap the debug copy reads another value. -/
theorem C76_statement_false : ∃ g s, Fresh g s ∧ ¬ C76_statement g s := by
  refine ⟨toyG, toyS, toyS_fresh, fun hst => ?_⟩
  have h := swap_plays
  have hsoft : Step toyG toyS .soft markedS := Step.soft ⟨0x18018, 1, Nat.le_trans enclM_facts.2.2.2.2.2.2.2.1 (by decide), rfl⟩
  cases hp : play toyG meetMoves markedS with
  | none => rw [hp] at h; cases h
  | some x =>
      rw [hp] at h
      simp only [Option.map_some, Option.some.injEq, Prod.mk.injEq] at h
      obtain ⟨-, -, h3, h4⟩ := h
      cases hy : playMove toyG (.go 0) x.2 with
      | none => rw [hy] at h4; cases h4
      | some y =>
          rw [hy] at h4
          cases hz : playMove toyG (.go 1) y.2 with
          | none => simp only [Option.bind_some, hz] at h4; cases h4
          | some z =>
              simp only [Option.bind_some, hz, Option.map_some, Option.some.injEq, Prod.mk.injEq] at h4
              have s1 := playMove_step (show playMove toyG (.go 0) x.2 = some (y.1, y.2) from hy)
              have s2 := playMove_step (show playMove toyG (.go 1) y.2 = some (z.1, z.2) from hz)
              rw [h4.1] at s1
              rw [h4.2] at s2
              obtain ⟨s3, q, -⟩ := hst _ _ 0 1 _ _ _ _ _ _ (.head hsoft (play_steps _ hp)) (by decide) s1 s2 (fun l hl ht _ => by
                have : l = .word 0x12018 := ht.elim False.elim id
                subst this
                exact meet_plain hl)
              cases q with
              | act hrun hex =>
                  simp only [exec] at hex
                  split at hex
                  · have := (Prod.mk.inj (Option.some.inj hex)).1
                    rw [show (BitVec.toNat (0x12018 : W)) = 0x12018 from rfl, h3] at this
                    exact absurd this (by decide)
                  · cases hex

end Sanctum
