import Verif.Props.Conc
import Verif.Lemmas.Bounded2
/-
C31: calls finish within a bounded number of their own steps, in every interleaving.
-/
namespace Sanctum
open Machine

variable {g : Cfg}

theorem ownSteps_snoc (t : List Label) (l : Label) (c : Nat) : ownSteps (t ++ [l]) c = ownStepsLabel c (ownSteps t c) l := by
  unfold ownSteps; rw [List.foldl_append]; rfl

unseal Bnd in
theorem bnd_op {α : Type} {n : Nat} {o : Op} {f : W → Prog α} (h : Bnd n (.op o f)) : 1 ≤ n ∧ ∀ v, Bnd (n - 1) (f v) := by
  cases n with
  | zero => exact h.elim
  | succ n => exact ⟨by omega, h⟩

unseal Bnd in
theorem not_bnd_fault {α : Type} {n : Nat} (h : Bnd n (.fault : Prog α)) : False := by cases n <;> exact h
unseal Bnd in
theorem not_bnd_diverge {α : Type} {n : Nat} (h : Bnd n (.diverge : Prog α)) : False := by cases n <;> exact h

/-- In every interleaving, the rest of every running call is bounded by what is left. -/
theorem bnd_steps (hw : g.WF) {s s' : Conf} {t : List Label} (h : ∀ c, s.cores c = .idle) (hs : Steps g s t s') :
    ∀ c, (s'.cores c = .idle ∧ ownSteps t c = 0) ∨
      ∃ k p, s'.cores c = .running k p ∧ ownSteps t c ≤ stepBound g ∧ Bnd (stepBound g - ownSteps t c) p := by
  induction hs with
  | refl => exact fun c => Or.inl ⟨h c, rfl⟩
  | @tail s1 s2 t l _ hl ih =>
      intro c
      have hc := ih c
      rw [ownSteps_snoc]
      cases hl with
      | @start c' k _ _ =>
          by_cases hcc : c' = c
          · subst hcc
            refine Or.inr ⟨k, _, if_pos rfl, ?_⟩
            rw [show ownStepsLabel c' (ownSteps t c') (.start c' k) = 0 from if_pos rfl]
            exact ⟨Nat.zero_le _, bnd_call hw k⟩
          · simpa only [ownStepsLabel, if_neg hcc, upd, if_neg (Ne.symm hcc)] using hc
      | @act c' k o f v m' hrun hex =>
          by_cases hcc : c' = c
          · subst hcc
            refine Or.inr ⟨k, _, if_pos rfl, ?_⟩
            rw [show ownStepsLabel c' (ownSteps t c') (.act c' o v) = ownSteps t c' + 1 from if_pos rfl]
            rcases hc with hc | ⟨k', p', h1, h2, h3⟩
            · rw [hc.1] at hrun; cases hrun
            · rw [hrun] at h1; cases h1
              obtain ⟨h4, h5⟩ := bnd_op h3
              exact ⟨by omega, by rw [Nat.sub_add_eq]; exact h5 v⟩
          · simpa only [ownStepsLabel, if_neg hcc, upd, if_neg (Ne.symm hcc)] using hc
      | @done c' k v hrun =>
          by_cases hcc : c' = c
          · subst hcc; exact Or.inl ⟨if_pos rfl, if_pos rfl⟩
          · simpa only [ownStepsLabel, if_neg hcc, upd, if_neg (Ne.symm hcc)] using hc
      | soft _ => exact hc

/-- C31, the bound: in every interleaving of any calls, from any state of a machine with a geometry as boot produces it,
no core ever makes more than `stepBound g` steps in one call. -/
theorem C31_steps_bounded (hw : g.WF) {s s' : Conf} {t : List Label} (h : ∀ c, s.cores c = .idle) (hs : Steps g s t s') (c : Nat) :
    ownSteps t c ≤ stepBound g := by
  rcases bnd_steps hw h hs c with ⟨_, h1⟩ | ⟨k, p, _, h1, _⟩
  · omega
  · exact h1

/-- C31, in full: the bound, and a core in a call can always make its next step, whatever the other cores are doing. -/
def C31_statement (g : Cfg) (s : Conf) : Prop :=
  ∀ t s', Steps g s t s' → ∀ c, ownSteps t c ≤ stepBound g ∧
    ∀ k, current t c = some k → ∃ l s'', Step g s' l s'' ∧ ((∃ o v, l = .act c o v) ∨ ∃ v, l = .done c k v)

/-- C31 for all interleavings of the covered calls. -/
theorem C31_wait_free_partial {s s' : Conf} {t : List Label} (h : Fresh g s) (hs : Steps g s t s') (hk : OnlyCalls (CoveredC g) t) (c : Nat) :
    ownSteps t c ≤ stepBound g ∧
    ∀ k, current t c = some k → ∃ l s'', Step g s' l s'' ∧ ((∃ o v, l = .act c o v) ∨ ∃ v, l = .done c k v) := by
  refine ⟨C31_steps_bounded h.1.wf h.2 hs c, fun k hcur => ?_⟩
  rcases current_steps h.2 hs c with ⟨_, h6⟩ | ⟨k', p', h5, h6⟩
  · rw [hcur] at h6; cases h6
  · rw [hcur] at h6; cases h6
    exact (good_steps h hs hk).progress h5

/-- What is left of a trace by core `c` alone. -/
def OnlyCore (c : Nat) (t : List Label) : Prop := ∀ l ∈ t, (∃ o v, l = .act c o v) ∨ ∃ k v, l = .done c k v

theorem C31_alone (hw : g.WF) {s s' : Conf} {t : List Label} (h : Fresh g s) (hs : Steps g s t s') (hk : OnlyCalls (CoveredC g) t) (c : Nat) :
    ∃ t2 s2, Steps g s' t2 s2 ∧ OnlyCore c t2 ∧ t2.length ≤ stepBound g + 1 ∧ s2.cores c = .idle := by
  have key : ∀ (n : Nat) (t : List Label) (s' : Conf), Steps g s t s' → OnlyCalls (CoveredC g) t → stepBound g - ownSteps t c ≤ n →
      ∃ t2 s2, Steps g s' t2 s2 ∧ OnlyCore c t2 ∧ t2.length ≤ n + 1 ∧ s2.cores c = .idle := by
    intro n
    induction n with
    | zero =>
        intro t s' hs hk hn
        rcases bnd_steps hw h.2 hs c with ⟨h1, _⟩ | ⟨k, p, h1, h2, h3⟩
        · exact ⟨[], s', .refl _, fun l hl => (List.not_mem_nil hl).elim, Nat.zero_le _, h1⟩
        · cases p with
          | ret v => exact ⟨_, _, .one (Step.done h1), fun l hl => Or.inr ⟨k, v, by simpa using hl⟩, by simp, if_pos rfl⟩
          | op o f => have := (bnd_op h3).1; omega
          | fault => exact (not_bnd_fault h3).elim
          | diverge => exact (not_bnd_diverge h3).elim
    | succ n ih =>
        intro t s' hs hk hn
        rcases bnd_steps hw h.2 hs c with ⟨h1, _⟩ | ⟨k, p, h1, h2, h3⟩
        · exact ⟨[], s', .refl _, fun l hl => (List.not_mem_nil hl).elim, Nat.zero_le _, h1⟩
        · cases p with
          | ret v => exact ⟨_, _, .one (Step.done h1), fun l hl => Or.inr ⟨k, v, by simpa using hl⟩, by simp, if_pos rfl⟩
          | op o f =>
              obtain ⟨v, m1, h4, _⟩ := (good_steps h hs hk).act h1
              have hst := Step.act h1 h4
              have hk' : OnlyCalls (CoveredC g) (t ++ [.act c o v]) := by
                intro c' k' hk'
                rcases List.mem_append.1 hk' with h5 | h5
                · exact hk c' k' h5
                · simp at h5
              obtain ⟨t2, s2, q1, q2, q3, q4⟩ := ih _ _ (.tail hs hst) hk' (by
                rw [ownSteps_snoc, show ownStepsLabel c (ownSteps t c) (.act c o v) = ownSteps t c + 1 from if_pos rfl]; omega)
              refine ⟨_, s2, .head hst q1, fun l hl => ?_, by simp; omega, q4⟩
              rcases List.mem_cons.1 hl with rfl | hl
              · exact Or.inl ⟨o, v, rfl⟩
              · exact q2 l hl
          | fault => exact (not_bnd_fault h3).elim
          | diverge => exact (not_bnd_diverge h3).elim
  exact key (stepBound g) t s' hs hk (by omega)

/-- In every reachable state of every interleaving of covered calls, whatever the other cores are in the middle of, a core that is given
`stepBound g + 1` steps returns from its call (no deadlock). -/
theorem C31_returns_partial {s s' : Conf} {t : List Label} (h : Fresh g s) (hs : Steps g s t s') (hk : OnlyCalls (CoveredC g) t) (c : Nat) :
    ∃ t2 s2, Steps g s' t2 s2 ∧ OnlyCore c t2 ∧ t2.length ≤ stepBound g + 1 ∧ s2.cores c = .idle := C31_alone h.1.wf h hs hk c

/-- Core 0 is about to finish its call while core 1, in the middle of another, holds a lock: the hypotheses are met, and core 0 does return. -/
def midMoves : List Move := [.start 1 (.blockDramRegion 1), .go 1, .go 1, .start 0 (.setDmaRange 0x10000 0xffff), .go 0, .go 0]

set_option maxRecDepth 100000 in
theorem mid_plays : (play toyG midMoves toyS).map (fun x => ((x.2.cores 0).isIdle, (x.2.cores 1).isIdle, x.2.m.locked toyG 0, x.2.m.locked toyG 1,
    ownSteps x.1 0)) = some (false, false, true, true, 2) := by decide +kernel

example : ∃ t s', Fresh toyG toyS ∧ Steps toyG toyS t s' ∧ OnlyCalls (CoveredC toyG) t ∧ (s'.cores 0).isIdle = false ∧ s'.m.locked toyG 1 = true := by
  have h := mid_plays
  cases hp : play toyG midMoves toyS with
  | none => rw [hp] at h; cases h
  | some x =>
      rw [hp] at h
      simp only [Option.map_some, Option.some.injEq, Prod.mk.injEq] at h
      refine ⟨x.1, x.2, toyS_fresh, play_steps _ hp, play_onlyCalls midMoves (fun c k hk => ?_) hp, h.1, h.2.2.2.1⟩
      simp only [midMoves, List.mem_cons, Move.start.injEq, reduceCtorEq, false_or, or_false, List.not_mem_nil] at hk
      rcases hk with ⟨_, rfl⟩ | ⟨_, rfl⟩
      all_goals exact ⟨trivial, fun _ _ _ _ hh => by cases hh⟩

/-- The OS asks for a debug copy with an ID outside DRAM; after two locks are taken, the monitor reads the record at the ID. -/
def faultMoves : List Move := [.start 0 (.copyDebugEnclavePage 0x40000 0x8000 0x10000 true), .go 0, .go 0, .go 0, .go 0]

set_option maxRecDepth 100000 in
theorem fault_plays : (play toyG faultMoves toyS).map (fun x => ((nextLoad x.2 0).map (okAddr toyG), x.2.m.locked toyG 0, x.2.m.locked toyG 2)) =
    some (some false, true, true) := by decide +kernel

/-- C31 is false of the code: `copy_debug_enclave_page` reads the record before it checks the ID, and faults holding two locks. -/
theorem C31_statement_false : ∃ g s, Fresh g s ∧ ¬ C31_statement g s := by
  refine ⟨toyG, toyS, toyS_fresh, fun hst => ?_⟩
  have h := fault_plays
  cases hp : play toyG faultMoves toyS with
  | none => rw [hp] at h; cases h
  | some x =>
      obtain ⟨t, s'⟩ := x
      rw [hp] at h
      simp only [Option.map_some, Option.some.injEq, Prod.mk.injEq] at h
      have h2 := h.1
      unfold nextLoad at h2
      split at h2
      · rename_i k a f hc
        have h2 : okAddr toyG a = false := Option.some.inj h2
        have hsteps := play_steps _ hp
        rcases current_steps (fun _ => rfl) hsteps 0 with ⟨h5, _⟩ | ⟨k', p', h5, h6⟩
        · rw [h5] at hc; cases hc
        · obtain ⟨l, s'', h7, h8⟩ := (hst t s' hsteps 0).2 k' h6
          rcases h8 with ⟨o, v, rfl⟩ | ⟨v, rfl⟩
          · cases h7 with
            | act h9 h10 =>
                rw [hc] at h9
                cases h9
                simp only [exec, h2] at h10
                cases h10
          · cases h7 with
            | done h9 => rw [hc] at h9; cases h9
      · cases h2

end Sanctum
