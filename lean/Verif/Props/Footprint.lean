import Verif.Lemmas.Footprint
import Verif.Props.Confine
import Verif.Props.Conc
import Verif.Lemmas.Flushed
/-
C88: a call changes only memory that its arguments name.
-/
namespace Sanctum
open Machine

variable {g : Cfg}

/-- What is left of every running call writes only what the call names. -/
def GoodF (g : Cfg) (s : Conf) : Prop := ∀ c k p, s.cores c = .running k p → p.Puts g c (Names g k)

theorem goodF_steps {s s' : Conf} {t : List Label} (h : Fresh g s) (hs : Steps g s t s') (hk : OnlyCalls (CoveredC g) t) : GoodF g s' := by
  have hw := h.1.wf
  induction hs with
  | refl => intro c k p hc; rw [h.2 c] at hc; cases hc
  | @tail s1 s2 t l hs hl ih =>
      have hg := good_steps h hs hk.prefix
      have ih := ih hk.prefix
      intro c k p hc
      cases hl with
      | @start c' k' hlt hidle =>
          have hc' : upd s1.cores c' (.running k' (k'.prog g)) c = CoreState.running k p := hc
          by_cases hcc : c = c'
          · subst hcc
            rw [upd_same] at hc'
            obtain ⟨rfl, rfl⟩ := CoreState.running.inj hc'
            exact puts_call hw k' hlt (hk c k' (List.mem_append_right _ (List.mem_singleton.2 rfl)))
          · rw [upd_ne _ _ hcc] at hc'
            exact ih c k p hc'
      | @act c' k' o f v m' hrun hex =>
          have hc' : upd s1.cores c' (.running k' (f v)) c = CoreState.running k p := hc
          by_cases hcc : c = c'
          · subst hcc
            rw [upd_same] at hc'
            obtain ⟨rfl, rfl⟩ := CoreState.running.inj hc'
            exact (ih c k' _ hrun).2 v ((exec_respOk hg.inv (hg.held c) hex).mono fun _ hh => hh.elim)
          · rw [upd_ne _ _ hcc] at hc'
            exact ih c k p hc'
      | @done c' k' v hrun =>
          have hc' : upd s1.cores c' .idle c = CoreState.running k p := hc
          by_cases hcc : c = c'
          · subst hcc; rw [upd_same] at hc'; exact absurd hc' (by simp)
          · rw [upd_ne _ _ hcc] at hc'
            exact ih c k p hc'
      | soft hsoft => exact ih c k p hc

/-- C88, in full: no step of a call changes a word outside the monitor's memory that the call does not name. -/
def C88_statement (g : Cfg) (s : Conf) : Prop := ∀ t s', Steps g s t s' → ∀ c o v s'' k, Step g s' (.act c o v) s'' → current t c = some k →
  ∀ x, g.monitorTop.toNat ≤ x → ¬ Names g k x → s''.m.mem x = s'.m.mem x

/-- C88 in every interleaving of covered calls. -/
theorem C88_footprint_partial {s s' : Conf} {t : List Label} (h : Fresh g s) (hs : Steps g s t s') (hk : OnlyCalls (CoveredC g) t)
    {c : Nat} {o : Op} {v : W} {s'' : Conf} {k : Call} (hst : Step g s' (.act c o v) s'') (hcur : current t c = some k) :
    ∀ x, g.monitorTop.toNat ≤ x → ¬ Names g k x → s''.m.mem x = s'.m.mem x := by
  intro x h1 h2
  have hg := goodF_steps h hs hk
  cases hst with
  | act hrun hex =>
      rcases current_steps h.2 hs c with ⟨h5, h6⟩ | ⟨k', p', h5, h6⟩
      · rw [hcur] at h6; cases h6
      · rw [hcur] at h6; cases h6
        rw [hrun] at h5; cases h5
        refine exec_mutates hex fun hm => ?_
        rcases (hg c k _ hrun).1 x hm with q | q
        · omega
        · exact h2 q

/-- Over whole interleavings: memory outside the monitor's that no call names, and that software does not write, is as it was. -/
theorem C88_frame_partial {s s' : Conf} {t : List Label} (h : Fresh g s) (hs : Steps g s t s') (hk : OnlyCalls (CoveredC g) t) {x : Nat}
    (hx : g.monitorTop.toNat ≤ x) (hn : ∀ c k, Label.start c k ∈ t → ¬ Names g k x) (hsoft : Label.soft ∉ t) : s'.m.mem x = s.m.mem x := by
  induction hs with
  | refl => rfl
  | @tail s1 s2 t l hs hl ih =>
      rw [← ih hk.prefix (fun c k hm => hn c k (List.mem_append_left _ hm)) fun hm => hsoft (List.mem_append_left _ hm)]
      cases l with
      | soft => exact absurd (List.mem_append_right _ (List.mem_singleton.2 rfl)) hsoft
      | start c k => cases hl; rfl
      | done c v => cases hl; rfl
      | act c o v =>
          rcases current_steps h.2 hs c with ⟨h5, h6⟩ | ⟨k', p', h5, h6⟩
          · cases hl with
            | act hrun hex => rw [hrun] at h5; cases h5
          · refine C88_footprint_partial h hs hk.prefix hl h6 x hx (hn c k' (List.mem_append_left _ ?_))
            obtain ⟨A, B, e1, -⟩ := current_start h6
            rw [e1]
            exact List.mem_append_right _ List.mem_cons_self

/-- The hypotheses are met by an interleaving of which a step changes a word that its call names (here even a word of the OS, C53), and C88 applies to
all other words. -/
example : ∃ t s' s'', Fresh toyG toyS ∧ Steps toyG toyS t s' ∧ OnlyCalls (CoveredC toyG) t ∧ current t 0 = some (.assignThread 0x9000 0xa000) ∧
    Step toyG s' (.act 0 (.store 0x9000 0) 0) s'' ∧ Names toyG (.assignThread 0x9000 0xa000) 0x9000 ∧ s'.m.mem 0x9000 ≠ s''.m.mem 0x9000 ∧
    ¬ Names toyG (.assignThread 0x9000 0xa000) 0xa000 ∧ s''.m.mem 0xa000 = s'.m.mem 0xa000 := by
  obtain ⟨t, s', s'', h1, h2, h3, h4, h5, h6, h7⟩ := leak_race
  have hn : ¬ Names toyG (.assignThread 0x9000 0xa000) 0xa000 := by
    have : entryA toyG 0x9000 = 0x8008 := by (set_option maxRecDepth 100000 in decide +kernel)
    rintro (⟨q1, q2⟩ | ⟨q1, q2⟩)
    · rw [show (0x9000 : W).toNat = 0x9000 from rfl, this] at q2
      omega
    · have q2 : 0xa000 < 0x9000 + 40 := q2
      omega
  refine ⟨t, s', s'', toyS_fresh, h1, h2, h3, h4, Or.inr ⟨by decide, by decide⟩, by rw [h6, h7]; decide, hn, ?_⟩
  exact C88_footprint_partial toyS_fresh h1 h2 h4 h3 0xa000 (by (set_option maxRecDepth 100000 in decide +kernel)) hn

/-- The word that the next action of core `c`, a test-and-set, accesses. -/
def nextTas (s : Conf) (c : Nat) : Option W := match s.cores c with
  | .running _ (.op (.tas a) _) => some a
  | _ => none

set_option maxRecDepth 100000 in
theorem accept_stray : (play toyG [.start 0 (.acceptThread 0x9000 0x1000), .go 0, .go 0] toyS).map (fun x => (current x.1 0, (nextTas x.2 0).map
    (fun a => (a.toNat, okAddr toyG a, x.2.m.mem a.toNat)))) = some (some (.acceptThread 0x9000 0x1000), some (163968, true, 0)) := by decide +kernel

/-- C88 is false of the code: `accept_thread` locks by address, and so writes to memory that nobody named. -/
theorem C88_statement_false : ∃ g s, Fresh g s ∧ ¬ C88_statement g s := by
  refine ⟨toyG, toyS, toyS_fresh, fun hst => ?_⟩
  have h := accept_stray
  cases hp : play toyG [.start 0 (.acceptThread 0x9000 0x1000), .go 0, .go 0] toyS with
  | none => rw [hp] at h; cases h
  | some x =>
      obtain ⟨t, s'⟩ := x
      rw [hp] at h
      simp only [Option.map_some, Option.some.injEq, Prod.mk.injEq] at h
      obtain ⟨h1, h2⟩ := h
      unfold nextTas at h2
      split at h2
      · rename_i k a f hc
        simp only [Option.map_some, Option.some.injEq, Prod.mk.injEq] at h2
        obtain ⟨e1, e2, e3⟩ := h2
        have hex : exec toyG 0 (.tas a) s'.m = some (_, _) := if_pos e2
        have hstep : Step toyG s' (.act 0 (.tas a) _) _ := Step.act hc hex
        have htop : toyG.monitorTop.toNat ≤ 163968 := by (set_option maxRecDepth 100000 in decide +kernel)
        have hen : ¬ InEntries toyG 0x9000 1 163968 := by
          have : entryA toyG 0x9000 = 0x8008 := by (set_option maxRecDepth 100000 in decide +kernel)
          unfold InEntries
          rw [this]
          omega
        have hn : ¬ Names toyG (.acceptThread 0x9000 0x1000) 163968 := by
          rintro (q | ⟨q1, q2⟩ | ⟨q1, q2⟩)
          · exact hen q
          · have q2 : 163968 < 0x9000 + 552 := q2
            omega
          · have q2 : 163968 < 0x1000 + 4096 := q2
            omega
        have := hst t s' (play_steps _ hp) 0 _ _ _ _ hstep h1 163968 htop hn
        rw [← e1] at this
        dsimp only at this
        rw [e3, upd_same] at this
        exact absurd this (by decide)
      · cases h2

end Sanctum
