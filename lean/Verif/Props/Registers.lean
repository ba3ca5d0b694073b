import Verif.Lemmas.Uses
import Verif.Props.Conc
/-
Property C71: which call may write which protection register, in every interleaving of any calls.
-/
namespace Sanctum
open Machine
variable {g : Cfg}

/-- What is left of a running call writes only the registers that the call may write. -/
theorem uses_steps {s s' : Conf} {t : List Label} (h : ∀ c, s.cores c = .idle) (hs : Steps g s t s') :
    ∀ c k p, s'.cores c = .running k p → p.Uses k.regs := by
  induction hs with
  | refl => intro c k p hc; rw [h c] at hc; cases hc
  | @tail s1 s2 t l _ hl ih =>
      intro c k p hc
      cases hl with
      | @start c' k' _ _ =>
          have hc' : upd s1.cores c' (.running k' (k'.prog g)) c = .running k p := hc
          by_cases hcc : c = c'
          · rw [hcc, upd_same] at hc'; cases hc'; exact uses_call g k
          · rw [upd_ne _ _ hcc] at hc'; exact ih c k p hc'
      | @act c' k' o f v m' hrun _ =>
          have hc' : upd s1.cores c' (.running k' (f v)) c = .running k p := hc
          by_cases hcc : c = c'
          · rw [hcc, upd_same] at hc'; cases hc'; exact (ih c' k _ hrun).2 v
          · rw [upd_ne _ _ hcc] at hc'; exact ih c k p hc'
      | @done c' k' v _ =>
          have hc' : upd s1.cores c' .idle c = .running k p := hc
          by_cases hcc : c = c'
          · rw [hcc, upd_same] at hc'; cases hc'
          · rw [upd_ne _ _ hcc] at hc'; exact ih c k p hc'
      | soft _ => exact ih c k p hc

/-- The step is one that core `c` makes in a call that satisfies `P`. -/
def StepOf (P : Call → Prop) (t : List Label) (l : Label) (c : Nat) : Prop := ∃ k o v, l = .act c o v ∧ current t c = some k ∧ P k

/-- A register group that did not change. -/
theorem of_ne {α : Type} {a b : α} {P : Prop} (h : a = b) (hn : a ≠ b) : P := absurd h hn

/-- C71. Whatever the cores call and software does: a step changes the access map of a core for the OS only in a call on that core to block or assign a region; its access
map for the enclave only in a call on that core to block a region; the DMA window only in a call to set it; it flushes the TLB of a core only in a call on that core to flush. -/
theorem C71_registers {s s' s'' : Conf} {t : List Label} {l : Label} (h : ∀ c, s.cores c = .idle) (hs : Steps g s t s') (hl : Step g s' l s'') :
    (s''.m.parBase = s'.m.parBase ∧ s''.m.parMask = s'.m.parMask ∧ s''.m.cacheShift = s'.m.cacheShift) ∧
    (∀ c, s''.m.drb c ≠ s'.m.drb c → StepOf Call.MovesOsRegions t l c) ∧ (∀ c, s''.m.edrb c ≠ s'.m.edrb c → StepOf Call.MovesOwnRegions t l c) ∧
    ((s''.m.dmaStart, s''.m.dmaEnd, s''.m.dmarBase, s''.m.dmarMask) ≠ (s'.m.dmaStart, s'.m.dmaEnd, s'.m.dmarBase, s'.m.dmarMask) → ∃ c, StepOf Call.MovesDma t l c) ∧
    (∀ c, s''.m.tlbFlushes c ≠ s'.m.tlbFlushes c → StepOf Call.Flushes t l c) := by
  cases hl with
  | start k _ _ => exact ⟨⟨rfl, rfl, rfl⟩, fun _ => of_ne rfl, fun _ => of_ne rfl, of_ne rfl, fun _ => of_ne rfl⟩
  | done _ => exact ⟨⟨rfl, rfl, rfl⟩, fun _ => of_ne rfl, fun _ => of_ne rfl, of_ne rfl, fun _ => of_ne rfl⟩
  | soft hsoft =>
      obtain ⟨a, v, _, rfl⟩ := hsoft
      exact ⟨⟨rfl, rfl, rfl⟩, fun _ => of_ne rfl, fun _ => of_ne rfl, of_ne rfl, fun _ => of_ne rfl⟩
  | @act c k o f v m' hrun hex =>
      obtain ⟨h1, h2, h3, h4, h5, -⟩ := exec_uses (uses_steps h hs c k _ hrun).1 hex
      have hcur : current t c = some k := by
        rcases current_steps h hs c with ⟨q1, -⟩ | ⟨k', p', q1, q2⟩
        · rw [hrun] at q1; cases q1
        · rw [hrun] at q1; cases q1; exact q2
      have own : ∀ {P : Call → Prop} {c' : Nat}, ¬ (c' ≠ c ∨ ¬ P k) → StepOf P t (.act c o v) c' := fun {P c'} hn => by
        have hcc : c' = c := Classical.not_not.1 fun hh => hn (Or.inl hh)
        subst hcc
        exact ⟨k, o, v, rfl, hcur, Classical.not_not.1 fun hh => hn (Or.inr hh)⟩
      refine ⟨h1 (fun hh => hh), fun c' hn => own fun hh => hn (h2 c' hh), fun c' hn => own fun hh => hn (h3 c' hh), fun hn => ⟨c, own fun hh => hn ?_⟩,
        fun c' hn => own fun hh => hn (h5 c' hh)⟩
      obtain ⟨q1, q2, q3, q4⟩ := h4 (hh.resolve_left fun hcc => hcc rfl)
      rw [q1, q2, q3, q4]

/-- C71. The range of addresses that a core protects from software never changes after boot. -/
theorem C71_shield {s s' : Conf} {t : List Label} (h : ∀ c, s.cores c = .idle) (hs : Steps g s t s') :
    s'.m.parBase = s.m.parBase ∧ s'.m.parMask = s.m.parMask ∧ s'.m.cacheShift = s.m.cacheShift := by
  induction hs with
  | refl => exact ⟨rfl, rfl, rfl⟩
  | tail hst hl ih =>
      obtain ⟨⟨h1, h2, h3⟩, -⟩ := C71_registers h hst hl
      exact ⟨h1.trans ih.1, h2.trans ih.2.1, h3.trans ih.2.2⟩

/-- Core 0 blocks region 1; then core 1 moves the DMA window. -/
def registerMoves : List Move := [.start 0 (.blockDramRegion 1)] ++ List.replicate 22 (.go 0) ++ [.start 1 (.setDmaRange 0x10000 0xfff)] ++ List.replicate 10 (.go 1)

set_option maxRecDepth 100000 in
theorem register_plays : (play toyG registerMoves toyS).map (fun x => (results x.1, x.2.m.drbBit 0 1, x.2.m.dmaStart, x.2.m.dmaEnd)) =
    some ([(0, monitorOk), (1, monitorOk)], false, 0x10000, 0x11000) := by decide +kernel

/-- The hypotheses of C71 are met by an interleaving in which an access map and the DMA window change. -/
example : ∃ t s', (∀ c, toyS.cores c = .idle) ∧ Steps toyG toyS t s' ∧ results t = [(0, monitorOk), (1, monitorOk)] ∧ s'.m.drb 0 ≠ toyS.m.drb 0 ∧
    s'.m.dmaStart ≠ toyS.m.dmaStart := by
  have h := register_plays
  cases hp : play toyG registerMoves toyS with
  | none => rw [hp] at h; cases h
  | some x =>
      rw [hp] at h
      simp only [Option.map_some, Option.some.injEq, Prod.mk.injEq] at h
      have h1 : toyS.m.drbBit 0 1 = true := by set_option maxRecDepth 100000 in decide +kernel
      have h2 : toyS.m.dmaStart ≠ 0x10000 := by set_option maxRecDepth 100000 in decide +kernel
      refine ⟨x.1, x.2, fun _ => rfl, play_steps _ hp, h.1, fun hh => ?_, fun hh => h2 (hh.symm.trans h.2.2.1)⟩
      have h3 := h.2.1
      unfold Machine.drbBit at h1 h3
      rw [hh, h1] at h3
      cases h3

end Sanctum
