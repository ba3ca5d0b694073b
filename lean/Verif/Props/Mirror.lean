import Verif.Lemmas.MirrorCalls
import Verif.Props.Registers
/-
Properties C69, C70, C72: the access maps, the DMA registers and the protected range in every interleaving.
-/
namespace Sanctum
open Machine
variable {g : Cfg}

theorem fresh_goodM {s : Conf} (h : Fresh g s) : GoodM g [] s := by
  have hi := h.1.inv
  have hw := h.1.wf
  obtain ⟨⟨p, m0, hp, hb, -⟩, hidle⟩ := h
  obtain ⟨d1, d2, d3, d4⟩ := (C12_boot_state hp hb).dma
  refine ⟨fun _ => ⟨hi.bitmap, fun a => ?_⟩, fun c k p hc => by rw [hidle c] at hc; cases hc⟩
  have := hw.top_le; have := hw.stripe_le
  have h1 : (g.monitorTop + 1).toNat = g.monitorTop.toNat + 1 := by
    have := g.dramSize.isLt
    rw [BitVec.toNat_add, show (1 : W).toNat = 1 from rfl]; omega
  rw [d1, d2, d3, d4, h1]
  unfold rangeCovers
  rw [show a &&& ~~~ (0 : W) = a by rw [show ~~~ (0 : W) = BitVec.allOnes 64 from rfl, BitVec.and_allOnes], beq_iff_eq, ← BitVec.toNat_inj]
  omega

theorem goodM_steps {s s' : Conf} {t : List Label} (h : Fresh g s) (hs : Steps g s t s') (hk : OnlyCalls (CoveredC g) t) : GoodM g t s' := by
  have hw := h.1.wf
  induction hs with
  | refl => exact fresh_goodM h
  | @tail s1 s2 t l hst hl ih => exact (GoodM.step hw (mir_call hw) (good_steps h hst hk.prefix) (ih hk.prefix) hk hl).1

/-! ### C69 -/

/-- C69, in full. -/
def C69_statement (g : Cfg) (s : Conf) : Prop :=
  ∀ t s' l s'', Steps g s t s' → Step g s' l s'' →
    (∀ c, s''.m.drb c = s'.m.drb c ∨ ((∃ o v, l = .act c o v) ∧ MapExact g s''.m c)) ∧
    (∀ c r, l = .done c (.blockDramRegion r) monitorOk → s''.m.drbBit c r.toNat = false) ∧
    ∀ c r, l = .done c (.assignDramRegion r 0) monitorOk → s''.m.drbBit c r.toNat = true

/-- Core 0 blocks region 1, up to its return. -/
def blockMoves : List Move := [.start 0 (.blockDramRegion 1)] ++ List.replicate 21 (.go 0)

/-- Is the label the successful return of a call to block region 1 on core 0? -/
def isBlockDone : Label → Bool
  | .done c (.blockDramRegion r) v => decide (c = 0 ∧ r = 1 ∧ v = monitorOk)
  | _ => false

theorem isBlockDone_eq {l : Label} (h : isBlockDone l = true) : l = .done 0 (.blockDramRegion 1) monitorOk := by
  unfold isBlockDone at h
  split at h
  · obtain ⟨rfl, rfl, rfl⟩ := of_decide_eq_true h; rfl
  · cases h

set_option maxRecDepth 100000 in
theorem block_plays : ((play toyG blockMoves toyS).bind fun x => (playMove toyG (.go 0) x.2).map fun y => (isBlockDone y.1, y.2.m.drbBit 0 1)) =
    some (true, false) := by decide +kernel

/-- C69 for the covered calls: a core only ever loads an access map that admits, at that instant, exactly the regions that the OS owns; when a call to block a region returns
with success its core's map does not admit the region, and when one to assign it to the OS does, it admits it. -/
theorem C69_maps_partial {s s' s'' : Conf} {t : List Label} {l : Label} (h : Fresh g s) (hs : Steps g s t s') (hl : Step g s' l s'')
    (hk : OnlyCalls (CoveredC g) (t ++ [l])) :
    (∀ c, s''.m.drb c = s'.m.drb c ∨ ((∃ o v, l = .act c o v) ∧ MapExact g s''.m c)) ∧
    (∀ c r, l = .done c (.blockDramRegion r) monitorOk → s''.m.drbBit c r.toNat = false) ∧
    ∀ c r, l = .done c (.assignDramRegion r 0) monitorOk → s''.m.drbBit c r.toNat = true := by
  have hw := h.1.wf
  obtain ⟨-, h1, -, h2⟩ := GoodM.step hw (mir_call hw) (good_steps h hs hk.prefix) (goodM_steps h hs hk.prefix) hk hl
  exact ⟨h1, fun c r hh => (h2 c _ _ hh rfl).1 r rfl, fun c r hh => (h2 c _ _ hh rfl).2 r rfl⟩

/-- The OS overwrites the region table and the bitmap (as in C20). -/
def clobberCalls : List (Nat × Call) := overwriteCalls ++ [(0, .copyDebugEnclavePage 0 0 0x10000 false)]

set_option maxRecDepth 100000 in
theorem clobber_runs : (runCalls toyG clobberCalls toyM).isSome = true := by decide +kernel

/-- The machine after that. -/
def clobberS : Conf := ⟨(after toyG clobberCalls toyM).2, fun _ => .idle⟩

/-- Then core 0 blocks region 2; before the action that loads the map. -/
def reloadMoves : List Move := [.start 0 (.blockDramRegion 2)] ++ List.replicate 18 (.go 0)

set_option maxRecDepth 100000 in
theorem reload_plays : ((play toyG reloadMoves clobberS).bind fun x => (playMove toyG (.go 0) x.2).map fun y =>
    (decide (y.2.m.drb 0 = x.2.m.drb 0), y.2.m.drbBit 0 3, y.2.m.owner toyG 3)) = some (false, false, nullEnclaveId) := by decide +kernel

/-- The full statement is false of the code. -/
theorem C69_statement_false : ∃ g s, Fresh g s ∧ ¬ C69_statement g s := by
  refine ⟨toyG, toyS, toyS_fresh, fun hst => ?_⟩
  have hh := hist_after clobber_runs (by set_option maxRecDepth 100000 in decide +kernel)
  obtain ⟨t, ht, -⟩ := hist_steps hh (cores := fun _ => .idle) (fun _ => rfl)
  have h := reload_plays
  cases hp : play toyG reloadMoves clobberS with
  | none => rw [hp] at h; cases h
  | some x =>
      rw [hp, Option.bind_some] at h
      cases hq : playMove toyG (.go 0) x.2 with
      | none => rw [hq] at h; cases h
      | some y =>
          rw [hq] at h
          simp only [Option.map_some, Option.some.injEq, Prod.mk.injEq, decide_eq_false_iff_not] at h
          have h1 := ((hst _ _ _ _ (ht.trans (play_steps _ hp)) (playMove_step hq)).1 0).resolve_left h.1
          have h2 := (h1.2 3 (by set_option maxRecDepth 100000 in decide +kernel)).2 h.2.2
          rw [h.2.1] at h2; cases h2

/-- The hypotheses of C69 are met by the interleaving of C71, at the return of the call to block. -/
example : ∃ t s' s'', Fresh toyG toyS ∧ Steps toyG toyS t s' ∧ Step toyG s' (.done 0 (.blockDramRegion 1) monitorOk) s'' ∧
    OnlyCalls (CoveredC toyG) (t ++ [.done 0 (.blockDramRegion 1) monitorOk]) ∧ s''.m.drb 0 ≠ toyS.m.drb 0 := by
  have h := block_plays
  cases hp : play toyG blockMoves toyS with
  | none => rw [hp] at h; cases h
  | some x =>
      rw [hp, Option.bind_some] at h
      cases hq : playMove toyG (.go 0) x.2 with
      | none => rw [hq] at h; cases h
      | some y =>
          rw [hq] at h
          simp only [Option.map_some, Option.some.injEq, Prod.mk.injEq] at h
          obtain ⟨l, s''⟩ := y
          have hl : l = .done 0 (.blockDramRegion 1) monitorOk := isBlockDone_eq h.1
          subst hl
          have h1 : toyS.m.drbBit 0 1 = true := by set_option maxRecDepth 100000 in decide +kernel
          refine ⟨x.1, x.2, s'', toyS_fresh, play_steps _ hp, playMove_step hq, fun c k hk => ?_, fun hh => ?_⟩
          · rcases List.mem_append.1 hk with hk | hk
            · refine play_onlyCalls blockMoves (P := CoveredC toyG) (fun c k hk => ?_) hp c k hk
              simp only [blockMoves, List.replicate, List.cons_append, List.nil_append, List.mem_cons, Move.start.injEq, reduceCtorEq, or_false, List.not_mem_nil] at hk
              obtain ⟨_, rfl⟩ := hk
              exact ⟨trivial, fun _ _ _ _ hh => by cases hh⟩
            · simp at hk
          · have h3 := h.2
            unfold Machine.drbBit at h1 h3
            rw [hh, h1] at h3
            cases h3

/-! ### C70 -/

/-- C70, in full: at every instant the DMA master may only access the window of boot and windows that some call asked for. -/
def C70_statement (g : Cfg) (s : Conf) : Prop :=
  ∀ t s', Steps g s t s' → ∀ a : W, rangeCovers s'.m.dmarBase s'.m.dmarMask a = true →
    (s.m.dmaStart.toNat ≤ a.toNat ∧ a.toNat < s.m.dmaEnd.toNat) ∨
    ∃ c b n, Label.start c (.setDmaRange b n) ∈ t ∧ b.toNat ≤ a.toNat ∧ a.toNat ≤ b.toNat + n.toNat

/-- C70 for the covered calls, at all instants at which the lock of region 0 is free: the DMA master may access exactly the addresses between the monitor's two bounds. -/
theorem C70_dma_partial {s s' : Conf} {t : List Label} (h : Fresh g s) (hs : Steps g s t s') (hk : OnlyCalls (CoveredC g) t) (hl : s'.m.locked g 0 = false) :
    DmaExact s'.m := ((goodM_steps h hs hk).inv ((not_locked _).1 hl)).2

/-- In particular when no call is running. -/
theorem C70_quiescent {s s' : Conf} {t : List Label} (h : Fresh g s) (hs : Steps g s t s') (hk : OnlyCalls (CoveredC g) t) (hn : OnlyCalls NoLeak t)
    (hi : ∀ c, s'.cores c = .idle) : DmaExact s'.m := by
  have hw := h.1.wf
  exact C70_dma_partial h hs hk (C32_quiescence_partial h hs hk hn hi 0 (zero_lt hw))

/-- Core 0 sets the window to 64 KiB from 64 KiB; then core 1 starts to set it to 4 KiB from 128 KiB, and has just written the base register. -/
def dmaMoves : List Move :=
  [.start 0 (.setDmaRange 0x10000 0xffff)] ++ List.replicate 13 (.go 0) ++ [.start 1 (.setDmaRange 0x20000 0xfff)] ++ List.replicate 7 (.go 1)

/-- Is the label the start of a call that asks for a window with `a`? -/
def asksFor (a : W) : Label → Bool
  | .start _ (.setDmaRange b n) => decide (b.toNat ≤ a.toNat ∧ a.toNat ≤ b.toNat + n.toNat)
  | _ => false

set_option maxRecDepth 100000 in
theorem dma_plays : (play toyG dmaMoves toyS).map (fun x => (results x.1, rangeCovers x.2.m.dmarBase x.2.m.dmarMask 0x28000, x.1.any (asksFor 0x28000))) =
    some ([(0, monitorOk)], true, false) := by decide +kernel

/-- The full statement is false: between the writes of the base and the mask register the DMA master may access addresses in neither window. -/
theorem C70_statement_false : ∃ g s, Fresh g s ∧ ¬ C70_statement g s := by
  refine ⟨toyG, toyS, toyS_fresh, fun hst => ?_⟩
  have h := dma_plays
  cases hp : play toyG dmaMoves toyS with
  | none => rw [hp] at h; cases h
  | some x =>
      rw [hp] at h
      simp only [Option.map_some, Option.some.injEq, Prod.mk.injEq] at h
      rcases hst x.1 x.2 (play_steps _ hp) 0x28000 h.2.1 with h1 | ⟨c, b, n, h1, h2⟩
      · exact absurd h1 (by set_option maxRecDepth 100000 in decide +kernel)
      · have h3 : x.1.any (asksFor 0x28000) = true := List.any_eq_true.2 ⟨_, h1, decide_eq_true h2⟩
        rw [h.2.2] at h3; cases h3

/-- The hypotheses of C70 are met by an interleaving in which the window was moved. -/
example : ∃ t s', Fresh toyG toyS ∧ Steps toyG toyS t s' ∧ OnlyCalls (CoveredC toyG) t ∧ s'.m.locked toyG 0 = false ∧ s'.m.dmaStart ≠ toyS.m.dmaStart := by
  have h : (play toyG registerMoves toyS).map (fun x => (x.2.m.locked toyG 0, decide (x.2.m.dmaStart = toyS.m.dmaStart))) = some (false, false) := by
    set_option maxRecDepth 100000 in decide +kernel
  cases hp : play toyG registerMoves toyS with
  | none => rw [hp] at h; cases h
  | some x =>
      rw [hp] at h
      simp only [Option.map_some, Option.some.injEq, Prod.mk.injEq, decide_eq_false_iff_not] at h
      refine ⟨x.1, x.2, toyS_fresh, play_steps _ hp, play_onlyCalls registerMoves (fun c k hk => ?_) hp, h.1, h.2⟩
      simp only [registerMoves, List.replicate, List.cons_append, List.nil_append, List.mem_cons, Move.start.injEq, reduceCtorEq, or_false, false_or, List.not_mem_nil] at hk
      rcases hk with ⟨_, rfl⟩ | ⟨_, rfl⟩
      all_goals exact ⟨trivial, fun _ _ _ _ hh => by cases hh⟩

/-! ### C72 -/

/-- C72, in full: on every core, software is kept out of exactly the monitor's memory, at all times. -/
def C72_statement (g : Cfg) (s : Conf) : Prop := ∀ t s', Steps g s t s' → ∀ c, c < g.cores → Shielded g s'.m c

/-- C72 for the core that boots, whatever is called. -/
theorem C72_shielded_partial {s s' : Conf} {t : List Label} (h : Fresh g s) (hs : Steps g s t s') : Shielded g s'.m 0 := by
  obtain ⟨h1, h2, -⟩ := C71_shield h.2 hs
  obtain ⟨⟨p, m0, hp, hb, -⟩, -⟩ := h
  intro a
  rw [h1, h2]
  exact (C12_boot_state hp hb).protected_range a

/-- Memory and registers before boot, with registers that protect nothing of DRAM. -/
def openMachine : Machine := { zeroMachine with parBase := fun _ => ~~~ 0, parMask := fun _ => ~~~ 0 }

set_option maxRecDepth 100000 in
theorem open_boots : (match boot toyPlatform openMachine with | .ok x => decide (0 < x.1.monitorTop.toNat) && decide (1 < x.1.cores) && !rangeCovers (x.2.parBase 1) (x.2.parMask 1) 0 | _ => false) = true := by
  decide +kernel

/-- The full statement is false: the other cores keep the range they had before boot. -/
theorem C72_statement_false : ∃ g s, Fresh g s ∧ ¬ C72_statement g s := by
  have h := open_boots
  cases hb : boot toyPlatform openMachine with
  | ok x =>
      rw [hb] at h
      simp only [Bool.and_eq_true, decide_eq_true_eq, Bool.not_eq_true'] at h
      refine ⟨x.1, ⟨x.2, fun _ => .idle⟩, ⟨⟨toyPlatform, openMachine, toy_sane, hb, fun _ _ => rfl⟩, fun _ => rfl⟩, fun hst => ?_⟩
      have h1 := (hst [] _ (.refl _) 1 h.1.2 0).2 h.1.1
      rw [h.2] at h1; cases h1
  | panic => rw [hb] at h; cases h
  | ub => rw [hb] at h; cases h
  | fault => rw [hb] at h; cases h

end Sanctum
