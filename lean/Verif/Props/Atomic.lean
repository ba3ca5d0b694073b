import Verif.Lemmas.LinCalls
import Verif.Props.Conc
/-
Property C68: the region calls are linearizable.
-/
namespace Sanctum
open Machine
variable {g : Cfg}

/-- The table and the cores after boot. -/
def AtomicState.initial (g : Cfg) : AtomicState := { phase := fun _ => .idle, table := RegionTable.initial g }

theorem fresh_goodL {s : Conf} (h : Fresh g s) (hfl : ∀ c, c < g.cores → s.m.flushedAt c = 0) : GoodL g [] s (AtomicState.initial g) := by
  have hw := h.1.wf
  obtain ⟨⟨p, m0, hp, hb, -⟩, hidle⟩ := h
  have hbs := C12_boot_state hp hb
  refine ⟨⟨fun _ _ => Nat.le_refl _, fun _ _ => Nat.le_refl _, ?_⟩, ⟨hbs.clock, fun c hc => hfl c hc⟩, Nat.le_refl _, fun i hi _ => ?_, fun _ => ⟨hbs.dma.1, hbs.dma.2.1⟩,
    fun _ _ => rfl, fun c k p hc => ?_⟩
  · have := hw.top_le; have := hw.stripe_le
    show g.monitorTop.toNat ≤ (g.monitorTop + 1).toNat
    rw [BitVec.toNat_add, show (1 : W).toNat = 1 from rfl]; omega
  · obtain ⟨h1, -, h3, h4⟩ := hbs.owned i hi
    exact ⟨h1.symm, h4, fun _ => h3⟩
  · rw [hidle c] at hc; cases hc

/-- How a state of an interleaving and a state of the atomic specification correspond: idle cores are idle, running ones are not; records of regions whose lock is free
say what the table says; the clock and the times of flushes are those of the table. -/
structure Corresponds (g : Cfg) (s : Conf) (a : AtomicState) : Prop where
  idle : ∀ c, a.phase c = .idle ↔ s.cores c = .idle
  owner : ∀ i, i < g.regions → s.m.locked g i = false → s.m.owner g i = a.table.owner i
  stamp : ∀ i, i < g.regions → s.m.locked g i = false → (s.m.blockedAt g i).toNat = a.table.stamp i
  clock : (s.m.clock g).toNat = a.table.clock
  flushed : ∀ c, c < g.cores → (s.m.flushedAt c).toNat = a.table.flushed c
  dma : s.m.locked g 0 = false → s.m.dmaStart = a.table.dmaStart ∧ s.m.dmaEnd = a.table.dmaEnd

/-- C68. Whatever callers see of an interleaving of covered calls, of any length below 2^64, they can see of an execution of the atomic specification; its state is the one
the machine is in. -/
theorem C68_linearizable {s s' : Conf} {t : List Label} (h : Fresh g s) (hfl : ∀ c, c < g.cores → s.m.flushedAt c = 0) (hs : Steps g s t s')
    (hk : OnlyCalls (CoveredC g) t) (hn : OnlyCalls NoLeak t) (hlen : t.length < 2 ^ 64) :
    ∃ a, AtomicRun g (AtomicState.initial g) (observed t) a ∧ Corresponds g s' a := by
  have hw := h.1.wf
  have key : ∃ a, AtomicRun g (AtomicState.initial g) (observed t) a ∧ GoodL g t s' a := by
    induction hs with
    | refl => exact ⟨_, AtomicRun.refl _, fresh_goodL h hfl⟩
    | @tail s1 s2 t l hst hl ih =>
        have hl' : t.length < 2 ^ 64 := by rw [List.length_append] at hlen; omega
        obtain ⟨a, h1, h2⟩ := ih hk.prefix hn.prefix hl'
        exact h2.step hw (fun c k m σ hc hkk hnn => lin_call hw c k m σ hc hkk hnn) (good_steps h hst hk.prefix) h1 hk hn hl' hl
  obtain ⟨a, h1, h2⟩ := key
  have hbd := Nat.lt_of_le_of_lt h2.bound hlen
  refine ⟨a, h1, fun c => ⟨fun hc => ?_, h2.idle c⟩, fun i hi hl => ?_, fun i hi hl => ?_, ?_, fun c hc => ?_, fun hl => ?_⟩
  · cases hcs : s'.cores c with
    | idle => rfl
    | running k p => exact absurd hc (h2.running c k p hcs).1
  · exact ((h2.free i hi ((not_locked _).1 hl)).owner).symm
  · have h3 := h2.table.stamp i hi
    rw [(h2.free i hi ((not_locked _).1 hl)).stamp, BitVec.toNat_ofNat]; omega
  · rw [h2.clocks.clock, BitVec.toNat_ofNat]; omega
  · have h3 := h2.table.flushed c hc
    rw [h2.clocks.flushed c hc, BitVec.toNat_ofNat]; omega
  · exact h2.dma ((not_locked _).1 hl)

/-- Core 0 blocks region 1 while core 1 flushes; then all four cores flush, core 3 while core 2 frees the region, and core 2 asks for the owner. -/
def flushMoves : List Move :=
  [.start 0 (.blockDramRegion 1), .go 0, .go 0, .start 1 .flushCachedDramRegions, .go 1, .go 1] ++ List.replicate 20 (.go 0) ++ List.replicate 3 (.go 1) ++
  [.start 0 .flushCachedDramRegions] ++ List.replicate 5 (.go 0) ++ [.start 1 .flushCachedDramRegions] ++ List.replicate 5 (.go 1) ++
  [.start 2 .flushCachedDramRegions] ++ List.replicate 5 (.go 2) ++ [.start 3 .flushCachedDramRegions, .start 2 (.freeDramRegion 1), .go 3, .go 3, .go 2, .go 2, .go 3, .go 3] ++
  List.replicate 8 (.go 2) ++ [.go 3, .start 2 (.dramRegionState 1)] ++ List.replicate 4 (.go 2)

set_option maxRecDepth 100000 in
theorem flush_plays : (play toyG flushMoves toyS).map (fun x => (results x.1, x.2.m.owner toyG 1, decide (x.1.length < 2 ^ 64))) =
    some ([(0, monitorOk), (1, monitorOk), (0, monitorOk), (1, monitorOk), (2, monitorOk), (2, monitorOk), (3, monitorOk), (2, stateFree)], freeEnclaveId, true) := by decide +kernel

theorem flush_calls : ∀ c k, Move.start c k ∈ flushMoves → CoveredC toyG k ∧ Disciplined toyG k ∧ NoLeak k := by
  intro c k hk
  simp only [flushMoves, List.replicate, List.cons_append, List.nil_append, List.mem_cons, Move.start.injEq, reduceCtorEq, false_or, or_false,
    List.not_mem_nil] at hk
  rcases hk with ⟨_, rfl⟩ | ⟨_, rfl⟩ | ⟨_, rfl⟩ | ⟨_, rfl⟩ | ⟨_, rfl⟩ | ⟨_, rfl⟩ | ⟨_, rfl⟩ | ⟨_, rfl⟩
  all_goals exact ⟨⟨trivial, fun _ _ _ _ hh => by cases hh⟩, trivial, trivial⟩

/-- The hypotheses of C68 are met, by an interleaving in which a region is blocked during a flush and freed during another. -/
example : ∃ t s', Fresh toyG toyS ∧ (∀ c, c < toyG.cores → toyS.m.flushedAt c = 0) ∧ Steps toyG toyS t s' ∧ OnlyCalls (CoveredC toyG) t ∧ OnlyCalls NoLeak t ∧ t.length < 2 ^ 64 ∧
    results t = [(0, monitorOk), (1, monitorOk), (0, monitorOk), (1, monitorOk), (2, monitorOk), (2, monitorOk), (3, monitorOk), (2, stateFree)] := by
  have h := flush_plays
  cases hp : play toyG flushMoves toyS with
  | none => rw [hp] at h; cases h
  | some x =>
      rw [hp] at h
      simp only [Option.map_some, Option.some.injEq, Prod.mk.injEq, decide_eq_true_eq] at h
      have hc := play_onlyCalls flushMoves flush_calls hp
      refine ⟨x.1, x.2, toyS_fresh, ?_, play_steps _ hp, hc.mono (fun _ h => h.1), hc.mono (fun _ h => h.2.2), h.2.2, h.1⟩
      have : ∀ c, c < 4 → toyS.m.flushedAt c = 0 := by decide +kernel
      exact fun c hc => this c hc

end Sanctum
