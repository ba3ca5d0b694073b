import Verif.Lemmas.SerialStep
import Verif.Lemmas.SerialCalls
import Verif.Props.Atomic
/-
Property C81: calls on several cores behave as calls made one after the other on the whole machine.
-/
namespace Sanctum
open Machine
variable {g : Cfg}

/-- How a state of an interleaving and a state of the serial machine correspond: idle cores are idle, running ones are not; no lock is set in the serial machine; the words of the
monitor's tables and of the pages, the DMA window and the DMA registers are the same, except for locks and for what a lock that is taken protects; so are the registers of idle cores.
The pages of regions that are neither free nor metadata are always the same. -/
structure Matches (g : Cfg) (s : Conf) (S : SerialState) : Prop where
  idle : ∀ c, S.phase c = .idle ↔ s.cores c = .idle
  unlocked : ∀ i, i < g.regions → S.m.locked g i = false
  page : ∀ x, g.monitorTop.toNat ≤ x → s.m.locked g (regionOf g x) = false → S.m.mem x = s.m.mem x
  software : ∀ x, g.monitorTop.toNat ≤ x → s.m.owner g (regionOf g x) ≠ freeEnclaveId → s.m.owner g (regionOf g x) ≠ metadataEnclaveId → S.m.mem x = s.m.mem x
  record : ∀ i x, i < g.regions → RecordWord g i x → s.m.locked g i = false → S.m.mem x = s.m.mem x
  osBits : ∀ i, i < g.regions → s.m.locked g 0 = false → S.m.mem (osWordA g i) = s.m.mem (osWordA g i)
  dma : s.m.locked g 0 = false → S.m.dmaStart = s.m.dmaStart ∧ S.m.dmaEnd = s.m.dmaEnd ∧ S.m.dmarBase = s.m.dmarBase ∧ S.m.dmarMask = s.m.dmarMask
  clock : S.m.clock g = s.m.clock g
  flushed : ∀ c, c < g.cores → S.m.flushedAt c = s.m.flushedAt c
  drb : ∀ c, s.cores c = .idle → S.m.drb c = s.m.drb c
  tlb : ∀ c, s.cores c = .idle → S.m.tlbFlushes c = s.m.tlbFlushes c
  /-- When no call is in progress, the machines are equal. -/
  quiet : (∀ c, s.cores c = .idle) → S.m = s.m

theorem Lockwise.noLeak {k : Call} (h : Lockwise k) : NoLeak k := by
  cases k <;> first | trivial | exact h.elim

/-- The invariant of the proof, in terms of the states. -/
theorem Sim.matches {s s' : Conf} {t : List Label} {K : Nat → Nat → Prop} {S : SerialState} (h : Fresh g s) (hs : Steps g s t s') (hk : OnlyCalls (CoveredC g) t)
    (hn : OnlyCalls Lockwise t) (h2 : Sim g t K s' S) : Matches g s' S := by
  have hw := h.1.wf
  have hnl : OnlyCalls NoLeak t := fun c k hm => (hn c k hm).noLeak
  have hg := good_steps h hs hk
  have hfree : ∀ c i, i < g.regions → s'.m.locked g i = false → ¬ K c i := fun c i hi h3 hh => by
    have h4 := h2.held hg c i hi hh
    rw [(not_locked _).1 h3] at h4
    exact absurd h4 (by decide)
  have hown : ∀ c l i, i < g.regions → OwnBy g i l → s'.m.locked g i = false → ¬ Owned g (K c) l := by
    rintro c l i hi h1 h3 ⟨j, j1, j2⟩
    rw [← ownBy_inj hw h1 j2] at j1
    exact hfree c i hi h3 j1
  have hlow : ∀ x, ¬ LockLoc g (.word x) → (∃ i, i < g.regions ∧ OwnBy g i (.word x) ∧ s'.m.locked g i = false) ∨ (∀ i, ¬ OwnBy g i (.word x)) → S.m.mem x = s'.m.mem x := fun x hx hh =>
    h2.eq (.word x) hx fun c => hh.elim (fun ⟨i, i0, i1, i2⟩ => hown c _ i i0 i1 i2) fun hh ⟨i, _, i2⟩ => hh i i2
  have hnl' : ∀ i l, OwnBy g i l → ¬ LockLoc g l := fun i l h1 h3 => atomic_not_own hw (lock_atomic h3) i h1
  have hidle : ∀ c, S.phase c = .idle ↔ s'.cores c = .idle := fun c => ⟨h2.phase_idle, fun hc => by
    have := h2.core c
    rw [hc] at this
    generalize S.phase c = ph at this
    cases this; rfl⟩
  have hregs : ∀ c, s'.cores c = .idle → S.m.regs c = s'.m.regs c := fun c hc => by
    have := h2.core c
    rw [hc] at this
    generalize S.phase c = ph at this
    cases this; assumption
  have hdma : ∀ l, OwnBy g 0 l → s'.m.locked g 0 = false → S.m.at l = s'.m.at l := fun l hl hf =>
    h2.eq l (hnl' 0 l hl) fun c => hown c l 0 (by have := hw.regions_ge; omega) hl hf
  refine ⟨hidle, fun i hi => (not_locked _).2 (h2.rested i hi), fun x hx hf => ?_, fun x hx x1 x2 => h2.eq (.word x) (page_not_lock hw hx) (h2.page_free hx x1 x2),
    fun i x hi hx hf => ?_, fun i hi hf => ?_, fun hf => ?_, ?_, fun c hc => ?_,
    fun c hc => ?_, fun c hc => ?_, fun hq => ?_⟩
  · refine h2.eq (.word x) (page_not_lock hw hx) ?_
    rintro c ⟨i, i1, ⟨i2, _⟩ | ⟨_, rfl⟩⟩
    · omega
    · exact hfree c _ (regionOf_lt hw x) hf (h2.hot c _ i1).2.2.1
  · have hna : ¬ LockLoc g (.word x) := fun hh => record_not_atomic hw hi hx (lock_atomic hh)
    refine hlow x hna ?_
    by_cases h0 : i = 0
    · subst h0
      exact Or.inr (low_fixed (record_lt hw hi hx) (record_not_atomic hw hi hx) (record0_free hw hx)).2
    · exact Or.inl ⟨i, hi, Or.inl ⟨record_lt hw hi hx, shields_record h0 hi hx⟩, hf⟩
  · have ho : OwnBy g 0 (.word (osWordA g i)) := Or.inl ⟨by have := osWordA_lt hw hi; omega, Or.inr ⟨rfl, i, hi, rfl⟩⟩
    exact hdma _ ho hf
  · exact ⟨hdma .dmaStart rfl hf, hdma .dmaEnd rfl hf, hdma .dmarBase rfl hf, hdma .dmarMask rfl hf⟩
  · exact hlow (clockA g) (clock_not_lock hw) (Or.inr (atomic_not_own hw clock_atomic))
  · exact hlow (flushedA c) (flushed_not_lock hw hc) (Or.inr (atomic_not_own hw (flushed_atomic hc)))
  · have := hregs c hc
    simp only [Machine.regs, Prod.mk.injEq] at this
    exact this.1
  · have := hregs c hc
    simp only [Machine.regs, Prod.mk.injEq] at this
    exact this.2.2.2.2.2
  · have hun := C32_quiescence_partial h hs hk hnl hq
    refine machine_ext2 (fun l => ?_) fun c => hregs c (hq c)
    by_cases hl : LockLoc g l
    · obtain ⟨i, hi, rfl⟩ := hl
      exact (h2.rested i hi).trans ((not_locked _).1 (hun i hi)).symm
    · exact h2.eq l hl fun c ⟨i, i1, _⟩ => h2.none (hg.idle c (hq c)) i i1

/-- C81. Whatever software sees of an interleaving of covered calls that use what other calls use under its locks, and of loads and stores of software in the regions of the OS,
of any length below 2^64, it can see of an execution of the serial machine from the same state, in which every call but a flush takes one step; and the two machines end in states that
correspond. -/
theorem C81_serializable {s s' : Conf} {t : List Label} {hist : List Seen} (h : Fresh g s) (hfl : ∀ c, c < g.cores → s.m.flushedAt c = 0) (hs : SeenSteps g s t hist s')
    (hk : OnlyCalls (CoveredC g) t) (hn : OnlyCalls Lockwise t) (hlen : t.length < 2 ^ 64) :
    ∃ S, SerialRun g ⟨fun _ => .idle, s.m⟩ hist S ∧ Matches g s' S := by
  have hw := h.1.wf
  have hgl := fresh_goodL h hfl
  have hclk : s.m.clock g = 0 := hgl.clocks.clock
  have hrest : Rested g s.m := fun i hi => by
    obtain ⟨⟨p, m0, hp, hb, -⟩, -⟩ := h
    exact (C12_boot_state hp hb).unlocked i hi
  obtain ⟨S, K, h1, h2⟩ := sim_steps h hs hfl hclk hrest (fun c k hm => ⟨hk c k hm, (hn c k hm).noLeak, (Classical.em (k = .flushCachedDramRegions)).imp id
    fun hne c' hc => two_call hw c' k hc (hk c k hm) (hn c k hm) hne⟩) hlen
  exact ⟨S, h1, h2.matches h hs.steps hk hn⟩

/-- Core 0 is in the middle of blocking region 1, whose lock it holds. -/
def serialPrefix : List Move := [.start 0 (.blockDramRegion 1), .go 0, .go 0]

/-- Core 1 asks for the region's state, and is turned away; core 2 flushes at the same time. All cores flush, core 0 frees the region, core 1 turns it into a
metadata region while core 3 tries to assign it, and is turned away; core 2 creates an enclave in it while core 0 sets the DMA window. -/
def serialMoves : List Move :=
  [.start 1 (.dramRegionState 1), .go 1, .go 1, .start 2 .flushCachedDramRegions, .go 2, .go 2, .go 2] ++ List.replicate 20 (.go 0) ++
  [.go 2, .go 2, .start 0 .flushCachedDramRegions] ++ List.replicate 5 (.go 0) ++ [.start 1 .flushCachedDramRegions] ++ List.replicate 5 (.go 1) ++
  [.start 2 .flushCachedDramRegions] ++ List.replicate 5 (.go 2) ++ [.start 3 .flushCachedDramRegions] ++ List.replicate 5 (.go 3) ++
  [.start 0 (.freeDramRegion 1)] ++ List.replicate 10 (.go 0) ++ [.start 1 (.createMetadataRegion 1), .go 1, .go 1, .go 1, .start 3 (.assignDramRegion 1 0), .go 3, .go 3] ++
  List.replicate 515 (.go 1) ++ [.start 2 (.createEnclave 0x9000 0 4095 0 true), .go 2, .start 0 (.setDmaRange 0x18000 0xfff)] ++ List.replicate 10 (.go 0) ++ List.replicate 412 (.go 2)

/-- The state after `serialPrefix`, once the OS has stored 7 in region 1. -/
def serialMid : Option (List Label × Conf) := (play toyG serialPrefix toyS).map fun x => (x.1, { x.2 with m := x.2.m.put 0x8008 7 })

/-- No label is `soft`. -/
def callsOnly (t : List Label) : Bool := t.all fun l => match l with | .soft => false | _ => true

theorem callsOnly_iff {t : List Label} (h : callsOnly t = true) : Label.soft ∉ t := fun hm => by
  have := List.all_eq_true.1 h _ hm
  cases this

set_option maxRecDepth 100000 in
theorem serial_prefix : (play toyG serialPrefix toyS).map (fun x => (x.2.m.owner toyG (regionOf toyG 0x8008), x.2.m.locked toyG (regionOf toyG 0x8008), decide (x.1.length = 3), callsOnly x.1)) =
    some (nullEnclaveId, true, true, true) := by decide +kernel

set_option maxRecDepth 100000 in
theorem serial_plays : (serialMid.bind fun y => play toyG serialMoves y.2).map (fun x => (results x.1, x.2.m.owner toyG 1, x.2.m.mem 0x8008, decide (x.1.length < 2 ^ 32), callsOnly x.1)) =
    some ([(1, stateLocked), (0, monitorOk), (2, monitorOk), (0, monitorOk), (1, monitorOk), (2, monitorOk), (3, monitorOk), (0, monitorOk), (3, monitorConcurrentCall), (1, monitorOk),
      (0, monitorOk), (2, monitorOk)], metadataEnclaveId, 0x9002, true, true) := by decide +kernel

theorem serial_calls : ∀ c k, Move.start c k ∈ serialMoves → CoveredC toyG k ∧ Lockwise k := by
  intro c k hk
  simp only [serialMoves, List.mem_append, List.mem_replicate, List.mem_cons, Move.start.injEq, reduceCtorEq, false_or, or_false, and_false,
    List.not_mem_nil] at hk
  have hmeta : toyG.SingleStripe ∧ toyG.ShiftOk := ⟨toy_single, toy_shiftOk⟩
  rcases hk with (((((((⟨_, rfl⟩ | ⟨_, rfl⟩) | ⟨_, rfl⟩) | ⟨_, rfl⟩) | ⟨_, rfl⟩) | ⟨_, rfl⟩) | ⟨_, rfl⟩) | ⟨_, rfl⟩ | ⟨_, rfl⟩) | ⟨_, rfl⟩ | ⟨_, rfl⟩
  all_goals first
    | exact ⟨⟨trivial, fun _ _ _ _ hh => by cases hh⟩, trivial⟩
    | exact ⟨⟨hmeta, fun _ _ _ _ hh => by cases hh⟩, trivial⟩

theorem serial_calls0 : ∀ c k, Move.start c k ∈ serialPrefix → CoveredC toyG k ∧ Lockwise k := by
  intro c k hk
  simp only [serialPrefix, List.mem_cons, Move.start.injEq, reduceCtorEq, false_or, or_false, List.not_mem_nil] at hk
  obtain ⟨_, rfl⟩ := hk
  exact ⟨⟨trivial, fun _ _ _ _ hh => by cases hh⟩, trivial⟩

/-- The hypotheses of C81 are met, by an interleaving in which cores find resources in use, the OS stores in a region whose lock is taken and loads what it stored, the region goes from
the OS to an enclave's metadata, and no call is left in progress. -/
example : ∃ t1 t2 h1 h2 s', Fresh toyG toyS ∧ (∀ c, c < toyG.cores → toyS.m.flushedAt c = 0) ∧
    SeenSteps toyG toyS (t1 ++ [.soft] ++ t2) (h1 ++ [.store 0x8008 7] ++ [.load 0x8008 7] ++ h2) s' ∧ OnlyCalls (CoveredC toyG) (t1 ++ [.soft] ++ t2) ∧
    OnlyCalls Lockwise (t1 ++ [.soft] ++ t2) ∧ (t1 ++ [.soft] ++ t2).length < 2 ^ 64 ∧
    results t2 = [(1, stateLocked), (0, monitorOk), (2, monitorOk), (0, monitorOk), (1, monitorOk), (2, monitorOk), (3, monitorOk), (0, monitorOk),
      (3, monitorConcurrentCall), (1, monitorOk), (0, monitorOk), (2, monitorOk)] ∧ s'.m.owner toyG 1 = metadataEnclaveId ∧ s'.m.mem 0x8008 = 0x9002 := by
  have hp := serial_prefix
  have h := serial_plays
  unfold serialMid at h
  cases hp1 : play toyG serialPrefix toyS with
  | none => rw [hp1] at hp; cases hp
  | some x =>
      rw [hp1] at hp h
      simp only [Option.map_some, Option.bind_some] at h
      simp only [Option.map_some, Option.some.injEq, Prod.mk.injEq, decide_eq_true_eq] at hp
      obtain ⟨e1, _, e2, e3⟩ := hp
      cases hp2 : play toyG serialMoves { x.2 with m := x.2.m.put 0x8008 7 } with
      | none => rw [hp2] at h; cases h
      | some y =>
          rw [hp2] at h
          simp only [Option.map_some, Option.some.injEq, Prod.mk.injEq, decide_eq_true_eq] at h
          obtain ⟨f1, f2, f3, f4, f5⟩ := h
          have hc0 := play_onlyCalls serialPrefix serial_calls0 hp1
          have hc := play_onlyCalls serialMoves serial_calls hp2
          have hall : OnlyCalls (fun k => CoveredC toyG k ∧ Lockwise k) (x.1 ++ [.soft] ++ y.1) := fun c k hm => by
            simp only [List.mem_append, List.mem_cons, List.not_mem_nil, or_false, reduceCtorEq] at hm
            exact hm.elim (hc0 c k) (hc c k)
          have htop : toyG.monitorTop.toNat ≤ 0x8008 := by decide +kernel
          have ho1 : x.2.m.owner toyG (regionOf toyG 0x8008) ≠ freeEnclaveId := by rw [e1]; decide
          have ho2 : x.2.m.owner toyG (regionOf toyG 0x8008) ≠ metadataEnclaveId := by rw [e1]; decide
          have s1 := (((play_steps _ hp1).seen (callsOnly_iff e3)).store 0x8008 7 htop ho1 ho2)
          have hsame : ({ x.2 with m := x.2.m.put 0x8008 7 } : Conf).m.owner toyG (regionOf toyG 0x8008) = x.2.m.owner toyG (regionOf toyG 0x8008) :=
            (upd_ne x.2.m.mem (7 : W) (show ownerA toyG (regionOf toyG 0x8008) ≠ 0x8008 by decide +kernel))
          have s2 := s1.load 0x8008 htop (by rw [hsame]; exact ho1) (by rw [hsame]; exact ho2)
          refine ⟨x.1, y.1, _, _, y.2, toyS_fresh, ?_, s2.trans ((play_steps _ hp2).seen (callsOnly_iff f5)), hall.mono (fun _ h => h.1), hall.mono (fun _ h => h.2), ?_, f1, f2, f3⟩
          · have : ∀ c, c < 4 → toyS.m.flushedAt c = 0 := by decide +kernel
            exact fun c hc => this c hc
          · have : (2 : Nat) ^ 32 + 4 < 2 ^ 64 := by decide
            simp only [List.length_append, List.length_cons, List.length_nil, e2]
            omega

end Sanctum
