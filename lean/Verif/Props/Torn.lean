import Verif.Lemmas.Explore
import Verif.Props.Serial
import Verif.Props.Flush
import Verif.Props.Confine
/-
C81: what it leaves out is not serializable. Interleavings with `assign_thread` can show software what no execution of calls one after the other shows; and
so can interleavings with a flush, if a flush is to take one step.
-/
namespace Sanctum
open Machine

/-- Core `c` makes call `k`, and `n` steps. -/
def callMoves (c : Nat) (k : Call) (n : Nat) : List Move := .start c k :: List.replicate n (.go c)

/-- Core 0 makes region 1 a metadata region and creates an enclave at 0x9000. It then calls `assign_thread`, which sets the enclave's lock, a word in the enclave's
record, and releases the lock of region 1. Core 1 frees region 1 and gives it to the OS. -/
def tornMoves : List Move := callMoves 0 (.blockDramRegion 1) 22 ++ callMoves 0 (.freeDramRegion 1) 10 ++ callMoves 0 (.createMetadataRegion 1) 518 ++
  callMoves 0 (.createEnclave 0x9000 0 4095 0 true) 413 ++ leakMoves

/-- `assign_thread` releases the enclave's lock and returns. -/
def tornEnd : List Move := List.replicate 2 (.go 0)

/-- The calls and returns before software reads the OS's memory. -/
def tornHist : List Label := [.start 0 (.blockDramRegion 1), .done 0 (.blockDramRegion 1) monitorOk, .start 0 (.freeDramRegion 1), .done 0 (.freeDramRegion 1) monitorOk,
  .start 0 (.createMetadataRegion 1), .done 0 (.createMetadataRegion 1) monitorOk,
  .start 0 (.createEnclave 0x9000 0 4095 0 true), .done 0 (.createEnclave 0x9000 0 4095 0 true) monitorOk,
  .start 0 (.assignThread 0x9000 0xa000), .start 1 (.freeDramRegion 1), .done 1 (.freeDramRegion 1) monitorOk, .start 1 (.assignDramRegion 1 0),
  .done 1 (.assignDramRegion 1 0) monitorOk]

/-- What software sees in all. -/
def tornSeen : List Seen := tornHist.map .call ++ [.load 0x9000 1] ++ [.call (.done 0 (.assignThread 0x9000 0xa000) monitorInvalidState)] ++ [.load 0x9000 0]

set_option maxRecDepth 100000 in
theorem torn_plays : (play toyG tornMoves toyS).map (fun x => (decide (observed x.1 = tornHist), x.2.m.owner toyG (regionOf toyG 0x9000), x.2.m.mem 0x9000, callsOnly x.1 && decide (x.1.length < 2 ^ 32))) =
    some (true, nullEnclaveId, 1, true) := by decide +kernel

set_option maxRecDepth 100000 in
theorem torn_ends : ((play toyG tornMoves toyS).bind fun x => play toyG tornEnd x.2).map (fun x => (decide (observed x.1 = [.done 0 (.assignThread 0x9000 0xa000) monitorInvalidState]),
    x.2.m.owner toyG (regionOf toyG 0x9000), x.2.m.mem 0x9000, callsOnly x.1 && decide (x.1.length < 2 ^ 32))) = some (true, nullEnclaveId, 0, true) := by decide +kernel

set_option maxRecDepth 100000 in
/-- No state of the serial machine is reached by that history. -/
theorem torn_none : (explore true toyG [startNode toyG toyM] tornSeen).length = 0 := by decide +kernel

theorem torn_calls : ∀ c k, Move.start c k ∈ tornMoves → CoveredC toyG k := by
  intro c k hk
  have hmeta : toyG.SingleStripe ∧ toyG.ShiftOk := ⟨toy_single, toy_shiftOk⟩
  simp only [tornMoves, callMoves, leakMoves, List.cons_append, List.nil_append, List.mem_cons, List.mem_append, List.mem_replicate, Move.start.injEq, reduceCtorEq, false_or, or_false,
    and_false, List.not_mem_nil, or_assoc] at hk
  rcases hk with ⟨_, rfl⟩ | ⟨_, rfl⟩ | ⟨_, rfl⟩ | ⟨_, rfl⟩ | ⟨_, rfl⟩ | ⟨_, rfl⟩ | ⟨_, rfl⟩
  all_goals first
    | exact ⟨trivial, fun _ _ _ _ hh => by cases hh⟩
    | exact ⟨hmeta, fun _ _ _ _ hh => by cases hh⟩

/-- C81 does not hold of `assign_thread`: software reads 1 and then 0 from a page of the OS that nobody stores to, between a call of `free_dram_region` and `assign_dram_region`
that returned and the return of an `assign_thread` that failed. No execution of the calls one after the other shows that. -/
theorem C81_thread_calls_false : ∃ t s', Fresh toyG toyS ∧ (∀ c, c < toyG.cores → toyS.m.flushedAt c = 0) ∧ SeenSteps toyG toyS t tornSeen s' ∧ OnlyCalls (CoveredC toyG) t ∧
    t.length < 2 ^ 64 ∧ ∀ S, ¬ SerialRun toyG ⟨fun _ => .idle, toyS.m⟩ tornSeen S := by
  have hp := torn_plays
  have h := torn_ends
  cases hp1 : play toyG tornMoves toyS with
  | none => rw [hp1] at hp; cases hp
  | some x =>
      rw [hp1] at hp h
      simp only [Option.bind_some] at h
      simp only [Option.map_some, Option.some.injEq, Prod.mk.injEq, decide_eq_true_eq, Bool.and_eq_true] at hp
      obtain ⟨e1, e2, e3, e4, e5⟩ := hp
      cases hp2 : play toyG tornEnd x.2 with
      | none => rw [hp2] at h; cases h
      | some y =>
          rw [hp2] at h
          simp only [Option.map_some, Option.some.injEq, Prod.mk.injEq, decide_eq_true_eq, Bool.and_eq_true] at h
          obtain ⟨f1, f2, f3, f4, f5⟩ := h
          have hc1 := play_onlyCalls tornMoves torn_calls hp1
          have hc2 := play_onlyCalls (P := CoveredC toyG) tornEnd (fun c k hk => by simp [tornEnd] at hk) hp2
          have htop : toyG.monitorTop.toNat ≤ 0x9000 := by decide +kernel
          have s1 := ((play_steps _ hp1).seen (callsOnly_iff e4)).load 0x9000 htop (by rw [e2]; decide) (by rw [e2]; decide)
          have s2 := (s1.trans ((play_steps _ hp2).seen (callsOnly_iff f4))).load 0x9000 htop (by rw [f2]; decide) (by rw [f2]; decide)
          rw [e1, e3, f1, f3] at s2
          refine ⟨_, _, toyS_fresh, ?_, s2, ?_, ?_, fun S hr => ?_⟩
          · have : ∀ c, c < 4 → toyS.m.flushedAt c = 0 := by decide +kernel
            exact fun c hc => this c hc
          · intro c k hk
            exact (List.mem_append.1 hk).elim (hc1 c k) (hc2 c k)
          · have : (2 : Nat) ^ 32 + 2 ^ 32 < 2 ^ 64 := by decide
            rw [List.length_append]
            omega
          · obtain ⟨z, hz, -⟩ := explore_complete hr
            have hn := torn_none
            rw [List.length_eq_zero_iff] at hn
            rw [show toyS.m = toyM from rfl, hn] at hz
            cases hz

/-! ### A flush takes two steps -/

/-- Core 1 begins a flush and reads the clock. Core 0 blocks regions 2 and 3, the other cores flush, core 0 frees region 2: core 1 has not recorded its flush. It does, and core 0 frees
region 3: core 1 recorded a time before region 3 was blocked. -/
def lateMoves : List Move := callMoves 0 (.blockDramRegion 1) 22 ++ callMoves 1 .flushCachedDramRegions 3 ++ callMoves 0 (.blockDramRegion 2) 22 ++ callMoves 0 (.blockDramRegion 3) 22 ++
  callMoves 0 .flushCachedDramRegions 5 ++ callMoves 2 .flushCachedDramRegions 5 ++ callMoves 3 .flushCachedDramRegions 5 ++ callMoves 0 (.freeDramRegion 2) 7 ++ List.replicate 2 (.go 1) ++
  callMoves 0 (.freeDramRegion 3) 7

def lateHist : List Label := [.start 0 (.blockDramRegion 1), .done 0 (.blockDramRegion 1) monitorOk, .start 1 .flushCachedDramRegions,
  .start 0 (.blockDramRegion 2), .done 0 (.blockDramRegion 2) monitorOk, .start 0 (.blockDramRegion 3), .done 0 (.blockDramRegion 3) monitorOk,
  .start 0 .flushCachedDramRegions, .done 0 .flushCachedDramRegions monitorOk, .start 2 .flushCachedDramRegions, .done 2 .flushCachedDramRegions monitorOk,
  .start 3 .flushCachedDramRegions, .done 3 .flushCachedDramRegions monitorOk, .start 0 (.freeDramRegion 2), .done 0 (.freeDramRegion 2) monitorInvalidState,
  .done 1 .flushCachedDramRegions monitorOk, .start 0 (.freeDramRegion 3), .done 0 (.freeDramRegion 3) monitorInvalidState]

set_option maxRecDepth 100000 in
theorem late_plays : (play toyG lateMoves toyS).map (fun x => (decide (observed x.1 = lateHist), callsOnly x.1 && decide (x.1.length < 2 ^ 64))) = some (true, true) := by
  decide +kernel

set_option maxRecDepth 100000 in
theorem late_none : (explore false toyG [startNode toyG toyM] (lateHist.map .call)).length = 0 := by decide +kernel

theorem late_calls : ∀ c k, Move.start c k ∈ lateMoves → CoveredC toyG k ∧ Lockwise k := by
  intro c k hk
  simp only [lateMoves, callMoves, List.cons_append, List.nil_append, List.mem_cons, List.mem_append, List.mem_replicate, Move.start.injEq, reduceCtorEq, false_or, or_false,
    and_false, List.not_mem_nil, or_assoc] at hk
  rcases hk with ⟨_, rfl⟩ | ⟨_, rfl⟩ | ⟨_, rfl⟩ | ⟨_, rfl⟩ | ⟨_, rfl⟩ | ⟨_, rfl⟩ | ⟨_, rfl⟩ | ⟨_, rfl⟩ | ⟨_, rfl⟩
  all_goals exact ⟨⟨trivial, fun _ _ _ _ hh => by cases hh⟩, trivial⟩

/-- C81 needs two steps for a flush: some interleavings of lockwise calls show software what no execution shows in which a flush, too, takes one step. -/
theorem C81_flush_not_atomic : ∃ t s', Fresh toyG toyS ∧ (∀ c, c < toyG.cores → toyS.m.flushedAt c = 0) ∧ SeenSteps toyG toyS t (lateHist.map .call) s' ∧
    OnlyCalls (CoveredC toyG) t ∧ OnlyCalls Lockwise t ∧ t.length < 2 ^ 64 ∧ ∀ S, ¬ OneStepRun toyG ⟨fun _ => .idle, toyS.m⟩ (lateHist.map .call) S := by
  have hp := late_plays
  cases hp1 : play toyG lateMoves toyS with
  | none => rw [hp1] at hp; cases hp
  | some x =>
      rw [hp1] at hp
      simp only [Option.map_some, Option.some.injEq, Prod.mk.injEq, decide_eq_true_eq, Bool.and_eq_true] at hp
      obtain ⟨e1, e4, e5⟩ := hp
      have hc1 := play_onlyCalls lateMoves late_calls hp1
      have s1 := (play_steps _ hp1).seen (callsOnly_iff e4)
      rw [e1] at s1
      refine ⟨_, _, toyS_fresh, ?_, s1, hc1.mono (fun _ h => h.1), hc1.mono (fun _ h => h.2), e5, fun S hr => ?_⟩
      · have : ∀ c, c < 4 → toyS.m.flushedAt c = 0 := by decide +kernel
        exact fun c hc => this c hc
      · obtain ⟨z, hz, -⟩ := explore_complete1 hr
        have hn := late_none
        rw [List.length_eq_zero_iff] at hn
        rw [show toyS.m = toyM from rfl, hn] at hz
        cases hz

/-- The same history is possible with two steps: the search finds states of the serial machine. -/
example : ∃ S, SerialRun toyG ⟨fun _ => .idle, toyS.m⟩ (lateHist.map .call) S := by
  obtain ⟨t, s', h1, h2, h3, h4, h5, h6, -⟩ := C81_flush_not_atomic
  obtain ⟨S, hS, -⟩ := C81_serializable h1 h2 h3 h4 h5 h6
  exact ⟨S, hS⟩

end Sanctum
