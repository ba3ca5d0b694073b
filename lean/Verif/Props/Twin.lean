import Verif.Lemmas.Twin
import Verif.Lemmas.Step2
import Verif.Props.Instances
/-
C89: which core a call is made on does not matter.
-/
namespace Sanctum
open Machine

variable {g : Cfg}

/-- C89. From every state of the machine, every call other than a flush, made on either of two cores on which the same software runs, completes on both or
on neither; it then returns the same value, and leaves the same memory (hence the same regions, enclaves, threads, locks, flush times and region bitmaps) and
the same DMA registers. The access-map registers of the calling core are left alone on both or loaded with the same map on both; those of the other cores,
and the fixed registers, are left alone. -/
theorem C89_any_core (hw : g.WF) {c c' : Nat} (hc : c < g.cores) (hc' : c' < g.cores) (m : Machine) (k : Call) (hk : k ≠ .flushCachedDramRegions)
    (hr : m.running c = m.running c') : SameEnd c c' m m (call g c k m) (call g c' k m) :=
  same_call hw hc hc' k hk ⟨rfl, rfl, rfl, rfl, rfl⟩ hr

/-- The flush is about the core it is made on, and nothing else: on every core it returns ok and, but for the flush time of that core and its count of TLB
flushes, changes nothing. -/
theorem C89_flush (hw : g.WF) {c : Nat} (hc : c < g.cores) (m : Machine) :
    ∃ m', call g c .flushCachedDramRegions m = some (monitorOk, m') ∧ m'.flushedAt c = m.clock g ∧ (∀ a, a ≠ flushedA c → m'.mem a = m.mem a) ∧
      (∀ i, i ≠ c → m'.tlbFlushes i = m.tlbFlushes i) ∧ m'.tlbFlushes c = m.tlbFlushes c + 1 ∧ { m' with mem := m.mem, tlbFlushes := m.tlbFlushes } = m :=
  ⟨_, run_flush hw hc m, upd_same _ _ _, fun _ h => upd_ne _ _ h, fun _ h => upd_ne _ _ h, upd_same _ _ _, rfl⟩

theorem moved_hist (hw : g.WF) {m1 m2 : Machine} {l : List Event} (h : Hist g m1 l m2) :
    Inv g m1 → CoveredHist g l → ∀ {l' : List Event}, Relocated g l l' → ∀ {b1 : Machine}, SameMemory m1 b1 → ∃ b2, Hist g b1 l' b2 ∧ SameMemory m2 b2 := by
  induction h with
  | nil m => intro hi hv l' hm b1 hs; cases hm; exact ⟨b1, .nil _, hs⟩
  | @soft m m' m'' h hst _ ih =>
      intro hi hv l' hm b1 hs
      obtain ⟨hi', -⟩ := step_soft hw hi hst
      obtain ⟨a, v, h1, rfl⟩ := hst
      obtain ⟨b2, h2, h3⟩ := ih hi' hv hm (b1 := { b1 with mem := upd b1.mem a v })
        ⟨show upd m.mem a v = upd b1.mem a v by rw [hs.mem], hs.dmaStart, hs.dmaEnd, hs.dmarBase, hs.dmarMask⟩
      exact ⟨b2, .soft ⟨a, v, h1, rfl⟩ h2, h3⟩
  | @cons m m' m'' c k v h hc hcall _ ih =>
      intro hi hv l' hm b1 hs
      have hc : c < g.cores := hc
      cases hm with
      | @cons _ c' _ _ _ l' hc' hk hm =>
      have hi' := (step_call hw hc (hv _ List.mem_cons_self) hi hcall).inv
      have hv' : CoveredHist g h := fun x hx => hv x (List.mem_cons_of_mem _ hx)
      rcases Classical.em (k = .flushCachedDramRegions) with hf | hf
      · have := hk hf
        subst this
        subst hf
        have e1 : call g c' .flushCachedDramRegions m = some (monitorOk, m.flushed g c') := run_flush hw hc m
        rw [e1] at hcall
        injection hcall with hcall; injection hcall with r1 r2
        subst r1; subst r2
        obtain ⟨b2, h2, h3⟩ := ih hi' hv' hm (b1 := b1.flushed g c')
          ⟨by unfold Machine.flushed Machine.clock; dsimp only; rw [hs.mem], hs.dmaStart, hs.dmaEnd, hs.dmarBase, hs.dmarMask⟩
        exact ⟨b2, .cons hc (run_flush hw hc b1) h2, h3⟩
      · have hr : m.running c = b1.running c' := by
          rw [hi.os c hc]
          show _ = b1.mem (coreEnclaveA c')
          rw [← hs.mem]
          exact (hi.os c' hc').symm
        have hse := same_call hw hc hc' k hf hs hr
        rw [hcall] at hse
        cases hb : call g c' k b1 with
        | none => rw [hb] at hse; exact hse.elim
        | some x =>
            obtain ⟨w, b'⟩ := x
            rw [hb] at hse
            obtain ⟨rfl, ho⟩ := hse
            obtain ⟨b2, h2, h3⟩ := ih hi' hv' hm ho.memory
            exact ⟨b2, .cons hc' hb h2, h3⟩

/-- C89, for histories: in every history of covered calls from the boot, with stores by software between them, the calls other than flushes can be moved to any
other cores; every call returns what it did, and the memory and the DMA registers at the end are the same. -/
theorem C89_histories {m1 m2 : Machine} (hb : FromBoot g m1) {l l' : List Event} (h : Hist g m1 l m2) (hv : CoveredHist g l) (hm : Relocated g l l') :
    ∃ m2', Hist g m1 l' m2' ∧ SameMemory m2 m2' := by
  have hi := hb.inv
  obtain ⟨p, m0, hp, hbt, -⟩ := hb
  exact moved_hist (boot_wf hp hbt) h hi hv hm ⟨rfl, rfl, rfl, rfl, rfl⟩

/-- The life cycle of a region, in which all calls but the flushes are made on core 2. -/
def lifecycleMoved : List (Nat × Call) := lifecycleCalls.map fun x => if x.2 = .flushCachedDramRegions then x else (2, x.2)

theorem lifecycle_moved : Relocated toyG (events toyG lifecycleCalls toyM) (List.zipWith (fun x v => ⟨x.1, x.2, v⟩) lifecycleMoved [0, 0, 0, 0, 0, 0, 0, 0, 0, 0, 0]) := by
  unfold events
  rw [lifecycle_runs.2]
  have h2 : 2 < toyG.cores := by decide
  refine .cons h2 (fun h => by cases h) (.cons ?_ (fun _ => rfl) (.cons ?_ (fun _ => rfl) (.cons ?_ (fun _ => rfl) (.cons ?_ (fun _ => rfl)
    (.cons h2 (fun h => by cases h) (.cons h2 (fun h => by cases h) (.cons h2 (fun h => by cases h) (.cons h2 (fun h => by cases h)
    (.cons h2 (fun h => by cases h) (.cons h2 (fun h => by cases h) .nil))))))))))
  all_goals decide

/-- The hypotheses of `C89_histories` hold of a history of eleven successful calls, which moves calls from the cores 0, 1 and 3. -/
example : ∃ m2', Hist toyG toyM (List.zipWith (fun x v => ⟨x.1, x.2, v⟩) lifecycleMoved [0, 0, 0, 0, 0, 0, 0, 0, 0, 0, 0]) m2' ∧
    SameMemory (after toyG lifecycleCalls toyM).2 m2' :=
  C89_histories toy_fromBoot (hist_after lifecycle_runs.1 (by set_option maxRecDepth 100000 in decide +kernel)) (coveredHist_of lifecycle_covered) lifecycle_moved

/-- That the same software runs on the two cores is needed: where an enclave runs on core 1, its block of a region of the OS is refused, the block by the OS on
core 0 is not. -/
theorem C89_other_software : ∃ m : Machine, toyG.WF ∧ (call toyG 0 (.blockDramRegion 1) m).map (·.1) = some monitorOk ∧
    (call toyG 1 (.blockDramRegion 1) m).map (·.1) = some monitorAccessDenied :=
  ⟨{ toyM with mem := upd toyM.mem (coreEnclaveA 1) 0x9000 }, toyS_fresh.1.wf, by set_option maxRecDepth 100000 in decide +kernel,
    by set_option maxRecDepth 100000 in decide +kernel⟩

end Sanctum
