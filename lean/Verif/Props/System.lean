import Verif.Lemmas.Step2
import Verif.Props.Boot
/-
C20, C21: the region table over all histories of calls.
-/
namespace Sanctum
open Machine

variable {g : Cfg}

theorem FromBoot.wf {m : Machine} (h : FromBoot g m) : g.WF := by
  obtain ⟨p, m0, hp, hb, -⟩ := h
  exact boot_wf hp hb

/-- The invariant holds after boot. -/
theorem FromBoot.inv {m : Machine} (h : FromBoot g m) : Inv g m := by
  have hwf := h.wf
  obtain ⟨p, m0, hp, hb, hz⟩ := h
  have hs := C12_boot_state hp hb
  refine ⟨hs.lockWords, fun i hi => Or.inl (hs.owned i hi).1, (hs.owned 0 (by have := hwf.regions_ge; omega)).1, fun c hc => ?_, fun i hi => ?_, ?_⟩
  · rw [(C12_cores_not_initialised hp hb c hc).1]; exact hz c hc
  · rw [hs.bitmap i hi]; exact iff_of_true rfl (hs.owned i hi).1
  · rw [hs.dma.1, hs.dma.2.1, W.le_iff, BitVec.toNat_add]
    have h1 := hwf.top_le
    have h2 := hwf.stripeSize
    have h3 : 2 ^ (12 + g.sp) ≤ 2 ^ 31 := Nat.pow_le_pow_right (by omega) (by have := hwf.sp_lt; omega)
    rw [show (1 : W).toNat = 1 from rfl, Nat.mod_eq_of_lt (by omega)]
    omega

/-- The invariant holds after every history of covered calls. -/
theorem hist_inv (h : g.WF) {m m' : Machine} {l : List Event} (hh : Hist g m l m') (hk : CoveredHist g l) (hi : Inv g m) : Inv g m' := by
  induction hh with
  | nil => exact hi
  | cons hc hcall _ ih =>
      exact ih (fun x hx => hk x (List.mem_cons_of_mem _ hx)) (step_call h hc (hk _ List.mem_cons_self) hi hcall).inv
  | soft hs _ ih => exact ih hk (step_soft h hi hs).1

theorem toy_fromBoot : FromBoot toyG toyM :=
  ⟨toyPlatform, zeroMachine, toy_sane, booted_ok toy_boots, fun _ _ => rfl⟩

/-! ### C20 -/

/-- C20, in full: in every history, region 0 stays with the OS and every call moves every region along an
edge of the life cycle. -/
def C20_statement (g : Cfg) (m1 : Machine) : Prop :=
  ∀ l m2, Hist g m1 l m2 → m2.owner g 0 = nullEnclaveId ∧
    ∀ c k v m3, c < g.cores → call g c k m2 = some (v, m3) → Legal g m2 m3

/-- C20 for all histories of the covered calls (see `Covered`), with arbitrary stores by software in between. -/
theorem C20_lifecycle_partial {m1 : Machine} (hb : FromBoot g m1) {l : List Event} {m2 : Machine} (hh : Hist g m1 l m2) (hk : CoveredHist g l) :
    m2.owner g 0 = nullEnclaveId ∧
    (∀ i, i < g.regions → m2.owner g i = nullEnclaveId ∨ m2.owner g i = blockedEnclaveId ∨ m2.owner g i = metadataEnclaveId ∨
      m2.owner g i = freeEnclaveId) ∧
    ∀ c k v m3, c < g.cores → Covered g k → call g c k m2 = some (v, m3) → Legal g m2 m3 := by
  have hi := hist_inv hb.wf hh hk hb.inv
  exact ⟨hi.region0, hi.owners, fun c k v m3 hc hk hcall => (step_call hb.wf hc hk hi hcall).legal⟩

/-- A history that makes every kind of transition. -/
def lifecycleCalls : List (Nat × Call) :=
  [(0, .blockDramRegion 1), (0, .flushCachedDramRegions), (1, .flushCachedDramRegions), (2, .flushCachedDramRegions), (3, .flushCachedDramRegions),
   (2, .freeDramRegion 1), (1, .createMetadataRegion 1), (0, .createEnclave 0x9000 0 4095 0 true), (3, .freeDramRegion 1), (3, .assignDramRegion 1 0),
   (0, .blockDramRegion 5)]

set_option maxRecDepth 100000 in
theorem lifecycle_runs : (runCalls toyG lifecycleCalls toyM).isSome = true ∧ (after toyG lifecycleCalls toyM).1 = [0, 0, 0, 0, 0, 0, 0, 0, 0, 0, 0] := by
  decide +kernel

/-- The hypotheses of C20 hold of a non-trivial history. -/
example : FromBoot toyG toyM ∧ Hist toyG toyM (events toyG lifecycleCalls toyM) (after toyG lifecycleCalls toyM).2 ∧
    CoveredHist toyG (events toyG lifecycleCalls toyM) := by
  refine ⟨toy_fromBoot, hist_after lifecycle_runs.1 (by (set_option maxRecDepth 100000 in decide +kernel)), ?_⟩
  have hm : toyG.SingleStripe ∧ toyG.ShiftOk := ⟨toy_single, toy_shiftOk⟩
  unfold events
  rw [lifecycle_runs.2]
  intro x hx
  simp only [lifecycleCalls, List.zipWith, List.mem_cons, List.not_mem_nil, or_false] at hx
  rcases hx with rfl | rfl | rfl | rfl | rfl | rfl | rfl | rfl | rfl | rfl | rfl <;> first | exact trivial | exact hm

/-- The OS passes the debug-copy check as soon as core 0 has flushed, and the page it writes is the monitor's own. -/
def overwriteCalls : List (Nat × Call) := [(0, .blockDramRegion 1), (0, .flushCachedDramRegions)]

set_option maxRecDepth 100000 in
theorem overwrite_runs : (runCalls toyG overwriteCalls toyM).isSome = true := by decide +kernel

set_option maxRecDepth 100000 in
theorem overwrite_effect : ∃ x, call toyG 0 (.copyDebugEnclavePage 0 0 0x10000 false) (after toyG overwriteCalls toyM).2 = some x ∧
    x.1 = monitorOk ∧ (after toyG overwriteCalls toyM).2.owner toyG 1 = blockedEnclaveId ∧ x.2.owner toyG 1 = nullEnclaveId ∧
    x.2.osBit toyG 1 = false := by
  have h : (call toyG 0 (.copyDebugEnclavePage 0 0 0x10000 false) (after toyG overwriteCalls toyM).2).map (fun x =>
    (x.1, (after toyG overwriteCalls toyM).2.owner toyG 1, x.2.owner toyG 1, x.2.osBit toyG 1)) =
    some (monitorOk, blockedEnclaveId, nullEnclaveId, false) := by decide +kernel
  cases hc : call toyG 0 (.copyDebugEnclavePage 0 0 0x10000 false) (after toyG overwriteCalls toyM).2 with
  | none => rw [hc] at h; cases h
  | some x =>
      rw [hc] at h
      simp only [Option.map_some, Option.some.injEq, Prod.mk.injEq] at h
      exact ⟨x, rfl, h⟩

/-- C20 is false of the code: with `copy_debug_enclave_page` on its own ID the OS overwrites the region table. -/
theorem C20_statement_false : ∃ g m, FromBoot g m ∧ ¬ C20_statement g m := by
  refine ⟨toyG, toyM, toy_fromBoot, fun hst => ?_⟩
  have hh := hist_after overwrite_runs (by set_option maxRecDepth 100000 in decide +kernel)
  obtain ⟨⟨v, m3⟩, h1, -, h2, h3, -⟩ := overwrite_effect
  have hleg := (hst _ _ hh).2 0 _ _ _ (by set_option maxRecDepth 100000 in decide +kernel) h1 1 (by set_option maxRecDepth 100000 in decide +kernel)
  rw [h2, h3] at hleg
  cases hleg

/-! ### C21 -/

/-- C21, in full. -/
def C21_statement (g : Cfg) (m1 : Machine) : Prop :=
  ∀ l m2, Hist g m1 l m2 → ∀ i, i < g.regions → (m2.osBit g i = true ↔ m2.owner g i = nullEnclaveId)

/-- C21 for all histories of the covered calls. -/
theorem C21_os_bitmap_partial {m1 : Machine} (hb : FromBoot g m1) {l : List Event} {m2 : Machine} (hh : Hist g m1 l m2) (hk : CoveredHist g l) :
    ∀ i, i < g.regions → (m2.osBit g i = true ↔ m2.owner g i = nullEnclaveId) :=
  (hist_inv hb.wf hh hk hb.inv).bitmap

theorem Hist.snoc {m m1 m2 : Machine} {l : List Event} (hh : Hist g m l m1) {c : Nat} {k : Call} {v : W} (hc : c < g.cores)
    (hcall : call g c k m1 = some (v, m2)) : Hist g m (l ++ [⟨c, k, v⟩]) m2 := by
  induction hh with
  | nil => exact .cons hc hcall (.nil _)
  | cons h1 h2 _ ih => exact .cons h1 h2 (ih hcall)
  | soft h1 _ ih => exact .soft h1 (ih hcall)

/-- C21 is false of the code, for the same reason. -/
theorem C21_statement_false : ∃ g m, FromBoot g m ∧ ¬ C21_statement g m := by
  refine ⟨toyG, toyM, toy_fromBoot, fun hst => ?_⟩
  have hh := hist_after overwrite_runs (by set_option maxRecDepth 100000 in decide +kernel)
  obtain ⟨⟨v, m3⟩, h1, -, h2, h3, h4⟩ := overwrite_effect
  have h5 := hst _ _ (hh.snoc (by set_option maxRecDepth 100000 in decide +kernel) h1) 1 (by set_option maxRecDepth 100000 in decide +kernel)
  have := h5.2 h3
  rw [h4] at this
  cases this

end Sanctum
