import Verif.Props.CodesSys
import Verif.Props.Measure
import Verif.Props.Isolation
import Verif.Props.Enclave
import Verif.Props.Mirror
import Verif.Props.Boot
import Verif.Props.PageTables
import Verif.Props.Race
import Verif.Props.Flush
/-
Theorems applied to concrete, non-trivial cases, where the file with the theorem does not already do so.
-/
namespace Sanctum
open Machine

theorem lifecycle_covered : ∀ x ∈ lifecycleCalls, Covered toyG x.2 := by
  have hm : toyG.SingleStripe ∧ toyG.ShiftOk := ⟨toy_single, toy_shiftOk⟩
  intro x hx
  simp only [lifecycleCalls, List.mem_cons, List.not_mem_nil, or_false] at hx
  rcases hx with rfl | rfl | rfl | rfl | rfl | rfl | rfl | rfl | rfl | rfl | rfl <;> first | exact trivial | exact hm

/-- C21 after eleven successful calls that block, free, assign and convert regions. -/
example : ∀ i, i < toyG.regions → ((after toyG lifecycleCalls toyM).2.osBit toyG i = true ↔ (after toyG lifecycleCalls toyM).2.owner toyG i = nullEnclaveId) :=
  C21_os_bitmap_partial toy_fromBoot (hist_after lifecycle_runs.1 (by set_option maxRecDepth 100000 in decide +kernel)) (coveredHist_of lifecycle_covered)

/-- C28 for a block by core 0 after one by core 1: the access map of core 0 is then exact, and not that of all or no regions. -/
example : ∃ m3, call toyG 0 (.blockDramRegion 1) (after toyG staleMapCalls toyM).2 = some (monitorOk, m3) ∧
    (∀ i, i < toyG.regions → (m3.drbBit 0 i = true ↔ m3.owner toyG i = nullEnclaveId)) ∧ m3.drbBit 0 2 = false ∧ m3.drbBit 0 3 = true := by
  have hh := hist_after staleMap_runs.1 (by set_option maxRecDepth 100000 in decide +kernel)
  have ht := staleMap_runs.2
  cases hc : call toyG 0 (.blockDramRegion 1) (after toyG staleMapCalls toyM).2 with
  | none => rw [hc] at ht; cases ht
  | some x =>
      rw [hc] at ht
      simp only [Option.map_some, Option.some.injEq, Prod.mk.injEq] at ht
      obtain ⟨v, m3⟩ := x
      dsimp only at ht
      obtain ⟨rfl, -, -, -, h2, h3⟩ := ht
      refine ⟨m3, rfl, C28_access_map_partial toy_fromBoot hh (coveredHist_of ?_) (by set_option maxRecDepth 100000 in decide +kernel) (Or.inl ⟨1, rfl⟩) hc, h2, h3⟩
      intro x hx
      rw [List.mem_singleton.1 hx]
      exact trivial

/-- C35: the region of a live enclave is freed. -/
example : ∃ m3, call toyG 0 (.freeDramRegion 1) (after toyG liveCalls toyM).2 = some (monitorOk, m3) ∧ m3.owner toyG 1 = freeEnclaveId :=
  C35_always_freed toy_fromBoot (hist_after live_runs.1 (by set_option maxRecDepth 100000 in decide +kernel)) (coveredHist_of live_covered) 0 (r := 1)
    (by set_option maxRecDepth 100000 in decide +kernel) live_runs.2.2.1 live_runs.2.2.2

/-- C36 for an enclave created in the page after the map. -/
example : ∃ m', call toyG 0 (.createEnclave 0x9000 0 4095 0 true) metaM = some (monitorOk, m') ∧
    ∀ x, x < toyG.dramSize.toNat → InMap toyG x → (∀ k, k < exactPages toyG 0 → x ≠ entryA toyG 0x9000 + 8 * k) → m'.mem x = metaM.mem x := by
  have ht := in_map.2.2
  cases hc : call toyG 0 (.createEnclave 0x9000 0 4095 0 true) metaM with
  | none => rw [hc] at ht; cases ht
  | some x =>
      rw [hc] at ht
      obtain ⟨v, m'⟩ := x
      have hv : v = monitorOk := Option.some.inj ht
      subst hv
      exact ⟨m', rfl, (C36_map_kept_partial toy_wf toy_single toy_shiftOk metaM_inv.locks metaM_inv.region0 (by set_option maxRecDepth 100000 in decide +kernel)
        in_map.2.1 hc).2⟩

/-- C43 for the range [0, 0xfff] and an address outside of it, which the check accepts. -/
example : ∃ b m', run toyG 0 (isEnclaveVirtualAddress 0x7000 0x9000) (rangeMachine 0 0xfff) = some (b, m') ∧ m' = rangeMachine 0 0xfff ∧
    (b = true ↔ (0 : W) = 0 ∧ (0x7000 : W).toNat % 4096 = 0) := by
  have ht := C43_accepts_outside.1
  cases hr : run (booted toyPlatform).1 0 (isEnclaveVirtualAddress 0x7000 0x9000) (rangeMachine 0 0xfff) with
  | none => rw [hr] at ht; cases ht
  | some x =>
      obtain ⟨b, m'⟩ := x
      exact ⟨b, m', hr, C43_check_exact_partial _ 0 _ 0x9000 0x7000 b m' C43_accepts_outside.2 hr⟩

/-- A place for a hash object, one for a block, and every message of three blocks. -/
example (msg : List Sha.Byte) (h : msg.length = 64 * 3) : ∃ m, Hashing toyG 0x9050 m msg ∧
    ∃ mem', run toyG 1 (finalizeHash 0x9050) m = some ((), { m with mem := mem' }) ∧ ({ m with mem := mem' } : Machine).digest 0x9050 = Sha.sha256 msg := by
  have hp : HashPlace toyG 0x9050 := ⟨by decide, by set_option maxRecDepth 100000 in decide +kernel⟩
  obtain ⟨m, hm⟩ := C44_every_message hp (b := 0x12000) ⟨by decide, by set_option maxRecDepth 100000 in decide +kernel, by decide⟩ (by decide) 0 toyM 3 msg h
  obtain ⟨mem', h1, h2, -⟩ := C44_sha256_partial hp hm (by omega) 1
  exact ⟨m, hm, mem', h1, h2⟩

/-- Loading operations of all kinds. -/
def someOps : List MeasuredOp := [.pageTable 0x10000 2 0, .page 0x10000 7 (List.replicate 4096 0xAB), .thread 1 2 3 4]

theorem someOps_ok : ∀ o, o ∈ someOps → o.Ok ∧ o.Load := by
  intro o ho
  rcases List.mem_cons.1 ho with rfl | ho
  · exact ⟨trivial, trivial⟩
  rcases List.mem_cons.1 ho with rfl | ho
  · exact ⟨List.length_replicate, trivial⟩
  rcases List.mem_cons.1 ho with rfl | ho
  · exact ⟨trivial, trivial⟩
  · cases ho

theorem place_a : RecordPlace toyG 0x9000 ∧ PagePlace toyG 0x9000 0x12000 :=
  ⟨⟨by decide, by set_option maxRecDepth 100000 in decide +kernel⟩, ⟨by decide, by set_option maxRecDepth 100000 in decide +kernel, by decide⟩⟩

theorem place_b : RecordPlace toyG 0x22000 ∧ PagePlace toyG 0x22000 0x31000 :=
  ⟨⟨by decide, by set_option maxRecDepth 100000 in decide +kernel⟩, ⟨by decide, by set_option maxRecDepth 100000 in decide +kernel, by decide⟩⟩

/-- C45: the measurement of an enclave loaded with operations of all kinds is the SHA-256 hash of their encoding. -/
example : ∃ m m', Measuring toyG 0x9000 m (.create 0 0xfffff 2 true :: someOps) ∧ Hashing toyG (0x9000 + offHash) m (encodeOps (.create 0 0xfffff 2 true :: someOps)) ∧
    run toyG 1 (finalizeEnclaveHash 0x9000) m = some ((), m') ∧
    m'.digest 0x9050 = Sha.hashWith (8 * (encodeOps (.create 0 0xfffff 2 true :: someOps ++ [.finalize])).length % 2 ^ 32)
      (encodeOps (.create 0 0xfffff 2 true :: someOps ++ [.finalize])) := by
  obtain ⟨m, hm⟩ := C45_every_sequence place_a.1 place_a.2 0 toyM 0 0xfffff 2 true someOps someOps_ok
  obtain ⟨m', h1, h2, -⟩ := C45_measurement_any_length place_a.1 hm 1
  exact ⟨m, m', hm, C45_blocks place_a.1 hm, h1, h2⟩

/-- C46: the same enclave loaded at two places, finalized on different cores. -/
example : ∃ m1 m2 m1' m2', Measuring toyG 0x9000 m1 (.create 0 0xfffff 2 true :: someOps) ∧ Measuring toyG 0x22000 m2 (.create 0 0xfffff 2 true :: someOps) ∧
    run toyG 1 (finalizeEnclaveHash 0x9000) m1 = some ((), m1') ∧ run toyG 3 (finalizeEnclaveHash 0x22000) m2 = some ((), m2') ∧
    m1'.digest 0x9050 = m2'.digest 0x22050 := by
  obtain ⟨m1, hm1⟩ := C45_every_sequence place_a.1 place_a.2 0 toyM 0 0xfffff 2 true someOps someOps_ok
  obtain ⟨m2, hm2⟩ := C45_every_sequence place_b.1 place_b.2 2 zeroMachine 0 0xfffff 2 true someOps someOps_ok
  obtain ⟨m1', m2', h1, h2, h3⟩ := C46_placement place_a.1 place_b.1 hm1 hm2 1 3
  exact ⟨m1, m2, m1', m2', hm1, hm2, h1, h2, h3⟩

/-- C61: every region call on the machine with a live enclave, from core 2. -/
example (r e base mask : W) :
    (∃ m', call toyG 2 (.blockDramRegion r) (after toyG liveCalls toyM).2 = some (blockCode toyG 2 (after toyG liveCalls toyM).2 r.toNat, m')) ∧
    (∃ m', call toyG 2 (.assignDramRegion r e) (after toyG liveCalls toyM).2 = some (assignCode toyG (after toyG liveCalls toyM).2 r.toNat e, m')) ∧
    (∃ m', call toyG 2 (.setDmaRange base mask) (after toyG liveCalls toyM).2 = some (dmaCode toyG (after toyG liveCalls toyM).2 base mask, m')) := by
  obtain ⟨h1, h2, -, -, -, h3, -⟩ := C61_reachable toy_fromBoot (hist_after live_runs.1 (by set_option maxRecDepth 100000 in decide +kernel))
    (coveredHist_of live_covered) (c := 2) (by set_option maxRecDepth 100000 in decide +kernel) r e base mask
  exact ⟨h1, h2, h3⟩

/-- C62: the enclave calls on the machine of `Props/Ids.lean`, which has an enclave. -/
example (e p v level acl os : W) :
    call toyG 0 (.loadPageTable e p v level acl) enclM = some (loadTableCode toyG enclM e p v level, enclM) ∧
    call toyG 0 (.loadPage e p v os acl) enclM = some (loadPageCode toyG enclM e p v os, enclM) ∧
    (∃ m', call toyG 0 (.initEnclave e) enclM = some (initCode toyG enclM e, m')) ∧
    (∃ m', call toyG 0 (.createEnclave e p v level true) enclM = some (createCode toyG enclM e p v level, m')) ∧
    (∃ m', call toyG 0 (.assignThread e p) enclM = some (threadCode toyG enclM e p, m')) := by
  have hok := enclM_ok 0 (by set_option maxRecDepth 100000 in decide +kernel)
  exact ⟨C62_load_page_table toy_wf 0 e p v level acl hok.locks fun hv => (hok.ids e hv).1, C62_load_page toy_wf 0 e p v os acl hok.locks fun hv => (hok.ids e hv).1,
    C62_init_enclave toy_wf 0 e hok.locks fun hv => (hok.ids e hv).1, C62_create_enclave toy_wf toy_single toy_shiftOk 0 e p v level true hok.locks hok.region0,
    C62_assign_thread toy_wf toy_single toy_shiftOk 0 e p hok.locks hok.region0⟩

/-- C72 in the middle of three calls. -/
example : ∃ t s', Steps toyG toyS t s' ∧ aboutTo s' 0 = true ∧ aboutTo s' 1 = true ∧ aboutTo s' 2 = true ∧ Shielded toyG s'.m 0 := by
  have h : (play toyG busyMoves toyS).map (fun x => (aboutTo x.2 0, aboutTo x.2 1, aboutTo x.2 2)) = some (true, true, true) := by
    set_option maxRecDepth 100000 in decide +kernel
  cases hp : play toyG busyMoves toyS with
  | none => rw [hp] at h; cases h
  | some x =>
      rw [hp] at h
      simp only [Option.map_some, Option.some.injEq, Prod.mk.injEq] at h
      exact ⟨x.1, x.2, play_steps _ hp, h.1, h.2.1, h.2.2, C72_shielded_partial toyS_fresh (play_steps _ hp)⟩

/-- C76: the flush times of two cores are published in either order. -/
example : ∃ t s' s1 s2, Steps toyG toyS t s' ∧ Step toyG s' (.act 0 (.store 0x18 0) 0) s1 ∧ Step toyG s1 (.act 1 (.store 0x38 0) 0) s2 ∧
    ∃ s3, Step toyG s' (.act 1 (.store 0x38 0) 0) s3 ∧ Step toyG s3 (.act 0 (.store 0x18 0) 0) s2 := by
  have h : (play toyG (busyMoves ++ [.go 0, .go 1]) toyS).map (fun x =>
      ((playMove toyG (.go 0) x.2).bind fun y => (playMove toyG (.go 1) y.2).map fun z => (y.1, z.1))) =
      some (some (.act 0 (.store 0x18 0) 0, .act 1 (.store 0x38 0) 0)) := by set_option maxRecDepth 100000 in decide +kernel
  cases hp : play toyG (busyMoves ++ [.go 0, .go 1]) toyS with
  | none => rw [hp] at h; cases h
  | some x =>
      rw [hp] at h
      simp only [Option.map_some, Option.some.injEq] at h
      cases hy : playMove toyG (.go 0) x.2 with
      | none => rw [hy] at h; cases h
      | some y =>
          rw [hy] at h
          cases hz : playMove toyG (.go 1) y.2 with
          | none => simp only [Option.bind_some, hz] at h; cases h
          | some z =>
              simp only [Option.bind_some, hz, Option.map_some, Option.some.injEq, Prod.mk.injEq] at h
              have s1 := playMove_step (show playMove toyG (.go 0) x.2 = some (y.1, y.2) from hy)
              have s2 := playMove_step (show playMove toyG (.go 1) y.2 = some (z.1, z.2) from hz)
              rw [h.1] at s1
              rw [h.2] at s2
              refine ⟨x.1, x.2, y.2, z.2, play_steps _ hp, s1, s2, C76_swap_partial toyS_fresh (play_steps _ hp)
                (play_onlyCalls (busyMoves ++ [.go 0, .go 1]) (fun c k hk => ?_) hp) (by decide) s1 s2 fun l _ ht ht' => ?_⟩
              · simp only [busyMoves, List.replicate, List.cons_append, List.nil_append, List.mem_cons, Move.start.injEq, reduceCtorEq, or_false, false_or, List.not_mem_nil] at hk
                rcases hk with ⟨_, rfl⟩ | ⟨_, rfl⟩ | ⟨_, rfl⟩
                all_goals exact ⟨⟨trivial, fun _ _ _ _ hh => by cases hh⟩, trivial⟩
              · have e1 : l = .word 0x18 := ht.elim False.elim id
                have e2 : l = .word 0x38 := ht'.elim False.elim id
                rw [e1] at e2
                cases e2

/-- C12: the toy machine, booted with old values in the core records. -/
example (m : Machine) (hb : (boot toyPlatform m).isOk = true) : ∃ g m', boot toyPlatform m = .ok (g, m') ∧ ∀ c, c < g.cores → m'.running c = m.running c := by
  cases h : boot toyPlatform m with
  | ok x => exact ⟨x.1, x.2, rfl, fun c hc => (C12_cores_not_initialised toy_sane h c hc).1⟩
  | panic => rw [h] at hb; cases hb
  | ub => rw [h] at hb; cases hb
  | fault => rw [h] at hb; cases hb

end Sanctum
