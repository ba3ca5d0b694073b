import Verif.Props.Conc
/-
C63: reset at any instant. A reset stops all cores in the middle of whatever they do and starts the boot code on core 0; memory and
registers keep whatever contents they have.
-/
namespace Sanctum
open Machine

variable {g : Cfg}

/-! ### Whether boot succeeds does not depend on the contents of memory -/

/-- `p` faults on every machine or on none. -/
def Oblivious (g : Cfg) (p : Prog Unit) : Prop := ∀ m m', (run g 0 p m).isSome = true → (run g 0 p m').isSome = true

theorem Oblivious.seq {p : Prog Unit} {q : Unit → Prog Unit} (hp : Oblivious g p) (hq : Oblivious g (q ())) : Oblivious g (p >>= q) := by
  intro m m' h
  rw [run_bind] at h ⊢
  have h1 := hp m m'
  cases ha : run g 0 p m with
  | none => rw [ha] at h; cases h
  | some x =>
      rw [ha, Option.bind_some] at h
      rw [ha] at h1
      cases hb : run g 0 p m' with
      | none => rw [hb] at h1; exact absurd (h1 rfl) (by decide)
      | some y => rw [Option.bind_some]; exact hq x.2 y.2 h

theorem Oblivious.ret : Oblivious g (pure ()) := fun _ _ _ => rfl

theorem Oblivious.store (a v : W) : Oblivious g (store a v) := by
  intro m m' h
  by_cases ho : okAddr g a = true
  · rw [run_store _ _ _ _ _ ho]; rfl
  · rw [Bool.not_eq_true] at ho
    simp [Sanctum.store, run, exec, ho] at h

theorem Oblivious.setBit (a i : W) (b : Bool) : Oblivious g (setBitmapBit a i b) := by
  intro m m' h
  unfold setBitmapBit at *
  by_cases ho : okAddr g (a + bitmapOffset i * 8) = true
  · rw [run_bind, run_load _ _ _ _ ho, Option.bind_some]
    cases b
    · rw [if_neg (by decide), run_store _ _ _ _ _ ho]; rfl
    · rw [if_pos rfl, run_store _ _ _ _ _ ho]; rfl
  · rw [Bool.not_eq_true] at ho
    have hn : run g 0 (load (a + bitmapOffset i * 8)) m = none := by
      simp only [load, act, run, exec, ho, Bool.false_eq_true, if_false]
    rw [run_bind, hn] at h
    cases h

theorem Oblivious.act_ {o : Op} (ho : ∀ m m', (exec g 0 o m).isSome = true → (exec g 0 o m').isSome = true) : Oblivious g (act_ o) := by
  intro m m' h
  rw [run_act_, Option.isSome_map] at *
  exact ho m m' h

theorem Oblivious.snapshot (n : Nat) : ∀ (p : W) {f : List W → Prog Unit}, (∀ ws, Oblivious g (f ws)) → (∀ ws ws' m, (run g 0 (f ws) m).isSome = (run g 0 (f ws') m).isSome) →
    Oblivious g (snapshotLoop n p >>= f) := by
  induction n with
  | zero => intro p f h1 _; exact h1 []
  | succ n ih =>
      intro p f h1 h2
      intro m m' h
      have ha : ∀ m, run g 0 (snapshotLoop (n + 1) p >>= f) m = (run g 0 (load p) m).bind fun x => run g 0 (snapshotLoop n (p + 8) >>= fun ws => f (x.1 :: ws)) x.2 := by
        intro m
        rw [run_bind, snapshotLoop, run_bind]
        cases run g 0 (load p) m with
        | none => rfl
        | some x =>
            rw [Option.bind_some, Option.bind_some, run_bind, run_bind]
            cases run g 0 (snapshotLoop n (p + 8)) x.2 <;> rfl
      rw [ha] at h ⊢
      by_cases ho : okAddr g p = true
      · rw [run_load _ _ _ _ ho, Option.bind_some] at h ⊢
        have h3 := ih (p + 8) (f := fun ws => f (m.mem p.toNat :: ws)) (fun _ => h1 _) (fun _ _ _ => h2 _ _ _) m m' h
        have hi : ∀ w w' m, (run g 0 (snapshotLoop n (p + 8) >>= fun ws => f (w :: ws)) m).isSome = (run g 0 (snapshotLoop n (p + 8) >>= fun ws => f (w' :: ws)) m).isSome := by
          intro w w' m
          rw [run_bind, run_bind]
          cases run g 0 (snapshotLoop n (p + 8)) m with
          | none => rfl
          | some y => exact h2 _ _ _
        rw [hi]; exact h3
      · rw [Bool.not_eq_true] at ho
        have hn : run g 0 (load p) m = none := by simp only [load, act, run, exec, ho, Bool.false_eq_true, if_false]
        rw [hn] at h; cases h

theorem Oblivious.regionLoop (n : Nat) : ∀ i, Oblivious g (bootRegionLoop g n i) := by
  induction n with
  | zero => intro i; exact .ret
  | succ n ih =>
      intro i
      exact .seq (.store _ _) (.seq (.store _ _) (.seq (.store _ _) (.seq (.store _ _) (.seq (.store _ _) (ih _)))))

theorem Oblivious.bitmapLoop (n : Nat) : ∀ i, Oblivious g (bootBitmapLoop g n i) := by
  induction n with
  | zero => intro i; exact .ret
  | succ n ih => intro i; exact .seq (.setBit _ _ _) (ih _)

theorem Oblivious.arrays : Oblivious g (bootArrays g) := .seq (.regionLoop _ _) (.seq (.store _ _) (.bitmapLoop _ _))

theorem Oblivious.protection (top : W) : Oblivious g (bootProtection g top) := by
  refine .seq (.act_ fun _ _ _ => rfl) (.seq (.act_ fun _ _ _ => rfl) (.seq ?_ (.seq (.act_ fun _ _ _ => rfl) (.seq (.act_ fun _ _ _ => rfl)
    (.seq (.act_ fun _ _ _ => rfl) (.act_ fun _ _ _ => rfl))))))
  exact .snapshot _ _ (fun ws => .act_ fun _ _ _ => rfl) fun _ _ _ => rfl

theorem Oblivious.bootRun {p : Prog Unit} (ho : Oblivious g p) {m m1 : Machine} (h : run g 0 p m = some ((), m1)) (m' : Machine) :
    ∃ m2, run g 0 p m' = some ((), m2) ∧ bootRun g p m' = .ok m2 := by
  have h1 := ho m m' (by rw [h]; rfl)
  cases hr : run g 0 p m' with
  | none => rw [hr] at h1; cases h1
  | some x => exact ⟨x.2, rfl, by unfold Sanctum.bootRun; rw [hr]⟩

/-- Boot succeeds from all memory contents or from none, with the same geometry. -/
theorem boot_any {p : Platform} {m0 m1 : Machine} (hb : boot p m0 = .ok (g, m1)) (m : Machine) : ∃ m', boot p m = .ok (g, m') := by
  obtain ⟨g0, s, m2, top, h0, h1, h2, h3, h4, h5⟩ := boot_ok hb
  obtain ⟨n1, -, e1⟩ := (Oblivious.seq (.act_ fun _ _ _ => rfl) .arrays).bootRun h1 m
  obtain ⟨n2, -, e2⟩ := (Oblivious.protection top).bootRun h5 n1
  refine ⟨n2, ?_⟩
  have hs : ¬ top > (bootLayout p (bootInitMetadata g0)).stripeSize := by
    intro hh
    have : (bootLayout p (bootInitMetadata g0)).stripeSize = g0.stripeSize := by
      unfold bootLayout bootInitMetadata; dsimp only; split <;> rfl
    rw [this] at hh
    have := (W.lt_iff _ _).1 hh
    omega
  unfold boot
  rw [h0]
  simp only [bind, Boot.bind]
  simp only [bind] at e1
  rw [e1]
  dsimp only
  rw [h2]
  dsimp only
  rw [if_neg hs, ← h4, e2]

/-! ### C63 -/

/-- C63, in full: the machine `s` was booted (with fresh core records) on platform `p`; whatever happens then, a reset at any instant boots again
to the same geometry and to a state that is as good as the first. -/
def C63_statement (g : Cfg) (p : Platform) (s : Conf) : Prop :=
  ∀ t s', Steps g s t s' → OnlyCalls (CoveredC g) t →
    ∃ m', boot p s'.m = .ok (g, m') ∧ BootedState g s'.m m' ∧ ∀ c, c < g.cores → m'.running c = nullEnclaveId ∧ m'.flushedAt c = 0

/-- C63, the part that holds. Missing: that the cores' flush times are reset. The boot code does not initialise the
core records, they keep their value (while the clock restarts at 0). -/
theorem C63_reset_partial {p : Platform} (hp : p.Sane) {m0 : Machine} {s : Conf} (hb : boot p m0 = .ok (g, s.m)) (hz : ∀ c, c < g.cores → m0.running c = nullEnclaveId)
    (hidle : ∀ c, s.cores c = .idle) {t : List Label} {s' : Conf} (hs : Steps g s t s') (hk : OnlyCalls (CoveredC g) t) :
    ∃ m', boot p s'.m = .ok (g, m') ∧ BootedState g s'.m m' ∧ Fresh g ⟨m', fun _ => .idle⟩ ∧
      ∀ c, c < g.cores → m'.running c = nullEnclaveId ∧ m'.flushedAt c = s'.m.flushedAt c := by
  obtain ⟨m', h1⟩ := boot_any hb s'.m
  have hfresh : Fresh g s := ⟨⟨p, m0, hp, hb, hz⟩, hidle⟩
  have hg := good_steps hfresh hs hk
  have hrun : ∀ c, c < g.cores → s'.m.running c = nullEnclaveId := hg.inv.os
  refine ⟨m', h1, C12_boot_state hp h1, ⟨⟨p, s'.m, hp, h1, hrun⟩, fun _ => rfl⟩, fun c hc => ?_⟩
  obtain ⟨h2, h3⟩ := C12_cores_not_initialised hp h1 c hc
  exact ⟨h2.trans (hrun c hc), h3⟩

/-- From arbitrary contents of memory and registers, whatever was called before: the same geometry, all regions owned by the OS and unlocked, the
monitor's memory protected. -/
theorem C63_boot_any {p : Platform} (hp : p.Sane) {m0 m1 : Machine} (hb : boot p m0 = .ok (g, m1)) (m : Machine) :
    ∃ m', boot p m = .ok (g, m') ∧ BootedState g m m' := by
  obtain ⟨m', h1⟩ := boot_any hb m
  exact ⟨m', h1, C12_boot_state hp h1⟩

/-- Five blocks, then all cores flush. -/
def agedCalls : List (Nat × Call) :=
  [(0, .blockDramRegion 1), (0, .blockDramRegion 2), (0, .blockDramRegion 3), (0, .blockDramRegion 4), (0, .blockDramRegion 5),
   (0, .flushCachedDramRegions), (1, .flushCachedDramRegions), (2, .flushCachedDramRegions), (3, .flushCachedDramRegions)]

/-- Two blocks and a free of the second region, no flush. -/
def hastyCalls : List (Nat × Call) := [(0, .blockDramRegion 1), (0, .blockDramRegion 2), (0, .freeDramRegion 2)]

/-- The results of `calls` after a reset of the machine `m`. -/
def afterReset (p : Platform) (m : Machine) (calls : List (Nat × Call)) : Option (List W) :=
  match boot p m with
  | .ok (g, m') => (runCalls g calls m').map (·.1)
  | _ => none

set_option maxRecDepth 100000 in
theorem aged_runs : (runCalls toyG agedCalls toyM).isSome = true ∧ (after toyG agedCalls toyM).1 = [0, 0, 0, 0, 0, 0, 0, 0, 0] ∧
    (after toyG agedCalls toyM).2.flushedAt 3 = 5 := by decide +kernel

set_option maxRecDepth 100000 in
theorem aged_history : ∃ t, Steps toyG toyS t ⟨(after toyG agedCalls toyM).2, fun _ => .idle⟩ ∧ OnlyCalls (CoveredC toyG) t := by
  have hh := hist_after aged_runs.1 (by decide +kernel)
  obtain ⟨t, h1, h2⟩ := hist_steps hh (cores := fun _ => .idle) (fun _ => rfl)
  refine ⟨t, h1, fun c k hk => ?_⟩
  obtain ⟨v, hv⟩ := h2 c k hk
  unfold events at hv
  rw [aged_runs.2.1] at hv
  simp only [agedCalls, List.zipWith, List.mem_cons, List.not_mem_nil, or_false, Event.mk.injEq] at hv
  rcases hv with ⟨-, rfl, -⟩ | ⟨-, rfl, -⟩ | ⟨-, rfl, -⟩ | ⟨-, rfl, -⟩ | ⟨-, rfl, -⟩ | ⟨-, rfl, -⟩ | ⟨-, rfl, -⟩ | ⟨-, rfl, -⟩ | ⟨-, rfl, -⟩ <;>
    exact ⟨trivial, fun _ _ _ _ hh => by cases hh⟩

/-- C63 is false of the code: the flush times survive. -/
theorem C63_statement_false : ∃ g p s, p.Sane ∧ boot p zeroMachine = .ok (g, s.m) ∧ (∀ c, s.cores c = .idle) ∧ ¬ C63_statement g p s := by
  refine ⟨toyG, toyPlatform, toyS, toy_sane, booted_ok toy_boots, fun _ => rfl, fun hst => ?_⟩
  obtain ⟨t, h1, h2⟩ := aged_history
  obtain ⟨m', h3, h4, h5⟩ := hst t _ h1 h2
  have hc : 3 < toyG.cores := by set_option maxRecDepth 100000 in decide +kernel
  have h6 := (C12_cores_not_initialised toy_sane h3 3 hc).2
  rw [(h5 3 hc).2] at h6
  have h7 := aged_runs.2.2
  rw [← h6] at h7
  exact absurd h7 (by decide)

/-- The hypotheses of `C63_reset_partial` on a machine that has been in use. -/
example : ∃ t s', boot toyPlatform zeroMachine = .ok (toyG, toyS.m) ∧ Steps toyG toyS t s' ∧ OnlyCalls (CoveredC toyG) t ∧ s'.m.owner toyG 5 = blockedEnclaveId := by
  obtain ⟨t, h1, h2⟩ := aged_history
  exact ⟨t, _, booted_ok toy_boots, h1, h2, by set_option maxRecDepth 100000 in decide +kernel⟩

set_option maxRecDepth 100000 in
/-- What the missing part means: on the freshly booted machine the second of two blocked regions cannot be freed without a flush; after a reset
it can, as the cores seem to have flushed in the future. -/
theorem C63_stale_flush : afterReset toyPlatform zeroMachine hastyCalls = some [0, 0, monitorInvalidState] ∧
    afterReset toyPlatform (after toyG agedCalls toyM).2 hastyCalls = some [0, 0, 0] := by decide +kernel

end Sanctum
