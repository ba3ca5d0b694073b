import Verif.Props.Junk
import Verif.Props.BootDecision
import Verif.Props.Boot
/-
C93: the boot sequence, too, does not depend on what memory outside the monitor's holds.
-/
namespace Sanctum
open Machine

variable {g : Cfg}

/-- The program runs the same on machines that differ in memory outside the monitor's. -/
def Lockstep (g : Cfg) (c : Nat) {α : Type} (p : Prog α) : Prop :=
  ∀ m m', SameMonitor g m m' → (run g c p m = none ∧ run g c p m' = none) ∨
    ∃ v n n', run g c p m = some (v, n) ∧ run g c p m' = some (v, n') ∧ SameMonitor g n n'

theorem Lockstep.pure {c : Nat} {α : Type} (v : α) : Lockstep g c (pure v : Prog α) := fun m m' h => Or.inr ⟨v, m, m', rfl, rfl, h⟩

theorem Lockstep.bind {c : Nat} {α β : Type} {p : Prog α} {f : α → Prog β} (h1 : Lockstep g c p) (h2 : ∀ v, Lockstep g c (f v)) :
    Lockstep g c (p >>= f) := by
  intro m m' h
  rw [run_bind, run_bind]
  rcases h1 m m' h with ⟨e1, e2⟩ | ⟨v, n, n', e1, e2, e3⟩
  · rw [e1, e2]; exact Or.inl ⟨rfl, rfl⟩
  · rw [e1, e2]; exact h2 v n n' e3

theorem Lockstep.store {c : Nat} (a v : W) : Lockstep g c (store a v) := by
  intro m m' h
  have e : ∀ x : Machine, run g c (Sanctum.store a v) x = if okAddr g a then some ((), { x with mem := upd x.mem a.toNat v }) else none := by
    intro x
    cases ho : okAddr g a <;> simp [Sanctum.store, act_, run, exec, ho] <;> rfl
  rw [e, e]
  cases okAddr g a with
  | false => exact Or.inl ⟨rfl, rfl⟩
  | true =>
      refine Or.inr ⟨(), _, _, rfl, rfl, fun x hx => ?_, ?_⟩
      · dsimp only
        rw [upd_apply, upd_apply, h.1 x hx]
      · obtain ⟨mu, rfl, -⟩ := h.eq; rfl

theorem Lockstep.load {c : Nat} {a : W} (ha : a.toNat < g.monitorTop.toNat) : Lockstep g c (load a) := by
  intro m m' h
  have e : ∀ x : Machine, run g c (Sanctum.load a) x = if okAddr g a then some (x.mem a.toNat, x) else none := by
    intro x
    cases ho : okAddr g a <;> simp [Sanctum.load, act, run, exec, ho]
  rw [e, e]
  cases okAddr g a with
  | false => exact Or.inl ⟨rfl, rfl⟩
  | true => exact Or.inr ⟨m.mem a.toNat, m, m', rfl, by rw [h.1 _ ha]; rfl, h⟩

theorem Lockstep.regionLoop {c : Nat} (n : Nat) : ∀ i, Lockstep g c (bootRegionLoop g n i) := by
  induction n with
  | zero => intro i; exact .pure ()
  | succ n ih =>
      intro i
      exact .bind (.store _ _) fun _ => .bind (.store _ _) fun _ => .bind (.store _ _) fun _ => .bind (.store _ _) fun _ => .bind (.store _ _) fun _ => ih _

theorem Lockstep.bitmapLoop {c : Nat} (hw : g.WF) (n : Nat) : ∀ i : W, i.toNat + n ≤ g.regions → Lockstep g c (bootBitmapLoop g n i) := by
  induction n with
  | zero => intro i _; exact .pure ()
  | succ n ih =>
      intro i hi
      obtain ⟨h1, h2, h3, h4, h5, h6, h7, h8, h9, h10, h11, h12⟩ := hw.layout
      have hr := hw.regions_le
      have hi1 : (i + 1).toNat = i.toNat + 1 := by
        rw [BitVec.toNat_add, show (1 : W).toNat = 1 from rfl]; omega
      have ha : (g.osBitmap + bitmapOffset i * 8).toNat < g.monitorTop.toNat := by
        have : (g.osBitmap + bitmapOffset i * 8).toNat = osWordA g i.toNat := osWordA_toNat hw (by omega)
        rw [this]; unfold osWordA; omega
      refine .bind ?_ fun _ => ih (i + 1) (by omega)
      exact .bind (.load ha) fun _ => .store _ _

theorem Lockstep.snapshot {c : Nat} (n : Nat) : ∀ a : W, a.toNat + 8 * n ≤ g.monitorTop.toNat → Lockstep g c (snapshotLoop n a) := by
  induction n with
  | zero => intro a _; exact .pure _
  | succ n ih =>
      intro a ha
      have := g.monitorTop.isLt
      refine .bind (.load (by omega)) fun _ => ?_
      by_cases hn : n = 0
      · subst hn; exact .bind (.pure _) fun _ => .pure _
      · exact .bind (ih (a + 8) (by rw [BitVec.toNat_add, show (8 : W).toNat = 8 from rfl]; omega)) fun _ => .pure _

/-- A register write. -/
theorem Lockstep.reg {c : Nat} (o : Op) (f : Machine → Machine) (h : ∀ m, exec g c o m = some (0, f m)) (hf : ∀ m x, f { m with mem := x } = { f m with mem := x })
    (hm : ∀ m, (f m).mem = m.mem) : Lockstep g c (act_ o) := by
  intro m m' hs
  refine Or.inr ⟨(), f m, f m', ?_, ?_, ?_, ?_⟩
  · rw [run_act_, h]; rfl
  · rw [run_act_, h]; rfl
  · intro x hx; rw [hm, hm]; exact hs.1 x hx
  · obtain ⟨mu, rfl, -⟩ := hs.eq
    have e := hf m mu
    dsimp only at e
    rw [e, ← hf, hm]

theorem Lockstep.arrays (hw : g.WF) (s : W) {c : Nat} : Lockstep g c (do act_ (.setCacheShift s); bootArrays g) :=
  .bind (.reg _ (fun m => { m with cacheShift := upd m.cacheShift c s }) (fun _ => rfl) (fun _ _ => rfl) (fun _ => rfl)) fun _ =>
    .bind (.regionLoop _ _) fun _ => .bind (.store _ _) fun _ => .bitmapLoop hw _ _ (by simp [Cfg.regions])

theorem Lockstep.protection (hw : g.WF) (t : W) {c : Nat} : Lockstep g c (bootProtection g t) := by
  obtain ⟨h1, h2, h3, h4, h5, h6, h7, h8, h9, h10, h11, h12⟩ := hw.layout
  have hwords := hw.words
  refine .bind (.reg _ (fun m => { m with parBase := upd m.parBase c 0 }) (fun _ => rfl) (fun _ _ => rfl) (fun _ => rfl)) fun _ => ?_
  refine .bind (.reg _ (fun m => { m with parMask := upd m.parMask c (~~~ (t - 1)) }) (fun _ => rfl) (fun _ _ => rfl) (fun _ => rfl)) fun _ => ?_
  refine .bind ?_ fun _ => ?_
  · exact .bind (.snapshot _ _ (by omega)) fun ws => .reg _ (fun m => { m with drb := upd m.drb c ws }) (fun _ => rfl) (fun _ _ => rfl) (fun _ => rfl)
  refine .bind (.reg _ (fun m => { m with dmaStart := t }) (fun _ => rfl) (fun _ _ => rfl) (fun _ => rfl)) fun _ => ?_
  refine .bind (.reg _ (fun m => { m with dmaEnd := t + 1 }) (fun _ => rfl) (fun _ _ => rfl) (fun _ => rfl)) fun _ => ?_
  refine .bind (.reg _ (fun m => { m with dmarBase := t }) (fun _ => rfl) (fun _ _ => rfl) (fun _ => rfl)) fun _ => ?_
  exact .reg _ (fun m => { m with dmarMask := ~~~ 0 }) (fun _ => rfl) (fun _ _ => rfl) (fun _ => rfl)

theorem bootArrays_run (s : W) {g1 : Cfg} {top : W} (hg : g = { g1 with monitorTop := top }) (m : Machine) :
    run g1 0 (do act_ (.setCacheShift s); bootArrays g1) m = run g 0 (do act_ (.setCacheShift s); bootArrays g) m := by
  subst hg
  have e1 := run_top g1 top 0 (do act_ (.setCacheShift s); bootArrays { g1 with monitorTop := top }) m
  rw [e1]
  exact congrArg (fun b => run g1 0 (do act_ (.setCacheShift s); b) m) (bootArrays_top g1 top).symm

/-- C93 for boot: if the platform boots, then it boots whatever memory outside the monitor's held before, with the same configuration, and the states after
boot differ at most in that memory. -/
theorem C93_boot {p : Platform} (hp : p.Sane) {m0 m0' m1 : Machine} (hb : boot p m0 = .ok (g, m1)) (hs : SameMonitor g m0 m0') :
    ∃ m1', boot p m0' = .ok (g, m1') ∧ SameMonitor g m1 m1' := by
  have hw := boot_wf hp hb
  obtain ⟨g0, s, ma, top, e0, hrun, hceil, hle, hg, hprot⟩ := boot_ok hb
  have hr : ∀ m, run (bootLayout p (bootInitMetadata g0)) 0 (do act_ (.setCacheShift s); bootArrays (bootLayout p (bootInitMetadata g0))) m =
      run g 0 (do act_ (.setCacheShift s); bootArrays g) m := bootArrays_run s hg
  rw [hr] at hrun
  rcases Lockstep.arrays hw s m0 m0' hs with ⟨a1, -⟩ | ⟨_, n, n', a1, a2, a3⟩
  · rw [hrun] at a1; cases a1
  rw [hrun] at a1
  injection a1 with a1
  injection a1 with _ a1
  subst a1
  rcases Lockstep.protection hw top ma n' a3 with ⟨b1, -⟩ | ⟨_, q, q', b1, b2, b3⟩
  · rw [hprot] at b1; cases b1
  rw [hprot] at b1
  injection b1 with b1
  injection b1 with _ b1
  subst b1
  refine ⟨q', ?_, b3⟩
  unfold boot
  rw [e0, boot_ok_bind]
  dsimp only
  have c1 : bootRun (bootLayout p (bootInitMetadata g0)) (do act_ (.setCacheShift s); bootArrays (bootLayout p (bootInitMetadata g0))) m0' = .ok n' := by
    unfold bootRun; rw [hr, a2]
  rw [c1, boot_ok_bind]
  rw [hceil]
  dsimp only
  have hstripe : (bootLayout p (bootInitMetadata g0)).stripeSize = g0.stripeSize := bl_stripeSize _ _
  rw [if_neg (by rw [hstripe]; intro h; exact absurd h (by simp only [GT.gt, BitVec.lt_def]; omega))]
  have c2 : bootRun { bootLayout p (bootInitMetadata g0) with monitorTop := top } (bootProtection { bootLayout p (bootInitMetadata g0) with monitorTop := top } top) n' =
      .ok q' := by
    unfold bootRun; rw [← hg, b2]
  rw [c2, boot_ok_bind, ← hg]

/-- C93, from power-on: the two machines boot from states that differ in memory outside the monitor's, and go on as in `C93_what_memory_holds_partial`. -/
theorem C93_from_power_on_partial {p : Platform} (hp : p.Sane) {m0 m0' m1 m2 : Machine} {l : List Event} (hb : boot p m0 = .ok (g, m1))
    (hq : ∀ i, i < g.cores → m0.running i = nullEnclaveId) (hs : SameMonitor g m0 m0') (h1 : OsHist g m1 l m2) (hk : ∀ x ∈ l, Sober g x.call) :
    ∃ m1' m2', boot p m0' = .ok (g, m1') ∧ OsHist g m1' l m2' ∧ SameMonitor g m2 m2' := by
  obtain ⟨m1', t1, t2⟩ := C93_boot hp hb hs
  obtain ⟨m2', t3, t4⟩ := C93_completes_partial ⟨p, m0, hp, hb, hq⟩ t2 h1 hk
  exact ⟨m1', m2', t1, t3, t4⟩

/-- The machine of `zeroMachine`, booted with all ones outside the monitor's memory. -/
example : ∃ m1', boot toyPlatform { zeroMachine with mem := fun x => if x < toyG.monitorTop.toNat then 0 else -1 } = .ok (toyG, m1') ∧ SameMonitor toyG toyM m1' :=
  C93_boot toy_sane (booted_ok toy_boots) ⟨fun _ hx => if_pos hx, rfl⟩

end Sanctum
