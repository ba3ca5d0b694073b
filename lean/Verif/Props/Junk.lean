import Verif.Lemmas.Junk
import Verif.Props.Enclave
import Verif.Spec.Toy
/-
C93: what memory outside the monitor's holds does not influence the monitor.
-/
namespace Sanctum
open Machine

variable {g : Cfg}

theorem Sober.covered {k : Call} (h : Sober g k) (hs : g.WF) : Covered g k := by
  cases k with
  | copyDebugEnclavePage e a os d => exact Or.inr h.2
  | createThread t p => exact trivial
  | createEnclave e b k n d => exact ⟨h.1, h.2.1⟩
  | _ => exact h

/-- All regions are the OS's at boot. -/
theorem akin_boot (hw : g.WF) {m m' : Machine} (ho : ∀ i, i < g.regions → m.owner g i = nullEnclaveId) (hs : SameMonitor g m m') : Akin g m m' :=
  ⟨hs, fun i hi h => by rw [ho i hi] at h; exact absurd h (by decide),
    fun e _ _ h => by rw [ho _ (regionOf_lt hw _)] at h; exact absurd h (by decide)⟩

theorem Akin.store_left (hw : g.WF) {m m' n : Machine} (hi : Inv g m) (h : Akin g m m') (hs : OsStore g m n) : Akin g n m' := by
  obtain ⟨a, v, h1, h2, h3, rfl⟩ := hs
  refine akin_os hw hi h (mu := upd m.mem a v) (mu' := m'.mem) (fun x => ?_) (fun x => Or.inl rfl)
  by_cases hx : x = a
  · subst hx; exact Or.inr ⟨h2, h1, h3⟩
  · exact Or.inl (upd_ne _ _ hx)

theorem Akin.store_right (hw : g.WF) {m m' n' : Machine} (hi : Inv g m) (h : Akin g m m') (hs : OsStore g m' n') : Akin g m n' := by
  obtain ⟨a, v, h1, h2, h3, rfl⟩ := hs
  rw [h.same.owner hw (regionOf_lt hw a)] at h3
  refine akin_os hw hi h (mu := m.mem) (mu' := upd m'.mem a v) (fun x => Or.inl rfl) (fun x => ?_)
  by_cases hx : x = a
  · subst hx; exact Or.inr ⟨h2, h1, h3⟩
  · exact Or.inl (upd_ne _ _ hx)

theorem OsStore.inv (hw : g.WF) {m n : Machine} (hi : Inv g m) (hs : OsStore g m n) : Inv g n := by
  obtain ⟨a, v, h1, h2, h3, rfl⟩ := hs
  have hs : SameTop g m { m with mem := upd m.mem a v } := ⟨fun x hx => upd_ne m.mem v (by omega), rfl, rfl⟩
  exact (hs.inv hw hi).1

/-- The history up to its first call. -/
theorem osHist_head (hw : g.WF) {m m' m2 : Machine} {l : List Event} (hi : Inv g m) (h : Akin g m m') (hh : OsHist g m' l m2) :
    (l = [] → Akin g m m2) ∧
    ∀ x l', l = x :: l' → ∃ n n', Akin g m n ∧ x.core < g.coreCount.toNat ∧ call g x.core x.call n = some (x.result, n') ∧ OsHist g n' l' m2 := by
  induction hh with
  | nil m' => exact ⟨fun _ => h, fun x l' hx => by cases hx⟩
  | cons hc hcall hrest ih =>
      refine ⟨fun hx => (by cases hx), fun x l' hx => ?_⟩
      injection hx with e1 e2
      subst e1; subst e2
      exact ⟨_, _, h, hc, hcall, hrest⟩
  | soft hs hrest ih => exact ih (h.store_right hw hi hs)

theorem akin_hist (hw : g.WF) {m m2 : Machine} {l : List Event} (h1 : OsHist g m l m2) : ∀ {m' m2' : Machine} {l' : List Event}, Inv g m → Akin g m m' →
    OsHist g m' l' m2' → callsOf l = callsOf l' → (∀ x ∈ l, Sober g x.call) → l = l' ∧ Akin g m2 m2' := by
  induction h1 with
  | nil m =>
      intro m' m2' l' hi h h2 hc _
      cases l' with
      | nil => exact ⟨rfl, (osHist_head hw hi h h2).1 rfl⟩
      | cons x l' => cases hc
  | @cons m ma m2 c k v l hcore hcall hrest ih =>
      intro m' m2' l' hi h h2 hc hs
      cases l' with
      | nil => cases hc
      | cons x l' =>
          obtain ⟨n, n', p1, p2, p3, p4⟩ := (osHist_head hw hi h h2).2 x l' rfl
          obtain ⟨xc, xk, xv⟩ := x
          unfold callsOf at hc
          rw [List.map_cons, List.map_cons, List.cons.injEq, Prod.mk.injEq] at hc
          obtain ⟨⟨e1, e2⟩, e3⟩ := hc
          dsimp only at e1 e2
          subst e1; subst e2
          have hk := hs _ List.mem_cons_self
          obtain ⟨w, a, b, q1, q2, q3⟩ := junk_call hw hi p1 hcore hk
          rw [hcall] at q1
          rw [p3] at q2
          injection q1 with q1
          injection q2 with q2
          rw [Prod.mk.injEq] at q1 q2
          obtain ⟨r1, r2⟩ := q1
          obtain ⟨s1, s2⟩ := q2
          dsimp only at s1
          subst r2; subst s2
          have hia := (step_call hw hcore (hk.covered hw) hi hcall).inv
          obtain ⟨t1, t2⟩ := ih hia q3 p4 e3 (fun y hy => hs y (List.mem_cons_of_mem _ hy))
          rw [t1, r1, s1]
          exact ⟨rfl, t2⟩
  | soft hst hrest ih =>
      intro m' m2' l' hi h h2 hc hs
      exact ih (hst.inv hw hi) (h.store_left hw hi hst) h2 hc hs

theorem FromBoot.akin {m1 m1' : Machine} (hb : FromBoot g m1) (hs : SameMonitor g m1 m1') : Akin g m1 m1' := by
  have hw := hb.wf
  obtain ⟨p, m0, hp, hbt, -⟩ := hb
  exact akin_boot hw (fun i hi => ((C12_boot_state hp hbt).owned i hi).1) hs

/-- The calls complete on the other machine, too. -/
theorem akin_completes {m m' m2 : Machine} {l : List Event} (hw : g.WF) (h1 : OsHist g m l m2) (hi : Inv g m) (h : Akin g m m')
    (hk : ∀ x ∈ l, Sober g x.call) : ∃ m2', OsHist g m' l m2' ∧ SameMonitor g m2 m2' := by
  induction h1 generalizing m' with
  | nil m => exact ⟨m', .nil m', h.same⟩
  | cons hcore hcall hrest ih =>
      have hks := hk _ List.mem_cons_self
      obtain ⟨w, a, b, q1, q2, q3⟩ := junk_call hw hi h hcore hks
      rw [hcall] at q1
      injection q1 with q1
      rw [Prod.mk.injEq] at q1
      obtain ⟨rfl, rfl⟩ := q1
      obtain ⟨m2', t1, t2⟩ := ih (step_call hw hcore (hks.covered hw) hi hcall).inv q3 (fun y hy => hk y (List.mem_cons_of_mem _ hy))
      exact ⟨m2', .cons hcore q2 t1, t2⟩
  | soft hst hrest ih => exact ih (hst.inv hw hi) (h.store_left hw hi hst) hk

/-! ### C93 -/

/-- C93, in full: whatever calls the OS makes. -/
def C93_statement (g : Cfg) : Prop :=
  ∀ m1 m1' m2 m2' l l', FromBoot g m1 → SameMonitor g m1 m1' → OsHist g m1 l m2 → OsHist g m1' l' m2' → callsOf l = callsOf l' → CoveredHist g l →
    l = l' ∧ SameMonitor g m2 m2'

/-- C93 for the calls in `Sober`: two machines boot (the states just after boot differ at most in memory outside the monitor's), and the OS makes the same
calls on the same cores in the same order; meanwhile it stores what it likes to its memory, on either machine. All calls return the same, and all of the
monitor's memory, the DMA window and the registers of all cores are the same in the end. -/
theorem C93_what_memory_holds_partial {m1 m1' m2 m2' : Machine} {l l' : List Event} (hb : FromBoot g m1) (hs : SameMonitor g m1 m1')
    (h1 : OsHist g m1 l m2) (h2 : OsHist g m1' l' m2') (hc : callsOf l = callsOf l') (hk : ∀ x ∈ l, Sober g x.call) :
    l = l' ∧ SameMonitor g m2 m2' := by
  have hw := hb.wf
  have hi := hb.inv
  obtain ⟨t1, t2⟩ := akin_hist hw h1 hi (hb.akin hs) h2 hc hk
  exact ⟨t1, t2.same⟩

/-- C93: the page maps of the metadata regions are the same in the end, too: what a region held before it became metadata has left no trace in them. -/
theorem C93_maps_partial {m1 m1' m2 m2' : Machine} {l l' : List Event} (hb : FromBoot g m1) (hs : SameMonitor g m1 m1')
    (h1 : OsHist g m1 l m2) (h2 : OsHist g m1' l' m2') (hc : callsOf l = callsOf l') (hk : ∀ x ∈ l, Sober g x.call) : SamePageMaps g m2 m2' := by
  have hw := hb.wf
  obtain ⟨-, t⟩ := akin_hist hw h1 hb.inv (hb.akin hs) h2 hc hk
  intro i hi ho k hk
  have hal : g.stripeSize.toNat % 8 = 0 := by rw [hw.stripeSize, Nat.pow_add]; omega
  refine t.map i hi ho _ (by omega) (by omega) ?_
  rw [Nat.add_mod, Nat.mul_mod, hal]; simp

/-- C93: and whatever the other machine's memory holds, the calls complete on it, too, whether or not software makes any of the stores. -/
theorem C93_completes_partial {m1 m1' m2 : Machine} {l : List Event} (hb : FromBoot g m1) (hs : SameMonitor g m1 m1') (h1 : OsHist g m1 l m2)
    (hk : ∀ x ∈ l, Sober g x.call) : ∃ m2', OsHist g m1' l m2' ∧ SameMonitor g m2 m2' :=
  akin_completes hb.wf h1 hb.inv (hb.akin hs) hk

/-! ### What fails: debug copies with an ID -/

/-- The other memory: a one where the record of an enclave at `0x18000` would say that it is a debug enclave. -/
def oneM : Machine := toyM.st 0x18018 1

/-- A debug copy for the enclave ID `0x18000`, in a region of the OS. -/
def wildCall : Call := .copyDebugEnclavePage 0x18000 0x18000 0x10000 true

theorem oneM_same : SameMonitor toyG toyM oneM := by
  refine ⟨fun x hx => ?_, rfl⟩
  have : toyG.monitorTop.toNat ≤ 0x18018 := by decide +kernel
  exact upd_ne _ _ (by omega)

set_option maxRecDepth 100000 in
/-- C93 fails for debug copies with an ID: with an enclave ID in the OS's own region, the code takes a word of the OS's memory for the enclave's
`is_debug`, and the result depends on it. The machines differ in that word only. -/
theorem C93_statement_false : ¬ C93_statement toyG := by
  intro h
  have r1 : (call toyG 0 wildCall toyM).map (·.1) = some monitorInvalidState := by decide +kernel
  have r2 : (call toyG 0 wildCall oneM).map (·.1) = some monitorInvalidValue := by decide +kernel
  have hc : 0 < toyG.coreCount.toNat := by decide +kernel
  cases p1 : call toyG 0 wildCall toyM with
  | none => rw [p1] at r1; cases r1
  | some x1 =>
      cases p2 : call toyG 0 wildCall oneM with
      | none => rw [p2] at r2; cases r2
      | some x2 =>
          obtain ⟨v1, n1⟩ := x1
          obtain ⟨v2, n2⟩ := x2
          rw [p1] at r1; rw [p2] at r2
          injection r1 with r1; injection r2 with r2
          dsimp only at r1 r2
          have := (h toyM oneM n1 n2 [⟨0, wildCall, v1⟩] [⟨0, wildCall, v2⟩] toy_fromBoot oneM_same (.cons hc p1 (.nil n1)) (.cons hc p2 (.nil n2)) rfl
            (fun x hx => by rw [List.mem_singleton] at hx; subst hx; exact Or.inl (by decide))).1
          injection this with this
          injection this with _ _ this
          rw [r1, r2] at this
          exact absurd this (by decide)

/-! ### The hypotheses are met -/

/-- After boot, all memory that is not the monitor's holds all ones. -/
def junkM : Machine := { toyM with mem := fun x => if x < toyG.monitorTop.toNat then toyM.mem x else -1 }

theorem junkM_same : SameMonitor toyG toyM junkM := ⟨fun _ hx => if_pos hx, rfl⟩

/-- Makes a metadata region of a region whose memory holds all ones, and enclaves in it. -/
def soberCalls : List (Nat × Call) := prepCalls ++ [(1, .createEnclave 0x9000 0 4095 0 true), (2, .createEnclave 0x9000 0 4095 0 true), (0, .assignThread 0x9000 0xa000)]

set_option maxRecDepth 100000 in
theorem sober_runs : (runCalls toyG soberCalls toyM).isSome = true ∧ (after toyG soberCalls toyM).1 = [0, 0, 0, 0, monitorInvalidState, monitorInvalidState] ∧
    toyG.metaStart.toNat ≤ pageIndex toyG 0x9000 ∧ 304 + 8 * toyG.bitmapWords.toNat + 4095 < 2 ^ 64 := by decide +kernel

theorem soberHist_of {l : List (Nat × Call)} {m : Machine} (hall : ∀ x ∈ l, Sober g x.2) : ∀ x ∈ events g l m, Sober g x.call := by
  unfold events
  generalize (after g l m).1 = vs
  induction l generalizing vs with
  | nil => intro x hx; rw [List.zipWith_nil_left] at hx; cases hx
  | cons y l ih =>
      intro x hx
      cases vs with
      | nil => rw [List.zipWith_nil_right] at hx; cases hx
      | cons v vs =>
          rw [List.zipWith_cons_cons] at hx
          rcases List.mem_cons.1 hx with rfl | hx
          · exact hall y List.mem_cons_self
          · exact ih (fun z hz => hall z (List.mem_cons_of_mem _ hz)) vs x hx

theorem soberCalls_sober : ∀ x ∈ soberCalls, Sober toyG x.2 := by
  have hm : toyG.SingleStripe ∧ toyG.ShiftOk := ⟨toy_single, toy_shiftOk⟩
  have hc : toyG.SingleStripe ∧ toyG.ShiftOk ∧ toyG.metaStart.toNat ≤ pageIndex toyG 0x9000 ∧ 304 + 8 * toyG.bitmapWords.toNat + 4095 < 2 ^ 64 :=
    ⟨toy_single, toy_shiftOk, sober_runs.2.2⟩
  intro x hx
  simp only [soberCalls, prepCalls, List.cons_append, List.nil_append, List.mem_cons, List.not_mem_nil, or_false] at hx
  rcases hx with rfl | rfl | rfl | rfl | rfl | rfl <;> first | exact trivial | exact hc | exact hm

/-- The calls return the same on the machine whose memory held all ones, and leave the same monitor memory. -/
example : ∃ m2', OsHist toyG junkM (events toyG soberCalls toyM) m2' ∧ SameMonitor toyG (after toyG soberCalls toyM).2 m2' :=
  C93_completes_partial toy_fromBoot junkM_same (osHist_after sober_runs.1 (by set_option maxRecDepth 100000 in decide +kernel))
    (soberHist_of soberCalls_sober)

end Sanctum
