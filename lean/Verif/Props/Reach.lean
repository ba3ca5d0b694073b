import Verif.Spec.Reach
import Verif.Props.Mirror
import Verif.Props.Flush
import Verif.Props.Enclave
/-
C84: a region that has been freed is out of reach of the software that lost it.
-/
namespace Sanctum

variable {g : Cfg}

/-- Without its TLBs, an execution is an interleaving. -/
theorem TlbRun.steps {Q : Conf → Prop} {x y : TlbConf} {t : List Label} (h : TlbRun g Q x t y) : Steps g x.conf t y.conf := by
  induction h with
  | refl _ => exact .refl _
  | tail _ hst _ ih =>
      cases hst with
      | step hs => exact .tail ih hs
      | fill c i h1 h2 h3 => rw [List.append_nil]; exact ih

/-- Every interleaving is one of an execution with TLBs in which software touches nothing. -/
theorem tlbRun_of_steps {s s' : Conf} {t : List Label} (h : Steps g s t s') (T : Nat → Nat → Prop) : ∃ T', TlbRun g (fun _ => True) ⟨s, T⟩ t ⟨s', T'⟩ ∧
    ∀ c i, T c i → (∀ v, Label.act c .flushTlbs v ∉ t) → T' c i := by
  induction h with
  | refl => exact ⟨T, .refl _ trivial, fun _ _ h _ => h⟩
  | @tail s1 s2 t l hst hl ih =>
      obtain ⟨T', h1, h2⟩ := ih
      refine ⟨_, .tail h1 (.step hl) trivial, fun c i hT hn => ?_⟩
      have h3 := h2 c i hT fun v hv => hn v (List.mem_append_left _ hv)
      unfold tlbAfter
      split
      · rename_i c' v
        exact ⟨fun hh => hn v (by rw [hh]; exact List.mem_append_right _ (List.mem_singleton.2 rfl)), h3⟩
      · exact h3

theorem TlbRun.trans {Q : Conf → Prop} {x y z : TlbConf} {t t' : List Label} (h1 : TlbRun g Q x t y) (h2 : TlbRun g Q y t' z) : TlbRun g Q x (t ++ t') z := by
  induction h2 with
  | refl _ => rw [List.append_nil]; exact h1
  | tail _ hst hq ih => rw [← List.append_assoc]; exact .tail ih hst hq

/-- C84 in full: at every instant, a region that the OS does not own, and that is not waiting (blocked) for the flushes, is out of reach of every core. -/
def C84_statement (g : Cfg) (s : Conf) : Prop :=
  ∀ t y, TlbRun g (fun _ => True) ⟨s, fun _ _ => False⟩ t y → OnlyCalls (CoveredC g) t →
    ∀ c i, c < g.cores → i < g.regions → y.conf.m.owner g i ≠ nullEnclaveId → y.conf.m.owner g i ≠ blockedEnclaveId → ¬ y.Reaches c i

/-- C84, as far as it holds: if core `c` blocked region `r` itself, has flushed its TLB since, and the OS has not owned the region since, then the region is out of reach of
software on `c`; whatever other cores do, whatever else `c` does, and whatever was in the TLBs at first. -/
theorem C84_out_of_reach_partial {s : Conf} {T : Nat → Nat → Prop} {t1 t2 : List Label} {y1 y2 : TlbConf} {c : Nat} {r w : W} (h : Fresh g s)
    (h1 : TlbRun g (fun _ => True) ⟨s, T⟩ (t1 ++ [.done c (.blockDramRegion r) monitorOk]) y1)
    (h2 : TlbRun g (fun s => s.m.owner g r.toNat ≠ nullEnclaveId) y1 t2 y2) (hr : r.toNat < g.regions)
    (hk : OnlyCalls (CoveredC g) (t1 ++ [.done c (.blockDramRegion r) monitorOk] ++ t2)) (hf : Label.act c .flushTlbs w ∈ t2) :
    ¬ y2.Reaches c r.toNat := by
  have b1 : y1.conf.m.drbBit c r.toNat = false := by
    have hs := h1.steps
    generalize hu : t1 ++ [.done c (.blockDramRegion r) monitorOk] = u at *
    cases hs with
    | refl => simp at hu
    | tail hst hl =>
        obtain ⟨rfl, hh⟩ := List.append_inj' hu.symm rfl
        injection hh with hh
        subst hh
        exact (C69_maps_partial h hst hl fun c k hc => hk c k (List.mem_append_left _ hc)).2.1 c r rfl
  -- the map does not admit it afterwards either; and once the TLB was flushed it has no translation
  suffices hh : y2.conf.m.drbBit c r.toNat = false ∧ ((∃ w, Label.act c .flushTlbs w ∈ t2) → ¬ y2.tlb c r.toNat) from fun hx =>
    hx.elim (hh.2 ⟨w, hf⟩) (fun hx => by rw [hh.1] at hx; cases hx)
  clear hf
  induction h2 with
  | refl _ => exact ⟨b1, fun ⟨w, hw⟩ => by cases hw⟩
  | @tail y z t l h2 hst hq ih =>
      obtain ⟨i1, i2⟩ := ih fun c k hc => hk c k (by
        rw [← List.append_assoc]; exact List.mem_append_left _ hc)
      cases hst with
      | @step s1 s2 T1 l hs =>
          have hsteps := h1.steps.trans h2.steps
          obtain ⟨q1, -, -⟩ := C69_maps_partial h hsteps hs (by rw [List.append_assoc]; exact hk)
          have b2 : s2.m.drbBit c r.toNat = false := by
            rcases q1 c with e | ⟨-, e⟩
            · unfold Machine.drbBit; rw [e]; exact i1
            · cases hb : s2.m.drbBit c r.toNat with
              | false => rfl
              | true => exact absurd ((e _ hr).1 hb) hq
          refine ⟨b2, fun ⟨w, hw⟩ hT => ?_⟩
          rcases List.mem_append.1 hw with hw | hw
          · have hT' : T1 c r.toNat := by
              unfold tlbAfter at hT
              split at hT
              · exact hT.2
              · exact hT
            exact i2 ⟨w, hw⟩ hT'
          · rw [← List.mem_singleton.1 hw] at hT
            exact hT.1 rfl
      | @fill s1 T1 c' i e1 e2 e3 =>
          refine ⟨i1, fun ⟨w, hw⟩ hT => ?_⟩
          rw [List.append_nil] at hw
          rcases hT with hT | ⟨rfl, rfl⟩
          · exact i2 ⟨w, hw⟩ hT
          · rw [i1] at e3; cases e3

/-! ### It is not true in full -/

set_option maxRecDepth 100000 in
theorem blockFree_plays_state : (play toyG blockFreeMoves toyS).map (fun x => (x.2.m.owner toyG 1, x.2.m.drbBit 0 1, x.1.any fun l => match l with | .act 0 .flushTlbs _ => true | _ => false)) =
    some (freeEnclaveId, false, false) := by decide +kernel

/-- C84 is false on the very core that blocks the region: software uses a page of region 1, blocks the region and frees it; the free succeeds without a flush since the block, so that the page is
still in the TLB, although the region is free and the core's map does not admit it. (The first block does not raise what a flush before it was good for, see C25.) -/
theorem C84_stale_tlb_false : ∃ g s t y, Fresh g s ∧ TlbRun g (fun _ => True) ⟨s, fun _ _ => False⟩ t y ∧ OnlyCalls (CoveredC g) t ∧
    y.conf.m.owner g 1 = freeEnclaveId ∧ y.conf.m.drbBit 0 1 = false ∧ y.tlb 0 1 := by
  have h := blockFree_plays_state
  cases hp : play toyG blockFreeMoves toyS with
  | none => rw [hp] at h; cases h
  | some x =>
      rw [hp] at h
      have h := Option.some.inj h
      obtain ⟨h1, h2, h3⟩ : x.2.m.owner toyG 1 = freeEnclaveId ∧ x.2.m.drbBit 0 1 = false ∧
          (x.1.any fun l => match l with | .act 0 .flushTlbs _ => true | _ => false) = false := ⟨congrArg (·.1) h, congrArg (·.2.1) h, congrArg (·.2.2) h⟩
      obtain ⟨T', q1, q2⟩ := tlbRun_of_steps (play_steps _ hp) (fun c' i' => False ∨ (c' = 0 ∧ i' = 1))
      have hfill : TlbRun toyG (fun _ => True) ⟨toyS, fun _ _ => False⟩ [] ⟨toyS, fun c' i' => False ∨ (c' = 0 ∧ i' = 1)⟩ :=
        .tail (.refl _ trivial) (.fill 0 1 (by set_option maxRecDepth 100000 in decide +kernel) rfl (by set_option maxRecDepth 100000 in decide +kernel)) trivial
      refine ⟨toyG, toyS, _, _, toyS_fresh, hfill.trans q1, ?_, h1, h2, q2 0 1 (Or.inr ⟨rfl, rfl⟩) fun v hv => ?_⟩
      · refine play_onlyCalls _ (fun c k hk => ?_) hp
        simp only [blockFreeMoves, List.mem_append, List.mem_singleton, List.mem_replicate, Move.start.injEq] at hk
        rcases hk with ((⟨-, rfl⟩ | ⟨-, hk⟩) | ⟨-, rfl⟩) | ⟨-, hk⟩
        · exact ⟨trivial, fun _ _ _ _ hh => by cases hh⟩
        · cases hk
        · exact ⟨trivial, fun _ _ _ _ hh => by cases hh⟩
        · cases hk
      · have := List.any_eq_false.1 h3 _ hv
        exact this rfl

/-- Core 1 blocks region 2, which loads its map; core 0 blocks region 1; all cores flush; core 0 frees region 1 and makes it a metadata region. -/
def staleReachCalls : List (Nat × Call) :=
  [(1, .blockDramRegion 2), (0, .blockDramRegion 1), (0, .flushCachedDramRegions), (1, .flushCachedDramRegions), (2, .flushCachedDramRegions), (3, .flushCachedDramRegions),
   (0, .freeDramRegion 1), (0, .createMetadataRegion 1)]

set_option maxRecDepth 100000 in
theorem staleReach_runs : (runCalls toyG staleReachCalls toyM).map (fun x => (x.1, x.2.owner toyG 1, x.2.drbBit 1 1)) =
    some ([monitorOk, monitorOk, monitorOk, monitorOk, monitorOk, monitorOk, monitorOk, monitorOk], metadataEnclaveId, true) := by decide +kernel

theorem zip_mem {l : List (Nat × Call)} {vs : List W} {x : Event} (h : x ∈ List.zipWith (fun (x : Nat × Call) v => (⟨x.1, x.2, v⟩ : Event)) l vs) : (x.core, x.call) ∈ l := by
  induction l generalizing vs with
  | nil => rw [List.zipWith_nil_left] at h; cases h
  | cons y l ih =>
      cases vs with
      | nil => rw [List.zipWith_nil_right] at h; cases h
      | cons v vs =>
          rw [List.zipWith_cons_cons] at h
          rcases List.mem_cons.1 h with rfl | h
          · exact List.mem_cons_self
          · exact List.mem_cons_of_mem _ (ih h)

/-- C84 is false on the other cores even if all cores flush: the map of core 1 still admits region 1 when it holds the monitor's metadata. -/
theorem C84_stale_map_false : ∃ g s t y, Fresh g s ∧ TlbRun g (fun _ => True) ⟨s, fun _ _ => False⟩ t y ∧ OnlyCalls (CoveredC g) t ∧
    y.conf.m.owner g 1 = metadataEnclaveId ∧ y.conf.m.drbBit 1 1 = true := by
  have hr := staleReach_runs
  cases hp : runCalls toyG staleReachCalls toyM with
  | none => rw [hp] at hr; cases hr
  | some z =>
      rw [hp] at hr
      have hr := Option.some.inj hr
      obtain ⟨t, ht, hk⟩ := hist_steps (hist_of_runCalls staleReachCalls hp (by set_option maxRecDepth 100000 in decide +kernel)) (cores := fun _ => .idle) (fun _ => rfl)
      obtain ⟨T', q1, -⟩ := tlbRun_of_steps ht (fun _ _ => False)
      have e1 : z.2.owner toyG 1 = metadataEnclaveId := congrArg (fun x => x.2.1) hr
      have e2 : z.2.drbBit 1 1 = true := congrArg (fun x => x.2.2) hr
      refine ⟨toyG, toyS, t, _, toyS_fresh, q1, fun c k hc => ?_, e1, e2⟩
      obtain ⟨v, hv⟩ := hk c k hc
      have hm := zip_mem hv
      simp only [staleReachCalls, List.mem_cons, Prod.mk.injEq, List.not_mem_nil, or_false] at hm
      rcases hm with ⟨-, rfl⟩ | ⟨-, rfl⟩ | ⟨-, rfl⟩ | ⟨-, rfl⟩ | ⟨-, rfl⟩ | ⟨-, rfl⟩ | ⟨-, rfl⟩ | ⟨-, rfl⟩ <;> exact ⟨trivial, fun _ _ _ _ hh => by cases hh⟩

theorem C84_statement_false : ∃ g s, Fresh g s ∧ ¬ C84_statement g s := by
  obtain ⟨g, s, t, y, h1, h2, h3, h4, -, h5⟩ := C84_stale_tlb_false
  have hw := h1.1.wf
  refine ⟨g, s, h1, fun hst => hst t y h2 h3 0 1 hw.cores_pos (by have := hw.regions_ge; omega) ?_ ?_ (Or.inl h5)⟩
  · rw [h4]; decide
  · rw [h4]; decide

/-! ### The hypotheses can be met -/

/-- Plays a schedule in which `q` must hold at every instant. -/
def playQ (g : Cfg) (q : Conf → Bool) : List Move → Conf → Option (List Label × Conf)
  | [], s => if q s then some ([], s) else none
  | x :: xs, s =>
      if q s then
        match playMove g x s with
        | some (l, s') => (playQ g q xs s').map (fun y => (l :: y.1, y.2))
        | none => none
      else none

theorem playQ_run {q : Conf → Bool} {Q : Conf → Prop} (hq : ∀ s, q s = true → Q s) (xs : List Move) : ∀ {s s' : Conf} {t : List Label} (T : Nat → Nat → Prop),
    playQ g q xs s = some (t, s') → ∃ T', TlbRun g Q ⟨s, T⟩ t ⟨s', T'⟩ := by
  induction xs with
  | nil =>
      intro s s' t T h
      simp only [playQ] at h
      split at h
      · rename_i e; cases h; exact ⟨T, .refl _ (hq _ e)⟩
      · cases h
  | cons x xs ih =>
      intro s s' t T h
      simp only [playQ] at h
      split at h
      · rename_i e
        split at h
        · rename_i l s1 hm
          cases hr : playQ g q xs s1 with
          | none => rw [hr] at h; cases h
          | some y =>
              rw [hr] at h
              cases h
              obtain ⟨T', h1⟩ := ih (tlbAfter T l) hr
              have hq1 : Q s1 := by
                cases xs with
                | nil => simp only [playQ] at hr; split at hr <;> first | (rename_i e1; exact hq _ e1) | cases hr
                | cons _ _ => simp only [playQ] at hr; split at hr <;> first | (rename_i e1; exact hq _ e1) | cases hr
              exact ⟨T', TlbRun.trans (.tail (.refl _ (hq _ e)) (.step (playMove_step hm)) hq1) h1⟩
        · cases h
      · cases h

/-- Core 0 blocks region 1. -/
def reachA : List Move := [.start 0 (.blockDramRegion 1)] ++ List.replicate 22 (.go 0)
/-- Then it flushes; core 1 blocks region 2 meanwhile. -/
def reachB : List Move := [.start 1 (.blockDramRegion 2), .start 0 .flushCachedDramRegions] ++ List.replicate 5 (.go 0) ++ List.replicate 10 (.go 1)

def Label.isFlushOf0 : Label → Bool
  | .act 0 .flushTlbs _ => true
  | _ => false

set_option maxRecDepth 100000 in
theorem reach_plays : (playQ toyG (fun _ => true) reachA toyS).bind (fun x =>
      (playQ toyG (fun s => s.m.owner toyG 1 != 0) reachB x.2).map (fun y => (decide (x.1.getLast? = some (.done 0 (.blockDramRegion 1) monitorOk)), y.1.any Label.isFlushOf0))) =
    some (true, true) := by decide +kernel

/-- An execution that meets the hypotheses of `C84_out_of_reach_partial`, with TLBs that are full at first. -/
example : ∃ t1 t2 y1 y2 w, TlbRun toyG (fun _ => True) ⟨toyS, fun _ _ => True⟩ (t1 ++ [.done 0 (.blockDramRegion 1) monitorOk]) y1 ∧
    TlbRun toyG (fun s => s.m.owner toyG (1 : W).toNat ≠ nullEnclaveId) y1 t2 y2 ∧ Label.act 0 .flushTlbs w ∈ t2 := by
  have h := reach_plays
  cases hx : playQ toyG (fun _ => true) reachA toyS with
  | none => rw [hx] at h; cases h
  | some x =>
      rw [hx, Option.bind_some] at h
      cases hy : playQ toyG (fun s => s.m.owner toyG 1 != 0) reachB x.2 with
      | none => rw [hy] at h; cases h
      | some y =>
          rw [hy] at h
          have h := Option.some.inj h
          have e1 : x.1.getLast? = some (.done 0 (.blockDramRegion 1) monitorOk) := of_decide_eq_true (congrArg (·.1) h)
          have e2 : y.1.any Label.isFlushOf0 = true := congrArg (·.2) h
          obtain ⟨T1, r1⟩ := playQ_run (Q := fun _ => True) (fun _ _ => trivial) _ (fun _ _ => True) hx
          obtain ⟨T2, r2⟩ := playQ_run (Q := fun s => s.m.owner toyG (1 : W).toNat ≠ nullEnclaveId) (fun s hs => bne_iff_ne.1 hs) _ T1 hy
          obtain ⟨u, hu⟩ := List.getLast?_eq_some_iff.1 e1
          obtain ⟨l, hl, hl2⟩ := List.any_eq_true.1 e2
          unfold Label.isFlushOf0 at hl2
          split at hl2
          · exact ⟨u, _, _, _, _, hu ▸ r1, r2, hl⟩
          · cases hl2

end Sanctum
