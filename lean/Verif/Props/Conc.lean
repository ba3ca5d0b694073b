import Verif.Lemmas.SafeCalls2
import Verif.Lemmas.Play
/-
C29, C30, C32: what holds in every interleaving of calls on several cores, with hostile software writing outside the
monitor's memory at any time.
-/
namespace Sanctum
open Machine

variable {g : Cfg}

/-- The invariant of interleavings holds after boot. -/
theorem Fresh.good {s : Conf} (h : Fresh g s) : Good g [] s := by
  have hi := h.1.inv
  refine ⟨⟨⟨hi.owners, hi.region0, fun i h1 _ => hi.bitmap i h1⟩, hi.locks, hi.os⟩, fun c i _ hh => hh.elim, fun _ _ _ _ hh => hh.elim,
    fun _ _ _ hh => hh, fun c k p hc => ?_, fun _ i h1 hne => ?_⟩
  · rw [h.2 c] at hc; cases hc
  · obtain ⟨⟨p, m0, hp, hb, -⟩, -⟩ := h
    have := (C12_boot_state hp hb).unlocked i h1
    exact absurd this hne

/-- The invariant of interleavings holds throughout. -/
theorem good_steps {s s' : Conf} {t : List Label} (h : Fresh g s) (hs : Steps g s t s') (hk : OnlyCalls (CoveredC g) t) : Good g t s' := by
  have hw := h.1.wf
  induction hs with
  | refl => exact h.good
  | tail _ hl ih => exact (ih hk.prefix).step hw (fun c k m hc hkk => safe_call hw c k m hc hkk) hk hl

theorem OnlyCalls.left {P : Call → Prop} {t1 t2 : List Label} (h : OnlyCalls P (t1 ++ t2)) : OnlyCalls P t1 :=
  fun c k hk => h c k (List.mem_append_left _ hk)

theorem OnlyCalls.mono {P Q : Call → Prop} {t : List Label} (h : OnlyCalls P t) (hpq : ∀ k, P k → Q k) : OnlyCalls Q t :=
  fun c k hk => hpq k (h c k hk)

theorem current_snoc (t : List Label) (l : Label) (c : Nat) : current (t ++ [l]) c = currentLabel c (current t c) l := by
  unfold current; rw [List.foldl_append]; rfl

/-- The trace says which call a core is running. -/
theorem current_steps {s s' : Conf} {t : List Label} (h : ∀ c, s.cores c = .idle) (hs : Steps g s t s') :
    ∀ c, (s'.cores c = .idle ∧ current t c = none) ∨ ∃ k p, s'.cores c = .running k p ∧ current t c = some k := by
  induction hs with
  | refl => exact fun c => Or.inl ⟨h c, rfl⟩
  | @tail s1 s2 t l _ hl ih =>
      intro c
      have hc := ih c
      rw [current_snoc]
      cases hl with
      | @start c' k _ _ =>
          by_cases hcc : c' = c
          · subst hcc; exact Or.inr ⟨k, _, if_pos rfl, if_pos rfl⟩
          · simpa only [currentLabel, if_neg hcc, upd, if_neg (Ne.symm hcc)] using hc
      | @act c' k o f v m' hrun hex =>
          by_cases hcc : c' = c
          · subst hcc
            refine Or.inr ⟨k, _, if_pos rfl, ?_⟩
            rcases hc with hc | ⟨k', p', h1, h2⟩
            · rw [hc.1] at hrun; cases hrun
            · rw [hrun] at h1; cases h1; exact h2
          · simpa only [currentLabel, upd, if_neg (Ne.symm hcc)] using hc
      | @done c' k v hrun =>
          by_cases hcc : c' = c
          · subst hcc; exact Or.inl ⟨if_pos rfl, if_pos rfl⟩
          · simpa only [currentLabel, if_neg hcc, upd, if_neg (Ne.symm hcc)] using hc
      | soft _ => exact hc

/-! ### C29 -/

/-- C29, in full: in every interleaving, no two cores are in the critical section of the same region, the lock of a region is
set while a core is in its critical section, every access to a region's ownership record is made by a core in its critical section, and
locks are only reset by the cores that hold them. -/
def C29_statement (g : Cfg) (s : Conf) : Prop :=
  ∀ t s', Steps g s t s' →
    (∀ c c' i, i < g.regions → holds g t c i → holds g t c' i → c = c') ∧
    (∀ c i, i < g.regions → holds g t c i → s'.m.locked g i = true) ∧
    ∀ c o v s'', Step g s' (.act c o v) s'' →
      (∀ i x, i < g.regions → RecordWord g i x → o.accesses g x → holds g t c i) ∧
      ∀ i, i < g.regions → o.overwrites (lockA g i) → holds g t c i

/-- C29 for all interleavings of the covered calls (see `CoveredC`); for the accesses to records, the call that makes the access must
be one that takes the right lock (see `Disciplined`). -/
theorem C29_mutual_exclusion_partial {s s' : Conf} {t : List Label} (h : Fresh g s) (hs : Steps g s t s') (hk : OnlyCalls (CoveredC g) t) :
    (∀ c c' i, i < g.regions → holds g t c i → holds g t c' i → c = c') ∧
    (∀ c i, i < g.regions → holds g t c i → s'.m.locked g i = true) ∧
    ∀ c o v s'', Step g s' (.act c o v) s'' →
      (∀ k, current t c = some k → Disciplined g k → ∀ i x, i < g.regions → RecordWord g i x → o.accesses g x → holds g t c i) ∧
      ∀ i, i < g.regions → o.overwrites (lockA g i) → holds g t c i := by
  have hg := good_steps h hs hk
  refine ⟨hg.mutex, fun c i hi hh => ?_, fun c o v s'' hst => ?_⟩
  · unfold Machine.locked; rw [hg.held c i hi hh]; rfl
  · cases hst with
    | act hrun hex =>
        obtain ⟨v2, m2, h1, h2, h3, h4⟩ := hg.act hrun
        refine ⟨fun k hcur hd => ?_, h2.2⟩
        rcases current_steps h.2 hs c with ⟨h5, h6⟩ | ⟨k', p', h5, h6⟩
        · rw [hcur] at h6; cases h6
        · rw [hcur] at h6; cases h6
          rw [hrun] at h5; cases h5
          exact h2.1 hd

/-! ### C30 -/

/-- C30, in full. -/
def C30_statement (g : Cfg) (s : Conf) : Prop :=
  ∀ t s', Steps g s t s' → RegionsOk g s'.m ∧ ∀ l s'', Step g s' l s'' → Legal g s'.m s''.m

/-- C30 for all interleavings of the covered calls. -/
theorem C30_regions_partial {s s' : Conf} {t : List Label} (h : Fresh g s) (hs : Steps g s t s') (hk : OnlyCalls (CoveredC g) t) :
    RegionsOk g s'.m ∧ ∀ l s'', Step g s' l s'' → Legal g s'.m s''.m := by
  have hg := good_steps h hs hk
  refine ⟨hg.inv.toRegionsOk, fun l s'' hst i hi => ?_⟩
  cases hst with
  | start _ _ _ => exact .same _
  | act hrun hex =>
      obtain ⟨v2, m2, h1, h2, h3, h4⟩ := hg.act hrun
      rw [hex] at h1
      cases h1
      exact h3.legal i hi
  | done _ => exact .same _
  | soft hsoft =>
      obtain ⟨a, v, ha, rfl⟩ := hsoft
      have : Machine.owner { s'.m with mem := upd s'.m.mem a v } g i = s'.m.owner g i := by
        show upd s'.m.mem a v (ownerA g i) = _
        have := ownerA_lt h.1.wf hi
        exact upd_ne _ _ (by omega)
      rw [this]
      exact .same _

/-! ### C32 -/

/-- C32, in full. -/
def C32_statement (g : Cfg) (s : Conf) : Prop :=
  ∀ t s', Steps g s t s' → (∀ c, s'.cores c = .idle) → ∀ i, i < g.regions → s'.m.locked g i = false

/-- C32 for all interleavings of the covered calls that release their locks (see `NoLeak`). -/
theorem C32_quiescence_partial {s s' : Conf} {t : List Label} (h : Fresh g s) (hs : Steps g s t s') (hk : OnlyCalls (CoveredC g) t)
    (hn : OnlyCalls NoLeak t) (hq : ∀ c, s'.cores c = .idle) : ∀ i, i < g.regions → s'.m.locked g i = false := by
  have hg := good_steps h hs hk
  intro i hi
  rcases Classical.em (s'.m.mem (lockA g i) = 0) with h0 | h0
  · unfold Machine.locked; rw [h0]; rfl
  · obtain ⟨c, hc⟩ := hg.noLeak hn i hi h0
    exact absurd hc (hg.idle c (hq c) i)

/-! ### Concrete interleavings -/

/-- The toy machine after boot, all cores idle. -/
def toyS : Conf := ⟨toyM, fun _ => .idle⟩

theorem toyS_fresh : Fresh toyG toyS := ⟨toy_fromBoot, fun _ => rfl⟩

/-- The values returned in a trace, with the cores. -/
def results (t : List Label) : List (Nat × W) := t.filterMap fun l => match l with
  | .done c _ v => some (c, v)
  | _ => none

/-- Is the core idle? -/
def CoreState.isIdle : CoreState → Bool
  | .idle => true
  | _ => false

/-- Two cores race to block region 1, a third asks for its owner meanwhile, and all return. -/
def raceMoves : List Move :=
  [.start 0 (.blockDramRegion 1), .start 1 (.blockDramRegion 1), .go 0, .go 1, .start 2 (.dramRegionOwner 1), .go 1, .go 2, .go 2] ++
    List.replicate 21 (.go 0)

set_option maxRecDepth 100000 in
theorem race_plays : (play toyG raceMoves toyS).map (fun x => (results x.1, x.2.m.owner toyG 1)) =
    some ([(1, monitorConcurrentCall), (2, nullEnclaveId), (0, monitorOk)], blockedEnclaveId) := by decide +kernel

theorem race_calls : ∀ c k, Move.start c k ∈ raceMoves → CoveredC toyG k ∧ Disciplined toyG k ∧ NoLeak k := by
  intro c k hk
  simp only [raceMoves, List.replicate, List.cons_append, List.nil_append, List.mem_cons, Move.start.injEq, reduceCtorEq, false_or, or_false,
    List.not_mem_nil] at hk
  rcases hk with ⟨_, rfl⟩ | ⟨_, rfl⟩ | ⟨_, rfl⟩
  all_goals exact ⟨⟨trivial, fun _ _ _ _ hh => by cases hh⟩, trivial, trivial⟩

theorem race_idle (n : Nat) (hn : n < 3) : ((play toyG raceMoves toyS).map fun x => (x.2.cores n).isIdle) = some true := by
  have : n = 0 ∨ n = 1 ∨ n = 2 := by omega
  rcases this with rfl | rfl | rfl
  all_goals set_option maxRecDepth 100000 in decide +kernel

/-- A core on which no call is started stays idle. -/
theorem idle_of_no_start {s s' : Conf} {t : List Label} (h : ∀ c, s.cores c = .idle) (hs : Steps g s t s') {c : Nat} (hc : ∀ k, Label.start c k ∉ t) :
    s'.cores c = .idle := by
  induction hs with
  | refl => exact h c
  | @tail s1 s2 t l _ hl ih =>
      have hi := ih (fun k hk => hc k (List.mem_append_left _ hk))
      cases hl with
      | @start c' k _ _ =>
          have hcc : c ≠ c' := fun hcc => hc k (by rw [hcc]; simp)
          rw [← hi]; exact if_neg hcc
      | @act c' k o f v m' hrun hex =>
          have hcc : c ≠ c' := fun hcc => by rw [hcc, hrun] at hi; cases hi
          rw [← hi]; exact if_neg hcc
      | @done c' k v hrun =>
          have hcc : c ≠ c' := fun hcc => by rw [hcc, hrun] at hi; cases hi
          rw [← hi]; exact if_neg hcc
      | soft _ => exact hi

theorem race_starts : (play toyG raceMoves toyS).map (fun x => x.1.all fun l => match l with | .start c _ => decide (c < 3) | _ => true) = some true := by
  set_option maxRecDepth 100000 in decide +kernel

/-- The hypotheses of C29, C30 and C32 are met by this race. -/
example : ∃ t s', Fresh toyG toyS ∧ Steps toyG toyS t s' ∧ OnlyCalls (CoveredC toyG) t ∧ OnlyCalls (Disciplined toyG) t ∧ OnlyCalls NoLeak t ∧
    (∀ c, s'.cores c = .idle) ∧
    results t = [(1, monitorConcurrentCall), (2, nullEnclaveId), (0, monitorOk)] ∧ s'.m.owner toyG 1 = blockedEnclaveId := by
  have h := race_plays
  cases hp : play toyG raceMoves toyS with
  | none => rw [hp] at h; cases h
  | some x =>
      rw [hp] at h
      simp only [Option.map_some, Option.some.injEq, Prod.mk.injEq] at h
      have hc := play_onlyCalls raceMoves race_calls hp
      refine ⟨x.1, x.2, toyS_fresh, play_steps _ hp, hc.mono (fun _ h => h.1), hc.mono (fun _ h => h.2.1), hc.mono (fun _ h => h.2.2), fun c => ?_, h⟩
      by_cases hlt : c < 3
      · have := race_idle c hlt
        rw [hp] at this
        have h2 : (x.2.cores c).isIdle = true := Option.some.inj this
        cases hx : x.2.cores c with
        | idle => rfl
        | running k p => rw [hx] at h2; cases h2
      · refine idle_of_no_start (fun _ => rfl) (play_steps _ hp) (fun k hk => ?_)
        have h3 := race_starts
        rw [hp] at h3
        have h4 := List.all_eq_true.1 (Option.some.inj h3) _ hk
        exact hlt (of_decide_eq_true h4)

/-- A core that holds a lock took it by a test-and-set. -/
theorem holds_tas {t : List Label} {c i : Nat} (h : holds g t c i) : ∃ a v, Label.act c (.tas a) v ∈ t ∧ a.toNat = lockA g i := by
  unfold holds at h
  have key : ∀ (t : List Label) (H : Nat → Prop), t.foldl (heldLabel g c) H i → H i ∨ ∃ a v, Label.act c (.tas a) v ∈ t ∧ a.toNat = lockA g i := by
    intro t
    induction t with
    | nil => exact fun H h => Or.inl h
    | cons l t ih =>
        intro H h
        rcases ih _ h with h1 | ⟨a, v, h1, h2⟩
        · cases l with
          | act c' o v =>
              by_cases hc : c' = c
              · subst hc
                rw [heldLabel_act_self] at h1
                rcases heldStep_cases o v H i h1 with h2 | ⟨_, _, a, rfl, ha⟩
                · exact Or.inl h2
                · exact Or.inr ⟨a, v, List.mem_cons_self, ha⟩
              · rw [heldLabel_act_other hc] at h1; exact Or.inl h1
          | done c' k v =>
              by_cases hc : c' = c
              · subst hc; rw [heldLabel_done_self] at h1; exact h1.elim
              · rw [heldLabel_done_other hc] at h1; exact Or.inl h1
          | start _ _ => exact Or.inl h1
          | soft => exact Or.inl h1
        · exact Or.inr ⟨a, v, List.mem_cons_of_mem _ h1, h2⟩
  exact (key t _ h).resolve_left (fun hf => hf)

/-- The OS calls `accept_thread` with an information page in region 0; the fourth action reads the owner of region 0. -/
def acceptMoves : List Move := [.start 0 (.acceptThread 0 0x1000), .go 0, .go 0, .go 0]

/-- Does some core test-and-set the lock of region `i` in `t`? -/
def locksIn (g : Cfg) (i : Nat) (t : List Label) : Bool := t.any fun l => match l with
  | .act _ (.tas a) _ => a.toNat == lockA g i
  | _ => false

/-- The address the next action of core `c` loads. -/
def nextLoad (s : Conf) (c : Nat) : Option W := match s.cores c with
  | .running _ (.op (.load a) _) => some a
  | _ => none

set_option maxRecDepth 100000 in
theorem accept_plays : (play toyG acceptMoves toyS).map (fun x => (locksIn toyG 0 x.1, (nextLoad x.2 0).map (fun a => (a.toNat == ownerA toyG 0, okAddr toyG a)))) =
    some (false, some (true, true)) := by decide +kernel

/-- C29 is false of the code: `accept_thread` reads an ownership record without its lock (it locks by address). -/
theorem C29_statement_false : ∃ g s, Fresh g s ∧ ¬ C29_statement g s := by
  refine ⟨toyG, toyS, toyS_fresh, fun hst => ?_⟩
  have h := accept_plays
  cases hp : play toyG acceptMoves toyS with
  | none => rw [hp] at h; cases h
  | some x =>
      obtain ⟨t, s'⟩ := x
      rw [hp] at h
      simp only [Option.map_some, Option.some.injEq, Prod.mk.injEq] at h
      obtain ⟨h1, h2⟩ := h
      unfold nextLoad at h2
      split at h2
      · rename_i k a f hc
        simp only [Option.map_some, Option.some.injEq, Prod.mk.injEq, beq_iff_eq] at h2
        have hex : exec toyG 0 (.load a) s'.m = some (s'.m.mem a.toNat, s'.m) := if_pos h2.2
        have hstep : Step toyG s' (.act 0 (.load a) (s'.m.mem a.toNat)) _ := Step.act hc hex
        have hh := ((hst t s' (play_steps _ hp)).2.2 0 _ _ _ hstep).1 0 _ (by (set_option maxRecDepth 100000 in decide +kernel)) (Or.inl rfl) h2.1
        obtain ⟨a', v', h3, h4⟩ := holds_tas hh
        have : locksIn toyG 0 t = true := by
          unfold locksIn
          rw [List.any_eq_true]
          exact ⟨_, h3, by simpa using h4⟩
        rw [h1] at this
        cases this
      · cases h2

set_option maxRecDepth 100000 in
theorem overwrite_unlocks : (call toyG 0 (.copyDebugEnclavePage 0 0 0x10000 false) (after toyG overwriteCalls toyM).2).map (fun x => x.2.locked toyG 1) =
    some false := by decide +kernel

/-- C30 is false of the code: a debug copy with the OS's own ID overwrites the region table. -/
theorem C30_statement_false : ∃ g s, Fresh g s ∧ ¬ C30_statement g s := by
  refine ⟨toyG, toyS, toyS_fresh, fun hst => ?_⟩
  have hh := hist_after overwrite_runs (by set_option maxRecDepth 100000 in decide +kernel)
  obtain ⟨⟨v, m3⟩, h1, -, -, h3, h4⟩ := overwrite_effect
  obtain ⟨t, ht, -⟩ := hist_steps (hh.snoc (by set_option maxRecDepth 100000 in decide +kernel) h1) (cores := fun _ => .idle) (fun _ => rfl)
  have h5 := overwrite_unlocks
  rw [h1] at h5
  have h6 := (hst t _ ht).1.bitmap 1 (by set_option maxRecDepth 100000 in decide +kernel) (Option.some.inj h5)
  have := h6.2 h3
  rw [h4] at this
  cases this

/-- C32 is false of the code: `delete_thread` keeps the lock of region 0. -/
theorem C32_statement_false : ∃ g s, Fresh g s ∧ ¬ C32_statement g s := by
  refine ⟨toyG, toyS, toyS_fresh, fun hst => ?_⟩
  have ht := deleteThread_keeps_lock
  cases hc : call toyG 0 (.deleteThread 0) toyM with
  | none => rw [hc] at ht; cases ht
  | some x =>
      rw [hc] at ht
      simp only [Option.map_some, Option.some.injEq, Prod.mk.injEq] at ht
      obtain ⟨t, hs, -⟩ := call_steps (cores := fun _ => .idle) (by set_option maxRecDepth 100000 in decide +kernel) rfl hc
      have := hst t _ hs (fun _ => rfl) 0 (by set_option maxRecDepth 100000 in decide +kernel)
      unfold Machine.locked at this
      rw [ht.2.1] at this
      exact absurd this (by decide)

end Sanctum
