import Verif.Props.Sequential
import Verif.Props.CodesSys
import Verif.Props.Progress
/-
C90: a lock is released only by the call that took it, so a lock that a call kept is never released.
-/
namespace Sanctum
open Machine

variable {g : Cfg}

/-- C90, in full: in every interleaving, a step after which the lock of a region is no longer taken is a memory access of the core that took the lock
during its current call and has held it since. -/
def C90_statement (g : Cfg) (s : Conf) : Prop :=
  ∀ t s' l s'', Steps g s t s' → Step g s' l s'' → ∀ i, i < g.regions → s'.m.locked g i = true → s''.m.locked g i = false →
    ∃ c o v, l = .act c o v ∧ holds g t c i

theorem soft_record (hw : g.WF) {m m' : Machine} (hs : SoftwareStore g m m') {i : Nat} (hi : i < g.regions) :
    m'.mem (lockA g i) = m.mem (lockA g i) ∧ ∀ x, RecordWord g i x → m'.mem x = m.mem x := by
  obtain ⟨a, v, ha, rfl⟩ := hs
  refine ⟨upd_ne _ _ (by have := lockA_lt hw hi; omega), fun x hx => upd_ne _ _ ?_⟩
  have h1 := ownerA_lt hw hi; have h2 := prevA_lt hw hi; have h3 := pinnedA_lt hw hi; have h4 := blockedA_lt hw hi
  rcases hx with hx | hx | hx | hx <;> omega

/-- One step, in a good state. -/
theorem release_step (hw : g.WF) {t : List Label} {s s' : Conf} {l : Label} (hg : Good g t s) (hl : Step g s l s') {i : Nat} (hi : i < g.regions) :
    (∃ c o v, l = .act c o v ∧ holds g t c i) ∨ (s.m.mem (lockA g i) ≠ 0 → s'.m.mem (lockA g i) ≠ 0) ∧ ∀ x, RecordWord g i x → s'.m.mem x = s.m.mem x := by
  cases hl with
  | start _ _ _ => exact Or.inr ⟨id, fun _ _ => rfl⟩
  | done _ => exact Or.inr ⟨id, fun _ _ => rfl⟩
  | soft hs =>
      have := soft_record hw hs hi
      exact Or.inr ⟨fun h => by rw [this.1]; exact h, this.2⟩
  | @act c k o f v m' hrun hex =>
      obtain ⟨v2, m2, h1, -, h3, -⟩ := hg.act hrun
      rw [hex] at h1
      obtain ⟨rfl, rfl⟩ := Prod.mk.inj (Option.some.inj h1)
      rcases Classical.em (holds g t c i) with hh | hh
      · exact Or.inl ⟨c, o, v, rfl, hh⟩
      · refine Or.inr ⟨fun hne => ?_, (h3.record i hi hh).1⟩
        rcases h3.lock i hi with hx | hx | hx
        · rw [hx.2]; decide
        · exact absurd hx.2.1 hh
        · rw [hx.2.2]; exact hne

/-- A lock that is taken and that no core holds is not taken by anybody. -/
theorem nobody_step {t : List Label} {s s' : Conf} {l : Label} (hl : Step g s l s') {i : Nat}
    (hset : s.m.mem (lockA g i) ≠ 0) (hno : ∀ c, ¬ holds g t c i) : ∀ c, ¬ holds g (t ++ [l]) c i := by
  intro c hh
  rw [holds_snoc] at hh
  cases hl with
  | start _ _ _ => exact hno c hh
  | @done c' k v _ =>
      by_cases hc : c' = c
      · subst hc; rw [heldLabel_done_self] at hh; exact hh
      · rw [heldLabel_done_other hc] at hh; exact hno c hh
  | soft _ => exact hno c hh
  | @act c' k o f v m' hrun hex =>
      by_cases hc : c' = c
      · subst hc
        rw [heldLabel_act_self] at hh
        rcases heldStep_cases o v _ i hh with h1 | ⟨-, hv, a, rfl, ha⟩
        · exact hno c' h1
        · simp only [exec] at hex
          split at hex
          · obtain ⟨h5, -⟩ := Prod.mk.inj (Option.some.inj hex)
            rw [ha, hv] at h5
            have hb : (s.m.mem (lockA g i) != 0) = true := by simpa using hset
            rw [hb] at h5
            exact absurd h5 (by decide)
          · cases hex
      · rw [heldLabel_act_other hc] at hh; exact hno c hh

/-- C90 for all interleavings of the covered calls. -/
theorem C90_release_partial {s s' s'' : Conf} {t : List Label} {l : Label} (h : Fresh g s) (hs : Steps g s t s') (hk : OnlyCalls (CoveredC g) t)
    (hl : Step g s' l s'') : ∀ i, i < g.regions → s'.m.locked g i = true → s''.m.locked g i = false → ∃ c o v, l = .act c o v ∧ holds g t c i := by
  intro i hi h1 h2
  rcases release_step h.1.wf (good_steps h hs hk) hl hi with hh | hh
  · exact hh
  · unfold Machine.locked at h1 h2
    exact absurd (by simpa using h2) (hh.1 (by simpa using h1))

theorem kept_steps (hw : g.WF) {t t2 : List Label} {s s2 : Conf} (hg : Good g t s) (hs : Steps g s t2 s2) (hk : OnlyCalls (CoveredC g) (t ++ t2)) {i : Nat}
    (hi : i < g.regions) (hset : s.m.mem (lockA g i) ≠ 0) (hno : ∀ c, ¬ holds g t c i) :
    Good g (t ++ t2) s2 ∧ s2.m.mem (lockA g i) ≠ 0 ∧ (∀ c, ¬ holds g (t ++ t2) c i) ∧ ∀ x, RecordWord g i x → s2.m.mem x = s.m.mem x := by
  induction hs with
  | refl => rw [List.append_nil]; exact ⟨hg, hset, hno, fun _ _ => rfl⟩
  | @tail s1 s2 t2 l hs hl ih =>
      rw [← List.append_assoc] at hk ⊢
      obtain ⟨h1, h2, h3, h4⟩ := ih hk.prefix
      refine ⟨h1.step hw (fun c k m hc hkk => safe_call hw c k m hc hkk) hk hl, ?_, nobody_step hl h2 h3, ?_⟩
      · rcases release_step hw h1 hl hi with ⟨c, -, -, -, hh⟩ | hh
        · exact absurd hh (h3 c)
        · exact hh.1 h2
      · rcases release_step hw h1 hl hi with ⟨c, -, -, -, hh⟩ | hh
        · exact absurd hh (h3 c)
        · exact fun x hx => (hh.2 x hx).trans (h4 x hx)

/-- C90: a lock that is taken although no core holds it (a call kept it when it returned) stays taken in every continuation, nobody ever holds it
again, and the region's ownership record never changes again. -/
theorem C90_kept_partial {s s1 s2 : Conf} {t t2 : List Label} (h : Fresh g s) (hs : Steps g s t s1) (hs2 : Steps g s1 t2 s2)
    (hk : OnlyCalls (CoveredC g) (t ++ t2)) {i : Nat} (hi : i < g.regions) (hl : s1.m.locked g i = true) (hno : ∀ c, ¬ holds g t c i) :
    s2.m.locked g i = true ∧ (∀ c, ¬ holds g (t ++ t2) c i) ∧ ∀ x, RecordWord g i x → s2.m.mem x = s1.m.mem x := by
  unfold Machine.locked at hl
  obtain ⟨-, h2, h3, h4⟩ := kept_steps h.1.wf (good_steps h hs hk.left) hs2 hk hi (by simpa using hl) hno
  exact ⟨by unfold Machine.locked; simpa using h2, h3, h4⟩

/-! ### Histories -/

theorem kept_call (hw : g.WF) {c : Nat} (hc : c < g.cores) {k : Call} (hk : Covered g k) {m m' : Machine} {v : W} (hinv : Inv g m)
    (hr : call g c k m = some (v, m')) {i : Nat} (hi : i < g.regions) (hset : m.mem (lockA g i) ≠ 0) :
    m'.mem (lockA g i) ≠ 0 ∧ ∀ x, RecordWord g i x → m'.mem x = m.mem x := by
  rcases Classical.em (∃ e a os d, k = .copyDebugEnclavePage e a os d) with ⟨e, a, os, d, rfl⟩ | hne
  · obtain ⟨h1, -⟩ := copyDebug_top hw c e a os d hinv hk hr
    refine ⟨by rw [h1 _ (by have := lockA_lt hw hi; omega)]; exact hset, fun x hx => h1 x ?_⟩
    have h1 := ownerA_lt hw hi; have h2 := prevA_lt hw hi; have h3 := pinnedA_lt hw hi; have h4 := blockedA_lt hw hi
    rcases hx with hx | hx | hx | hx <;> omega
  · obtain ⟨t, ht, h2⟩ := call_steps (cores := fun _ => .idle) hc rfl hr
    have hcov : OnlyCalls (CoveredC g) ([.start 0 (.deleteThread 0)] ++ t) := fun c1 k1 hm => by
      rcases List.mem_append.1 hm with hm | hm
      · cases List.mem_singleton.1 hm
        exact ⟨trivial, fun _ _ _ _ h => by cases h⟩
      · obtain ⟨-, rfl⟩ := h2 c1 k1 hm
        exact ⟨hk, fun e a os d he => absurd ⟨e, a, os, d, he⟩ hne⟩
    obtain ⟨-, h3, -, h4⟩ := kept_steps hw (good_atRest hinv) ht hcov hi hset (fun _ hh => hh)
    exact ⟨h3, h4⟩

theorem kept_hist (hw : g.WF) {m m' : Machine} {l : List Event} (hh : Hist g m l m') (hv : CoveredHist g l) (hinv : Inv g m) {i : Nat} (hi : i < g.regions)
    (hset : m.mem (lockA g i) ≠ 0) : m'.mem (lockA g i) ≠ 0 ∧ ∀ x, RecordWord g i x → m'.mem x = m.mem x := by
  induction hh with
  | nil => exact ⟨hset, fun _ _ => rfl⟩
  | cons hc hcall _ ih =>
      have hk := hv _ List.mem_cons_self
      obtain ⟨h1, h2⟩ := kept_call hw hc hk hinv hcall hi hset
      obtain ⟨h3, h4⟩ := ih (fun x hx => hv x (List.mem_cons_of_mem _ hx)) (step_call hw hc hk hinv hcall).inv h1
      exact ⟨h3, fun x hx => (h4 x hx).trans (h2 x hx)⟩
  | soft hs _ ih =>
      obtain ⟨h1, h2⟩ := soft_record hw hs hi
      obtain ⟨h3, h4⟩ := ih hv (step_soft hw hinv hs).1 (by rw [h1]; exact hset)
      exact ⟨h3, fun x hx => (h4 x hx).trans (h2 x hx)⟩

/-- C90 for histories: once a lock is taken between calls, it is taken for good. Whatever covered calls follow (debug copies with any ID among them),
the region's owner, previous owner, pinned pages and block time stay what they were, and the calls that name the region report a taken lock. -/
theorem C90_lost_partial {m1 : Machine} (hb : FromBoot g m1) {l : List Event} {m2 : Machine} (hh : Hist g m1 l m2) (hv : CoveredHist g l)
    {i : Nat} (hi : i < g.regions) (hl : m2.locked g i = true) {l' : List Event} {m3 : Machine} (hh' : Hist g m2 l' m3) (hv' : CoveredHist g l') :
    m3.locked g i = true ∧ (∀ x, RecordWord g i x → m3.mem x = m2.mem x) ∧
    ∀ c, c < g.cores → ∀ r e : W, r.toNat = i →
      (∃ m', call g c (.assignDramRegion r e) m3 = some (monitorConcurrentCall, m')) ∧
      (∃ m', call g c (.freeDramRegion r) m3 = some (monitorConcurrentCall, m')) ∧
      (∃ m', call g c (.createMetadataRegion r) m3 = some (monitorConcurrentCall, m')) ∧
      (i ≠ 0 → (∃ m', call g c (.blockDramRegion r) m3 = some (monitorConcurrentCall, m')) ∧
        ∃ m', call g c (.dramRegionCheckOwnership r) m3 = some (monitorConcurrentCall, m')) ∧
      ∀ base mask : W, i = 0 → dmaCode g m3 base mask ≠ monitorOk ∧ ∃ m', call g c (.setDmaRange base mask) m3 = some (dmaCode g m3 base mask, m') := by
  have hw := hb.wf
  have hl1 := hl
  unfold Machine.locked at hl1
  obtain ⟨h1, h2⟩ := kept_hist hw hh' hv' (hist_inv hw hh hv hb.inv) hi (by simpa using hl1)
  have hlk : m3.locked g i = true := by unfold Machine.locked; simpa using h1
  refine ⟨hlk, h2, fun c hc r e hr => ?_⟩
  have hcov : CoveredHist g (l ++ l') := fun x hx => by
    rcases List.mem_append.1 hx with hx | hx
    · exact hv x hx
    · exact hv' x hx
  have hn : ¬ g.regions ≤ i := by omega
  obtain ⟨q1, q2, q3, q4, q5, -, -⟩ := C61_reachable hb (Hist.trans hh hh') hcov hc r e 0 0
  refine ⟨?_, ?_, ?_, fun h0 => ⟨?_, ?_⟩, fun base mask h0 => ?_⟩
  · unfold assignCode at q2; rw [hr, if_neg hn, if_pos hlk] at q2; exact q2
  · unfold freeCode at q3; rw [hr, if_neg hn, if_pos hlk] at q3; exact q3
  · unfold metadataCode at q4; rw [hr, if_neg hn, if_pos hlk] at q4; exact q4
  · unfold blockCode at q1; rw [hr, if_neg (by omega), if_pos hlk] at q1; exact q1
  · unfold ownershipCode at q5; rw [hr, if_neg (by omega), if_pos hlk] at q5; exact q5
  · subst h0
    obtain ⟨-, -, -, -, -, q6, -⟩ := C61_reachable hb (Hist.trans hh hh') hcov hc r e base mask
    refine ⟨?_, q6⟩
    unfold dmaCode
    split
    · decide
    · rw [if_pos (Or.inl hlk)]; decide

/-! ### The code -/

/-- After `delete_thread`, made by the OS right after boot, the lock of region 0 is taken: no DMA range can ever be set again, and no region can
be blocked by the OS. -/
example (l' : List Event) (m3 : Machine) (m2 : Machine) (h1 : call toyG 0 (.deleteThread 0) toyM = some (monitorOk, m2)) (hh : Hist toyG m2 l' m3)
    (hv : CoveredHist toyG l') : m3.locked toyG 0 = true := by
  have h2 : m2.locked toyG 0 = true := by
    have ht := deleteThread_keeps_lock
    rw [h1] at ht
    simp only [Option.map_some, Option.some.injEq, Prod.mk.injEq] at ht
    unfold Machine.locked; rw [ht.2.1]; rfl
  exact (C90_lost_partial toy_fromBoot (.cons (by set_option maxRecDepth 100000 in decide +kernel) h1 (.nil _))
    (fun x hx => by cases List.mem_singleton.1 hx; trivial) (by set_option maxRecDepth 100000 in decide +kernel) h2 hh hv).1

/-- The locks that a core holds, computed. -/
def heldNow (g : Cfg) (c i : Nat) (b : Bool) : Label → Bool
  | .act c' (.tas a) v => if c' = c then b || (decide (i < g.regions) && v == 0 && a.toNat == lockA g i) else b
  | .act c' (.store a _) _ => if c' = c then b && a.toNat != lockA g i else b
  | .done c' _ _ => if c' = c then false else b
  | _ => b

theorem heldNow_holds (t : List Label) (c i : Nat) : t.foldl (heldNow g c i) false = true ↔ holds g t c i := by
  have key : ∀ (t : List Label) (b : Bool) (H : Nat → Prop), (b = true ↔ H i) → (t.foldl (heldNow g c i) b = true ↔ t.foldl (heldLabel g c) H i) := by
    intro t
    induction t with
    | nil => exact fun b H h => h
    | cons l t ih =>
        intro b H h
        refine ih _ _ ?_
        cases l with
        | start _ _ => exact h
        | soft => exact h
        | done c' _ _ =>
            by_cases hc : c' = c
            · subst hc; rw [heldLabel_done_self]; simp [heldNow]
            · rw [heldLabel_done_other hc]; simp only [heldNow, if_neg hc]; exact h
        | act c' o v =>
            by_cases hc : c' = c
            · subst hc
              rw [heldLabel_act_self]
              cases o <;> simp only [heldNow, heldStep, if_pos] <;> first | exact h | skip
              · simp [h]
              · simp [h, and_assoc]
            · rw [heldLabel_act_other hc]
              cases o <;> simp only [heldNow, if_neg hc] <;> exact h
  exact key t false _ (by simp)

/-- Core 1 takes the lock of region 0 for `set_dma_range`; the OS on core 0 calls `accept_thread`, which fails to take that lock. -/
def strayMoves : List Move := [.start 1 (.setDmaRange 0x10000 0xfff), .go 1, .start 0 (.acceptThread 0x9000 0x1000), .go 0, .go 0, .go 0, .go 0, .go 0]

set_option maxRecDepth 100000 in
theorem stray_before : (play toyG strayMoves toyS).map (fun x => (x.1.foldl (heldNow toyG 0 0) false, x.2.m.locked toyG 0)) = some (false, true) := by decide +kernel

set_option maxRecDepth 100000 in
theorem stray_after : (play toyG strayMoves toyS).map (fun x => (playMove toyG (.go 0) x.2).map (fun y => ((match y.1 with | .act c _ _ => c == 0 | _ => false), y.2.m.locked toyG 0))) =
    some (some (true, false)) := by decide +kernel

/-- C90 is false of the code: `accept_thread` releases a lock that another core holds, when it has failed to take it. -/
theorem C90_statement_false : ∃ g s, Fresh g s ∧ ¬ C90_statement g s := by
  refine ⟨toyG, toyS, toyS_fresh, fun hst => ?_⟩
  have h1 := stray_before
  have h2 := stray_after
  cases hp : play toyG strayMoves toyS with
  | none => rw [hp] at h1; cases h1
  | some x =>
      obtain ⟨t, s'⟩ := x
      rw [hp] at h1 h2
      simp only [Option.map_some, Option.some.injEq, Prod.mk.injEq] at h1 h2
      cases hq : playMove toyG (.go 0) s' with
      | none => rw [hq] at h2; cases h2
      | some y =>
          obtain ⟨l, s''⟩ := y
          rw [hq] at h2
          simp only [Option.map_some, Option.some.injEq, Prod.mk.injEq] at h2
          obtain ⟨c, o, v, rfl, hh⟩ := hst t s' l s'' (play_steps _ hp) (playMove_step hq) 0 (by set_option maxRecDepth 100000 in decide +kernel) h1.2 h2.2
          have hc : c = 0 := by simpa using h2.1
          subst hc
          have := (heldNow_holds (g := toyG) t 0 0).2 hh
          rw [h1.1] at this
          cases this

/-- After that, core 2 takes the lock of region 0 too. -/
def bothMoves : List Move := strayMoves ++ [.go 0, .start 2 (.setDmaRange 0x10000 0xfff), .go 2]

set_option maxRecDepth 100000 in
theorem both_hold : (play toyG bothMoves toyS).map (fun x => (x.1.foldl (heldNow toyG 1 0) false, x.1.foldl (heldNow toyG 2 0) false)) = some (true, true) := by
  decide +kernel

/-- C29 is false of the code in its first part too: two cores are in the critical section of region 0 at the same time. -/
theorem C29_exclusion_false : ∃ g s t s', Fresh g s ∧ Steps g s t s' ∧ 0 < g.regions ∧ holds g t 1 0 ∧ holds g t 2 0 := by
  have h1 := both_hold
  cases hp : play toyG bothMoves toyS with
  | none => rw [hp] at h1; cases h1
  | some x =>
      obtain ⟨t, s'⟩ := x
      rw [hp] at h1
      simp only [Option.map_some, Option.some.injEq, Prod.mk.injEq] at h1
      exact ⟨toyG, toyS, t, s', toyS_fresh, play_steps _ hp, by set_option maxRecDepth 100000 in decide +kernel, (heldNow_holds t 1 0).1 h1.1, (heldNow_holds t 2 0).1 h1.2⟩

end Sanctum
