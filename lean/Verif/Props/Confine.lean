import Verif.Lemmas.ConfineCalls2
import Verif.Lemmas.Play
import Verif.Props.Enclave
/-
C52, C53, C54: what the monitor's code may access, write, and depend on, in every interleaving.
-/
namespace Sanctum
open Machine

variable {g : Cfg}

theorem goodC_steps {s s' : Conf} {t : List Label} (h : Fresh g s) (hs : Steps g s t s') (hk : OnlyCalls (CoveredC g) t) : GoodC g t s' := by
  have hw := h.1.wf
  induction hs with
  | refl => intro c k p hc; rw [h.2 c] at hc; cases hc
  | @tail s1 s2 t l hs hl ih =>
      exact GoodC.step hw (fun c k hc hkk hcf => conf_call hw c k hc hkk hcf) (good_steps h hs hk.prefix) (ih hk.prefix) hk hl

/-! ### C52 -/

/-- C52, in full. -/
def C52_statement (g : Cfg) (s : Conf) : Prop := ∀ t s', Steps g s t s' → ∀ c o v s'' k, Step g s' (.act c o v) s'' → current t c = some k →
  ∀ x, o.accesses g x → MayAccess g (holds g t c) s'.m k x

/-- C52 for confined calls: every access by monitor code is to the monitor's memory, to the pages of a debug copy, or to a region
that is a metadata region at that moment and whose lock the core holds. -/
theorem C52_confinement_partial {s s' : Conf} {t : List Label} (h : Fresh g s) (hs : Steps g s t s') (hk : OnlyCalls (CoveredC g) t)
    {c : Nat} {o : Op} {v : W} {s'' : Conf} {k : Call} (hst : Step g s' (.act c o v) s'') (hcur : current t c = some k) (hcf : Confined g k) :
    ∀ x, o.accesses g x → MayAccess g (holds g t c) s'.m k x := by
  have hg := goodC_steps h hs hk
  cases hst with
  | act hrun hex =>
      rcases current_steps h.2 hs c with ⟨h5, h6⟩ | ⟨k', p', h5, h6⟩
      · rw [hcur] at h6; cases h6
      · rw [hcur] at h6; cases h6
        rw [hrun] at h5; cases h5
        obtain ⟨T, h1, h2⟩ := hg c k _ hrun hcf
        intro x hx
        rcases h1.1 x hx with q | q | q
        · exact Or.inl q
        · exact Or.inr (Or.inl q)
        · exact Or.inr (Or.inr ⟨(h2 _ q).2.1, (h2 _ q).2.2⟩)

/-! ### C53 -/

/-- C53, in full: steps of the monitor change no word outside its own memory, outside metadata regions, and outside the pages of
a debug copy. -/
def C53_statement (g : Cfg) (s : Conf) : Prop := ∀ t s', Steps g s t s' → ∀ c o v s'' k, Step g s' (.act c o v) s'' → current t c = some k →
  ∀ x, g.monitorTop.toNat ≤ x → ¬ ArgWord k x → s'.m.owner g (regionOf g x) ≠ metadataEnclaveId → s''.m.mem x = s'.m.mem x

/-- C53 for confined calls; and of the regions that are metadata only those whose lock the core holds change. -/
theorem C53_integrity_partial {s s' : Conf} {t : List Label} (h : Fresh g s) (hs : Steps g s t s') (hk : OnlyCalls (CoveredC g) t)
    {c : Nat} {o : Op} {v : W} {s'' : Conf} {k : Call} (hst : Step g s' (.act c o v) s'') (hcur : current t c = some k) (hcf : Confined g k) :
    ∀ x, g.monitorTop.toNat ≤ x → ¬ ArgWord k x → (s'.m.owner g (regionOf g x) ≠ metadataEnclaveId ∨ ¬ holds g t c (regionOf g x)) →
      s''.m.mem x = s'.m.mem x := by
  intro x h1 h2 h3
  have hc := C52_confinement_partial h hs hk hst hcur hcf
  cases hst with
  | act hrun hex =>
      refine exec_mutates hex fun hm => ?_
      rcases hc x (Op.mutates_accesses hm) with q | q | q
      · omega
      · exact h2 q
      · exact h3.elim (fun hh => hh q.2) fun hh => hh q.1

/-! ### C54 -/

/-- An action whose accessed words are the same in two machines does the same in both. -/
theorem exec_same {c : Nat} {o : Op} {m m' m2 : Machine} {v : W} (he : exec g c o m = some (v, m')) (hx : ∀ x, o.accesses g x → m2.mem x = m.mem x)
    (hr : { m2 with mem := m.mem } = m) :
    ∃ m2', exec g c o m2 = some (v, m2') ∧ (∀ x, m2.mem x = m.mem x → m2'.mem x = m'.mem x) ∧ { m2' with mem := m'.mem } = m' := by
  obtain ⟨mem2, d1, d2, d3, d4, d5, d6, d7, d8, d9, d10⟩ := m2
  obtain ⟨mem, e1, e2, e3, e4, e5, e6, e7, e8, e9, e10⟩ := m
  simp only [Machine.mk.injEq, true_and] at hr
  obtain ⟨rfl, rfl, rfl, rfl, rfl, rfl, rfl, rfl, rfl, rfl⟩ := hr
  have hupd : ∀ (a : Nat) (w w2 : W), w2 = w → ∀ x, mem2 x = mem x → upd mem2 a w2 x = upd mem a w x := by
    intro a w w2 hw x hx
    subst hw
    unfold upd
    split
    · rfl
    · exact hx
  cases o <;> simp only [exec] at he ⊢ <;> simp only [Op.accesses] at hx
  case load a => have h1 := hx _ rfl; split at he <;> cases he; rw [if_pos ‹_›]; exact ⟨_, by rw [h1], fun x h => h, rfl⟩
  case load32 a => have h1 := hx _ rfl; split at he <;> cases he; rw [if_pos ‹_›]; exact ⟨_, by rw [h1], fun x h => h, rfl⟩
  case store a w => split at he <;> cases he; rw [if_pos ‹_›]; exact ⟨_, rfl, hupd _ _ _ rfl, rfl⟩
  case store32 a w => have h1 := hx _ rfl; split at he <;> cases he; rw [if_pos ‹_›]; exact ⟨_, rfl, hupd _ _ _ (by rw [h1]), rfl⟩
  case tas a => have h1 := hx _ rfl; split at he <;> cases he; rw [if_pos ‹_›]; exact ⟨_, by rw [h1], hupd _ _ _ rfl, rfl⟩
  case fetchAdd a w => have h1 := hx _ rfl; split at he <;> cases he; rw [if_pos ‹_›]; exact ⟨_, by rw [h1], hupd _ _ _ rfl, rfl⟩
  all_goals cases he; exact ⟨_, rfl, fun x h => h, rfl⟩

theorem StepsIn.steps {P : Conf → Prop} {s s' : Conf} {t : List Label} (h : StepsIn g P s t s') : Steps g s t s' := by
  induction h with
  | refl _ => exact .refl _
  | tail _ hl _ ih => exact .tail ih hl

theorem StepsIn.last {P : Conf → Prop} {s s' : Conf} {t : List Label} (h : StepsIn g P s t s') : P s' := by
  cases h with
  | refl h => exact h
  | tail _ _ h => exact h

/-- C54, in full: as long as region `r` is no metadata region and no debug copy names its pages, nothing the monitor does depends on the
contents of region `r`: with any other contents the same interleaving is possible, with the same responses and results, and it ends
in the same configuration up to the contents of `r`. -/
def C54_statement (g : Cfg) (s : Conf) : Prop := ∀ r t s', StepsIn g (fun s => s.m.owner g r ≠ metadataEnclaveId) s t s' →
  OnlyCalls (fun k => ∀ x, ArgWord k x → x < g.monitorTop.toNat ∨ regionOf g x ≠ r) t →
  ∀ s2, SameBut g r s s2 → ∃ s2', Steps g s2 t s2' ∧ SameBut g r s' s2'

/-- C54 for confined calls. -/
theorem C54_noninterference_partial {s s' : Conf} {t : List Label} {r : Nat} (h : Fresh g s)
    (hs : StepsIn g (fun s => s.m.owner g r ≠ metadataEnclaveId) s t s') (hk : OnlyCalls (CoveredC g) t) (hcf : OnlyCalls (Confined g) t)
    (harg : OnlyCalls (fun k => ∀ x, ArgWord k x → x < g.monitorTop.toNat ∨ regionOf g x ≠ r) t) {s2 : Conf} (h2 : SameBut g r s s2) :
    ∃ s2', Steps g s2 t s2' ∧ SameBut g r s' s2' := by
  induction hs with
  | refl _ => exact ⟨s2, .refl _, h2⟩
  | @tail s1 s3 t l hs hl hP ih =>
      obtain ⟨sa, h3, h4⟩ := ih hk.prefix hcf.prefix harg.prefix
      have hst := hs.steps
      have hP1 := hs.last
      have hcores := h4.cores
      cases hl with
      | @start c k hlt hidle =>
          refine ⟨_, h3.tail (Step.start (c := c) k hlt (by rw [hcores]; exact hidle)), ⟨?_, h4.mem, h4.rest⟩⟩
          show upd sa.cores c _ = upd s1.cores c _
          rw [hcores]
      | @act c k o f v m' hrun hex =>
          rcases current_steps h.2 hst c with ⟨h5, h6⟩ | ⟨k', p', h5, h6⟩
          · rw [hrun] at h5; cases h5
          · rw [hrun] at h5; cases h5
            obtain ⟨t1, t2, ht⟩ := ((good_steps h hst hk.prefix).safe c k _ hrun).2.2.1
            have hin : Label.start c k ∈ t := by rw [ht]; exact List.mem_append_right _ List.mem_cons_self
            have hin2 : Label.start c k ∈ t ++ [Label.act c o v] := List.mem_append_left _ hin
            have hacc := C52_confinement_partial h hst hk.prefix (Step.act hrun hex) h6 (hcf c k hin2)
            obtain ⟨m2', q1, q2, q3⟩ := exec_same hex (m2 := sa.m) (fun x hx => by
              refine h4.mem x ?_
              rcases hacc x hx with q | q | q
              · exact Or.inl q
              · exact harg c k hin2 x q
              · exact Or.inr fun hh => hP1 (by rw [← hh]; exact q.2)) h4.rest
            refine ⟨_, h3.tail (Step.act (c := c) (by rw [hcores]; exact hrun) q1), ⟨?_, fun x hx => q2 x (h4.mem x hx), q3⟩⟩
            show upd sa.cores c _ = upd s1.cores c _
            rw [hcores]
      | @done c k v hrun =>
          refine ⟨_, h3.tail (Step.done (c := c) (k := k) (v := v) (by rw [hcores]; exact hrun)), ⟨?_, h4.mem, h4.rest⟩⟩
          show upd sa.cores c _ = upd s1.cores c _
          rw [hcores]
      | @soft m' hsoft =>
          obtain ⟨a, w, ha, rfl⟩ := hsoft
          refine ⟨_, h3.tail (Step.soft (s := sa) ⟨a, w, ha, rfl⟩), ⟨hcores, ?_, ?_⟩⟩
          · intro x hx
            show upd sa.m.mem a w x = upd s1.m.mem a w x
            unfold upd
            split
            · rfl
            · exact h4.mem x hx
          · have := h4.rest
            obtain ⟨⟨mem2, d1, d2, d3, d4, d5, d6, d7, d8, d9, d10⟩, cc⟩ := sa
            obtain ⟨⟨mem, e1, e2, e3, e4, e5, e6, e7, e8, e9, e10⟩, cc'⟩ := s1
            simp only [Machine.mk.injEq, true_and] at this ⊢
            exact this

/-! ### Concrete interleavings -/

/-- Plays a schedule in which every configuration satisfies `b`. -/
def playIn (g : Cfg) (b : Conf → Bool) : List Move → Conf → Option (List Label × Conf)
  | [], s => if b s then some ([], s) else none
  | x :: xs, s =>
      if b s then
        match playMove g x s with
        | some (l, s') => (playIn g b xs s').map (fun y => (l :: y.1, y.2))
        | none => none
      else none

theorem StepsIn.head {P : Conf → Prop} {s s1 s2 : Conf} {l : Label} {t : List Label} (hP : P s) (h1 : Step g s l s1) (h2 : StepsIn g P s1 t s2) :
    StepsIn g P s (l :: t) s2 := by
  induction h2 with
  | refl h => exact .tail (t := []) (.refl _ hP) h1 h
  | tail _ hl h ih => exact .tail ih hl h

theorem playIn_steps {b : Conf → Bool} (xs : List Move) : ∀ {s s' : Conf} {t : List Label}, playIn g b xs s = some (t, s') →
    StepsIn g (fun s => b s = true) s t s' ∧ play g xs s = some (t, s') := by
  induction xs with
  | nil =>
      intro s s' t h
      rw [playIn] at h
      split at h
      · cases h; exact ⟨.refl _ ‹_›, rfl⟩
      · cases h
  | cons x xs ih =>
      intro s s' t h
      rw [playIn] at h
      split at h
      · rename_i hb
        split at h
        · rename_i l s1 hm
          cases hr : playIn g b xs s1 with
          | none => rw [hr] at h; cases h
          | some y =>
              rw [hr] at h
              cases h
              obtain ⟨h1, h2⟩ := ih hr
              refine ⟨.head hb (playMove_step hm) h1, ?_⟩
              rw [play, hm]
              show (play g xs s1).map _ = _
              rw [h2]; rfl
        · cases h
      · cases h

theorem StepsIn.mono {P P' : Conf → Prop} (h : ∀ s, P s → P' s) {s s' : Conf} {t : List Label} (hs : StepsIn g P s t s') : StepsIn g P' s t s' := by
  induction hs with
  | refl hp => exact .refl _ (h _ hp)
  | tail _ hl hp ih => exact .tail ih hl (h _ hp)

/-- Region 1 is not a metadata region. -/
def notMeta1 (s : Conf) : Bool := s.m.owner toyG 1 != metadataEnclaveId

/-- The race for region 1, a TLB flush, and a debug copy from region 2 to region 3. -/
def confMoves : List Move := raceMoves ++ [.start 0 .flushCachedDramRegions] ++ List.replicate 5 (.go 0) ++
  [.start 1 (.copyDebugEnclavePage 0 0x10000 0x18000 true)] ++ List.replicate 1033 (.go 1)

set_option maxRecDepth 100000 in
theorem conf_plays : (playIn toyG notMeta1 confMoves toyS).map (fun x => results x.1) =
    some [(1, monitorConcurrentCall), (2, nullEnclaveId), (0, monitorOk), (0, monitorOk), (1, monitorOk)] := by decide +kernel

theorem conf_calls : ∀ c k, Move.start c k ∈ confMoves → CoveredC toyG k ∧ Confined toyG k ∧
    ∀ x, ArgWord k x → x < toyG.monitorTop.toNat ∨ regionOf toyG x ≠ 1 := by
  intro c k hk
  unfold confMoves at hk
  simp only [List.mem_append, List.mem_singleton, Move.start.injEq] at hk
  rcases hk with (((hk | ⟨-, rfl⟩) | hk) | ⟨-, rfl⟩) | hk
  · have h1 := (race_calls c k hk).1
    simp only [raceMoves, List.replicate, List.cons_append, List.nil_append, List.mem_cons, Move.start.injEq, reduceCtorEq, false_or, or_false,
      List.not_mem_nil] at hk
    rcases hk with ⟨_, rfl⟩ | ⟨_, rfl⟩ | ⟨_, rfl⟩
    all_goals exact ⟨h1, trivial, fun x hx => hx.elim⟩
  · exact ⟨⟨trivial, fun _ _ _ _ hh => by cases hh⟩, trivial, fun x hx => hx.elim⟩
  · rw [List.mem_replicate] at hk; cases hk.2
  · refine ⟨⟨Or.inr (by set_option maxRecDepth 100000 in decide +kernel), ?_⟩, rfl, fun x hx => Or.inr ?_⟩
    · rintro e a os d hh
      cases hh
      exact fun hh => absurd rfl hh
    · have hs : 2 ^ (12 + toyG.sp) = 0x8000 ∧ 2 ^ toyG.rb = 8 := by set_option maxRecDepth 100000 in decide +kernel
      have hx : (0x10000 ≤ x ∧ x < 0x10000 + 4096) ∨ (0x18000 ≤ x ∧ x < 0x18000 + 4096) := hx
      unfold regionOf
      rw [hs.1, hs.2]
      omega
  · rw [List.mem_replicate] at hk; cases hk.2

/-- The hypotheses of C52, C53 and C54 are met by this interleaving, with any contents of region 1. -/
example : ∃ t s', Fresh toyG toyS ∧ StepsIn toyG (fun s => s.m.owner toyG 1 ≠ metadataEnclaveId) toyS t s' ∧ OnlyCalls (CoveredC toyG) t ∧
    OnlyCalls (Confined toyG) t ∧ OnlyCalls (fun k => ∀ x, ArgWord k x → x < toyG.monitorTop.toNat ∨ regionOf toyG x ≠ 1) t ∧
    SameBut toyG 1 toyS { toyS with m := { toyM with mem := upd toyM.mem 0x9018 5 } } ∧
    results t = [(1, monitorConcurrentCall), (2, nullEnclaveId), (0, monitorOk), (0, monitorOk), (1, monitorOk)] := by
  have h := conf_plays
  cases hp : playIn toyG notMeta1 confMoves toyS with
  | none => rw [hp] at h; cases h
  | some x =>
      rw [hp] at h
      obtain ⟨h1, h2⟩ := playIn_steps (t := x.1) (s' := x.2) confMoves hp
      have hc := play_onlyCalls confMoves conf_calls h2
      refine ⟨x.1, x.2, toyS_fresh, h1.mono (fun s hs => bne_iff_ne.1 hs), hc.mono (fun _ h => h.1), hc.mono (fun _ h => h.2.1), hc.mono (fun _ h => h.2.2), ?_,
        Option.some.inj h⟩
      refine ⟨rfl, fun x hx => ?_, rfl⟩
      have hs : 2 ^ (12 + toyG.sp) = 0x8000 ∧ 2 ^ toyG.rb = 8 ∧ toyG.monitorTop.toNat ≤ 0x9000 := by set_option maxRecDepth 100000 in decide +kernel
      refine upd_ne _ _ ?_
      rintro rfl
      unfold regionOf at hx
      rw [hs.1, hs.2.1] at hx
      rcases hx with hx | hx
      · omega
      · exact hx rfl

/-! ### The full statements are false of the code -/

/-- The calls that create an enclave at 0x9000 in region 1. -/
def leakPrep : List (Nat × Call) := prepCalls ++ [(0, .createEnclave 0x9000 0 4095 0 true)]

/-- While core 0 is in `assign_thread`, between the two critical sections, core 1 frees the enclave's metadata region and hands it to the OS. -/
def leakMoves : List Move := [.start 0 (.assignThread 0x9000 0xa000)] ++ List.replicate 5 (.go 0) ++ [.start 1 (.freeDramRegion 1)] ++ List.replicate 6 (.go 1) ++
  [.start 1 (.assignDramRegion 1 0)] ++ List.replicate 12 (.go 1) ++ List.replicate 3 (.go 0)

/-- The store core `c` makes next, if it is making call `k`. -/
def nextStore (s : Conf) (c : Nat) (k : Call) : Option (W × W) := match s.cores c with
  | .running k' (.op (.store a v) _) => if k' = k then some (a, v) else none
  | _ => none

set_option maxRecDepth 100000 in
theorem leak_runs : (runCalls toyG leakPrep toyM).isSome = true := by decide +kernel

set_option maxRecDepth 100000 in
theorem leak_plays : (play toyG leakMoves ⟨(after toyG leakPrep toyM).2, fun _ => .idle⟩).map (fun x => (results x.1, x.2.m.owner toyG 1, x.2.m.mem 0x9000, nextStore x.2 0 (.assignThread 0x9000 0xa000))) =
    some ([(1, monitorOk), (1, monitorOk)], nullEnclaveId, 1, some (0x9000, 0)) := by decide +kernel

/-- `assign_thread` writes to a region that belongs to the OS: it uses the enclave's record after it released the lock of the region. -/
theorem leak_race : ∃ t s' s'', Steps toyG toyS t s' ∧ OnlyCalls (CoveredC toyG) t ∧ current t 0 = some (.assignThread 0x9000 0xa000) ∧
    Step toyG s' (.act 0 (.store 0x9000 0) 0) s'' ∧ s'.m.owner toyG (regionOf toyG 0x9000) = nullEnclaveId ∧ s'.m.mem 0x9000 = 1 ∧ s''.m.mem 0x9000 = 0 := by
  have hh := hist_after leak_runs (by set_option maxRecDepth 100000 in decide +kernel)
  obtain ⟨t1, ht1, hc1⟩ := hist_steps hh (cores := fun _ => .idle) (fun _ => rfl)
  have hmeta : toyG.MetaOk := ⟨toy_wf, toy_single, toy_shiftOk⟩
  have h := leak_plays
  cases hp : play toyG leakMoves ⟨(after toyG leakPrep toyM).2, fun _ => .idle⟩ with
  | none => rw [hp] at h; cases h
  | some x =>
      obtain ⟨t2, s'⟩ := x
      rw [hp] at h
      simp only [Option.map_some, Option.some.injEq, Prod.mk.injEq] at h
      obtain ⟨-, h2, h3, h4⟩ := h
      have hsteps : Steps toyG toyS (t1 ++ t2) s' := Steps.trans ht1 (play_steps _ hp)
      have hreg : regionOf toyG 0x9000 = 1 := by set_option maxRecDepth 100000 in decide +kernel
      unfold nextStore at h4
      split at h4
      · rename_i k a v f hrun
        split at h4 <;> cases h4
        rename_i hk
        rw [hk] at hrun
        have hok : okAddr toyG 0x9000 = true := by set_option maxRecDepth 100000 in decide +kernel
        have hex : exec toyG 0 (.store 0x9000 0) s'.m = some (0, { s'.m with mem := upd s'.m.mem (0x9000 : W).toNat 0 }) := by
          simp only [exec, if_pos hok]
        refine ⟨t1 ++ t2, s', _, hsteps, ?_, ?_, Step.act hrun hex, ?_, h3, ?_⟩
        · intro c k hk
          rcases List.mem_append.1 hk with hk | hk
          · obtain ⟨v, hv⟩ := hc1 c k hk
            have hcov : ∀ y ∈ leakPrep, CoveredC toyG y.2 := by
              intro y hy
              simp only [leakPrep, prepCalls, List.cons_append, List.nil_append, List.mem_cons, List.not_mem_nil, or_false] at hy
              rcases hy with rfl | rfl | rfl | rfl | rfl | rfl | rfl | rfl
              all_goals first
                | exact ⟨trivial, fun _ _ _ _ hh => by cases hh⟩
                | exact ⟨⟨hmeta.single, hmeta.shift⟩, fun _ _ _ _ hh => by cases hh⟩
            unfold events at hv
            have key : ∀ (l1 : List (Nat × Call)) (l2 : List W), (⟨c, k, v⟩ : Event) ∈ List.zipWith (fun y v => (⟨y.1, y.2, v⟩ : Event)) l1 l2 →
                (c, k) ∈ l1 := by
              intro l1
              induction l1 with
              | nil => intro l2 hh; simp at hh
              | cons a l1 ih =>
                  intro l2 hh
                  cases l2 with
                  | nil => simp at hh
                  | cons b l2 =>
                      rw [List.zipWith_cons_cons] at hh
                      rcases List.mem_cons.1 hh with hh | hh
                      · cases hh; exact List.mem_cons_self
                      · exact List.mem_cons_of_mem _ (ih l2 hh)
            exact hcov _ (key _ _ hv)
          · refine play_onlyCalls leakMoves ?_ hp c k hk
            intro c k hk
            simp only [leakMoves, List.replicate, List.cons_append, List.nil_append, List.mem_cons, Move.start.injEq, reduceCtorEq, false_or, or_false,
              List.not_mem_nil] at hk
            rcases hk with ⟨_, rfl⟩ | ⟨_, rfl⟩ | ⟨_, rfl⟩
            all_goals first
              | exact ⟨trivial, fun _ _ _ _ hh => by cases hh⟩
              | exact ⟨⟨hmeta.single, hmeta.shift⟩, fun _ _ _ _ hh => by cases hh⟩
        · rcases current_steps (s := toyS) (fun _ => rfl) hsteps 0 with ⟨h5, -⟩ | ⟨k', p', h5, h6⟩
          · rw [hrun] at h5; cases h5
          · rw [hrun] at h5; cases h5; exact h6
        · rw [hreg]; exact h2
        · exact upd_same s'.m.mem 0x9000 0
      · cases h4

/-- C52 is false of the code. -/
theorem C52_statement_false : ∃ g s, Fresh g s ∧ ¬ C52_statement g s := by
  refine ⟨toyG, toyS, toyS_fresh, fun hst => ?_⟩
  obtain ⟨t, s', s'', h1, -, h3, h4, h5, h6, h7⟩ := leak_race
  have hlt : ¬ 0x9000 < toyG.monitorTop.toNat := by set_option maxRecDepth 100000 in decide +kernel
  rcases hst t s' h1 0 _ _ s'' _ h4 h3 0x9000 rfl with q | q | q
  · exact hlt q
  · exact q
  · rw [h5] at q; exact absurd q.2 (by decide)

/-- C53 is false of the code. -/
theorem C53_statement_false : ∃ g s, Fresh g s ∧ ¬ C53_statement g s := by
  refine ⟨toyG, toyS, toyS_fresh, fun hst => ?_⟩
  obtain ⟨t, s', s'', h1, -, h3, h4, h5, h6, h7⟩ := leak_race
  have hlt : ¬ 0x9000 < toyG.monitorTop.toNat := by set_option maxRecDepth 100000 in decide +kernel
  have := hst t s' h1 0 _ _ s'' _ h4 h3 0x9000 (by omega) (fun q => q) (by rw [h5]; decide)
  rw [h6, h7] at this
  exact absurd this (by decide)

/-- The configuration after a label, if the label fits; ignores stores by software. -/
def replay1 (g : Cfg) (s : Conf) (l : Label) : Option Conf :=
  match l with
  | .start c k => some { s with cores := upd s.cores c (.running k (k.prog g)) }
  | .act c _ v =>
      match s.cores c with
      | .running k (.op o f) =>
          match exec g c o s.m with
          | some (v', m') => if v' = v then some { m := m', cores := upd s.cores c (.running k (f v)) } else none
          | none => none
      | _ => none
  | .done c _ _ => some { s with cores := upd s.cores c .idle }
  | .soft => none

theorem replay_steps {s s' : Conf} {t : List Label} (h : Steps g s t s') (hn : Label.soft ∉ t) : t.foldlM (replay1 g) s = some s' := by
  induction h with
  | refl => rfl
  | @tail s1 s2 t l _ hl ih =>
      rw [List.foldlM_append, ih fun hh => hn (List.mem_append_left _ hh)]
      show List.foldlM (replay1 g) s1 [l] = some s2
      rw [List.foldlM_cons]
      have : replay1 g s1 l = some s2 := by
        cases hl with
        | start => rfl
        | act hrun hex => simp only [replay1, hrun, hex, if_true]
        | done => rfl
        | soft => exact absurd (List.mem_append_right _ (List.mem_singleton.2 rfl)) hn
      rw [this]; rfl

/-- A debug copy whose ID points into a free page of region 1. -/
def peekMoves : List Move := [.start 0 (.copyDebugEnclavePage 0x9000 0x10000 0x18000 true)] ++ List.replicate 9 (.go 0)

/-- The toy machine with a different word in region 1. -/
def peekS : Conf := ⟨{ toyM with mem := upd toyM.mem 0x9018 5 }, fun _ => .idle⟩

/-- Is the step a store by software? -/
def Label.isSoft : Label → Bool
  | .soft => true
  | _ => false

set_option maxRecDepth 100000 in
theorem peek_plays : (playIn toyG notMeta1 peekMoves toyS).map (fun x => (results x.1, x.1.any Label.isSoft, (x.1.foldlM (replay1 toyG) peekS).isNone)) =
    some ([(0, monitorInvalidState)], false, true) := by decide +kernel

/-- C54 is false of the code: debug copies read a word of the page that is given as ID before the ID is checked, and their result tells
whether it is zero. -/
theorem C54_statement_false : ∃ g s, Fresh g s ∧ ¬ C54_statement g s := by
  refine ⟨toyG, toyS, toyS_fresh, fun hst => ?_⟩
  have hs : 2 ^ (12 + toyG.sp) = 0x8000 ∧ 2 ^ toyG.rb = 8 ∧ toyG.monitorTop.toNat ≤ 0x9000 := by set_option maxRecDepth 100000 in decide +kernel
  have h := peek_plays
  cases hp : playIn toyG notMeta1 peekMoves toyS with
  | none => rw [hp] at h; cases h
  | some x =>
      obtain ⟨t, s'⟩ := x
      rw [hp] at h
      simp only [Option.map_some, Option.some.injEq, Prod.mk.injEq] at h
      obtain ⟨-, h2, h3⟩ := h
      obtain ⟨q1, q2⟩ := playIn_steps peekMoves hp
      have harg : OnlyCalls (fun k => ∀ x, ArgWord k x → x < toyG.monitorTop.toNat ∨ regionOf toyG x ≠ 1) t := by
        refine play_onlyCalls peekMoves ?_ q2
        intro c k hk x hx
        simp only [peekMoves, List.replicate, List.cons_append, List.nil_append, List.mem_cons, Move.start.injEq, reduceCtorEq, or_false,
          List.not_mem_nil] at hk
        obtain ⟨-, rfl⟩ := hk
        have hx : (0x10000 ≤ x ∧ x < 0x10000 + 4096) ∨ (0x18000 ≤ x ∧ x < 0x18000 + 4096) := hx
        right
        unfold regionOf
        rw [hs.1, hs.2.1]
        omega
      obtain ⟨s2', h4, -⟩ := hst 1 t s' (q1.mono fun s hs => bne_iff_ne.1 hs) harg peekS ⟨rfl, fun x hx => by
        refine upd_ne _ _ ?_
        rintro rfl
        unfold regionOf at hx
        rw [hs.1, hs.2.1] at hx
        rcases hx with hx | hx
        · omega
        · exact hx rfl, rfl⟩
      rw [replay_steps h4 (fun hh => by
        have : t.any Label.isSoft = true := List.any_eq_true.2 ⟨_, hh, rfl⟩
        rw [h2] at this; cases this)] at h3
      cases h3

end Sanctum
