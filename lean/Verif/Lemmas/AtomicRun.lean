import Verif.Spec.Flush
import Verif.Lemmas.Basic
/-
Lemmas about the atomic specification.
-/
namespace Sanctum

variable {g : Cfg}

theorem AtomicStep.short {a a' : AtomicState} {h : List Label} (hs : AtomicStep g a h a') : h = [] ∨ ∃ l, h = [l] := by
  cases hs
  all_goals first | exact Or.inl rfl | exact Or.inr ⟨_, rfl⟩

theorem AtomicRun.one {a a' : AtomicState} {h : List Label} (hs : AtomicStep g a h a') : AtomicRun g a h a' := by
  have := AtomicRun.tail (.refl a) hs
  rwa [List.nil_append] at this

theorem AtomicRun.trans {a a1 a2 : AtomicState} {h1 h2 : List Label} (r1 : AtomicRun g a h1 a1) (r2 : AtomicRun g a1 h2 a2) : AtomicRun g a (h1 ++ h2) a2 := by
  induction r2 with
  | refl => rw [List.append_nil]; exact r1
  | tail _ hs ih => rw [← List.append_assoc]; exact .tail ih hs

/-- A run can be cut anywhere. -/
theorem AtomicRun.cut {a a2 : AtomicState} {h : List Label} (r : AtomicRun g a h a2) : ∀ {h1 h2 : List Label}, h = h1 ++ h2 →
    ∃ a1, AtomicRun g a h1 a1 ∧ AtomicRun g a1 h2 a2 := by
  induction r with
  | refl =>
      intro h1 h2 hh
      obtain ⟨rfl, rfl⟩ := List.append_eq_nil_iff.1 hh.symm
      exact ⟨_, .refl _, .refl _⟩
  | @tail s2 s3 h h' hr hs ih =>
      intro h1 h2 hh
      rcases hs.short with rfl | ⟨l, rfl⟩
      · obtain ⟨a1, q1, q2⟩ := ih (by rw [List.append_nil] at hh; exact hh)
        have := AtomicRun.tail q2 hs
        rw [List.append_nil] at this
        exact ⟨a1, q1, this⟩
      · rcases List.eq_nil_or_concat h2 with rfl | ⟨h3, l3, rfl⟩
        · rw [List.append_nil] at hh
          subst hh
          exact ⟨_, .tail hr hs, .refl _⟩
        · rw [List.concat_eq_append, ← List.append_assoc] at hh
          obtain ⟨e1, e2⟩ := List.append_inj' hh rfl
          cases e2
          obtain ⟨a1, q1, q2⟩ := ih e1
          rw [List.concat_eq_append]
          exact ⟨a1, q1, .tail q2 hs⟩

/-- The step that shows a label. -/
theorem AtomicRun.label {a a2 : AtomicState} {l : Label} (r : AtomicRun g a [l] a2) : ∃ a1 a1', AtomicRun g a [] a1 ∧ AtomicStep g a1 [l] a1' ∧ AtomicRun g a1' [] a2 := by
  generalize hh : [l] = h at r
  induction r with
  | refl => cases hh
  | @tail s2 s3 h h' hr hs ih =>
      rcases hs.short with rfl | ⟨l', rfl⟩
      · rw [List.append_nil] at hh ⊢
        obtain ⟨a1, a1', q1, q2, q3⟩ := ih hh
        have := AtomicRun.tail q3 hs
        exact ⟨a1, a1', q1, q2, this⟩
      · rcases List.eq_nil_or_concat h with rfl | ⟨h3, l3, rfl⟩
        · cases hh; exact ⟨_, _, hr, hs, .refl _⟩
        · have := congrArg List.length hh
          simp at this

/-! ### Order of the times -/

/-- Recorded flush times are at most the sampled ones, which are at most the clock. -/
def RegionTable.Ordered (s : RegionTable) : Prop := ∀ c, s.flushed c ≤ s.sampled c ∧ s.sampled c ≤ s.clock

/-- What an effect changes of the times. -/
theorem TakesEffect.times {k : Call} {s s' : RegionTable} {v : W} (h : TakesEffect g k s v s') : s'.flushed = s.flushed ∧ s'.sampled = s.sampled ∧ s.clock ≤ s'.clock := by
  have key : ∀ {x : W × RegionTable}, (v, s') = x → (x.2.flushed = s.flushed ∧ x.2.sampled = s.sampled ∧ s.clock ≤ x.2.clock) →
      s'.flushed = s.flushed ∧ s'.sampled = s.sampled ∧ s.clock ≤ s'.clock := fun {x} e q => by subst e; exact q
  have same : s.flushed = s.flushed ∧ s.sampled = s.sampled ∧ s.clock ≤ s.clock := ⟨rfl, rfl, Nat.le_refl _⟩
  cases k with
  | dramSize => exact key h same
  | dramRegionMask => exact key h same
  | metadataRegionPages => exact key h same
  | metadataRegionStart => exact key h same
  | blockDramRegion r =>
      refine key h ?_
      repeat' split
      all_goals first | exact same | exact ⟨rfl, rfl, Nat.le_succ _⟩
  | dramRegionCheckOwnership r => refine key h ?_; repeat' split
                                  all_goals exact same
  | dramRegionState r => refine key h ?_; repeat' split
                         all_goals exact same
  | dramRegionOwner r => refine key h ?_; split <;> exact same
  | setDmaRange b n => refine key h ?_; split <;> exact same
  | assignDramRegion r e => refine key h ?_; repeat' split
                            all_goals exact same
  | freeDramRegion r => refine key h ?_; repeat' split
                        all_goals exact same
  | createMetadataRegion r => refine key h ?_; repeat' split
                              all_goals exact same
  | flushCachedDramRegions => exact h.elim
  | _ => cases (show s' = s from h); exact same

theorem AtomicStep.ordered {a a' : AtomicState} {h : List Label} (hs : AtomicStep g a h a') (ho : a.table.Ordered) : a'.table.Ordered ∧ a.table.clock ≤ a'.table.clock := by
  cases hs with
  | start _ _ => exact ⟨ho, Nat.le_refl _⟩
  | effect _ he =>
      obtain ⟨h1, h2, h3⟩ := he.times
      refine ⟨fun c => ?_, h3⟩
      show _ ≤ _ ∧ _ ≤ _
      rw [h1, h2]
      exact ⟨(ho c).1, Nat.le_trans (ho c).2 h3⟩
  | busy _ _ _ _ => exact ⟨ho, Nat.le_refl _⟩
  | @sample c hc =>
      refine ⟨fun c' => ?_, Nat.le_refl _⟩
      have := ho c'
      by_cases hcc : c' = c
      · subst hcc
        show _ ≤ upd _ _ _ c' ∧ upd _ _ _ c' ≤ _
        rw [upd_same]
        exact ⟨Nat.le_trans this.1 this.2, Nat.le_refl _⟩
      · show _ ≤ upd _ _ _ c' ∧ upd _ _ _ c' ≤ _
        rw [upd_ne _ _ hcc]; exact this
  | @flush c hc =>
      refine ⟨fun c' => ?_, Nat.le_refl _⟩
      have := ho c'
      by_cases hcc : c' = c
      · subst hcc
        show upd _ _ _ c' ≤ _ ∧ _
        rw [upd_same]
        exact ⟨Nat.le_refl _, this.2⟩
      · show upd _ _ _ c' ≤ _ ∧ _
        rw [upd_ne _ _ hcc]; exact this
  | done _ => exact ⟨ho, Nat.le_refl _⟩

theorem AtomicRun.ordered {a a' : AtomicState} {h : List Label} (r : AtomicRun g a h a') (ho : a.table.Ordered) : a'.table.Ordered ∧ a.table.clock ≤ a'.table.clock := by
  induction r with
  | refl => exact ⟨ho, Nat.le_refl _⟩
  | tail _ hs ih =>
      obtain ⟨h1, h2⟩ := hs.ordered ih.1
      exact ⟨h1, Nat.le_trans ih.2 h2⟩

/-! ### A core that does not flush -/

/-- The core is not in a flush whose effect is to come. -/
def NotFlushing (p : Phase) : Prop := p ≠ .pending .flushCachedDramRegions ∧ p ≠ .flushing

theorem AtomicStep.noFlush {a a' : AtomicState} {h : List Label} {c : Nat} (hs : AtomicStep g a h a') (hc : NotFlushing (a.phase c))
    (hn : Label.start c .flushCachedDramRegions ∉ h) : NotFlushing (a'.phase c) ∧ a'.table.flushed c = a.table.flushed c := by
  cases hs with
  | @start c' k _ _ =>
      refine ⟨?_, rfl⟩
      by_cases hcc : c = c'
      · subst hcc
        show NotFlushing (upd _ _ _ c)
        rw [upd_same]
        refine ⟨fun hh => hn ?_, Phase.noConfusion⟩
        cases hh; exact List.mem_singleton.2 rfl
      · show NotFlushing (upd _ _ _ c)
        rw [upd_ne _ _ hcc]; exact hc
  | @effect c' k v table hp he =>
      refine ⟨?_, congrFun he.times.1 c⟩
      by_cases hcc : c = c'
      · subst hcc; show NotFlushing (upd _ _ _ c); rw [upd_same]; exact ⟨Phase.noConfusion, Phase.noConfusion⟩
      · show NotFlushing (upd _ _ _ c); rw [upd_ne _ _ hcc]; exact hc
  | @busy c' _ k v hp _ _ _ =>
      refine ⟨?_, rfl⟩
      by_cases hcc : c = c'
      · subst hcc; show NotFlushing (upd _ _ _ c); rw [upd_same]; exact ⟨Phase.noConfusion, Phase.noConfusion⟩
      · show NotFlushing (upd _ _ _ c); rw [upd_ne _ _ hcc]; exact hc
  | @sample c' hp =>
      have hcc : c ≠ c' := fun hh => hc.1 (hh ▸ hp)
      exact ⟨by show NotFlushing (upd _ _ _ c); rw [upd_ne _ _ hcc]; exact hc, rfl⟩
  | @flush c' hp =>
      have hcc : c ≠ c' := fun hh => hc.2 (hh ▸ hp)
      exact ⟨by show NotFlushing (upd _ _ _ c); rw [upd_ne _ _ hcc]; exact hc, upd_ne _ _ hcc⟩
  | @done c' k v hp =>
      refine ⟨?_, rfl⟩
      by_cases hcc : c = c'
      · subst hcc; show NotFlushing (upd _ _ _ c); rw [upd_same]; exact ⟨Phase.noConfusion, Phase.noConfusion⟩
      · show NotFlushing (upd _ _ _ c); rw [upd_ne _ _ hcc]; exact hc

theorem AtomicRun.noFlush {a a' : AtomicState} {h : List Label} {c : Nat} (r : AtomicRun g a h a') (hc : NotFlushing (a.phase c))
    (hn : Label.start c .flushCachedDramRegions ∉ h) : NotFlushing (a'.phase c) ∧ a'.table.flushed c = a.table.flushed c := by
  induction r with
  | refl => exact ⟨hc, rfl⟩
  | tail _ hs ih =>
      obtain ⟨h1, h2⟩ := ih (fun hh => hn (List.mem_append_left _ hh))
      obtain ⟨h3, h4⟩ := hs.noFlush h1 (fun hh => hn (List.mem_append_right _ hh))
      exact ⟨h3, h4.trans h2⟩

/-! ### Phases and observations -/

/-- The call of a phase. -/
def Phase.call : Phase → Option Call
  | .idle => none
  | .pending k => some k
  | .flushing => some .flushCachedDramRegions
  | .decided k _ => some k

theorem AtomicStep.current {a a' : AtomicState} {h : List Label} {c : Nat} (hs : AtomicStep g a h a') :
    (a'.phase c).call = h.foldl (currentLabel c) (a.phase c).call := by
  cases hs with
  | @start c' k _ _ =>
      show Phase.call (upd _ _ _ c) = if c' = c then some k else _
      by_cases hcc : c' = c
      · subst hcc; rw [upd_same, if_pos rfl]; rfl
      · rw [upd_ne _ _ (Ne.symm hcc), if_neg hcc]
  | @effect c' k v table hp he =>
      show Phase.call (upd _ _ _ c) = (a.phase c).call
      by_cases hcc : c' = c
      · subst hcc; rw [upd_same, hp]; rfl
      · rw [upd_ne _ _ (Ne.symm hcc)]
  | @busy c' _ k v hp _ _ _ =>
      show Phase.call (upd _ _ _ c) = (a.phase c).call
      by_cases hcc : c' = c
      · subst hcc; rw [upd_same, hp]; rfl
      · rw [upd_ne _ _ (Ne.symm hcc)]
  | @sample c' hp =>
      show Phase.call (upd _ _ _ c) = (a.phase c).call
      by_cases hcc : c' = c
      · subst hcc; rw [upd_same, hp]; rfl
      · rw [upd_ne _ _ (Ne.symm hcc)]
  | @flush c' hp =>
      show Phase.call (upd _ _ _ c) = (a.phase c).call
      by_cases hcc : c' = c
      · subst hcc; rw [upd_same, hp]; rfl
      · rw [upd_ne _ _ (Ne.symm hcc)]
  | @done c' k v hp =>
      show Phase.call (upd _ _ _ c) = if c' = c then none else _
      by_cases hcc : c' = c
      · subst hcc; rw [upd_same, if_pos rfl]; rfl
      · rw [upd_ne _ _ (Ne.symm hcc), if_neg hcc]

theorem AtomicRun.current {a a' : AtomicState} {h : List Label} (c : Nat) (r : AtomicRun g a h a') (hi : a.phase c = .idle) : (a'.phase c).call = current h c := by
  induction r with
  | refl => rw [hi]; rfl
  | tail _ hs ih => rw [hs.current, ih, Sanctum.current, Sanctum.current, List.foldl_append]

/-! ### Where a call takes effect -/

/-- Progress of a call that is not a flush, while no label of its core is seen. -/
theorem AtomicRun.effect {a a' : AtomicState} {h : List Label} {c : Nat} {k : Call} (hk : k ≠ .flushCachedDramRegions) (r : AtomicRun g a h a')
    (hp : a.phase c = .pending k) (hn : ∀ l ∈ h, l.core ≠ some c) :
    a'.phase c = .pending k ∨ ∃ v, a'.phase c = .decided k v ∧ (BusyAnswer k v ∨
      ∃ h1 h2 a1 a2, h = h1 ++ h2 ∧ AtomicRun g a h1 a1 ∧ TakesEffect g k a1.table v a2.table ∧ AtomicRun g a2 h2 a') := by
  induction r with
  | refl => exact Or.inl hp
  | @tail s2 s3 h h' hr hs ih =>
      have hn' : ∀ l ∈ h', l.core ≠ some c := fun l hl => hn l (List.mem_append_right _ hl)
      have old : s3.phase c = s2.phase c → s3.phase c = .pending k ∨ ∃ v, s3.phase c = .decided k v ∧ (BusyAnswer k v ∨
          ∃ h1 h2 a1 a2, h ++ h' = h1 ++ h2 ∧ AtomicRun g a h1 a1 ∧ TakesEffect g k a1.table v a2.table ∧ AtomicRun g a2 h2 s3) := fun he => by
        rcases ih (fun l hl => hn l (List.mem_append_left _ hl)) with q | ⟨v, q1, q2⟩
        · exact Or.inl (he.trans q)
        · refine Or.inr ⟨v, he.trans q1, q2.imp id ?_⟩
          rintro ⟨h1, h2, a1, a2, rfl, q3, q4, q5⟩
          exact ⟨h1, h2 ++ h', a1, a2, by rw [List.append_assoc], q3, q4, .tail q5 hs⟩
      have ih := ih (fun l hl => hn l (List.mem_append_left _ hl))
      have hs0 := hs
      cases hs with
      | @start c' k' _ _ =>
          have hcc : c ≠ c' := fun hh => hn' _ (List.mem_singleton.2 rfl) (by rw [hh]; rfl)
          exact old (upd_ne _ _ hcc)
      | @effect c' k' v table hp' he =>
          by_cases hcc : c = c'
          · subst hcc
            rcases ih with q | ⟨v', q1, -⟩
            · rw [hp'] at q; cases q
              refine Or.inr ⟨v, upd_same _ _ _, Or.inr ⟨h, [], s2, _, ?_, hr, he, .refl _⟩⟩
              rfl
            · rw [hp'] at q1; cases q1
          · exact old (upd_ne _ _ hcc)
      | @busy c' _ k' v hp' _ _ hb =>
          by_cases hcc : c = c'
          · subst hcc
            rcases ih with q | ⟨v', q1, -⟩
            · rw [hp'] at q; cases q
              exact Or.inr ⟨v, upd_same _ _ _, Or.inl hb⟩
            · rw [hp'] at q1; cases q1
          · exact old (upd_ne _ _ hcc)
      | @sample c' hp' =>
          have hcc : c ≠ c' := fun hh => by
            subst hh
            rcases ih with q | ⟨v', q1, -⟩
            · rw [hp'] at q; cases q; exact hk rfl
            · rw [hp'] at q1; cases q1
          exact old (upd_ne _ _ hcc)
      | @flush c' hp' =>
          have hcc : c ≠ c' := fun hh => by
            subst hh
            rcases ih with q | ⟨v', q1, -⟩
            · rw [hp'] at q; cases q
            · rw [hp'] at q1; cases q1
          exact old (upd_ne _ _ hcc)
      | @done c' k' v hp' =>
          have hcc : c ≠ c' := fun hh => hn' _ (List.mem_singleton.2 rfl) (by rw [hh]; rfl)
          exact old (upd_ne _ _ hcc)

/-- A call that is not a flush and not refused takes effect between its invocation and its return. -/
theorem During.effect {a a' : AtomicState} {h : List Label} {c : Nat} {k : Call} {v : W} (hk : k ≠ .flushCachedDramRegions) (hb : ¬ BusyAnswer k v)
    (hd : During c k v h) (r : AtomicRun g a h a') :
    ∃ h1 h2 a1 a2, h = h1 ++ h2 ∧ AtomicRun g a h1 a1 ∧ TakesEffect g k a1.table v a2.table ∧ AtomicRun g a2 h2 a' := by
  obtain ⟨mid, rfl, hm⟩ := hd
  obtain ⟨b1, r1, r2⟩ := r.cut (h1 := [Label.start c k]) (h2 := mid ++ [Label.done c k v]) rfl
  obtain ⟨b2, r3, r4⟩ := r2.cut rfl
  obtain ⟨d1, d2, q1, q2, q3⟩ := r1.label
  obtain ⟨e1, e2, z1, z2, z3⟩ := r4.label
  cases q2 with
  | start hlt hidle =>
      have hrun := (q3.trans r3).trans z1
      rw [List.nil_append, List.append_nil] at hrun
      cases z2 with
      | done hdec =>
          rcases AtomicRun.effect hk hrun (upd_same _ _ _) hm with q | ⟨v', w1, w2⟩
          · rw [hdec] at q; cases q
          · rw [hdec] at w1; cases w1
            rcases w2 with w2 | ⟨h1, h2, a1, a2, rfl, w3, w4, w5⟩
            · exact absurd w2 hb
            · refine ⟨Label.start c k :: h1, h2 ++ [Label.done c k v], a1, a2, by simp, ?_, w4, ?_⟩
              · have := q1.trans ((AtomicRun.one (AtomicStep.start (k := k) hlt hidle)).trans w3)
                exact this
              · have := (w5.trans (AtomicRun.one (AtomicStep.done hdec))).trans z3
                rw [List.append_nil] at this
                exact this

end Sanctum
