import Verif.Lemmas.TsoSound
/-
Store buffers (C79).
-/
namespace Sanctum
open Machine

variable {g : Cfg}

/-! ### C79 -/

/-- C79, in full: with store buffers, cores cannot tell (calls, actions and results are those of an interleaving), and once the stores
that wait have reached memory, which can happen at any time, so does the interleaving's memory. -/
def C79_statement (g : Cfg) (s : Conf) : Prop := ∀ t τ, TSteps g s.settled t τ → ∃ s', Steps g s t s' ∧ s'.cores = τ.cores ∧ TSteps g τ [] s'.settled

/-- Each execution with store buffers follows an interleaving. -/
theorem goodT_steps {s : Conf} {t : List Label} {τ : TConf} (h0 : Fresh g s) (ht : TSteps g s.settled t τ)
    (hk : OnlyCalls (fun k => CoveredC g k ∧ Orderly k) t) : ∃ s', Steps g s t s' ∧ GoodT g t τ s' := by
  generalize hτ : s.settled = τ0 at ht
  induction ht with
  | refl => subst hτ; exact ⟨s, .refl s, GoodT.start_ h0⟩
  | @tail τ2 τ3 t l h1 h2 ih =>
      obtain ⟨s1, q1, q2⟩ := ih hk.prefix
      obtain ⟨s2, p1, p2⟩ := q2.step h0 q1 hk h2
      exact ⟨s2, .tail q1 p1, p2⟩
  | @drain τ2 τ3 t h1 h2 ih =>
      obtain ⟨s1, q1, q2⟩ := ih hk
      exact ⟨s1, q1, q2.drain h0.1.wf (good_steps h0 q1 (racing_covered hk)) h2⟩

/-- The stores that wait in one core's buffer can reach memory, the oldest first. -/
theorem drain_one {τ0 τ : TConf} (c : Nat) (h0 : TSteps g τ0 [] τ) : ∃ τ', TSteps g τ0 [] τ' ∧ τ'.bufs c = [] ∧ ∀ c', c' ≠ c → τ'.bufs c' = τ.bufs c' := by
  generalize hn : τ.bufs c = b
  induction b generalizing τ with
  | nil => exact ⟨τ, h0, hn, fun _ _ => rfl⟩
  | cons o os ih =>
      have hd : TStep g τ none { τ with m := perform g c τ.m o, bufs := upd τ.bufs c os } :=
        TStep.drain (os := []) (os' := os) hn (fun o' ho' => by cases ho')
      obtain ⟨τ', q1, q2, q3⟩ := ih (.drain h0 hd) (upd_same _ _ _)
      exact ⟨τ', q1, q2, fun c' hc => (q3 c' hc).trans (upd_ne _ _ hc)⟩

theorem drain_all {τ0 τ : TConf} (h0 : TSteps g τ0 [] τ) : ∀ n, (∀ c, n ≤ c → τ.bufs c = []) → ∃ τ', TSteps g τ0 [] τ' ∧ ∀ c, τ'.bufs c = [] := by
  intro n
  induction n generalizing τ with
  | zero => exact fun h => ⟨τ, h0, fun c => h c (Nat.zero_le c)⟩
  | succ n ih =>
      intro h
      obtain ⟨τ', q1, q2, q3⟩ := drain_one n h0
      refine ih q1 fun c hc => ?_
      by_cases hcn : c = n
      · subst hcn; exact q2
      · rw [q3 c hcn]
        exact h c (by omega)

theorem goodT_drain (hw : g.WF) {t : List Label} {τ τ' : TConf} {s : Conf} (hg : Good g t s) (h : GoodT g t τ s) (hd : TSteps g τ [] τ') : GoodT g t τ' s := by
  generalize ht : ([] : List Label) = t0 at hd
  induction hd with
  | refl => exact h
  | tail h1 h2 ih => simp at ht
  | drain h1 h2 ih => exact (ih ht).drain hw hg h2

/-- The stores that wait can reach memory, which then is the interleaving's. -/
theorem GoodT.settles {s s' : Conf} {t : List Label} {τ : TConf} (h : Fresh g s) (h1 : Steps g s t s') (hk : OnlyCalls (fun k => CoveredC g k ∧ Orderly k) t)
    (h2 : GoodT g t τ s') : TSteps g τ [] s'.settled := by
  have hg := good_steps h h1 (racing_covered hk)
  have hb : ∀ c, g.cores ≤ c → τ.bufs c = [] := fun c hc => by
    cases hcs : s'.cores c with
    | idle => exact h2.idle c hcs
    | running k p => have := (hg.safe c k p hcs).1; omega
  obtain ⟨τ', q1, q2⟩ := drain_all (.refl τ) g.cores hb
  have h3 := goodT_drain h.1.wf hg h2 q1
  have hm : s'.m = τ'.m := machine_ext (fun l => by
    have := h3.sees 0 l (fun c' _ o ho => by rw [q2 c'] at ho; cases ho)
    rw [this]
    unfold TConf.view
    rw [q2 0]; rfl) h3.rest
  have he : τ' = s'.settled := by
    have hc := h3.cores
    cases τ' with
    | mk m cores bufs =>
        have hm : s'.m = m := hm
        have hc : s'.cores = cores := hc
        have hbb : bufs = fun _ => [] := funext q2
        subst hm hc hbb
        rfl
  rw [← he]; exact q1

/-- C79 for orderly calls. -/
theorem C79_store_buffers_partial {s : Conf} {t : List Label} {τ : TConf} (h : Fresh g s) (ht : TSteps g s.settled t τ)
    (hk : OnlyCalls (fun k => CoveredC g k ∧ Orderly k) t) : ∃ s', Steps g s t s' ∧ s'.cores = τ.cores ∧ TSteps g τ [] s'.settled := by
  obtain ⟨s', h1, h2⟩ := goodT_steps h ht hk
  exact ⟨s', h1, h2.cores, h2.settles h h1 hk⟩

/-- A step of an interleaving is one or, if the store reaches memory at once, two steps of the machine with store buffers. -/
theorem Step.settled {s1 s2 : Conf} {l : Label} (hl : Step g s1 l s2) :
    TStep g s1.settled (some l) s2.settled ∨ ∃ τ, TStep g s1.settled (some l) τ ∧ TStep g τ none s2.settled := by
  cases hl with
  | start k h1 h2 => exact Or.inl (.start (s := s1.settled) k h1 h2)
  | done h1 => exact Or.inl (.done (s := s1.settled) h1)
  | soft h1 => exact Or.inl (.soft (s := s1.settled) h1)
  | @act c k o f v m' h1 h2 =>
      have hdelay : o.Delayed g → ∃ τ, TStep g s1.settled (some (.act c o v)) τ ∧ TStep g τ none (Conf.settled ⟨m', upd s1.cores c (.running k (f v))⟩) := fun hd => by
        refine ⟨_, .delay (s := s1.settled) h1 hd h2, ?_⟩
        have e2 := TStep.drain (g := g) (s := { s1.settled with bufs := upd s1.settled.bufs c (s1.settled.bufs c ++ [o]), cores := upd s1.settled.cores c (.running k (f v)) })
          (c := c) (o := o) (os := []) (os' := []) (by show upd _ c _ c = _; rw [upd_same]; rfl) (fun o' ho' => by cases ho')
        have hpf : perform g c s1.m o = m' := by unfold perform; rw [h2]
        have hbb : (upd (upd (fun _ => []) c ([] ++ [o])) c ([] ++ []) : Nat → List Op) = fun _ => [] := by
          funext c'
          by_cases hc : c' = c
          · subst hc; rw [upd_same]; rfl
          · rw [upd_ne _ _ hc, upd_ne _ _ hc]
        have e3 : TStep g { s1.settled with bufs := upd s1.settled.bufs c (s1.settled.bufs c ++ [o]), cores := upd s1.settled.cores c (.running k (f v)) } none
          ⟨perform g c s1.m o, upd s1.cores c (.running k (f v)), upd (upd (fun _ => []) c ([] ++ [o])) c ([] ++ [])⟩ := e2
        rw [hpf, hbb] at e3
        exact e3
      have hfence : o.Fenced g → TStep g s1.settled (some (.act c o v)) (Conf.settled ⟨m', upd s1.cores c (.running k (f v))⟩) :=
        fun hd => .fenced (s := s1.settled) h1 hd rfl h2
      have hown : o.Private → TStep g s1.settled (some (.act c o v)) (Conf.settled ⟨m', upd s1.cores c (.running k (f v))⟩) :=
        fun hd => .own (s := s1.settled) h1 hd h2
      have hfetch : o.Fetches → m' = s1.m → TStep g s1.settled (some (.act c o v)) (Conf.settled ⟨m', upd s1.cores c (.running k (f v))⟩) :=
        fun hd hm => by subst hm; exact .fetch (s := s1.settled) h1 hd h2
      cases o with
      | store a w => exact (Classical.em (AtomicLoc g (.word a.toNat))).elim (fun h => Or.inl (hfence h)) fun h => Or.inr (hdelay h)
      | store32 a w => exact (Classical.em (AtomicLoc g (.word (a.toNat / 8 * 8)))).elim (fun h => Or.inl (hfence h)) fun h => Or.inr (hdelay h)
      | load a =>
          refine Or.inl (hfetch trivial ?_)
          simp only [exec, Option.ite_none_right_eq_some, Option.some.injEq, Prod.mk.injEq] at h2
          exact h2.2.2.symm
      | load32 a =>
          refine Or.inl (hfetch trivial ?_)
          simp only [exec, Option.ite_none_right_eq_some, Option.some.injEq, Prod.mk.injEq] at h2
          exact h2.2.2.symm
      | getDmaStart => exact Or.inl (hfetch trivial (by cases h2; rfl))
      | getDmaEnd => exact Or.inl (hfetch trivial (by cases h2; rfl))
      | _ => first | exact Or.inr (hdelay trivial) | exact Or.inl (hfence trivial) | exact Or.inl (hown trivial)

/-- Store buffers only add executions: the stores can also reach memory at once. -/
theorem C79_interleavings {s s' : Conf} {t : List Label} (hs : Steps g s t s') : TSteps g s.settled t s'.settled := by
  induction hs with
  | refl => exact .refl _
  | @tail s1 s2 t l _ hl ih =>
      rcases hl.settled with h | ⟨τ, h1, h2⟩
      · exact .tail ih h
      · exact .drain (.tail ih h1) h2

/-- With store buffers, too, a region lock has at most one holder (compare C29). -/
theorem C79_mutual_exclusion_partial {s : Conf} {t : List Label} {τ : TConf} (h : Fresh g s) (ht : TSteps g s.settled t τ)
    (hk : OnlyCalls (fun k => CoveredC g k ∧ Orderly k) t) {c c' i : Nat} (hi : i < g.regions) (h1 : holds g t c i) (h2 : holds g t c' i) : c = c' := by
  obtain ⟨s', q, _⟩ := C79_store_buffers_partial h ht hk
  exact (good_steps h q (racing_covered hk)).mutex c c' i hi h1 h2

/-! ### The witness -/

/-- A debug copy before its store; nothing else is going on. -/
def waitMoves : List Move :=
  [.start 0 (.blockDramRegion 1)] ++ List.replicate 22 (.go 0) ++ [.start 0 .flushCachedDramRegions] ++ List.replicate 5 (.go 0) ++
  [.start 0 (.copyDebugEnclavePage 0 0x12000 0x18000 false)] ++ List.replicate 13 (.go 0)

theorem wait_plays : (play toyG waitMoves toyS).map (fun x => nextWrite x.2 0) = some (some 0x12018) := by decide +kernel

theorem wait_orderly (c : Nat) (k : Call) (hk : Move.start c k ∈ waitMoves) : CoveredC toyG k ∧ Orderly k := by
  simp only [waitMoves, List.replicate, List.cons_append, List.nil_append, List.mem_cons, Move.start.injEq, reduceCtorEq, or_false, false_or, List.not_mem_nil] at hk
  have hf := enclM_facts
  rcases hk with ⟨_, rfl⟩ | ⟨_, rfl⟩ | ⟨_, rfl⟩
  · exact ⟨⟨trivial, fun _ _ _ _ hh => by cases hh⟩, trivial⟩
  · exact ⟨⟨trivial, fun _ _ _ _ hh => by cases hh⟩, trivial⟩
  · refine ⟨⟨Or.inr (Nat.le_trans hf.2.2.2.2.2.2.2.1 (by decide)), fun e a os d hh => ?_⟩, rfl⟩
    cases hh
    exact fun h0 => absurd rfl h0

/-- A store that waits. -/
theorem delay_next {s : Conf} {c : Nat} {a v : W} (hn : Next s c (.store a v)) (ha : ¬ AtomicLoc g (.word a.toNat)) (he : (exec g c (.store a v) s.m).isSome) :
    ∃ τ, TStep g s.settled (some (.act c (.store a v) 0)) τ ∧ τ.m = s.m ∧ τ.bufs = upd (fun _ => []) c [.store a v] ∧ ∀ c', c' ≠ c → τ.cores c' = s.cores c' := by
  obtain ⟨k, f, hr⟩ := hn
  simp only [exec, Option.isSome_ite] at he
  refine ⟨_, .delay (s := s.settled) (m' := { s.m with mem := upd s.m.mem a.toNat v }) hr ha ?_, rfl, rfl, fun c' hc => upd_ne _ _ hc⟩
  show exec g c (.store a v) s.m = _
  simp only [exec]
  rw [if_pos (by simpa using he)]

/-- The hypotheses of C79 are met by an execution that ends with a store waiting. -/
example : ∃ t τ, TSteps toyG toyS.settled t τ ∧ OnlyCalls (fun k => CoveredC toyG k ∧ Orderly k) t ∧ (τ.bufs 0).length = 1 := by
  have h := wait_plays
  cases hp : play toyG waitMoves toyS with
  | none => rw [hp] at h; cases h
  | some x =>
      rw [hp] at h
      simp only [Option.map_some, Option.some.injEq] at h
      obtain ⟨v, h1⟩ := next_of_store h
      obtain ⟨τ, q1, q2, q3, q4⟩ := delay_next h1 meet_plain (by simp only [exec]; rw [if_pos (by decide)]; rfl)
      refine ⟨x.1 ++ [_], τ, .tail (C79_interleavings (play_steps _ hp)) q1, fun c k hm => ?_, by rw [q3, upd_same]; rfl⟩
      rcases List.mem_append.1 hm with hm | hm
      · exact play_onlyCalls waitMoves wait_orderly hp c k hm
      · cases List.mem_singleton.1 hm

/-- C79 is false of the code, even of covered calls: a store of a debug copy waits in a core's buffer while another debug copy, made with
the address of the copied page, reads the word. -/
theorem C79_statement_false : ∃ g s, Fresh g s ∧ ¬ C79_statement g s := by
  refine ⟨toyG, toyS, toyS_fresh, fun hst => ?_⟩
  have h := swap_plays
  have hsoft : Step toyG toyS .soft markedS := Step.soft ⟨0x18018, 1, Nat.le_trans enclM_facts.2.2.2.2.2.2.2.1 (by decide), rfl⟩
  cases hp : play toyG meetMoves markedS with
  | none => rw [hp] at h; cases h
  | some x =>
      rw [hp] at h
      simp only [Option.map_some, Option.some.injEq, Prod.mk.injEq] at h
      obtain ⟨h1, h2, h3, h4⟩ := h
      have hn0 : Next x.2 0 (.store 0x12018 1) := by
        cases hy : playMove toyG (.go 0) x.2 with
        | none => rw [hy] at h4; cases h4
        | some y =>
            rw [hy] at h4
            cases hz : playMove toyG (.go 1) y.2 with
            | none => simp only [Option.bind_some, hz] at h4; cases h4
            | some z =>
                simp only [Option.bind_some, hz, Option.map_some, Option.some.injEq, Prod.mk.injEq] at h4
                have s1 := playMove_step (show playMove toyG (.go 0) x.2 = some (y.1, y.2) from hy)
                rw [h4.1] at s1
                generalize hy2 : y.2 = y2 at s1
                cases s1 with
                | act hr he => exact ⟨_, _, hr⟩
      obtain ⟨τ, q1, q2, q3, q4⟩ := delay_next hn0 meet_plain (by simp only [exec]; rw [if_pos (by decide)]; rfl)
      obtain ⟨k1, f1, hr1⟩ := next_of_load h2
      have hr1 : τ.cores 1 = .running k1 (.op (.load 0x12018) f1) := by rw [q4 1 (by decide)]; exact hr1
      have hv : τ.view toyG 1 = x.2.m := by
        unfold TConf.view
        rw [q3, upd_ne _ _ (by decide), q2]; rfl
      have hload : TStep toyG τ (some (.act 1 (.load 0x12018) 0)) { τ with cores := upd τ.cores 1 (.running k1 (f1 0)) } := by
        refine .fetch (m' := x.2.m) hr1 trivial ?_
        rw [hv]
        simp only [exec]
        rw [if_pos (by decide)]
        exact congrArg some (congrArg (·, x.2.m) h3)
      have hall := TSteps.tail (TSteps.tail (C79_interleavings ((Steps.one hsoft).trans (play_steps _ hp))) q1) hload
      obtain ⟨s', hs', -, -⟩ := hst _ _ hall
      rw [List.append_assoc] at hs'
      obtain ⟨a, b, -, hab, hb⟩ := hs'.cut (l := .act 0 (.store 0x12018 1) 0) rfl
      have hmem : b.m.mem 0x12018 = 1 := by
        cases hab with
        | act hr he =>
            simp only [exec] at he
            rw [if_pos (by decide)] at he
            cases he
            exact upd_same a.m.mem ((0x12018 : W).toNat) 1
      obtain ⟨a', b', hb1, hb2, -⟩ := hb.cut (t1 := []) (l := .act 1 (.load 0x12018) 0) rfl
      have : a' = b := by
        generalize ht : ([] : List Label) = t0 at hb1
        cases hb1 with
        | refl => rfl
        | tail _ _ => simp at ht
      subst this
      cases hb2 with
      | act hr he =>
          simp only [exec] at he
          rw [if_pos (by decide)] at he
          simp only [Option.some.injEq, Prod.mk.injEq] at he
          have := he.1
          rw [show ((0x12018 : W).toNat) = 0x12018 from rfl, hmem] at this
          exact absurd this (by decide)

end Sanctum
