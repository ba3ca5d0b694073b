import Verif.Lemmas.Tso
/-
The simulation of the machine with store buffers by interleavings, step by step.
-/
namespace Sanctum
open Machine

variable {g : Cfg}

/-- The calls the theorem on store buffers is about. -/
theorem racing_covered {t : List Label} (hk : OnlyCalls (fun k => CoveredC g k ∧ Orderly k) t) : OnlyCalls (CoveredC g) t := fun c k hm => (hk c k hm).1

/-- No other core has a store waiting to a location that a core is about to access. -/
theorem GoodT.clear {s0 s : Conf} {t : List Label} {τ : TConf} (h0 : Fresh g s0) (hs : Steps g s0 t s) (hk : OnlyCalls (fun k => CoveredC g k ∧ Orderly k) t)
    (h : GoodT g t τ s) {c : Nat} {o : Op} (hn : Next s c o) {l : Loc} (hl : o.touches l) : ∀ c', c' ≠ c → ∀ o' ∈ τ.bufs c', ¬ o'.writes l := by
  intro c' hne o' ho' hw'
  obtain ⟨e1, e2⟩ := h.ent c' o' ho'
  exact hne (next_touch h0 hs hk hn hl (delayed_atomic e1 hw') (e2 l hw'))

theorem GoodT.view_rest {t : List Label} {τ : TConf} {s : Conf} (h : GoodT g t τ s) (c : Nat) : (τ.view g c).rest = τ.m.rest :=
  fold_rest (fun o ho => (h.ent c o ho).1) _

/-- What an action leaves of the invariant, whatever it does to memory. -/
theorem GoodT.act {s0 s : Conf} {t : List Label} {τ : TConf} (h0 : Fresh g s0) (hs : Steps g s0 t s) {c : Nat} {k : Call} {o : Op} {f : W → Prog W} {v : W}
    (hk : OnlyCalls (fun k => CoveredC g k ∧ Orderly k) t) (h : GoodT g t τ s) (hrun : s.cores c = .running k (.op o f)) {M1 : Machine} (hex : exec g c o s.m = some (v, M1))
    {m' : Machine} {bufs : Nat → List Op} (hoth : ∀ c', c' ≠ c → bufs c' = τ.bufs c') (hself : bufs c = τ.bufs c ∨ (o.Delayed g ∧ bufs c = τ.bufs c ++ [o]))
    (hfen : o.Fenced g → τ.bufs c = [])
    (hsees : ∀ c' l, (∀ c'', c'' ≠ c' → ∀ o ∈ bufs c'', ¬ o.writes l) → M1.at l = ((bufs c').foldl (perform g c') m').at l) (hrest : M1.rest = m'.rest) :
    GoodT g (t ++ [.act c o v]) ⟨m', upd τ.cores c (.running k (f v)), bufs⟩ ⟨M1, upd s.cores c (.running k (f v))⟩ := by
  have hw := h0.1.wf
  have hcov := racing_covered hk
  have hg := good_steps h0 hs hcov
  have hm := goodM_steps h0 hs hcov
  have hresp := exec_respOk hg.inv (hg.held c) hex
  have hstep : Step g s (.act c o v) ⟨M1, upd s.cores c (.running k (f v))⟩ := .act hrun hex
  have hlate := h.late c k _ hrun v hresp
  -- locks of other words are kept
  have hkeep : ∀ c', (c' = c → ¬ o.Fenced g) → ∀ i, i < g.regions → holds g t c' i → holds g (t ++ [.act c o v]) c' i := by
    intro c' hc i hi hh
    rw [holds_snoc]
    by_cases hcc : c' = c
    · subst hcc
      rw [heldLabel_act_self]
      have hf := hc rfl
      cases o <;> simp only [heldStep] <;> first | exact hh | exact Or.inl hh | exact ⟨hh, fun hq => hf (Or.inl ⟨i, hi, by rw [hq]⟩)⟩
    · rw [heldLabel_act_other (Ne.symm hcc)]
      exact hh
  have howner : ∀ i, i < g.regions → ¬ o.mutates (ownerA g i) → M1.owner g i = s.m.owner g i := fun i hi hn => exec_mutates hex hn
  -- entries of other cores, or old entries of the core
  have hold : ∀ c', ∀ o' ∈ τ.bufs c', ∀ l, o'.writes l → Held g (holds g (t ++ [.act c o v]) c') M1 l := by
    intro c' o' ho' l hl
    have hnf : c' = c → ¬ o.Fenced g := fun hc hf => by
      subst hc
      rw [hfen hf] at ho'
      cases ho'
    refine held_mono hw (hkeep c' hnf) (fun i hi ⟨x, hx, hx2⟩ => ?_) ((h.ent c' o' ho').2 l hl)
    by_cases hcc : c' = c
    · subst hcc
      subst hx
      have := h.after c' k _ hrun ⟨o', ho', x, hl, hx2⟩
      have e := howner i hi (this.1 i hi)
      exact ⟨fun _ => e, fun _ hh => e.trans hh⟩
    · have hr := step_rely hw hg hm hstep (c := c') (fun o'' v'' hh => hcc (by cases hh; rfl))
      exact ⟨fun hh => hr.owner i hi hh, fun hh hn => ((hr.map hh).null i hi).2 hn⟩
  have hnew : o.Delayed g → ∀ l, o.writes l → Held g (holds g (t ++ [.act c o v]) c) M1 l := by
    intro hd l hl
    have hna := delayed_atomic hd hl
    have hnf : ¬ o.Fenced g := by
      cases o <;> simp only [Op.Delayed] at hd <;> simp only [Op.Fenced, not_false_iff, hd]
    refine held_mono hw (hkeep c fun _ => hnf) (fun i hi ⟨x, hx, hx2⟩ => ?_) (next_held h0 hs hk ⟨k, f, hrun⟩ hl hna)
    subst hx
    have hx' := (Op.writes_mutates (g := g) hl).1
    have hlt := ownerA_lt hw hi
    have e := howner i hi (fun hh => by
      cases o <;> simp only [Op.mutates] at hh hx' <;> omega)
    exact ⟨fun _ => e, fun _ hh => e.trans hh⟩
  have hmem : ∀ c' o', o' ∈ bufs c' → o' ∈ τ.bufs c' ∨ (c' = c ∧ o.Delayed g ∧ o' = o) := by
    intro c' o' ho'
    by_cases hcc : c' = c
    · subst hcc
      rcases hself with hq | ⟨hd, hq⟩
      · rw [hq] at ho'; exact Or.inl ho'
      · rw [hq] at ho'
        rcases List.mem_append.1 ho' with hh | hh
        · exact Or.inl hh
        · exact Or.inr ⟨rfl, hd, List.mem_singleton.1 hh⟩
    · rw [hoth c' hcc] at ho'; exact Or.inl ho'
  refine ⟨by show upd s.cores _ _ = upd τ.cores _ _; rw [h.cores], hsees, hrest, fun c' o' ho' => ?_, fun c' k' p hc => ?_, fun c' k' p hc hhi => ?_, fun c' hc => ?_, fun c' h' p hc => ?_⟩
  · rcases hmem c' o' ho' with hh | ⟨rfl, hd, rfl⟩
    · exact ⟨(h.ent c' o' hh).1, hold c' o' hh⟩
    · exact ⟨hd, hnew hd⟩
  · have hc : upd s.cores c (.running k (f v)) c' = CoreState.running k' p := hc
    rw [holds_snoc]
    by_cases hcc : c' = c
    · subst hcc
      rw [upd_same] at hc
      obtain ⟨rfl, rfl⟩ := CoreState.running.inj hc
      rw [heldLabel_act_self]
      exact hlate.1
    · rw [upd_ne _ _ hcc] at hc
      rw [heldLabel_act_other (Ne.symm hcc)]
      exact h.late c' k' p hc
  · have hc : upd s.cores c (.running k (f v)) c' = CoreState.running k' p := hc
    obtain ⟨o', ho', x, hx, hx2⟩ := hhi
    rw [holds_snoc]
    by_cases hcc : c' = c
    · subst hcc
      rw [upd_same] at hc
      obtain ⟨rfl, rfl⟩ := CoreState.running.inj hc
      rw [heldLabel_act_self]
      rcases hmem c' o' ho' with hh | ⟨_, hd, rfl⟩
      · exact (h.after c' k _ hrun ⟨o', hh, x, hx, hx2⟩).2 v hresp
      · exact hlate.2 ⟨x, hx2, (Op.writes_mutates (g := g) hx).1⟩
    · rw [upd_ne _ _ hcc] at hc
      rw [heldLabel_act_other (Ne.symm hcc)]
      rcases hmem c' o' ho' with hh | ⟨hh, _⟩
      · exact h.after c' k' p hc ⟨o', hh, x, hx, hx2⟩
      · exact absurd hh hcc
  · have hc : upd s.cores c (.running k (f v)) c' = CoreState.idle := hc
    by_cases hcc : c' = c
    · subst hcc
      rw [upd_same] at hc
      cases hc
    · rw [upd_ne _ _ hcc] at hc
      exact (hoth c' hcc).trans (h.idle c' hc)
  · have hc : upd s.cores c (.running k (f v)) c' = CoreState.running (.deleteThread h') p := hc
    by_cases hcc : c' = c
    · subst hcc
      rw [upd_same] at hc
      obtain ⟨rfl, rfl⟩ := CoreState.running.inj hc
      obtain ⟨d1, d2⟩ := h.del c' h' _ hrun
      refine ⟨?_, d2.2 v⟩
      rcases hself with hq | ⟨hd, _⟩
      · exact hq.trans d1
      · exact absurd hd d2.1
    · rw [upd_ne _ _ hcc] at hc
      exact ⟨(hoth c' hcc).trans (h.del c' h' p hc).1, (h.del c' h' p hc).2⟩

theorem delayed_writes {o : Op} (h : o.Delayed g) : ∃ l, o.writes l := by
  cases o <;> simp only [Op.Delayed] at h <;> exact ⟨_, rfl⟩

/-- Entries need locks. -/
theorem held_none {m : Machine} {H : Nat → Prop} (hw : g.WF) (h : ∀ i, i < g.regions → ¬ H i) {l : Loc} : ¬ Held g H m l := by
  have h0 : 0 < g.regions := by have := hw.regions_ge; omega
  cases l with
  | word x =>
      rintro (⟨_, i, h2, h3⟩ | ⟨_, ⟨h2, _⟩ | ⟨h2, _⟩⟩)
      · exact h i (shields_inj hw h2 h2).2 h3
      · exact h _ (regionOf_lt hw _) h2
      · exact h 0 h0 h2
  | _ => exact fun hh => h 0 h0 hh

/-- Each step with a label is a step of the interleaving. -/
theorem GoodT.step {s0 s : Conf} {t : List Label} {τ τ' : TConf} {l : Label} (h0 : Fresh g s0) (hs : Steps g s0 t s)
    (hk : OnlyCalls (fun k => CoveredC g k ∧ Orderly k) (t ++ [l])) (h : GoodT g t τ s) (hl : TStep g τ (some l) τ') :
    ∃ s', Step g s l s' ∧ GoodT g (t ++ [l]) τ' s' := by
  have hw := h0.1.wf
  have hk' : OnlyCalls (fun k => CoveredC g k ∧ Orderly k) t := hk.prefix
  have hcov := racing_covered hk'
  have hg := good_steps h0 hs hcov
  have hm := goodM_steps h0 hs hcov
  cases hl with
  | @start c k hlt hidle =>
      have hidle : s.cores c = .idle := by rw [h.cores]; exact hidle
      refine ⟨_, .start k hlt hidle, ?_⟩
      have hck := hk c k (List.mem_append_right _ (List.mem_singleton.2 rfl))
      have hsame : ∀ c', holds g (t ++ [Label.start c k]) c' = holds g t c' := fun c' => by rw [holds_snoc]; rfl
      have hnone : holds g t c = noL := funext fun i => propext ⟨fun hh => hg.idle c hidle i hh, fun hh => hh.elim⟩
      have hb := h.idle c hidle
      refine ⟨by show upd s.cores _ _ = upd τ.cores _ _; rw [h.cores], h.sees, h.rest, fun c' o' ho' => by rw [hsame]; exact h.ent c' o' ho', fun c' k' p hc => ?_, fun c' k' p hc hhi => ?_,
        fun c' hc => ?_, fun c' h' p hc => ?_⟩
      · rw [hsame]
        have hc : upd s.cores c (.running k (k.prog g)) c' = CoreState.running k' p := hc
        by_cases hcc : c' = c
        · subst hcc
          rw [upd_same] at hc
          obtain ⟨rfl, rfl⟩ := CoreState.running.inj hc
          rw [hnone]
          exact late_call hw c' k hlt hck.1 hck.2
        · rw [upd_ne _ _ hcc] at hc
          exact h.late c' k' p hc
      · rw [hsame]
        have hc : upd s.cores c (.running k (k.prog g)) c' = CoreState.running k' p := hc
        by_cases hcc : c' = c
        · subst hcc
          obtain ⟨o', ho', _⟩ := hhi
          have ho' : o' ∈ τ.bufs c' := ho'
          rw [hb] at ho'
          cases ho'
        · rw [upd_ne _ _ hcc] at hc
          exact h.after c' k' p hc hhi
      · have hc : upd s.cores c (.running k (k.prog g)) c' = CoreState.idle := hc
        by_cases hcc : c' = c
        · subst hcc
          rw [upd_same] at hc
          cases hc
        · rw [upd_ne _ _ hcc] at hc
          exact h.idle c' hc
      · have hc : upd s.cores c (.running k (k.prog g)) c' = CoreState.running (.deleteThread h') p := hc
        by_cases hcc : c' = c
        · subst hcc
          rw [upd_same] at hc
          obtain ⟨rfl, rfl⟩ := CoreState.running.inj hc
          exact ⟨hb, silent_deleteThread h'⟩
        · rw [upd_ne _ _ hcc] at hc
          exact h.del c' h' p hc
  | @delay c k o f v m' hrun hd hex =>
      have hrun : s.cores c = .running k (.op o f) := by rw [h.cores]; exact hrun
      have hclr := fun l hl => h.clear h0 hs hk' ⟨k, f, hrun⟩ (l := l) hl
      obtain ⟨M1, e1, e2, e3, e4⟩ := exec_local hex (M := s.m) (fun l hl => h.sees c l (hclr l hl)) (h.rest.trans (h.view_rest c).symm)
      have hpf : perform g c (τ.view g c) o = m' := by unfold perform; rw [hex]
      refine ⟨_, .act hrun e1, h.act h0 hs hk' hrun e1 (fun c' hc => upd_ne _ _ hc) (Or.inr ⟨hd, upd_same _ _ _⟩) (fun hf => ?_) (fun c' l hno => ?_) ?_⟩
      · cases o <;> simp only [Op.Delayed] at hd <;> simp only [Op.Fenced] at hf
        · exact absurd hf hd
        · exact absurd hf hd
      · by_cases hcc : c' = c
        · subst hcc
          rw [upd_same, List.foldl_append]
          show M1.at l = (perform g c' (τ.view g c') o).at l
          rw [hpf]
          by_cases hwl : o.writes l
          · exact e2 l hwl
          · rw [e3 l hwl, exec_at hex hwl]
            refine h.sees c' l fun c'' hne o' ho' => hno c'' hne o' ?_
            show o' ∈ upd τ.bufs c' _ c''
            rw [upd_ne _ _ hne]
            exact ho'
        · rw [upd_ne _ _ hcc]
          have hwl : ¬ o.writes l := hno c (Ne.symm hcc) o (by rw [upd_same]; exact List.mem_append_right _ (List.mem_singleton.2 rfl))
          rw [e3 l hwl]
          refine h.sees c' l fun c'' hne o' ho' => hno c'' hne o' ?_
          by_cases hc2 : c'' = c
          · subst hc2
            rw [upd_same]
            exact List.mem_append_left _ ho'
          · rw [upd_ne _ _ hc2]
            exact ho'
      · rw [e4, ← hpf, perform_rest hd, h.view_rest]
  | @fenced c k o f v m' hrun hf hb hex =>
      have hrun : s.cores c = .running k (.op o f) := by rw [h.cores]; exact hrun
      have hclr := fun l hl => h.clear h0 hs hk' ⟨k, f, hrun⟩ (l := l) hl
      have hv : τ.view g c = τ.m := by unfold TConf.view; rw [hb]; rfl
      obtain ⟨M1, e1, e2, e3, e4⟩ := exec_local hex (M := s.m) (fun l hl => by rw [h.sees c l (hclr l hl), hv]) h.rest
      refine ⟨_, .act hrun e1, h.act h0 hs hk' hrun e1 (fun c' hc => rfl) (Or.inl rfl) (fun _ => hb) (fun c' l hno => ?_) e4⟩
      by_cases hwl : o.writes l
      · rw [e2 l hwl]
        by_cases hcc : c' = c
        · subst hcc; rw [hb]; rfl
        · exact (fold_at (hclr l (Or.inr hwl) c' hcc) _).symm
      · rw [e3 l hwl, h.sees c' l hno]
        exact (fold_congr (exec_at hex hwl)).symm
  | @fetch c k o f v m' hrun hf hex =>
      have hrun : s.cores c = .running k (.op o f) := by rw [h.cores]; exact hrun
      have hclr := fun l hl => h.clear h0 hs hk' ⟨k, f, hrun⟩ (l := l) hl
      obtain ⟨M1, e1, e2, e3, e4⟩ := exec_local hex (M := s.m) (fun l hl => h.sees c l (hclr l hl)) (h.rest.trans (h.view_rest c).symm)
      have hmm : m' = τ.view g c := by
        cases o <;> first
          | exact False.elim hf
          | (simp only [exec, Option.ite_none_right_eq_some, Option.some.injEq, Prod.mk.injEq] at hex; first | exact hex.2.2.symm | exact hex.2.symm)
      have hnw : ∀ l, ¬ o.writes l := fun l hh => by cases o <;> first | exact False.elim hf | exact False.elim hh
      refine ⟨_, .act hrun e1, h.act h0 hs hk' hrun e1 (fun c' hc => rfl) (Or.inl rfl) (fun hh => ?_) (fun c' l hno => ?_) ?_⟩
      · cases o <;> first | exact False.elim hf | exact False.elim hh
      · rw [e3 l (hnw l)]; exact h.sees c' l hno
      · rw [e4, hmm, h.view_rest]
  | @own c k o f v m' hrun hf hex =>
      have hrun : s.cores c = .running k (.op o f) := by rw [h.cores]; exact hrun
      have hnt : ∀ l, ¬ o.touches l := fun l hh => by cases o <;> first | exact False.elim hf | exact hh.elim id id
      obtain ⟨M1, e1, e2, e3, e4⟩ := exec_local hex (M := s.m) (fun l hl => absurd hl (hnt l)) h.rest
      refine ⟨_, .act hrun e1, h.act h0 hs hk' hrun e1 (fun c' hc => rfl) (Or.inl rfl) (fun hh => ?_) (fun c' l hno => ?_) e4⟩
      · cases o <;> first | exact False.elim hf | exact False.elim hh
      · have hwl : ¬ o.writes l := fun hh => hnt l (Or.inr hh)
        rw [e3 l hwl, h.sees c' l hno]
        exact (fold_congr (exec_at hex hwl)).symm
  | @done c k v hrun =>
      have hrun : s.cores c = .running k (.ret v) := by rw [h.cores]; exact hrun
      refine ⟨_, .done hrun, ?_⟩
      have hb : τ.bufs c = [] := by
        rcases Classical.em (NoLeak k) with hn | hn
        · obtain ⟨_, _, _, m, _, hpost⟩ := hg.safe c k _ hrun
          have hpost : NoLeak k → ∀ i, i < g.regions → ¬ holds g t c i := hpost
          cases hbb : τ.bufs c with
          | nil => rfl
          | cons o os =>
              obtain ⟨d1, d2⟩ := h.ent c o (by rw [hbb]; exact List.mem_cons_self)
              obtain ⟨l, hl⟩ := delayed_writes d1
              exact absurd (d2 l hl) (held_none hw (hpost hn))
        · cases k <;> simp only [NoLeak, not_true_eq_false] at hn
          · obtain ⟨_, _, ⟨t1, t2, ht⟩, _⟩ := hg.safe c _ _ hrun
            have hbad := (hk' c _ (by rw [ht]; exact List.mem_append_right _ List.mem_cons_self)).2
            exact False.elim hbad
          · exact (h.del c _ _ hrun).1
      have hne : ∀ c' o', o' ∈ τ.bufs c' → c' ≠ c := fun c' o' ho' hc => by subst hc; rw [hb] at ho'; cases ho'
      refine ⟨by show upd s.cores _ _ = upd τ.cores _ _; rw [h.cores], h.sees, h.rest, fun c' o' ho' => ?_, fun c' k' p hc => ?_, fun c' k' p hc hhi => ?_, fun c' hc => ?_, fun c' h' p hc => ?_⟩
      · rw [holds_snoc, heldLabel_done_other (Ne.symm (hne c' o' ho'))]
        exact h.ent c' o' ho'
      · have hc : upd s.cores c .idle c' = CoreState.running k' p := hc
        by_cases hcc : c' = c
        · subst hcc; rw [upd_same] at hc; cases hc
        · rw [upd_ne _ _ hcc] at hc
          rw [holds_snoc, heldLabel_done_other (Ne.symm hcc)]
          exact h.late c' k' p hc
      · have hc : upd s.cores c .idle c' = CoreState.running k' p := hc
        by_cases hcc : c' = c
        · subst hcc; rw [upd_same] at hc; cases hc
        · rw [upd_ne _ _ hcc] at hc
          rw [holds_snoc, heldLabel_done_other (Ne.symm hcc)]
          exact h.after c' k' p hc hhi
      · have hc : upd s.cores c .idle c' = CoreState.idle := hc
        by_cases hcc : c' = c
        · subst hcc; exact hb
        · rw [upd_ne _ _ hcc] at hc
          exact h.idle c' hc
      · have hc : upd s.cores c .idle c' = CoreState.running (.deleteThread h') p := hc
        by_cases hcc : c' = c
        · subst hcc; rw [upd_same] at hc; cases hc
        · rw [upd_ne _ _ hcc] at hc
          exact h.del c' h' p hc
  | @soft m' hsoft =>
      obtain ⟨x, w, hx, rfl⟩ := hsoft
      have hsame : ∀ c', holds g (t ++ [Label.soft]) c' = holds g t c' := fun c' => by rw [holds_snoc]; rfl
      -- the word that memory will contain when the buffers are empty
      have hval : ∃ W, ∀ c', (∀ c'', c'' ≠ c' → ∀ o ∈ τ.bufs c'', ¬ o.writes (.word x)) →
          W = (((τ.bufs c').foldl (perform g c') { τ.m with mem := upd τ.m.mem x w }).at (.word x)) := by
        rcases Classical.em (∃ c1, ∃ o ∈ τ.bufs c1, o.writes (.word x)) with ⟨c1, o, ho, hwo⟩ | hnone
        · refine ⟨((τ.bufs c1).foldl (perform g c1) { τ.m with mem := upd τ.m.mem x w }).at (.word x), fun c' hno => ?_⟩
          rcases Classical.em (c1 = c') with hcc | hcc
          · subst hcc; rfl
          · exact absurd hwo (hno c1 hcc o ho)
        · refine ⟨w, fun c' _ => ?_⟩
          rw [fold_at fun o ho hh => hnone ⟨c', o, ho, hh⟩]
          exact (upd_same _ _ _).symm
      obtain ⟨W', hW⟩ := hval
      have hsoft : Step g s .soft { s with m := { s.m with mem := upd s.m.mem x W' } } := .soft ⟨x, W', hx, rfl⟩
      refine ⟨_, hsoft, h.cores, fun c' l hno => ?_, ?_, fun c' o' ho' => ⟨(h.ent c' o' ho').1, fun l hl => ?_⟩, fun c' k p hc => ?_, fun c' k p hc => ?_, h.idle, h.del⟩
      · by_cases hlx : l = .word x
        · subst hlx
          show upd s.m.mem x W' x = _
          rw [upd_same]
          exact hW c' hno
        · have e1 : Machine.at { s.m with mem := upd s.m.mem x W' } l = s.m.at l := by
            cases l with
            | word y => exact upd_ne _ _ fun hh => hlx (by rw [hh])
            | _ => rfl
          have e2 : Machine.at { τ.m with mem := upd τ.m.mem x w } l = τ.m.at l := by
            cases l with
            | word y => exact upd_ne _ _ fun hh => hlx (by rw [hh])
            | _ => rfl
          show Machine.at { s.m with mem := upd s.m.mem x W' } l = _
          rw [e1, h.sees c' l hno]
          exact (fold_congr e2).symm
      · exact h.rest
      · rw [hsame]
        have hr := step_rely hw hg hm hsoft (c := c') (fun o'' v'' hh => by cases hh)
        exact held_mono hw (fun i _ hh => hh) (fun i hi _ => ⟨fun hh => hr.owner i hi hh, fun hh hn => ((hr.map hh).null i hi).2 hn⟩) ((h.ent c' o' ho').2 l hl)
      · rw [hsame]; exact h.late c' k p hc
      · rw [hsame]; exact h.after c' k p hc

end Sanctum
