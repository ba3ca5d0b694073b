import Verif.Lemmas.TsoSound
import Verif.Lemmas.Once
import Verif.Props.Confine
import Verif.Props.Conc
import Verif.Spec.Serial
/-
Software next to stores that wait.
-/
namespace Sanctum
open Machine

variable {g : Cfg}

theorem lockwise_orderly {k : Call} (h : Lockwise k) : Orderly k := by
  cases k <;> first | trivial | exact h.elim

theorem lockwise_confined {k : Call} (h : Lockwise k) : Confined g k := by
  cases k <;> first | trivial | exact h.elim

theorem lockwise_arg {k : Call} (h : Lockwise k) {x : Nat} : ¬ ArgWord k x := by
  cases k <;> first | exact fun hh => hh | exact h.elim

theorem lockwise_only {t : List Label} (hk : OnlyCalls (fun k => CoveredC g k ∧ Lockwise k) t) : OnlyCalls (fun k => CoveredC g k ∧ Orderly k) t :=
  fun c k hm => ⟨(hk c k hm).1, lockwise_orderly (hk c k hm).2⟩

/-- What is known of the stores that wait, if all calls keep to their locks. -/
structure GoodS (g : Cfg) (t : List Label) (τ : TConf) (s : Conf) : Prop where
  page : ∀ c, ∀ o ∈ τ.bufs c, ∀ x, g.monitorTop.toNat ≤ x → o.writes (.word x) → s.m.owner g (regionOf g x) = metadataEnclaveId
  once : ∀ c k p, s.cores c = .running k p → p.Once g c (holds g t c)
  own : ∀ c k p, s.cores c = .running k p → (∃ o ∈ τ.bufs c, ∃ i, i < g.regions ∧ o.writes (.word (ownerA g i))) → p.NoOwner g c (holds g t c)
  one : ∀ c i, i < g.regions → (τ.bufs c).Pairwise (fun a b => ¬ (a.writes (.word (ownerA g i)) ∧ b.writes (.word (ownerA g i))))
  lag : ∀ i, i < g.regions → (∀ c, ∀ o ∈ τ.bufs c, ¬ o.writes (.word (ownerA g i))) ∨
    (τ.m.owner g i = nullEnclaveId → s.m.owner g i ≠ freeEnclaveId ∧ s.m.owner g i ≠ metadataEnclaveId)

theorem GoodS.start_ {s : Conf} (h : Fresh g s) : GoodS g [] s.settled s := by
  have hr : ∀ {c k p} {P : Prop}, s.cores c = .running k p → P := fun {c k p P} hh => by rw [h.2 c] at hh; cases hh
  exact ⟨fun c o ho => (by cases ho), fun c k p hh => hr hh, fun c k p hh => hr hh, fun c i _ => List.Pairwise.nil, fun i _ => Or.inl fun c o ho => (by cases ho)⟩

/-- How the stores that wait change in a step. -/
theorem bufs_step {τ τ' : TConf} {l : Label} (hl : TStep g τ (some l) τ') (c : Nat) : τ'.bufs c = τ.bufs c ∨
    ∃ o v k f, l = .act c o v ∧ τ.cores c = .running k (.op o f) ∧ o.Delayed g ∧ τ'.bufs c = τ.bufs c ++ [o] ∧ τ'.m = τ.m := by
  cases hl with
  | @delay c' k o f v m' hrun hd hex =>
      by_cases hc : c = c'
      · subst hc; exact Or.inr ⟨o, v, k, f, rfl, hrun, hd, upd_same _ _ _, rfl⟩
      · exact Or.inl (upd_ne _ _ hc)
  | _ => exact Or.inl rfl

theorem legal_os {m m' : Machine} (h : Legal g m m') {i : Nat} (hi : i < g.regions) (h0 : m.owner g i = nullEnclaveId) :
    m'.owner g i ≠ freeEnclaveId ∧ m'.owner g i ≠ metadataEnclaveId := by
  have := h i hi
  rw [h0] at this
  generalize m'.owner g i = b at this
  generalize ha : nullEnclaveId = a at this
  cases this <;> first | (subst ha; exact ⟨by decide, by decide⟩) | (cases ha; done) | exact ⟨by decide, by decide⟩ | exact absurd ha (by decide)

theorem legal_meta {m m' : Machine} (h : Legal g m m') {i : Nat} (hi : i < g.regions) (h0 : m.owner g i = metadataEnclaveId) :
    m'.owner g i ≠ nullEnclaveId := by
  have := h i hi
  rw [h0] at this
  generalize m'.owner g i = b at this
  generalize ha : metadataEnclaveId = a at this
  cases this <;> first | (subst ha; decide) | decide | exact absurd ha (by decide)

/-- A store reaches memory. -/
theorem GoodS.drain (hw : g.WF) {t : List Label} {τ τ' : TConf} {s : Conf} (hg : Good g t s) (ht : GoodT g t τ s) (h : GoodS g t τ s) (hl : TStep g τ none τ') : GoodS g t τ' s := by
  cases hl with
  | @drain c o os os' hb hout =>
      have hsl : ∀ c', List.Sublist (upd τ.bufs c (os ++ os') c') (τ.bufs c') := fun c' => by
        by_cases hc : c' = c
        · subst hc
          rw [upd_same, hb]
          exact List.Sublist.append_left (List.sublist_cons_self _ _) _
        · rw [upd_ne _ _ hc]; exact List.Sublist.refl _
      have hsub : ∀ c' o', o' ∈ upd τ.bufs c (os ++ os') c' → o' ∈ τ.bufs c' := fun c' o' ho' => (hsl c').subset ho'
      have hmem : o ∈ τ.bufs c := by rw [hb]; exact List.mem_append_right _ List.mem_cons_self
      refine ⟨fun c' o' ho' => h.page c' o' (hsub c' o' ho'), h.once, fun c' k p hc ⟨o', ho', hh⟩ => h.own c' k p hc ⟨o', hsub c' o' ho', hh⟩, fun c' i hi => (h.one c' i hi).sublist (hsl c'), fun i hi => ?_⟩
      by_cases hwl : o.writes (.word (ownerA g i))
      · refine Or.inl fun c' o' ho' hw' => ?_
        by_cases hc : c' = c
        · subst hc
          have ho' : o' ∈ upd τ.bufs c' (os ++ os') c' := ho'
          rw [upd_same] at ho'
          have h1 := h.one c' i hi
          rw [hb, List.pairwise_append, List.pairwise_cons] at h1
          obtain ⟨_, ⟨h2, _⟩, h3⟩ := h1
          rcases List.mem_append.1 ho' with q | q
          · exact h3 o' q o List.mem_cons_self ⟨hw', hwl⟩
          · exact h2 o' q ⟨hwl, hw'⟩
        · exact hc (held_excl hw hg ((ht.ent c' o' (hsub c' o' ho')).2 _ hw') ((ht.ent c o hmem).2 _ hwl))
      · have e : (perform g c τ.m o).owner g i = τ.m.owner g i := perform_at (l := .word (ownerA g i)) hwl
        refine (h.lag i hi).imp (fun hh c' o' ho' => hh c' o' (hsub c' o' ho')) fun hh hn => hh (e.symm.trans hn)

/-- A step with a label. -/
theorem GoodS.step {s0 s s' : Conf} {t : List Label} {τ τ' : TConf} {l : Label} (h0 : Fresh g s0) (hs : Steps g s0 t s)
    (hk : OnlyCalls (fun k => CoveredC g k ∧ Lockwise k) (t ++ [l])) (ht : GoodT g t τ s) (h : GoodS g t τ s) (hl : TStep g τ (some l) τ')
    (hst : Step g s l s') (ht' : GoodT g (t ++ [l]) τ' s') : GoodS g (t ++ [l]) τ' s' := by
  have hw := h0.1.wf
  have hkt := hk.prefix
  have hko := lockwise_only hkt
  have hcov := racing_covered hko
  have hg := good_steps h0 hs hcov
  have hlegal := (C30_regions_partial h0 hs hcov).2 l s' hst
  have hcores := ht.cores
  -- stores that wait were waiting, or are being made
  have hmem : ∀ c o, o ∈ τ'.bufs c → o ∈ τ.bufs c ∨ ∃ v k f, l = .act c o v ∧ s.cores c = .running k (.op o f) ∧ o.Delayed g := by
    intro c o ho
    rcases bufs_step hl c with hb | ⟨o2, v, k, f, h1, h2, h3, h4, _⟩
    · rw [hb] at ho; exact Or.inl ho
    · rw [h4] at ho
      rcases List.mem_append.1 ho with q | q
      · exact Or.inl q
      · rw [List.mem_singleton.1 q]
        exact Or.inr ⟨v, k, f, h1, by rw [hcores]; exact h2, h3⟩
  have hcall : ∀ c k p, s.cores c = .running k p → Lockwise k ∧ current t c = some k := by
    intro c k p hrun
    obtain ⟨-, -, ⟨t1, t2, he⟩, -⟩ := hg.safe c k p hrun
    refine ⟨(hkt c k (by rw [he]; exact List.mem_append_right _ List.mem_cons_self)).2, ?_⟩
    rcases current_steps h0.2 hs c with ⟨h5, h6⟩ | ⟨k', p', h5, h6⟩
    · rw [hrun] at h5; cases h5
    · rw [hrun] at h5; cases h5; exact h6
  have hpage : ∀ c o, o ∈ τ'.bufs c → ∀ x, g.monitorTop.toNat ≤ x → o.writes (.word x) → s.m.owner g (regionOf g x) = metadataEnclaveId := by
    intro c o ho x hx hwx
    rcases hmem c o ho with q | ⟨v, k, f, rfl, hrun, hd⟩
    · exact h.page c o q x hx hwx
    · obtain ⟨hlk, hcur⟩ := hcall c k _ hrun
      rcases C52_confinement_partial h0 hs hcov hst hcur (lockwise_confined hlk) x (Op.writes_mutates (g := g) hwx).2 with q | q | q
      · omega
      · exact absurd q (lockwise_arg hlk)
      · exact q.2
  have hnone : ∀ c k o f i, i < g.regions → s.cores c = .running k (.op o f) → o.writes (.word (ownerA g i)) → ∀ o' ∈ τ.bufs c, ∀ j, j < g.regions → ¬ o'.writes (.word (ownerA g j)) := by
    intro c k o f i hi hrun hwo o' ho' j hj hh
    exact (h.own c k _ hrun ⟨o', ho', j, hj, hh⟩).1 i hi (Op.writes_mutates (g := g) hwo).1
  refine ⟨fun c o ho x hx hwx => ?_, fun c k p hc => ?_, fun c k p hc hhi => ?_, fun c i hi => ?_, fun i hi => ?_⟩
  · -- `page`
    have h1 := legal_meta hlegal (regionOf_lt hw x) (hpage c o ho x hx hwx)
    rcases (ht'.ent c o ho).2 _ hwx with ⟨q, _⟩ | ⟨_, ⟨_, q⟩ | ⟨_, q⟩⟩
    · omega
    · exact q
    · exact absurd q h1
  · -- `once`
    cases hst with
    | @start c' k' hlt hidle =>
        have hsame : holds g (t ++ [Label.start c' k']) c = holds g t c := by rw [holds_snoc]; rfl
        rw [hsame]
        have hc : upd s.cores c' (.running k' (k'.prog g)) c = CoreState.running k p := hc
        by_cases hcc : c = c'
        · subst hcc
          rw [upd_same] at hc
          obtain ⟨rfl, rfl⟩ := CoreState.running.inj hc
          have hn : holds g t c = noL := funext fun i => propext ⟨fun hh => hg.idle c hidle i hh, fun hh => hh.elim⟩
          rw [hn]
          have hck := hk c k' (List.mem_append_right _ (List.mem_singleton.2 rfl))
          exact once_call hw c k' hlt hck.1 (lockwise_orderly hck.2)
        · rw [upd_ne _ _ hcc] at hc
          exact h.once c k p hc
    | @act c' k' o f v m' hrun hex =>
        have hc : upd s.cores c' (.running k' (f v)) c = CoreState.running k p := hc
        rw [holds_snoc]
        by_cases hcc : c = c'
        · subst hcc
          rw [upd_same] at hc
          obtain ⟨rfl, rfl⟩ := CoreState.running.inj hc
          rw [heldLabel_act_self]
          exact (h.once c k' _ hrun v (exec_respOk hg.inv (hg.held c) hex)).1
        · rw [upd_ne _ _ hcc] at hc
          rw [heldLabel_act_other (Ne.symm hcc)]
          exact h.once c k p hc
    | @done c' k' v hrun =>
        have hc : upd s.cores c' .idle c = CoreState.running k p := hc
        by_cases hcc : c = c'
        · subst hcc; rw [upd_same] at hc; cases hc
        · rw [upd_ne _ _ hcc] at hc
          rw [holds_snoc, heldLabel_done_other (Ne.symm hcc)]
          exact h.once c k p hc
    | soft hsoft =>
        rw [holds_snoc]
        exact h.once c k p hc
  · -- `own`
    obtain ⟨o', ho', i, hi, hwo⟩ := hhi
    cases hst with
    | @start c' k' hlt hidle =>
        have hsame : holds g (t ++ [Label.start c' k']) c = holds g t c := by rw [holds_snoc]; rfl
        rw [hsame]
        have hc : upd s.cores c' (.running k' (k'.prog g)) c = CoreState.running k p := hc
        rcases hmem c o' ho' with hb | ⟨v, k2, f2, hh, _⟩
        · by_cases hcc : c = c'
          · subst hcc
            rw [ht.idle c hidle] at hb
            cases hb
          · rw [upd_ne _ _ hcc] at hc
            exact h.own c k p hc ⟨o', hb, i, hi, hwo⟩
        · cases hh
    | @act c' k' o f v m' hrun hex =>
        have hc : upd s.cores c' (.running k' (f v)) c = CoreState.running k p := hc
        rw [holds_snoc]
        by_cases hcc : c = c'
        · subst hcc
          rw [upd_same] at hc
          obtain ⟨rfl, rfl⟩ := CoreState.running.inj hc
          rw [heldLabel_act_self]
          have hr := exec_respOk hg.inv (hg.held c) hex
          rcases hmem c o' ho' with hb | ⟨v2, k2, f2, hh, _⟩
          · exact (h.own c k' _ hrun ⟨o', hb, i, hi, hwo⟩).2 v hr
          · cases hh
            exact (h.once c k' _ hrun v hr).2 ⟨i, hi, (Op.writes_mutates (g := g) hwo).1⟩
        · rw [upd_ne _ _ hcc] at hc
          rw [heldLabel_act_other (Ne.symm hcc)]
          rcases hmem c o' ho' with hb | ⟨v2, k2, f2, hh, _⟩
          · exact h.own c k p hc ⟨o', hb, i, hi, hwo⟩
          · cases hh; exact absurd rfl hcc
    | @done c' k' v hrun =>
        have hc : upd s.cores c' .idle c = CoreState.running k p := hc
        by_cases hcc : c = c'
        · subst hcc; rw [upd_same] at hc; cases hc
        · rw [upd_ne _ _ hcc] at hc
          rw [holds_snoc, heldLabel_done_other (Ne.symm hcc)]
          rcases hmem c o' ho' with hb | ⟨v2, k2, f2, hh, _⟩
          · exact h.own c k p hc ⟨o', hb, i, hi, hwo⟩
          · cases hh
    | soft hsoft =>
        rw [holds_snoc]
        rcases hmem c o' ho' with hb | ⟨v2, k2, f2, hh, _⟩
        · exact h.own c k p hc ⟨o', hb, i, hi, hwo⟩
        · cases hh
  · -- `one`
    rcases bufs_step hl c with hb | ⟨o2, v, k, f, h1, h2, h3, h4, _⟩
    · rw [hb]; exact h.one c i hi
    · rw [h4, List.pairwise_append]
      refine ⟨h.one c i hi, List.pairwise_singleton _ _, fun a ha b hb hh => ?_⟩
      rw [List.mem_singleton.1 hb] at hh
      exact hnone c k o2 f i hi (by rw [hcores]; exact h2) hh.2 a ha i hi hh.1
  · -- `lag`
    have hlt := ownerA_lt hw hi
    -- nothing writes the owner
    have hkeep : (∀ c o v, l = .act c o v → ¬ o.writes (.word (ownerA g i))) → τ'.m.owner g i = τ.m.owner g i → 
        ((∀ c, ∀ o ∈ τ'.bufs c, ¬ o.writes (.word (ownerA g i))) ∨ (τ'.m.owner g i = nullEnclaveId → s'.m.owner g i ≠ freeEnclaveId ∧ s'.m.owner g i ≠ metadataEnclaveId)) := by
      intro hno e
      have e2 : s'.m.owner g i = s.m.owner g i := by
        cases hst with
        | start _ _ _ => rfl
        | @act c k o f v m' hrun hex => exact exec_at (l := .word (ownerA g i)) hex (hno c o v rfl)
        | done _ => rfl
        | soft hsoft =>
            obtain ⟨x, w, hx, rfl⟩ := hsoft
            exact upd_ne _ _ (by omega)
      rw [e, e2]
      refine (h.lag i hi).imp (fun hh c o ho => ?_) fun hh => hh
      rcases hmem c o ho with hb | ⟨v, k, f, h1, _, _⟩
      · exact hh c o hb
      · exact hno c o v h1
    cases hl with
    | start _ _ _ => exact hkeep (fun c o v hh => by cases hh) rfl
    | @delay c k o f v m' hrun hd hex =>
        by_cases hwo : o.writes (.word (ownerA g i))
        · have hrun : s.cores c = .running k (.op o f) := by rw [hcores]; exact hrun
          have h1 : ∀ c', ∀ o' ∈ τ.bufs c', ¬ o'.writes (.word (ownerA g i)) := fun c' o' ho' => by
            by_cases hcc : c' = c
            · subst hcc; exact hnone c' k o f i hi hrun hwo o' ho' i hi
            · exact ht.clear h0 hs hko ⟨k, f, hrun⟩ (Or.inr hwo) c' hcc o' ho'
          have h2 : s.m.owner g i = τ.m.owner g i := by
            have := ht.sees c (.word (ownerA g i)) (fun c' _ => h1 c')
            unfold TConf.view at this
            rw [fold_at (h1 c)] at this
            exact this
          exact Or.inr fun hn => legal_os hlegal hi (h2.trans hn)
        · exact hkeep (fun c' o' v' hh => by cases hh; exact hwo) rfl
    | @fenced c k o f v m' hrun hf hb hex =>
        by_cases hwo : o.writes (.word (ownerA g i))
        · have hrun : s.cores c = .running k (.op o f) := by rw [hcores]; exact hrun
          refine Or.inl fun c' o' ho' => ?_
          by_cases hcc : c' = c
          · subst hcc
            have ho' : o' ∈ τ.bufs c' := ho'
            rw [hb] at ho'
            cases ho'
          · exact ht.clear h0 hs hko ⟨k, f, hrun⟩ (Or.inr hwo) c' hcc o' ho'
        · exact hkeep (fun c' o' v' hh => by cases hh; exact hwo) (exec_at (l := .word (ownerA g i)) hex hwo)
    | @fetch c k o f v m' hrun hf hex =>
        exact hkeep (fun c' o' v' hh => by cases hh; cases o <;> first | exact False.elim hf | exact fun hh => hh) rfl
    | @own c k o f v m' hrun hf hex =>
        have hwo : ¬ o.writes (.word (ownerA g i)) := by cases o <;> first | exact False.elim hf | exact fun hh => hh
        exact hkeep (fun c' o' v' hh => by cases hh; exact hwo) (exec_at (l := .word (ownerA g i)) hex hwo)
    | done _ => exact hkeep (fun c o v hh => by cases hh) rfl
    | soft hsoft =>
        obtain ⟨x, w, hx, rfl⟩ := hsoft
        exact hkeep (fun c o v hh => by cases hh) (upd_ne _ _ (by omega))

/-- What software accesses in the regions that are the OS's according to memory is what the interleaving has there. -/
theorem GoodS.access (hw : g.WF) {t : List Label} {τ : TConf} {s : Conf} (ht : GoodT g t τ s) (h : GoodS g t τ s) {a : Nat} (ha : g.monitorTop.toNat ≤ a)
    (hn : τ.m.owner g (regionOf g a) = nullEnclaveId) : (∀ c, ∀ o ∈ τ.bufs c, ¬ o.writes (.word a)) ∧ s.m.mem a = τ.m.mem a ∧
      s.m.owner g (regionOf g a) ≠ freeEnclaveId ∧ s.m.owner g (regionOf g a) ≠ metadataEnclaveId := by
  have hi := regionOf_lt hw a
  have h1 : s.m.owner g (regionOf g a) ≠ freeEnclaveId ∧ s.m.owner g (regionOf g a) ≠ metadataEnclaveId := by
    rcases h.lag _ hi with q | q
    · have := ht.sees 0 (.word (ownerA g (regionOf g a))) (fun c' _ => q c')
      unfold TConf.view at this
      rw [fold_at (q 0)] at this
      have this : s.m.owner g (regionOf g a) = τ.m.owner g (regionOf g a) := this
      rw [this, hn]
      decide
    · exact q hn
  have h2 : ∀ c, ∀ o ∈ τ.bufs c, ¬ o.writes (.word a) := fun c o ho hh => h1.2 (h.page c o ho a ha hh)
  have := ht.sees 0 (.word a) (fun c' _ => h2 c')
  unfold TConf.view at this
  rw [fold_at (h2 0)] at this
  exact ⟨h2, this, h1⟩

/-- A store of software to such a region. -/
theorem GoodS.put (hw : g.WF) {s0 s s' : Conf} {t : List Label} {τ : TConf} (h0 : Fresh g s0) (hs : Steps g s0 t s) (hk : OnlyCalls (fun k => CoveredC g k ∧ Lockwise k) t)
    (ht : GoodT g t τ s) (h : GoodS g t τ s) {a : Nat} {v : W} (ha : g.monitorTop.toNat ≤ a) (hn : τ.m.owner g (regionOf g a) = nullEnclaveId)
    (ht' : GoodT g (t ++ [.soft]) { τ with m := τ.m.put a v } s') : s' = { s with m := s.m.put a v } := by
  have hg := good_steps h0 hs (racing_covered (lockwise_only hk))
  obtain ⟨h1, -, -⟩ := h.access hw ht ha hn
  have hput : ∀ (m : Machine) l, l ≠ .word a → (m.put a v).at l = m.at l := fun m l hl => by
    cases l with
    | word y => exact upd_ne _ _ fun hh => hl (by rw [hh])
    | _ => rfl
  have hm : s'.m = s.m.put a v := by
    refine machine_ext (fun l => ?_) (ht'.rest.trans ht.rest.symm)
    obtain ⟨c, hc⟩ : ∃ c, ∀ c', c' ≠ c → ∀ o ∈ τ.bufs c', ¬ o.writes l := by
      rcases Classical.em (∃ c, ∃ o ∈ τ.bufs c, o.writes l) with ⟨c, o, ho, hwo⟩ | hno
      · exact ⟨c, fun c' hne o' ho' hw' => hne (held_excl hw hg ((ht.ent c' o' ho').2 l hw') ((ht.ent c o ho).2 l hwo))⟩
      · exact ⟨0, fun c' _ o' ho' hw' => hno ⟨c', o', ho', hw'⟩⟩
    rw [ht'.sees c l hc]
    show ((τ.bufs c).foldl (perform g c) (τ.m.put a v)).at l = _
    by_cases hl : l = .word a
    · subst hl
      rw [fold_at (h1 c)]
      exact (upd_same _ _ _).trans (upd_same _ _ _).symm
    · rw [hput _ l hl, ht.sees c l hc]
      exact fold_congr (hput _ l hl)
  have hc : s'.cores = s.cores := ht'.cores.trans ht.cores.symm
  cases s'
  cases s
  simp only at hm hc
  subst hm hc
  rfl

end Sanctum
