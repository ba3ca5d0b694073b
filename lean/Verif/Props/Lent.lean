import Verif.Lemmas.Lent
import Verif.Props.Torn
/-
C52, C53, C54 with the thread calls and debug copies with an ID, for interleavings in which no thread call loses the region of its enclave.
-/
namespace Sanctum
open Machine

variable {g : Cfg} {c : Nat} {α : Type}

theorem Prog.NoOwner.weaken {p : Prog α} {H H' : Nat → Prop} (hp : p.NoOwner g c H) (hH : ∀ i, H i → H' i) : p.NoOwner g c H' := by
  induction p generalizing H H' with
  | ret a => trivial
  | op o k ih => exact ⟨hp.1, fun v hv => ih v (hp.2 v (hv.mono hH)) (heldStep_mono hH)⟩
  | fault => trivial
  | diverge => trivial

theorem Prog.Lent.weaken {i : Nat} {p : Prog α} {H H' T T' : Nat → Prop} (hp : p.Lent g c i H T) (hH : ∀ i, H i → H' i) (hT : ∀ i, T i → T' i) :
    p.Lent g c i H' T' := by
  induction p generalizing H H' T T' with
  | ret a => trivial
  | op o k ih =>
      refine ⟨fun x hx => (hp.1 x hx).imp id (hT _), fun v hv => ?_⟩
      rcases hp.2 v (hv.mono hH) with ⟨h1, h2⟩ | h2
      · exact Or.inl ⟨tStep_mono hH hT _ h1, h2.weaken (heldStep_mono hH) (tStep_mono hH hT)⟩
      · exact Or.inr (ih v h2 (heldStep_mono hH) (tStep_mono hH hT))
  | fault => trivial
  | diverge => trivial

/-- What the logics say of a call that runs. -/
def FineL (g : Cfg) (c : Nat) (k : Call) (p : Prog W) (H : Nat → Prop) (m : Machine) : Prop :=
  (k.borrows = none → ∃ T, p.Cfn g c (NamedWord g k) Top H T ∧ Known g H T m) ∧
  ∀ e, k.borrows = some e → p.NoOwner g c H ∧
    ((∃ T, p.Lent g c (regionOf g e.toNat) H T ∧ Known g H T m) ∨
     (m.owner g (regionOf g e.toNat) = metadataEnclaveId ∧ ∃ T, p.Cfn g c (InRegion g (regionOf g e.toNat)) Top H T ∧ Known g H T m))

theorem FineL.act (hw : g.WF) {k : Call} {o : Op} {f : W → Prog W} {H : Nat → Prop} {m m' : Machine} {v : W} (h : FineL g c k (.op o f) H m)
    (hv : RespOk g c H o v) (he : exec g c o m = some (v, m')) : FineL g c k (f v) (heldStep g o v H) m' := by
  refine ⟨fun hb => ?_, fun e hb => ?_⟩
  · obtain ⟨T, h1, h2⟩ := h.1 hb
    exact ⟨_, h1.2 v hv, h2.step he⟩
  · obtain ⟨h1, h2⟩ := h.2 e hb
    refine ⟨h1.2 v hv, ?_⟩
    rcases h2 with ⟨T, h3, h4⟩ | ⟨h3, T, h4, h5⟩
    · rcases h3.2 v hv with ⟨q1, q2⟩ | q
      · exact Or.inr ⟨(h4.step he _ q1).2.2, _, q2, h4.step he⟩
      · exact Or.inl ⟨_, q, h4.step he⟩
    · exact Or.inr ⟨(exec_mutates he (h1.1 _ (regionOf_lt hw _))).trans h3, _, h4.2 v hv, h5.step he⟩

/-- Steps that leave the owners of held regions alone, and the region of the enclave of a thread call. -/
theorem FineL.other {k : Call} {p : Prog W} {H : Nat → Prop} {m m' : Machine} (h : FineL g c k p H m)
    (hr : ∀ i, i < g.regions → H i → m'.owner g i = m.owner g i)
    (he : ∀ e, k.borrows = some e → m.owner g (regionOf g e.toNat) = metadataEnclaveId → m'.owner g (regionOf g e.toNat) = metadataEnclaveId) :
    FineL g c k p H m' := by
  have hK : ∀ {T}, Known g H T m → Known g H T m' := fun hk i hi => by
    obtain ⟨q1, q2, q3⟩ := hk i hi
    exact ⟨q1, q2, (hr i q1 q2).trans q3⟩
  refine ⟨fun hb => ?_, fun e hb => ?_⟩
  · obtain ⟨T, h1, h2⟩ := h.1 hb
    exact ⟨T, h1, hK h2⟩
  · obtain ⟨h1, h2⟩ := h.2 e hb
    refine ⟨h1, ?_⟩
    rcases h2 with ⟨T, h3, h4⟩ | ⟨h3, T, h4, h5⟩
    · exact Or.inl ⟨T, h3, hK h4⟩
    · exact Or.inr ⟨he e hb h3, T, h4, hK h5⟩

/-- What a call that runs may access. -/
theorem FineL.may {k : Call} {o : Op} {f : W → Prog W} {H : Nat → Prop} {m : Machine} (h : FineL g c k (.op o f) H m) :
    ∀ x, o.accesses g x → MayUse g H m k x := by
  intro x hx
  cases hb : k.borrows with
  | none =>
      obtain ⟨T, h1, h2⟩ := h.1 hb
      rcases h1.1 x hx with q | q | q
      · exact Or.inl q
      · exact Or.inr (Or.inl q)
      · exact Or.inr (Or.inr ⟨(h2 _ q).2.2, Or.inl (h2 _ q).2.1⟩)
  | some e =>
      obtain ⟨-, ⟨T, h3, h4⟩ | ⟨h3, T, h4, h5⟩⟩ := h.2 e hb
      · rcases h3.1 x hx with q | q
        · exact Or.inl q
        · exact Or.inr (Or.inr ⟨(h4 _ q).2.2, Or.inl (h4 _ q).2.1⟩)
      · rcases h4.1 x hx with q | q | q
        · exact Or.inl q
        · have q : regionOf g x = regionOf g e.toNat := q
          exact Or.inr (Or.inr ⟨by rw [q]; exact h3, Or.inr ⟨e, hb, q⟩⟩)
        · exact Or.inr (Or.inr ⟨(h5 _ q).2.2, Or.inl (h5 _ q).2.1⟩)

/-- What the logics say of a configuration. -/
def GoodU (g : Cfg) (t : List Label) (s : Conf) : Prop := ∀ c k p, s.cores c = .running k p → Roomy g k → FineL g c k p (holds g t c) s.m

theorem GoodU.step (hw : g.WF) {t : List Label} {s s' : Conf} {l : Label} (hg : Good g t s) (h : GoodU g t s) (hcov : OnlyCalls (CoveredC g) (t ++ [l]))
    (hcur : ∀ c k p, s.cores c = .running k p → current t c = some k) (hl : Step g s l s') (hn : ¬ Takes g t s l s') : GoodU g (t ++ [l]) s' := by
  intro c k p hc hk
  cases hl with
  | @start c' k' hlt hidle =>
      have hsame : holds g (t ++ [Label.start c' k']) c = holds g t c := by rw [holds_snoc]; rfl
      rw [hsame]
      have hc' : upd s.cores c' (.running k' (k'.prog g)) c = CoreState.running k p := hc
      by_cases hcc : c = c'
      · subst hcc
        rw [upd_same] at hc'
        obtain ⟨rfl, rfl⟩ := CoreState.running.inj hc'
        have hck := hcov c k' (List.mem_append_right _ (List.mem_singleton.2 rfl))
        refine ⟨fun hb => ⟨noL, (conf_named hw c k' hlt hck hk hb).weaken (fun _ hh => hh.elim) (fun _ hh => hh), fun _ hh => hh.elim⟩, fun e hb => ?_⟩
        obtain ⟨h1, h2⟩ := lent_call hw c k' hck hb
        exact ⟨h2.weaken fun _ hh => hh.elim, Or.inl ⟨noL, h1.weaken (fun _ hh => hh.elim) (fun _ hh => hh), fun _ hh => hh.elim⟩⟩
      · rw [upd_ne _ _ hcc] at hc'
        exact h c k p hc' hk
  | @act c' k' o f v m' hrun hex =>
      have hc' : upd s.cores c' (.running k' (f v)) c = CoreState.running k p := hc
      by_cases hcc : c = c'
      · subst hcc
        rw [upd_same] at hc'
        obtain ⟨rfl, rfl⟩ := CoreState.running.inj hc'
        rw [holds_snoc, heldLabel_act_self]
        exact (h c k' _ hrun hk).act hw (exec_respOk hg.inv (hg.held c) hex) hex
      · rw [upd_ne _ _ hcc] at hc'
        rw [holds_snoc, heldLabel_act_other (Ne.symm hcc)]
        refine (h c k p hc' hk).other (fun i q1 q2 => ?_) fun e hb ho => ?_
        · obtain ⟨v2, m2, w1, w2, w3, w4⟩ := hg.act hrun
          rw [hex] at w1
          obtain ⟨rfl, rfl⟩ := Prod.mk.inj (Option.some.inj w1)
          have hn : ¬ holds g t c' i := fun hh => hcc (hg.mutex c c' i q1 q2 hh)
          exact (w3.record i q1 hn).1 _ (Or.inl rfl)
        · exact Classical.byContradiction fun ho' => hn ⟨c, c', o, v, k, e, rfl, Ne.symm hcc, hcur c k p hc', hb, ho, ho'⟩
  | @done c' k' v hrun =>
      have hc' : upd s.cores c' .idle c = CoreState.running k p := hc
      by_cases hcc : c = c'
      · subst hcc; rw [upd_same] at hc'; exact absurd hc' (by simp)
      · rw [upd_ne _ _ hcc] at hc'
        rw [holds_snoc, heldLabel_done_other (Ne.symm hcc)]
        exact h c k p hc' hk
  | @soft m' hsoft =>
      obtain ⟨a, v, ha, rfl⟩ := hsoft
      have hsame : holds g (t ++ [Label.soft]) c = holds g t c := by rw [holds_snoc]; rfl
      rw [hsame]
      have hown : ∀ i, i < g.regions → upd s.m.mem a v (ownerA g i) = s.m.mem (ownerA g i) := by
        intro i hi
        have := ownerA_lt hw hi
        exact upd_ne _ _ (by omega)
      exact (h c k p hc hk).other (fun i q1 _ => hown i q1) fun e _ ho => (hown _ (regionOf_lt hw _)).trans ho

theorem StepsBy.steps {R : List Label → Conf → Label → Conf → Prop} {s s' : Conf} {t : List Label} (h : StepsBy g R s t s') : Steps g s t s' := by
  induction h with
  | refl => exact .refl _
  | tail _ hl _ ih => exact .tail ih hl

theorem StepsBy.mono {R R' : List Label → Conf → Label → Conf → Prop} (hR : ∀ t s l s', R t s l s' → R' t s l s') {s s' : Conf} {t : List Label}
    (h : StepsBy g R s t s') : StepsBy g R' s t s' := by
  induction h with
  | refl => exact .refl
  | tail _ hl hr ih => exact .tail ih hl (hR _ _ _ _ hr)

theorem running_current {s s' : Conf} {t : List Label} (h : Fresh g s) (hs : Steps g s t s') {c : Nat} {k : Call} {p : Prog W}
    (hr : s'.cores c = .running k p) : current t c = some k := by
  rcases current_steps h.2 hs c with ⟨h5, -⟩ | ⟨k', p', h5, h6⟩
  · rw [hr] at h5; cases h5
  · rw [hr] at h5; cases h5; exact h6

theorem goodU_steps {s s' : Conf} {t : List Label} (h : Fresh g s) (hs : Undisturbed g s t s') (hk : OnlyCalls (CoveredC g) t) : GoodU g t s' := by
  induction hs with
  | refl => intro c k p hc; rw [h.2 c] at hc; cases hc
  | @tail s1 s2 t l hs hl hn ih =>
      exact GoodU.step h.1.wf (good_steps h hs.steps hk.prefix) (ih hk.prefix) hk (fun c k p hr => running_current h hs.steps hr) hl hn

/-- C52 with the thread calls and debug copies with any ID of a record: if no other core ends the time of a region as metadata region while a thread
call about an enclave of that region runs, then every access by monitor code is to the monitor's memory, to what was passed to a debug copy, or to a
region that is a metadata region at that moment; and the core holds the lock of that region, but for the region of the enclave of a thread call. -/
theorem C52_undisturbed_partial {s s' : Conf} {t : List Label} (h : Fresh g s) (hs : Undisturbed g s t s') (hk : OnlyCalls (CoveredC g) t)
    {c : Nat} {o : Op} {v : W} {s'' : Conf} {k : Call} (hst : Step g s' (.act c o v) s'') (hcur : current t c = some k) (hr : Roomy g k) :
    ∀ x, o.accesses g x → MayUse g (holds g t c) s'.m k x := by
  have hg := goodU_steps h hs hk
  cases hst with
  | act hrun hex =>
      have h6 := running_current h hs.steps hrun
      rw [hcur] at h6; cases h6
      exact (hg c k _ hrun hr).may

/-- C53 with the thread calls and debug copies with any ID of a record: in such interleavings no step of the monitor changes a word outside its own
memory, outside metadata regions, and outside the pages of a debug copy. -/
theorem C53_undisturbed_partial {s s' : Conf} {t : List Label} (h : Fresh g s) (hs : Undisturbed g s t s') (hk : OnlyCalls (CoveredC g) t)
    {c : Nat} {o : Op} {v : W} {s'' : Conf} {k : Call} (hst : Step g s' (.act c o v) s'') (hcur : current t c = some k) (hr : Roomy g k) :
    ∀ x, g.monitorTop.toNat ≤ x → ¬ NamedWord g k x → s'.m.owner g (regionOf g x) ≠ metadataEnclaveId → s''.m.mem x = s'.m.mem x := by
  intro x h1 h2 h3
  have hc := C52_undisturbed_partial h hs hk hst hcur hr
  cases hst with
  | act hrun hex =>
      refine exec_mutates hex fun hm => ?_
      rcases hc x (Op.mutates_accesses hm) with q | q | q
      · omega
      · exact h2 q
      · exact h3 q.1

/-- C54 with the thread calls and debug copies with any ID of a record: as long as region `r` is no metadata region, no debug copy names its words,
and no thread call loses the region of its enclave, nothing the monitor does depends on the contents of region `r`. -/
theorem C54_undisturbed_partial {s s' : Conf} {t : List Label} {r : Nat} (h : Fresh g s) (h0 : s.m.owner g r ≠ metadataEnclaveId)
    (hs : StepsBy g (fun t s l s' => ¬ Takes g t s l s' ∧ s'.m.owner g r ≠ metadataEnclaveId) s t s') (hk : OnlyCalls (CoveredC g) t)
    (hro : OnlyCalls (Roomy g) t) (harg : OnlyCalls (fun k => ∀ x, NamedWord g k x → x < g.monitorTop.toNat ∨ regionOf g x ≠ r) t) {s2 : Conf}
    (h2 : SameBut g r s s2) : ∃ s2', Steps g s2 t s2' ∧ SameBut g r s' s2' := by
  have key : ∀ {t s'}, StepsBy g (fun t s l s' => ¬ Takes g t s l s' ∧ s'.m.owner g r ≠ metadataEnclaveId) s t s' → s'.m.owner g r ≠ metadataEnclaveId := by
    intro t s' hs
    cases hs with
    | refl => exact h0
    | tail _ _ hh => exact hh.2
  induction hs with
  | refl => exact ⟨s2, .refl _, h2⟩
  | @tail s1 s3 t l hs hl hP ih =>
      obtain ⟨sa, h3, h4⟩ := ih hk.prefix hro.prefix harg.prefix
      have hst := hs.steps
      have hP1 := key hs
      have hcores := h4.cores
      cases hl with
      | @start c k hlt hidle =>
          refine ⟨_, h3.tail (Step.start (c := c) k hlt (by rw [hcores]; exact hidle)), ⟨?_, h4.mem, h4.rest⟩⟩
          show upd sa.cores c _ = upd s1.cores c _
          rw [hcores]
      | @act c k o f v m' hrun hex =>
          have h6 := running_current h hst hrun
          obtain ⟨t1, t2, ht⟩ := ((good_steps h hst hk.prefix).safe c k _ hrun).2.2.1
          have hin : Label.start c k ∈ t := by rw [ht]; exact List.mem_append_right _ List.mem_cons_self
          have hin2 : Label.start c k ∈ t ++ [Label.act c o v] := List.mem_append_left _ hin
          have hacc := C52_undisturbed_partial h (hs.mono fun _ _ _ _ hh => hh.1) hk.prefix (Step.act hrun hex) h6 (hro c k hin2)
          obtain ⟨m2', q1, q2, q3⟩ := exec_same hex (m2 := sa.m) (fun x hx => by
            refine h4.mem x ?_
            rcases hacc x hx with q | q | q
            · exact Or.inl q
            · exact harg c k hin2 x q
            · exact Or.inr fun hh => hP1 (by rw [← hh]; exact q.1)) h4.rest
          refine ⟨_, h3.tail (Step.act (c := c) (by rw [hcores]; exact hrun) q1), ⟨?_, fun x hx => q2 x (h4.mem x hx), q3⟩⟩
          show upd sa.cores c _ = upd s1.cores c _
          rw [hcores]
      | @done c k v hrun =>
          refine ⟨_, h3.tail (Step.done (c := c) (k := k) (v := v) (by rw [hcores]; exact hrun)), ⟨?_, h4.mem, h4.rest⟩⟩
          show upd sa.cores c _ = upd s1.cores c _
          rw [hcores]
      | @soft m' hsoft =>
          obtain ⟨a, w, ha, rfl⟩ := hsoft
          refine ⟨_, h3.tail (Step.soft (s := sa) ⟨a, w, ha, rfl⟩), ⟨hcores, ?_, ?_⟩⟩
          · intro x hx
            show upd sa.m.mem a w x = upd s1.m.mem a w x
            unfold upd
            split
            · rfl
            · exact h4.mem x hx
          · have := h4.rest
            obtain ⟨⟨mem2, d1, d2, d3, d4, d5, d6, d7, d8, d9, d10⟩, cc⟩ := sa
            obtain ⟨⟨mem, e1, e2, e3, e4, e5, e6, e7, e8, e9, e10⟩, cc'⟩ := s1
            simp only [Machine.mk.injEq, true_and] at this ⊢
            exact this

/-! ### When no thread call is disturbed -/

/-- The cores that run a thread call. -/
def Safely (g : Cfg) (s : Conf) : Prop :=
  ∀ c k p e, c < g.cores → s.cores c = .running k p → k.borrows = some e → s.m.owner g (regionOf g e.toNat) = metadataEnclaveId

/-- It is enough that the region of the enclave of a running thread call is a metadata region after every step. -/
theorem by_safely {Q : Conf → Prop} {s s' : Conf} {t : List Label} (h : Fresh g s) (hk : OnlyCalls (CoveredC g) t)
    (hs : StepsIn g (fun s => Safely g s ∧ Q s) s t s') : StepsBy g (fun t s l s' => ¬ Takes g t s l s' ∧ Q s') s t s' := by
  induction hs with
  | refl _ => exact .refl
  | @tail s1 s2 t l hs hl hP ih =>
      refine .tail (ih hk.prefix) hl ⟨?_, hP.2⟩
      rintro ⟨c, c', o, v, k, e, rfl, hne, hcur, hb, ho, ho'⟩
      rcases current_steps h.2 hs.steps c with ⟨-, h6⟩ | ⟨k', p', h5, h6⟩
      · rw [hcur] at h6; cases h6
      · rw [hcur] at h6; cases h6
        have hc := ((good_steps h hs.steps hk.prefix).safe c k p' h5).1
        refine ho' (hP.1 c k p' e hc ?_ hb)
        cases hl with
        | act hrun hex => exact (upd_ne _ _ (Ne.symm hne)).trans h5

/-- No call starts while another runs. -/
def Apart (t : List Label) : Prop := ∀ t1 c k t2, t = t1 ++ .start c k :: t2 → ∀ c', current t1 c' = none

/-- Calls made one after the other (on any cores, with stores by software at any time) are undisturbed. -/
theorem undisturbed_apart {s s' : Conf} {t : List Label} (h : Fresh g s) (hs : Steps g s t s') (ha : Apart t) : Undisturbed g s t s' := by
  have snoc : ∀ {t : List Label} {l : Label} (c : Nat), current (t ++ [l]) c = currentLabel c (current t c) l := fun c => by
    unfold current; rw [List.foldl_append]; rfl
  have key : ∀ {t s'}, Steps g s t s' → Apart t → ∀ c c', current t c ≠ none → current t c' ≠ none → c = c' := by
    intro t s' hs ha
    induction hs with
    | refl => exact fun c c' hc => absurd rfl hc
    | @tail s1 s2 t l hs hl ih =>
        have ha' : Apart t := fun t1 c k t2 ht => ha t1 c k (t2 ++ [l]) (by rw [ht]; simp)
        have ih := ih ha'
        intro c c' h1 h2
        rw [snoc] at h1 h2
        cases l with
        | start c0 k =>
            have hn := ha t c0 k [] rfl
            simp only [currentLabel, hn] at h1 h2
            split at h1
            · split at h2
              · exact (by assumption : c0 = c).symm.trans ‹c0 = c'›
              · exact absurd rfl h2
            · exact absurd rfl h1
        | act => exact ih c c' h1 h2
        | done c0 k v =>
            simp only [currentLabel] at h1 h2
            split at h1
            · exact absurd rfl h1
            · split at h2
              · exact absurd rfl h2
              · exact ih c c' h1 h2
        | soft => exact ih c c' h1 h2
  induction hs with
  | refl => exact .refl
  | @tail s1 s2 t l hs hl ih =>
      have ha' : Apart t := fun t1 c k t2 ht => ha t1 c k (t2 ++ [l]) (by rw [ht]; simp)
      refine .tail (ih ha') hl ?_
      rintro ⟨c, c', o, v, k, e, rfl, hne, hcur, -⟩
      cases hl with
      | act hrun hex =>
          have hcur' := running_current h hs hrun
          exact hne (key hs ha' c' c (by rw [hcur']; simp) (by rw [hcur]; simp))

/-- An enclave is made at 0x9000; core 0 calls `load_thread` for it, core 1 makes a debug copy with its ID before `load_thread` is done. -/
def lentMoves : List Move := callMoves 0 (.blockDramRegion 1) 22 ++ callMoves 0 (.freeDramRegion 1) 10 ++ callMoves 0 (.createMetadataRegion 1) 518 ++
  callMoves 0 (.createEnclave 0x9000 0 4095 0 true) 413 ++ callMoves 0 (.loadThread 0x9000 0xa000 1 2 3 4) 5 ++
  callMoves 1 (.copyDebugEnclavePage 0x9000 0x18000 0x20000 true) 9 ++ List.replicate 7 (.go 0)

/-- A test for `Safely` in these plays, and that region 2 is no metadata region. -/
def lentOk (s : Conf) : Bool :=
  (List.range 4).all (fun c => match s.cores c with
    | .running k _ => (match k.borrows with
      | some e => s.m.owner toyG (regionOf toyG e.toNat) == metadataEnclaveId
      | none => true)
    | .idle => true) && s.m.owner toyG 2 != metadataEnclaveId

theorem lentOk_safely {s : Conf} (h : lentOk s = true) : Safely toyG s ∧ s.m.owner toyG 2 ≠ metadataEnclaveId := by
  unfold lentOk at h
  rw [Bool.and_eq_true, List.all_eq_true] at h
  refine ⟨fun c k p e hc hr hb => ?_, bne_iff_ne.1 h.2⟩
  have hc : c < 4 := hc
  have := h.1 c (List.mem_range.2 hc)
  rw [hr] at this
  simp only [hb] at this
  exact beq_iff_eq.1 this

set_option maxRecDepth 100000 in
theorem lent_plays : (playIn toyG lentOk lentMoves toyS).map (fun x => (results x.1, x.2.m.owner toyG 1 == metadataEnclaveId)) =
    some ([(0, monitorOk), (0, monitorOk), (0, monitorOk), (0, monitorOk), (1, monitorInvalidValue), (0, monitorInvalidState)], true) := by decide +kernel

theorem lent_calls : ∀ c k, Move.start c k ∈ lentMoves → CoveredC toyG k ∧ Roomy toyG k ∧
    ∀ x, NamedWord toyG k x → x < toyG.monitorTop.toNat ∨ regionOf toyG x ≠ 2 := by
  intro c k hk
  have hmeta : toyG.SingleStripe ∧ toyG.ShiftOk := ⟨toy_single, toy_shiftOk⟩
  simp only [lentMoves, callMoves, List.cons_append, List.nil_append, List.mem_cons, List.mem_append, List.mem_replicate, Move.start.injEq, reduceCtorEq, false_or, or_false,
    and_false, List.not_mem_nil, or_assoc] at hk
  rcases hk with ⟨_, rfl⟩ | ⟨_, rfl⟩ | ⟨_, rfl⟩ | ⟨_, rfl⟩ | ⟨_, rfl⟩ | ⟨_, rfl⟩
  case inr.inr.inr.inr.inr =>
    refine ⟨⟨Or.inl (by decide), ?_⟩, trivial, fun x hx => Or.inr ?_⟩
    · rintro e a os d hh
      cases hh
      intro _
      set_option maxRecDepth 100000 in decide +kernel
    · have hs : 2 ^ (12 + toyG.sp) = 0x8000 ∧ 2 ^ toyG.rb = 8 ∧ toyG.bitmapWords.toNat = 1 := by set_option maxRecDepth 100000 in decide +kernel
      have hx : ((0x18000 ≤ x ∧ x < 0x18000 + 4096) ∨ (0x20000 ≤ x ∧ x < 0x20000 + 4096)) ∨
        ((0x9000 : W) ≠ nullEnclaveId ∧ 0x9000 ≤ x ∧ x < 0x9000 + 304 + 8 * toyG.bitmapWords.toNat) := hx
      rw [hs.2.2] at hx
      unfold regionOf
      rw [hs.1, hs.2.1]
      omega
  all_goals first
    | exact ⟨⟨trivial, fun _ _ _ _ hh => by cases hh⟩, trivial, fun x hx => hx.elim (fun hx => hx.elim) fun hx => hx.elim⟩
    | exact ⟨⟨hmeta, fun _ _ _ _ hh => by cases hh⟩, trivial, fun x hx => hx.elim (fun hx => hx.elim) fun hx => hx.elim⟩

/-- The hypotheses of the three theorems are met by this interleaving (with any contents of region 2), in which calls overlap. -/
example : ∃ t s', Fresh toyG toyS ∧ Undisturbed toyG toyS t s' ∧ StepsBy toyG (fun t s l s' => ¬ Takes toyG t s l s' ∧ s'.m.owner toyG 2 ≠ metadataEnclaveId) toyS t s' ∧
    OnlyCalls (CoveredC toyG) t ∧ OnlyCalls (Roomy toyG) t ∧ OnlyCalls (fun k => ∀ x, NamedWord toyG k x → x < toyG.monitorTop.toNat ∨ regionOf toyG x ≠ 2) t ∧
    SameBut toyG 2 toyS { toyS with m := { toyM with mem := upd toyM.mem 0x10018 5 } } ∧
    results t = [(0, monitorOk), (0, monitorOk), (0, monitorOk), (0, monitorOk), (1, monitorInvalidValue), (0, monitorInvalidState)] := by
  have h := lent_plays
  cases hp : playIn toyG lentOk lentMoves toyS with
  | none => rw [hp] at h; cases h
  | some x =>
      rw [hp] at h
      obtain ⟨h1, h2⟩ := playIn_steps (t := x.1) (s' := x.2) lentMoves hp
      have hc := play_onlyCalls lentMoves lent_calls h2
      have hb := by_safely toyS_fresh (hc.mono fun _ h => h.1) (h1.mono fun s hs => lentOk_safely hs)
      refine ⟨x.1, x.2, toyS_fresh, hb.mono fun _ _ _ _ hh => hh.1, hb, hc.mono (fun _ h => h.1), hc.mono (fun _ h => h.2.1), hc.mono (fun _ h => h.2.2), ?_,
        (Prod.mk.inj (Option.some.inj h)).1⟩
      refine ⟨rfl, fun x hx => ?_, rfl⟩
      have hs : 2 ^ (12 + toyG.sp) = 0x8000 ∧ 2 ^ toyG.rb = 8 ∧ toyG.monitorTop.toNat ≤ 0x9000 := by set_option maxRecDepth 100000 in decide +kernel
      refine upd_ne _ _ ?_
      rintro rfl
      unfold regionOf at hx
      rw [hs.1, hs.2.1] at hx
      rcases hx with hx | hx
      · omega
      · exact hx rfl

/-! ### Thread calls race -/

/-- Core 0 is in `assign_thread`, about to release the enclave's lock; meanwhile the region of the enclave has become the OS's, and core 1 makes a debug copy into the page
in which the record was. -/
def clashMoves : List Move := callMoves 0 (.blockDramRegion 1) 22 ++ callMoves 0 .flushCachedDramRegions 5 ++ callMoves 0 (.freeDramRegion 1) 10 ++
  callMoves 0 (.createMetadataRegion 1) 518 ++ callMoves 0 (.createEnclave 0x9000 0 4095 0 true) 413 ++ leakMoves ++
  callMoves 1 (.copyDebugEnclavePage 0 0x18000 0x9000 true) 7

set_option maxRecDepth 100000 in
theorem clash_plays : (play toyG clashMoves toyS).map (fun x => (nextWrite x.2 0, nextWrite x.2 1)) = some (some 0x9000, some 0x9000) := by decide +kernel

theorem clash_calls : ∀ c k, Move.start c k ∈ clashMoves → CoveredC toyG k ∧ ∀ e a os d, k = .copyDebugEnclavePage e a os d → e = nullEnclaveId := by
  intro c k hk
  have hmeta : toyG.SingleStripe ∧ toyG.ShiftOk := ⟨toy_single, toy_shiftOk⟩
  simp only [clashMoves, callMoves, leakMoves, List.cons_append, List.nil_append, List.mem_cons, List.mem_append, List.mem_replicate, Move.start.injEq, reduceCtorEq, false_or,
    or_false, and_false, List.not_mem_nil, or_assoc] at hk
  rcases hk with ⟨_, rfl⟩ | ⟨_, rfl⟩ | ⟨_, rfl⟩ | ⟨_, rfl⟩ | ⟨_, rfl⟩ | ⟨_, rfl⟩ | ⟨_, rfl⟩ | ⟨_, rfl⟩ | ⟨_, rfl⟩
  case inr.inr.inr.inr.inr.inr.inr.inr =>
    have hlow : toyG.monitorTop.toNat ≤ 0x9000 := enclM_facts.2.2.2.2.2.2.2.1
    refine ⟨⟨Or.inr (Nat.le_trans hlow (by decide)), ?_⟩, ?_⟩
    · rintro e a os d hh
      cases hh
      exact fun hh => absurd rfl hh
    · rintro e a os d hh
      cases hh
      rfl
  all_goals first
    | exact ⟨⟨trivial, fun _ _ _ _ hh => by cases hh⟩, fun _ _ _ _ hh => by cases hh⟩
    | exact ⟨⟨hmeta, fun _ _ _ _ hh => by cases hh⟩, fun _ _ _ _ hh => by cases hh⟩

/-- C75 is false of thread calls, too, even if every debug copy is made with the OS's ID: `assign_thread` is about to store into a page of the OS while another core's
debug copy is about to store to the same word. -/
theorem C75_thread_calls_false : ∃ g s t s', Fresh g s ∧ Steps g s t s' ∧ OnlyCalls (fun k => CoveredC g k ∧ ∀ e a os d, k = .copyDebugEnclavePage e a os d → e = nullEnclaveId) t ∧
    Race g s' := by
  have h := clash_plays
  have hplain : ¬ AtomicLoc toyG (.word 0x9000) := by
    have hlow : toyG.monitorTop.toNat ≤ 0x9000 := enclM_facts.2.2.2.2.2.2.2.1
    have hw := toyS_fresh.1.wf
    rintro (⟨i, hi, hh⟩ | hh | ⟨c, hc, hh⟩)
    · have := lockA_lt hw hi
      injection hh with hh; omega
    · injection hh with hh
      revert hh
      set_option maxRecDepth 100000 in decide +kernel
    · injection hh with hh
      have hc4 : toyG.cores = 4 := enclM_facts.2.2.2.2.1
      unfold flushedA at hh; omega
  cases hp : play toyG clashMoves toyS with
  | none => rw [hp] at h; cases h
  | some x =>
      rw [hp] at h
      simp only [Option.map_some, Option.some.injEq, Prod.mk.injEq] at h
      obtain ⟨v, h1⟩ := next_of_store h.1
      obtain ⟨w, h2⟩ := next_of_store h.2
      exact ⟨toyG, toyS, x.1, x.2, toyS_fresh, play_steps _ hp, play_onlyCalls clashMoves clash_calls hp,
        0, 1, _, _, .word 0x9000, by decide, h1, h2, rfl, Or.inr rfl, hplain⟩

end Sanctum
