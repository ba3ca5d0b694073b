import Verif.Spec.Atomic
import Verif.Lemmas.SafeCalls2
/-
A logic for the instants at which calls take effect, and its soundness for interleavings: a forward simulation by the atomic specification.
-/
namespace Sanctum
open Machine

variable {g : Cfg} {c : Nat} {k : Call} {α β : Type}

/-- The record of region `i` says what the table says. -/
structure Synced (g : Cfg) (m : Machine) (s : RegionTable) (i : Nat) : Prop where
  owner : s.owner i = m.owner g i
  stamp : m.blockedAt g i = BitVec.ofNat 64 (s.stamp i)
  pinned : m.owner g i = metadataEnclaveId → m.pinned g i = 0

def DmaSynced (m : Machine) (s : RegionTable) : Prop := m.dmaStart = s.dmaStart ∧ m.dmaEnd = s.dmaEnd

/-- Invariants of the table. -/
structure TInv (g : Cfg) (s : RegionTable) : Prop where
  stamp : ∀ i, i < g.regions → s.stamp i ≤ s.clock
  flushed : ∀ c, c < g.cores → s.flushed c ≤ s.clock
  dma : s.dmaStart.toNat ≤ s.dmaEnd.toNat

structure Clocks (g : Cfg) (m : Machine) (s : RegionTable) : Prop where
  clock : m.clock g = BitVec.ofNat 64 s.clock
  flushed : ∀ c, c < g.cores → m.flushedAt c = BitVec.ofNat 64 (s.flushed c)

/-- The relation between the machine and the table: regions whose lock is free agree, and so do the clocks. -/
structure LInv (g : Cfg) (m : Machine) (s : RegionTable) : Prop where
  inv : CInv g m
  table : TInv g s
  clocks : Clocks g m s
  bound : s.clock < 2 ^ 64
  free : ∀ i, i < g.regions → m.mem (lockA g i) = 0 → Synced g m s i
  dma : m.mem (lockA g 0) = 0 → DmaSynced m s

/-- What the other cores keep for core `c` that holds the locks in `H`. -/
structure LRely (g : Cfg) (c : Nat) (H : Nat → Prop) (m : Machine) (s : RegionTable) (m' : Machine) (s' : RegionTable) : Prop where
  record : ∀ i, i < g.regions → H i → m'.owner g i = m.owner g i ∧ m'.blockedAt g i = m.blockedAt g i ∧ m'.pinned g i = m.pinned g i
  table : ∀ i, i < g.regions → H i → s'.owner i = s.owner i ∧ s'.stamp i = s.stamp i
  mdma : H 0 → m'.dmaStart = m.dmaStart ∧ m'.dmaEnd = m.dmaEnd
  sdma : H 0 → s'.dmaStart = s.dmaStart ∧ s'.dmaEnd = s.dmaEnd
  own : s'.flushed c = s.flushed c ∧ s'.sampled c = s.sampled c
  clock : s.clock ≤ s'.clock
  flushed : ∀ c', c' < g.cores → s.flushed c' ≤ s'.flushed c'

theorem LRely.refl (H : Nat → Prop) (m : Machine) (s : RegionTable) : LRely g c H m s m s :=
  ⟨fun _ _ _ => ⟨rfl, rfl, rfl⟩, fun _ _ _ => ⟨rfl, rfl⟩, fun _ => ⟨rfl, rfl⟩, fun _ => ⟨rfl, rfl⟩, ⟨rfl, rfl⟩, Nat.le_refl _, fun _ _ => Nat.le_refl _⟩

theorem LRely.trans {H : Nat → Prop} {m m1 m2 : Machine} {s s1 s2 : RegionTable} (h1 : LRely g c H m s m1 s1) (h2 : LRely g c H m1 s1 m2 s2) : LRely g c H m s m2 s2 :=
  ⟨fun i hi hh => ⟨(h2.record i hi hh).1.trans (h1.record i hi hh).1, (h2.record i hi hh).2.1.trans (h1.record i hi hh).2.1, (h2.record i hi hh).2.2.trans (h1.record i hi hh).2.2⟩,
   fun i hi hh => ⟨(h2.table i hi hh).1.trans (h1.table i hi hh).1, (h2.table i hi hh).2.trans (h1.table i hi hh).2⟩,
   fun hh => ⟨(h2.mdma hh).1.trans (h1.mdma hh).1, (h2.mdma hh).2.trans (h1.mdma hh).2⟩,
   fun hh => ⟨(h2.sdma hh).1.trans (h1.sdma hh).1, (h2.sdma hh).2.trans (h1.sdma hh).2⟩,
   ⟨h2.own.1.trans h1.own.1, h2.own.2.trans h1.own.2⟩, Nat.le_trans h1.clock h2.clock,
   fun c' hc => Nat.le_trans (h1.flushed c' hc) (h2.flushed c' hc)⟩

theorem LRely.mono {H H' : Nat → Prop} {m m1 : Machine} {s s1 : RegionTable} (hs : ∀ i, H' i → H i) (h1 : LRely g c H m s m1 s1) : LRely g c H' m s m1 s1 :=
  ⟨fun i hi hh => h1.record i hi (hs i hh), fun i hi hh => h1.table i hi (hs i hh), fun hh => h1.mdma (hs 0 hh), fun hh => h1.sdma (hs 0 hh), h1.own, h1.clock, h1.flushed⟩

theorem LRely.synced {H : Nat → Prop} {m m1 : Machine} {s s1 : RegionTable} (h : LRely g c H m s m1 s1) {i : Nat} (hi : i < g.regions) (hh : H i) (hs : Synced g m s i) :
    Synced g m1 s1 i := by
  obtain ⟨h1, h2, h3⟩ := h.record i hi hh
  obtain ⟨h4, h5⟩ := h.table i hi hh
  exact ⟨by rw [h4, h1]; exact hs.owner, by rw [h2, h5]; exact hs.stamp, by rw [h1, h3]; exact hs.pinned⟩

theorem LRely.dmaSynced {H : Nat → Prop} {m m1 : Machine} {s s1 : RegionTable} (h : LRely g c H m s m1 s1) (hh : H 0) (hs : DmaSynced m s) : DmaSynced m1 s1 := by
  obtain ⟨h1, h2⟩ := h.mdma hh
  obtain ⟨h3, h4⟩ := h.sdma hh
  exact ⟨by rw [h1, h3]; exact hs.1, by rw [h2, h4]; exact hs.2⟩

/-- Does the call on core `c` take effect at this action? `B`: a call is in progress on another core. -/
inductive Pt (g : Cfg) (c : Nat) (k : Call) (B : Prop) : Phase → RegionTable → Phase → RegionTable → Prop
  | none (L : Phase) (s : RegionTable) : Pt g c k B L s L s
  | effect {s s1 : RegionTable} {v : W} : TakesEffect g k s v s1 → Pt g c k B (.pending k) s (.decided k v) s1
  | busy {s : RegionTable} {v : W} : B → BusyAnswer k v → Pt g c k B (.pending k) s (.decided k v) s
  | sample {s : RegionTable} : k = .flushCachedDramRegions → Pt g c k B (.pending k) s .flushing { s with sampled := upd s.sampled c s.clock }
  | flush {s : RegionTable} : k = .flushCachedDramRegions → Pt g c k B .flushing s (.decided k monitorOk) { s with flushed := upd s.flushed c (s.sampled c) }

/-- What core `c` guarantees of an action after which it holds `H1` and the machine is `m1`. -/
structure LGuar (g : Cfg) (c : Nat) (H H1 : Nat → Prop) (m1 : Machine) (s s1 : RegionTable) : Prop where
  record : ∀ i, i < g.regions → ¬ H i → s1.owner i = s.owner i ∧ s1.stamp i = s.stamp i
  dma : ¬ H 0 → s1.dmaStart = s.dmaStart ∧ s1.dmaEnd = s.dmaEnd
  release : ∀ i, i < g.regions → H i → ¬ H1 i → Synced g m1 s1 i
  release0 : H 0 → ¬ H1 0 → DmaSynced m1 s1
  clocks : Clocks g m1 s1
  others : ∀ c', c' ≠ c → s1.flushed c' = s.flushed c' ∧ s1.sampled c' = s.sampled c'
  clock : s.clock ≤ s1.clock ∧ s1.clock ≤ s.clock + 1
  flushed : s.flushed c ≤ s1.flushed c
  table : TInv g s1

/-- The program, run on core `c` for the call `k`, in phase `L`, holding `H`, takes effect as specified, and ends with `Q`. -/
def Lin (g : Cfg) (c : Nat) (k : Call) (Q : α → (Nat → Prop) → Phase → Machine → RegionTable → Prop) : (Nat → Prop) → Phase → Machine → RegionTable → Prog α → Prop
  | H, L, m, s, .ret a => Q a H L m s
  | H, L, m, s, .op o f => ∀ m' s' B, LRely g c H m s m' s' → LInv g m' s' → HeldOk g H m' →
      (∀ i, i < g.regions → ¬ H i → m'.mem (lockA g i) ≠ 0 → B) →
      ∀ v m1, exec g c o m' = some (v, m1) → Guar g H m' (heldStep g o v H) m1 →
      ∃ L1 s1, Pt g c k B L s' L1 s1 ∧ LGuar g c H (heldStep g o v H) m1 s' s1 ∧ Lin g c k Q (heldStep g o v H) L1 m1 s1 (f v)
  | _, _, _, _, .fault => True
  | _, _, _, _, .diverge => True

variable {H : Nat → Prop} {L : Phase} {m : Machine} {s : RegionTable}

theorem Lin.bind {Q1 : α → (Nat → Prop) → Phase → Machine → RegionTable → Prop} {Q : β → (Nat → Prop) → Phase → Machine → RegionTable → Prop} {p : Prog α} {f : α → Prog β}
    (hp : Lin g c k Q1 H L m s p) (hf : ∀ a H' L' m' s', Q1 a H' L' m' s' → Lin g c k Q H' L' m' s' (f a)) : Lin g c k Q H L m s (p >>= f) := by
  show Lin g c k Q H L m s (p.bind f)
  induction p generalizing H L m s with
  | ret a => exact hf a H L m s hp
  | op o f ih =>
      intro m' s' B h1 h2 h3 h4 v m1 h5 h6
      obtain ⟨L1, s1, q1, q2, q3⟩ := hp m' s' B h1 h2 h3 h4 v m1 h5 h6
      exact ⟨L1, s1, q1, q2, ih v q3⟩
  | fault => trivial
  | diverge => trivial

theorem Lin.ite {Q : α → (Nat → Prop) → Phase → Machine → RegionTable → Prop} {b : Prop} [Decidable b] {p q : Prog α} (hp : b → Lin g c k Q H L m s p)
    (hq : ¬ b → Lin g c k Q H L m s q) : Lin g c k Q H L m s (if b then p else q) := by
  split
  · exact hp ‹_›
  · exact hq ‹_›

/-- What holds when the call returns `v`: it has taken effect with this result, or can take effect now. -/
def LPost (g : Cfg) (c : Nat) (k : Call) : W → (Nat → Prop) → Phase → Machine → RegionTable → Prop := fun v H L m s =>
  ∀ m' s', LRely g c H m s m' s' → LInv g m' s' → L = .decided k v ∨ (L = .pending k ∧ TakesEffect g k s' v s')

/-! ### Soundness -/

/-- The simulation relation. -/
structure GoodL (g : Cfg) (t : List Label) (s : Conf) (a : AtomicState) : Prop where
  table : TInv g a.table
  clocks : Clocks g s.m a.table
  bound : a.table.clock ≤ t.length
  free : ∀ i, i < g.regions → s.m.mem (lockA g i) = 0 → Synced g s.m a.table i
  dma : s.m.mem (lockA g 0) = 0 → DmaSynced s.m a.table
  idle : ∀ c, s.cores c = .idle → a.phase c = .idle
  running : ∀ c k p, s.cores c = .running k p → a.phase c ≠ .idle ∧
    ∃ m σ, LRely g c (holds g t c) m σ s.m a.table ∧ Lin g c k (LPost g c k) (holds g t c) (a.phase c) m σ p

theorem GoodL.linv {t : List Label} {s : Conf} {a : AtomicState} (hg : Good g t s) (h : GoodL g t s a) (hlen : t.length < 2 ^ 64) : LInv g s.m a.table :=
  ⟨hg.inv, h.table, h.clocks, Nat.lt_of_le_of_lt h.bound hlen, h.free, h.dma⟩

/-- A point of the logic is a step of the specification, or none. -/
theorem Pt.run {a : AtomicState} {L1 : Phase} {s1 : RegionTable} {B : Prop} (h : Pt g c k B (a.phase c) a.table L1 s1) (hB : B → ∃ c', c' ≠ c ∧ a.phase c' ≠ .idle)
    (hne : a.phase c ≠ .idle) :
    L1 ≠ .idle ∧ ∀ {s0 : AtomicState} {hh : List Label}, AtomicRun g s0 hh a → AtomicRun g s0 hh { phase := upd a.phase c L1, table := s1 } := by
  generalize hL : a.phase c = L at h hne
  generalize hT : a.table = T at h
  cases h with
  | none =>
      refine ⟨hne, fun {s0 hh} hr => ?_⟩
      have : ({ phase := upd a.phase c L1, table := s1 } : AtomicState) = a := by
        have e : upd a.phase c L1 = a.phase := by rw [← hL]; exact upd_eq_self _ _
        rw [e, ← hT]
      rw [this]; exact hr
  | effect he =>
      refine ⟨by simp, fun {s0 hh} hr => ?_⟩
      have := AtomicRun.tail hr (AtomicStep.effect hL (hT ▸ he))
      rwa [List.append_nil] at this
  | busy hb hv =>
      obtain ⟨c', h1, h2⟩ := hB hb
      refine ⟨by simp, fun {s0 hh} hr => ?_⟩
      have := AtomicRun.tail hr (AtomicStep.busy (g := g) hL h1 h2 hv)
      rw [List.append_nil] at this
      subst hT; exact this
  | sample hk =>
      subst hk
      refine ⟨by simp, fun {s0 hh} hr => ?_⟩
      have := AtomicRun.tail hr (AtomicStep.sample (g := g) hL)
      rw [List.append_nil] at this
      subst hT; exact this
  | flush hk =>
      subst hk
      refine ⟨by simp, fun {s0 hh} hr => ?_⟩
      have := AtomicRun.tail hr (AtomicStep.flush (g := g) hL)
      rw [List.append_nil] at this
      subst hT; exact this

theorem observed_snoc (t : List Label) (l : Label) : observed (t ++ [l]) = observed t ++ (if l.isCall then [l] else []) := by
  unfold observed
  rw [List.filter_append]
  congr 1
  cases l <;> rfl

theorem GoodL.step (hw : g.WF) (hs : ∀ c k m σ, c < g.cores → CoveredC g k → NoLeak k → Lin g c k (LPost g c k) (fun _ => False) (.pending k) m σ (k.prog g))
    {t : List Label} {s s' : Conf} {l : Label} {a0 a : AtomicState} (hg : Good g t s) (h : GoodL g t s a) (hr : AtomicRun g a0 (observed t) a)
    (hcov : OnlyCalls (CoveredC g) (t ++ [l])) (hnl : OnlyCalls NoLeak (t ++ [l])) (hlen : t.length < 2 ^ 64) (hl : Step g s l s') :
    ∃ a', AtomicRun g a0 (observed (t ++ [l])) a' ∧ GoodL g (t ++ [l]) s' a' := by
  have h0 : 0 < g.regions := by have := hw.regions_ge; omega
  have hlen' : ∀ x : Label, (t ++ [x]).length = t.length + 1 := fun x => by simp
  cases hl with
  | @start c k hlt hidle =>
      have hsame : ∀ c', holds g (t ++ [Label.start c k]) c' = holds g t c' := fun c' => by rw [holds_snoc]; rfl
      refine ⟨{ a with phase := upd a.phase c (.pending k) }, ?_, ?_⟩
      · rw [observed_snoc]; exact hr.tail (AtomicStep.start (k := k) hlt (h.idle c hidle))
      · refine ⟨h.table, h.clocks, by have := h.bound; have := hlen' (Label.start c k); simp only; omega, h.free, h.dma, ?_, ?_⟩
        · intro c' hc'
          have hc'' : upd s.cores c (.running k (k.prog g)) c' = CoreState.idle := hc'
          by_cases hcc : c' = c
          · rw [hcc, upd_same] at hc''; exact absurd hc'' (by simp)
          · rw [upd_ne _ _ hcc] at hc''
            show upd a.phase c _ c' = _
            rw [upd_ne _ _ hcc]; exact h.idle c' hc''
        · intro c' k' p' hc'
          rw [hsame]
          have hc'' : upd s.cores c (.running k (k.prog g)) c' = CoreState.running k' p' := hc'
          show upd a.phase c _ c' ≠ _ ∧ ∃ m σ, LRely g c' _ m σ s.m a.table ∧ Lin g c' k' _ _ (upd a.phase c _ c') m σ p'
          by_cases hcc : c' = c
          · subst hcc
            rw [upd_same] at hc''
            obtain ⟨rfl, rfl⟩ := CoreState.running.inj hc''
            have hno : holds g t c' = fun _ => False := funext fun i => propext ⟨fun hh => hg.idle c' hidle i hh, False.elim⟩
            have hck := hcov c' k (List.mem_append_right _ (List.mem_singleton.2 rfl))
            have hnk := hnl c' k (List.mem_append_right _ (List.mem_singleton.2 rfl))
            rw [upd_same]
            exact ⟨by simp, s.m, a.table, LRely.refl _ _ _, by rw [hno]; exact hs c' k s.m a.table hlt hck hnk⟩
          · rw [upd_ne _ _ hcc] at hc''
            rw [upd_ne _ _ hcc]
            exact h.running c' k' p' hc''
  | @act c k o f v m' hrun hex =>
      obtain ⟨v2, m2, w1, w2, w3, w4⟩ := hg.act hrun
      rw [hex] at w1
      obtain ⟨rfl, rfl⟩ := Prod.mk.inj (Option.some.inj w1)
      obtain ⟨hph, m, σ, hrel, hlin⟩ := h.running c k _ hrun
      have hB : ∀ i, i < g.regions → ¬ holds g t c i → s.m.mem (lockA g i) ≠ 0 → ∃ c', c' ≠ c ∧ a.phase c' ≠ .idle := by
        intro i hi hnh hne
        obtain ⟨c', hc'⟩ := hg.noLeak hnl.prefix i hi hne
        refine ⟨c', fun hcc => hnh (hcc ▸ hc'), ?_⟩
        cases hst : s.cores c' with
        | idle => exact absurd hc' (hg.idle c' hst i)
        | running k' p' => exact (h.running c' k' p' hst).1
      obtain ⟨L1, s1, q1, q2, q3⟩ := hlin s.m a.table _ hrel (h.linv hg hlen) (hg.held c) hB v m' hex w3
      obtain ⟨r1, r2⟩ := q1.run id hph
      have hself : holds g (t ++ [Label.act c o v]) c = heldStep g o v (holds g t c) := by rw [holds_snoc, heldLabel_act_self]
      have hother : ∀ c', c' ≠ c → holds g (t ++ [Label.act c o v]) c' = holds g t c' := fun c' hc' => by
        rw [holds_snoc, heldLabel_act_other (Ne.symm hc')]
      have hsafe' : ∀ c', c' ≠ c → ∀ i, i < g.regions → holds g t c' i → ¬ holds g t c i :=
        fun c' hc' i hi hh hh2 => hc' (hg.mutex c' c i hi hh hh2)
      have hrec : ∀ i, i < g.regions → ¬ holds g t c i → m'.owner g i = s.m.owner g i ∧ m'.blockedAt g i = s.m.blockedAt g i ∧ m'.pinned g i = s.m.pinned g i := by
        intro i hi hn
        have := (w3.record i hi hn).1
        exact ⟨this _ (Or.inl rfl), this _ (Or.inr (Or.inr (Or.inr rfl))), this _ (Or.inr (Or.inr (Or.inl rfl)))⟩
      refine ⟨{ phase := upd a.phase c L1, table := s1 }, ?_, ?_⟩
      · have e : observed (t ++ [Label.act c o v]) = observed t := by rw [observed_snoc]; exact List.append_nil _
        rw [e]; exact r2 hr
      · refine ⟨q2.table, q2.clocks, ?_, ?_, ?_, ?_, ?_⟩
        · have := h.bound; have := hlen' (Label.act c o v); have := q2.clock.2; simp only; omega
        · intro i hi hz
          rcases w3.lock i hi with hl | hl | hl
          · exact absurd (hl.2.symm.trans hz) (by decide)
          · exact q2.release i hi hl.2.1 hl.1
          · have hold := h.free i hi (hl.2.2.symm.trans hz)
            obtain ⟨e1, e2, e3⟩ := hrec i hi hl.2.1
            obtain ⟨e4, e5⟩ := q2.record i hi hl.2.1
            exact ⟨by rw [e4, e1]; exact hold.owner, by rw [e2, e5]; exact hold.stamp, by rw [e1, e3]; exact hold.pinned⟩
        · intro hz
          rcases w3.lock 0 h0 with hl | hl | hl
          · exact absurd (hl.2.symm.trans hz) (by decide)
          · exact q2.release0 hl.2.1 hl.1
          · have hold := h.dma (hl.2.2.symm.trans hz)
            obtain ⟨-, e1, e2⟩ := w3.map hl.2.1
            obtain ⟨e3, e4⟩ := q2.dma hl.2.1
            exact ⟨by rw [e1, e3]; exact hold.1, by rw [e2, e4]; exact hold.2⟩
        · intro c' hc'
          have hc'' : upd s.cores c (.running k (f v)) c' = CoreState.idle := hc'
          by_cases hcc : c' = c
          · rw [hcc, upd_same] at hc''; exact absurd hc'' (by simp)
          · rw [upd_ne _ _ hcc] at hc''
            show upd a.phase c _ c' = _
            rw [upd_ne _ _ hcc]; exact h.idle c' hc''
        · intro c' k' p' hc'
          have hc'' : upd s.cores c (.running k (f v)) c' = CoreState.running k' p' := hc'
          show upd a.phase c _ c' ≠ _ ∧ ∃ m σ, LRely g c' _ m σ m' s1 ∧ Lin g c' k' _ _ (upd a.phase c _ c') m σ p'
          by_cases hcc : c' = c
          · subst hcc
            rw [upd_same] at hc''
            obtain ⟨rfl, rfl⟩ := CoreState.running.inj hc''
            rw [hself, upd_same]
            exact ⟨r1, m', s1, LRely.refl _ _ _, q3⟩
          · rw [upd_ne _ _ hcc] at hc''
            rw [hother c' hcc, upd_ne _ _ hcc]
            obtain ⟨z1, m3, σ3, z2, z3⟩ := h.running c' k' p' hc''
            refine ⟨z1, m3, σ3, z2.trans ?_, z3⟩
            refine ⟨fun i hi hh => hrec i hi (hsafe' c' hcc i hi hh), fun i hi hh => q2.record i hi (hsafe' c' hcc i hi hh),
              fun hh => (w3.map (hsafe' c' hcc 0 h0 hh)).2, fun hh => q2.dma (hsafe' c' hcc 0 h0 hh), q2.others c' hcc, q2.clock.1, fun c2 hc2 => ?_⟩
            by_cases h2 : c2 = c
            · rw [h2]; exact q2.flushed
            · rw [(q2.others c2 h2).1]; exact Nat.le_refl _
  | @done c k v hrun =>
      obtain ⟨hph, m, σ, hrel, hlin⟩ := h.running c k _ hrun
      have hpost := hlin s.m a.table hrel (h.linv hg hlen)
      have hother : ∀ c', c' ≠ c → holds g (t ++ [Label.done c k v]) c' = holds g t c' := fun c' hc' => by
        rw [holds_snoc, heldLabel_done_other (Ne.symm hc')]
      have hrun2 : AtomicRun g a0 (observed t) { phase := upd a.phase c (.decided k v), table := a.table } := by
        rcases hpost with hd | ⟨hd, he⟩
        · have e : upd a.phase c (.decided k v) = a.phase := by rw [← hd]; exact upd_eq_self _ _
          rw [e]; exact hr
        · have := hr.tail (AtomicStep.effect hd he)
          rwa [List.append_nil] at this
      refine ⟨{ phase := upd (upd a.phase c (.decided k v)) c .idle, table := a.table }, ?_, ?_⟩
      · rw [observed_snoc]
        exact hrun2.tail (AtomicStep.done (c := c) (k := k) (v := v) (upd_same _ _ _))
      · refine ⟨h.table, h.clocks, by have := h.bound; have := hlen' (Label.done c k v); simp only; omega, h.free, h.dma, ?_, ?_⟩
        · intro c' hc'
          have hc'' : upd s.cores c .idle c' = CoreState.idle := hc'
          show upd (upd a.phase c _) c _ c' = _
          by_cases hcc : c' = c
          · rw [hcc, upd_same]
          · rw [upd_ne _ _ hcc] at hc''
            rw [upd_ne _ _ hcc, upd_ne _ _ hcc]; exact h.idle c' hc''
        · intro c' k' p' hc'
          have hc'' : upd s.cores c .idle c' = CoreState.running k' p' := hc'
          by_cases hcc : c' = c
          · rw [hcc, upd_same] at hc''; exact absurd hc'' (by simp)
          · rw [upd_ne _ _ hcc] at hc''
            rw [hother c' hcc]
            show upd (upd a.phase c _) c _ c' ≠ _ ∧ ∃ m σ, _ ∧ Lin g c' k' _ _ (upd (upd a.phase c _) c _ c') m σ p'
            rw [upd_ne _ _ hcc, upd_ne _ _ hcc]
            exact h.running c' k' p' hc''
  | @soft m' hsoft =>
      obtain ⟨x, w, hx, rfl⟩ := hsoft
      have hsame : ∀ c', holds g (t ++ [Label.soft]) c' = holds g t c' := fun c' => by rw [holds_snoc]; rfl
      have hmem : ∀ y, y < g.monitorTop.toNat → upd s.m.mem x w y = s.m.mem y := fun y hy => upd_ne _ _ (by omega)
      have hrec : ∀ i, i < g.regions → Machine.owner { s.m with mem := upd s.m.mem x w } g i = s.m.owner g i ∧
          Machine.blockedAt { s.m with mem := upd s.m.mem x w } g i = s.m.blockedAt g i ∧ Machine.pinned { s.m with mem := upd s.m.mem x w } g i = s.m.pinned g i := by
        intro i hi
        have h1 := ownerA_lt hw hi; have h3 := pinnedA_lt hw hi; have h4 := blockedA_lt hw hi
        exact ⟨hmem _ (by omega), hmem _ (by omega), hmem _ (by omega)⟩
      refine ⟨a, ?_, ?_⟩
      · have e : observed (t ++ [Label.soft]) = observed t := by rw [observed_snoc]; exact List.append_nil _
        rw [e]; exact hr
      · refine ⟨h.table, ⟨?_, ?_⟩, by have := h.bound; have := hlen' Label.soft; omega, ?_, ?_, h.idle, ?_⟩
        · exact (hmem _ (by have := clockA_lt hw; omega)).trans h.clocks.clock
        · exact fun c hc => (hmem _ (by have := flushedA_lt hw hc; omega)).trans (h.clocks.flushed c hc)
        · intro i hi hz
          have := h.free i hi ((hmem _ (by have := lockA_lt hw hi; omega)).symm.trans hz)
          obtain ⟨e1, e2, e3⟩ := hrec i hi
          exact ⟨by rw [e1]; exact this.owner, by rw [e2]; exact this.stamp, by rw [e1, e3]; exact this.pinned⟩
        · intro hz
          exact h.dma ((hmem _ (by have := lockA_lt hw h0; omega)).symm.trans hz)
        · intro c' k' p' hc'
          rw [hsame]
          obtain ⟨z1, m3, σ3, z2, z3⟩ := h.running c' k' p' hc'
          refine ⟨z1, m3, σ3, z2.trans ⟨fun i hi _ => hrec i hi, fun _ _ _ => ⟨rfl, rfl⟩, fun _ => ⟨rfl, rfl⟩, fun _ => ⟨rfl, rfl⟩, ⟨rfl, rfl⟩, Nat.le_refl _,
            fun _ _ => Nat.le_refl _⟩, z3⟩

end Sanctum
