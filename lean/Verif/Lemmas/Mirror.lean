import Verif.Spec.Mirror
import Verif.Lemmas.LinCalls
/-
A logic for the protection registers, and its soundness for interleavings.
-/
namespace Sanctum
open Machine

variable {g : Cfg} {c : Nat} {α β : Type}

/-- The OS bitmap is the set of regions the OS owns. -/
def MapOk (g : Cfg) (m : Machine) : Prop := ∀ i, i < g.regions → (m.osBit g i = true ↔ m.owner g i = nullEnclaveId)

/-- While the lock of region 0 is free, the registers and the bitmap are in order. -/
def MInv (g : Cfg) (m : Machine) : Prop := m.mem (lockA g 0) = 0 → MapOk g m ∧ DmaExact m

/-- The bitmap, the DMA window and the set of regions the OS owns are the same. -/
structure MSame (g : Cfg) (m m' : Machine) : Prop where
  words : ∀ i, i < g.regions → m'.mem (osWordA g i) = m.mem (osWordA g i)
  null : ∀ i, i < g.regions → (m'.owner g i = nullEnclaveId ↔ m.owner g i = nullEnclaveId)
  dma : m'.dmaStart = m.dmaStart ∧ m'.dmaEnd = m.dmaEnd
  regs : m'.dmarBase = m.dmarBase ∧ m'.dmarMask = m.dmarMask

theorem MSame.refl (m : Machine) : MSame g m m := ⟨fun _ _ => rfl, fun _ _ => Iff.rfl, ⟨rfl, rfl⟩, ⟨rfl, rfl⟩⟩

theorem MSame.trans {m m1 m2 : Machine} (h1 : MSame g m m1) (h2 : MSame g m1 m2) : MSame g m m2 :=
  ⟨fun i hi => (h2.words i hi).trans (h1.words i hi), fun i hi => (h2.null i hi).trans (h1.null i hi),
   ⟨h2.dma.1.trans h1.dma.1, h2.dma.2.trans h1.dma.2⟩, ⟨h2.regs.1.trans h1.regs.1, h2.regs.2.trans h1.regs.2⟩⟩

theorem MSame.map {m m1 : Machine} (h : MSame g m m1) (hm : MapOk g m) : MapOk g m1 := fun i hi => by
  rw [h.null i hi, ← hm i hi]
  show (m1.mem (osWordA g i)).getLsbD _ = true ↔ (m.mem (osWordA g i)).getLsbD _ = true
  rw [h.words i hi]

theorem MSame.dmaExact {m m1 : Machine} (h : MSame g m m1) (hm : DmaExact m) : DmaExact m1 := fun a => by
  rw [h.regs.1, h.regs.2, h.dma.1, h.dma.2]; exact hm a

/-- What the other cores keep for core `c` that holds the locks in `H`. -/
structure MRely (g : Cfg) (c : Nat) (H : Nat → Prop) (m m' : Machine) : Prop where
  owner : ∀ i, i < g.regions → H i → m'.owner g i = m.owner g i
  map : H 0 → MSame g m m'
  drb : m'.drb c = m.drb c

theorem MRely.refl (H : Nat → Prop) (m : Machine) : MRely g c H m m := ⟨fun _ _ _ => rfl, fun _ => MSame.refl m, rfl⟩

theorem MRely.trans {H : Nat → Prop} {m m1 m2 : Machine} (h1 : MRely g c H m m1) (h2 : MRely g c H m1 m2) : MRely g c H m m2 :=
  ⟨fun i hi hh => (h2.owner i hi hh).trans (h1.owner i hi hh), fun hh => (h1.map hh).trans (h2.map hh), h2.drb.trans h1.drb⟩

/-- What core `c` guarantees of an action. -/
structure MGuar (g : Cfg) (c : Nat) (H H1 : Nat → Prop) (m m1 : Machine) : Prop where
  null : ¬ H 0 → ∀ i, i < g.regions → (m1.owner g i = nullEnclaveId ↔ m.owner g i = nullEnclaveId)
  regs : ¬ H 0 → m1.dmarBase = m.dmarBase ∧ m1.dmarMask = m.dmarMask
  release : H 0 → ¬ H1 0 → MapOk g m1 ∧ DmaExact m1
  drb : ∀ c', m1.drb c' = m.drb c' ∨ (c' = c ∧ MapExact g m1 c)
  shield : m1.parBase = m.parBase ∧ m1.parMask = m.parMask ∧ m1.cacheShift = m.cacheShift

/-- The program, run on core `c` holding `H`, keeps the protection registers in order and ends with `Q`. -/
def Mir (g : Cfg) (c : Nat) (Q : α → (Nat → Prop) → Machine → Prop) : (Nat → Prop) → Machine → Prog α → Prop
  | H, m, .ret a => Q a H m
  | H, m, .op o f => ∀ m', MRely g c H m m' → CInv g m' → MInv g m' → HeldOk g H m' →
      ∀ v m1, exec g c o m' = some (v, m1) → Guar g H m' (heldStep g o v H) m1 →
      MGuar g c H (heldStep g o v H) m' m1 ∧ Mir g c Q (heldStep g o v H) m1 (f v)
  | _, _, .fault => True
  | _, _, .diverge => True

variable {H : Nat → Prop} {m : Machine}

theorem Mir.bind {Q1 : α → (Nat → Prop) → Machine → Prop} {Q : β → (Nat → Prop) → Machine → Prop} {p : Prog α} {f : α → Prog β}
    (hp : Mir g c Q1 H m p) (hf : ∀ a H' m', Q1 a H' m' → Mir g c Q H' m' (f a)) : Mir g c Q H m (p >>= f) := by
  show Mir g c Q H m (p.bind f)
  induction p generalizing H m with
  | ret a => exact hf a H m hp
  | op o f ih =>
      intro m' h1 h2 h3 h4 v m1 h5 h6
      obtain ⟨q1, q2⟩ := hp m' h1 h2 h3 h4 v m1 h5 h6
      exact ⟨q1, ih v q2⟩
  | fault => trivial
  | diverge => trivial

theorem Mir.ite {Q : α → (Nat → Prop) → Machine → Prop} {b : Prop} [Decidable b] {p q : Prog α} (hp : b → Mir g c Q H m p)
    (hq : ¬ b → Mir g c Q H m q) : Mir g c Q H m (if b then p else q) := by
  split
  · exact hp ‹_›
  · exact hq ‹_›

/-- What holds when the call `k` on core `c` returns `v`. -/
def MPost (c : Nat) (k : Call) : W → (Nat → Prop) → Machine → Prop := fun v _ m =>
  v = monitorOk → (∀ r, k = .blockDramRegion r → m.drbBit c r.toNat = false) ∧ ∀ r, k = .assignDramRegion r 0 → m.drbBit c r.toNat = true

/-! ### Soundness -/

/-- The invariant of interleavings. -/
structure GoodM (g : Cfg) (t : List Label) (s : Conf) : Prop where
  inv : MInv g s.m
  running : ∀ c k p, s.cores c = .running k p → ∃ m, MRely g c (holds g t c) m s.m ∧ Mir g c (MPost c k) (holds g t c) m p

theorem drbBit_congr {m m' : Machine} (h : m'.drb c = m.drb c) (i : Nat) : m'.drbBit c i = m.drbBit c i := by
  unfold Machine.drbBit; rw [h]

theorem GoodM.step (hw : g.WF) (hs : ∀ c k m, c < g.cores → CoveredC g k → Mir g c (MPost c k) (fun _ => False) m (k.prog g))
    {t : List Label} {s s' : Conf} {l : Label} (hg : Good g t s) (h : GoodM g t s)
    (hcov : OnlyCalls (CoveredC g) (t ++ [l])) (hl : Step g s l s') :
    GoodM g (t ++ [l]) s' ∧ (∀ c, s'.m.drb c = s.m.drb c ∨ ((∃ o v, l = .act c o v) ∧ MapExact g s'.m c)) ∧
      (s'.m.parBase = s.m.parBase ∧ s'.m.parMask = s.m.parMask ∧ s'.m.cacheShift = s.m.cacheShift) ∧
      (∀ c k v, l = .done c k v → MPost c k v (fun _ => False) s'.m) := by
  have h0 : 0 < g.regions := by have := hw.regions_ge; omega
  cases hl with
  | @start c k hlt hidle =>
      have hsame : ∀ c', holds g (t ++ [Label.start c k]) c' = holds g t c' := fun c' => by rw [holds_snoc]; rfl
      refine ⟨⟨h.inv, ?_⟩, fun _ => Or.inl rfl, ⟨rfl, rfl, rfl⟩, fun _ _ _ hh => by cases hh⟩
      intro c' k' p' hc'
      rw [hsame]
      have hc'' : upd s.cores c (.running k (k.prog g)) c' = CoreState.running k' p' := hc'
      by_cases hcc : c' = c
      · subst hcc
        rw [upd_same] at hc''
        obtain ⟨rfl, rfl⟩ := CoreState.running.inj hc''
        have hno : holds g t c' = fun _ => False := funext fun i => propext ⟨fun hh => hg.idle c' hidle i hh, False.elim⟩
        have hck := hcov c' k (List.mem_append_right _ (List.mem_singleton.2 rfl))
        exact ⟨s.m, MRely.refl _ _, by rw [hno]; exact hs c' k s.m hlt hck⟩
      · rw [upd_ne _ _ hcc] at hc''
        exact h.running c' k' p' hc''
  | @act c k o f v m' hrun hex =>
      obtain ⟨v2, m2, w1, w2, w3, w4⟩ := hg.act hrun
      rw [hex] at w1
      obtain ⟨rfl, rfl⟩ := Prod.mk.inj (Option.some.inj w1)
      obtain ⟨m, hrel, hmir⟩ := h.running c k _ hrun
      obtain ⟨q1, q2⟩ := hmir s.m hrel hg.inv h.inv (hg.held c) v m' hex w3
      have hself : holds g (t ++ [Label.act c o v]) c = heldStep g o v (holds g t c) := by rw [holds_snoc, heldLabel_act_self]
      have hother : ∀ c', c' ≠ c → holds g (t ++ [Label.act c o v]) c' = holds g t c' := fun c' hc' => by
        rw [holds_snoc, heldLabel_act_other (Ne.symm hc')]
      have hsafe' : ∀ c', c' ≠ c → ∀ i, i < g.regions → holds g t c' i → ¬ holds g t c i :=
        fun c' hc' i hi hh hh2 => hc' (hg.mutex c' c i hi hh hh2)
      have hms : ¬ holds g t c 0 → MSame g s.m m' := fun hn => ⟨(w3.map hn).1, q1.null hn, (w3.map hn).2, q1.regs hn⟩
      refine ⟨⟨?_, ?_⟩, ?_, q1.shield, fun _ _ _ hh => by cases hh⟩
      · intro hz
        have hz : m'.mem (lockA g 0) = 0 := hz
        rcases w3.lock 0 h0 with hl | hl | hl
        · exact absurd (hl.2.symm.trans hz) (by decide)
        · exact q1.release hl.2.1 hl.1
        · obtain ⟨z1, z2⟩ := h.inv (hl.2.2.symm.trans hz)
          exact ⟨(hms hl.2.1).map z1, (hms hl.2.1).dmaExact z2⟩
      · intro c' k' p' hc'
        have hc'' : upd s.cores c (.running k (f v)) c' = CoreState.running k' p' := hc'
        by_cases hcc : c' = c
        · subst hcc
          rw [upd_same] at hc''
          obtain ⟨rfl, rfl⟩ := CoreState.running.inj hc''
          rw [hself]
          exact ⟨m', MRely.refl _ _, q2⟩
        · rw [upd_ne _ _ hcc] at hc''
          rw [hother c' hcc]
          obtain ⟨m3, z2, z3⟩ := h.running c' k' p' hc''
          refine ⟨m3, z2.trans ⟨fun i hi hh => (w3.record i hi (hsafe' c' hcc i hi hh)).1 _ (Or.inl rfl), fun hh => hms (hsafe' c' hcc 0 h0 hh), ?_⟩, z3⟩
          exact (q1.drb c').resolve_right fun hh => hcc hh.1
      · intro c'
        rcases q1.drb c' with hh | ⟨rfl, hh⟩
        · exact Or.inl hh
        · exact Or.inr ⟨⟨o, v, rfl⟩, hh⟩
  | @done c k v hrun =>
      obtain ⟨m, hrel, hmir⟩ := h.running c k _ hrun
      have hother : ∀ c', c' ≠ c → holds g (t ++ [Label.done c k v]) c' = holds g t c' := fun c' hc' => by
        rw [holds_snoc, heldLabel_done_other (Ne.symm hc')]
      refine ⟨⟨h.inv, ?_⟩, fun _ => Or.inl rfl, ⟨rfl, rfl, rfl⟩, ?_⟩
      · intro c' k' p' hc'
        have hc'' : upd s.cores c .idle c' = CoreState.running k' p' := hc'
        by_cases hcc : c' = c
        · rw [hcc, upd_same] at hc''; exact absurd hc'' (by simp)
        · rw [upd_ne _ _ hcc] at hc''
          rw [hother c' hcc]
          exact h.running c' k' p' hc''
      · intro c1 k1 v1 hh
        cases hh
        intro hv
        obtain ⟨z1, z2⟩ := hmir hv
        exact ⟨fun r hr => (drbBit_congr hrel.drb _).trans (z1 r hr), fun r hr => (drbBit_congr hrel.drb _).trans (z2 r hr)⟩
  | @soft m' hsoft =>
      obtain ⟨x, w, hx, rfl⟩ := hsoft
      have hsame : ∀ c', holds g (t ++ [Label.soft]) c' = holds g t c' := fun c' => by rw [holds_snoc]; rfl
      have hmem : ∀ y, y < g.monitorTop.toNat → upd s.m.mem x w y = s.m.mem y := fun y hy => upd_ne _ _ (by omega)
      have hown : ∀ i, i < g.regions → Machine.owner { s.m with mem := upd s.m.mem x w } g i = s.m.owner g i := fun i hi =>
        hmem _ (by have := ownerA_lt hw hi; omega)
      have hms : MSame g s.m { s.m with mem := upd s.m.mem x w } :=
        ⟨fun i hi => hmem _ (by have := osWordA_lt hw hi; omega), fun i hi => by rw [hown i hi], ⟨rfl, rfl⟩, ⟨rfl, rfl⟩⟩
      refine ⟨⟨?_, ?_⟩, fun _ => Or.inl rfl, ⟨rfl, rfl, rfl⟩, fun _ _ _ hh => by cases hh⟩
      · intro hz
        obtain ⟨z1, z2⟩ := h.inv ((hmem _ (by have := lockA_lt hw h0; omega)).symm.trans hz)
        exact ⟨hms.map z1, hms.dmaExact z2⟩
      · intro c' k' p' hc'
        rw [hsame]
        obtain ⟨m3, z2, z3⟩ := h.running c' k' p' hc'
        exact ⟨m3, z2.trans ⟨fun i hi _ => hown i hi, fun _ => hms, rfl⟩, z3⟩

end Sanctum
