import Verif.Lemmas.Safe
/-
Soundness of the rely-guarantee logic for interleavings.
-/
namespace Sanctum
open Machine

variable {g : Cfg}

/-- What holds when a call returns. -/
def Post (g : Cfg) (k : Call) : W → (Nat → Prop) → Machine → Prop := fun _ H _ => NoLeak k → ∀ i, i < g.regions → ¬ H i

/-- The invariant of interleavings. -/
structure Good (g : Cfg) (t : List Label) (s : Conf) : Prop where
  inv : CInv g s.m
  held : ∀ c, HeldOk g (holds g t c) s.m
  mutex : ∀ c c' i, i < g.regions → holds g t c i → holds g t c' i → c = c'
  idle : ∀ c, s.cores c = .idle → ∀ i, ¬ holds g t c i
  safe : ∀ c k p, s.cores c = .running k p → c < g.cores ∧ CoveredC g k ∧ (∃ t1 t2, t = t1 ++ .start c k :: t2) ∧
    ∃ m, Agree g (holds g t c) m s.m ∧ Safe g (Disciplined g k) c (Post g k) (holds g t c) m p
  noLeak : OnlyCalls NoLeak t → ∀ i, i < g.regions → s.m.mem (lockA g i) ≠ 0 → ∃ c, holds g t c i

theorem OnlyCalls.prefix {P : Call → Prop} {t : List Label} {l : Label} (h : OnlyCalls P (t ++ [l])) : OnlyCalls P t :=
  fun c k hk => h c k (List.mem_append_left _ hk)

/-- What an action of a running core does, in a good state. -/
theorem Good.act {t : List Label} {s : Conf} (h : Good g t s) {c : Nat} {k : Call} {o : Op} {f : W → Prog W}
    (hc : s.cores c = .running k (.op o f)) : ∃ v m1, exec g c o s.m = some (v, m1) ∧ OpOk g (Disciplined g k) (holds g t c) o ∧
      Guar g (holds g t c) s.m (heldStep g o v (holds g t c)) m1 ∧
      Safe g (Disciplined g k) c (Post g k) (heldStep g o v (holds g t c)) m1 (f v) := by
  obtain ⟨h1, h2, h3, m, h4, h5⟩ := h.safe c k _ hc
  exact h5 s.m h4 h.inv (h.held c)

/-- Running cores are never stuck. -/
theorem Good.progress {t : List Label} {s : Conf} (h : Good g t s) {c : Nat} {k : Call} {p : Prog W} (hc : s.cores c = .running k p) :
    ∃ l s', Step g s l s' ∧ ((∃ o v, l = .act c o v) ∨ ∃ v, l = .done c k v) := by
  cases p with
  | ret a => exact ⟨_, _, Step.done hc, Or.inr ⟨a, rfl⟩⟩
  | op o f =>
      obtain ⟨v, m1, h1, _⟩ := h.act hc
      exact ⟨_, _, Step.act hc h1, Or.inl ⟨o, v, rfl⟩⟩
  | fault => obtain ⟨h1, h2, h3, m, h4, h5⟩ := h.safe c k _ hc; exact h5.elim
  | diverge => obtain ⟨h1, h2, h3, m, h4, h5⟩ := h.safe c k _ hc; exact h5.elim

/-- Soundness. `hs` is the verification of all calls. -/
theorem Good.step (hw : g.WF) (hs : ∀ c k m, c < g.cores → CoveredC g k → Safe g (Disciplined g k) c (Post g k) (fun _ => False) m (k.prog g))
    {t : List Label} {s s' : Conf} {l : Label} (h : Good g t s) (hcov : OnlyCalls (CoveredC g) (t ++ [l])) (hl : Step g s l s') :
    Good g (t ++ [l]) s' := by
  have hmid : ∀ {c k}, (∃ t1 t2, t = t1 ++ Label.start c k :: t2) → ∃ t1 t2, t ++ [l] = t1 ++ Label.start c k :: t2 := by
    rintro c k ⟨t1, t2, rfl⟩
    exact ⟨t1, t2 ++ [l], by simp⟩
  cases hl with
  | @start c k hlt hidle =>
      have hsame : ∀ c', holds g (t ++ [Label.start c k]) c' = holds g t c' := fun c' => by rw [holds_snoc]; rfl
      refine ⟨h.inv, fun c' => by rw [hsame]; exact h.held c', fun c1 c2 i hi => by rw [hsame, hsame]; exact h.mutex c1 c2 i hi, ?_, ?_, ?_⟩
      · intro c' hc' i
        rw [hsame]
        have hc'' : upd s.cores c (.running k (k.prog g)) c' = CoreState.idle := hc'
        by_cases hcc : c' = c
        · rw [hcc, upd_same] at hc''; exact absurd hc'' (by simp)
        · rw [upd_ne _ _ hcc] at hc''; exact h.idle c' hc'' i
      · intro c' k' p' hc'
        rw [hsame]
        have hc'' : upd s.cores c (.running k (k.prog g)) c' = CoreState.running k' p' := hc'
        by_cases hcc : c' = c
        · subst hcc
          rw [upd_same] at hc''
          obtain ⟨rfl, rfl⟩ := CoreState.running.inj hc''
          have hno : holds g t c' = fun _ => False := funext fun i => propext ⟨fun hh => h.idle c' hidle i hh, False.elim⟩
          have hck := hcov c' k (List.mem_append_right _ (List.mem_singleton.2 rfl))
          exact ⟨hlt, hck, ⟨t, [], rfl⟩, s.m, Agree.refl _ _, by rw [hno]; exact hs c' k s.m hlt hck⟩
        · rw [upd_ne _ _ hcc] at hc''
          obtain ⟨h1, h2, h3, h4⟩ := h.safe c' k' p' hc''
          exact ⟨h1, h2, hmid h3, h4⟩
      · intro hnl i hi hne
        obtain ⟨c', hc'⟩ := h.noLeak hnl.prefix i hi hne
        exact ⟨c', by rw [hsame]; exact hc'⟩
  | @act c k o f v m' hrun hex =>
      obtain ⟨v2, m2, h1, h2, h3, h4⟩ := h.act hrun
      rw [hex] at h1
      obtain ⟨rfl, rfl⟩ := Prod.mk.inj (Option.some.inj h1)
      have hself : holds g (t ++ [Label.act c o v]) c = heldStep g o v (holds g t c) := by rw [holds_snoc, heldLabel_act_self]
      have hother : ∀ c', c' ≠ c → holds g (t ++ [Label.act c o v]) c' = holds g t c' := fun c' hc' => by
        rw [holds_snoc, heldLabel_act_other (Ne.symm hc')]
      -- a lock that another core holds is not taken
      have hnew : ∀ c' i, i < g.regions → c' ≠ c → holds g t c' i → ¬ heldStep g o v (holds g t c) i := by
        intro c' i hi hc' hh hst
        rcases heldStep_cases o v _ i hst with hh2 | ⟨_, hv, a, rfl, ha⟩
        · exact hc' (h.mutex c' c i hi hh hh2)
        · have h1 := h.held c' i hi hh
          simp only [exec] at hex
          split at hex
          · obtain ⟨h5, _⟩ := Prod.mk.inj (Option.some.inj hex)
            rw [ha, h1] at h5
            rw [hv] at h5
            exact absurd h5 (by decide)
          · exact absurd hex (by simp)
      have hsafe' : ∀ c', c' ≠ c → ∀ i, i < g.regions → holds g t c' i → ¬ holds g t c i :=
        fun c' hc' i hi hh hh2 => hc' (h.mutex c' c i hi hh hh2)
      have h0 : 0 < g.regions := by have := hw.regions_ge; omega
      refine ⟨h3.inv, ?_, ?_, ?_, ?_, ?_⟩
      · intro c' i hi hh
        by_cases hcc : c' = c
        · rw [hcc, hself] at hh
          rcases h3.lock i hi with hl | hl | hl
          · exact hl.2
          · exact absurd hh hl.1
          · exact absurd hh hl.1
        · rw [hother c' hcc] at hh
          rcases h3.lock i hi with hl | hl | hl
          · exact hl.2
          · exact absurd hl.2.1 (hsafe' c' hcc i hi hh)
          · rw [hl.2.2]; exact h.held c' i hi hh
      · intro c1 c2 i hi hh1 hh2
        by_cases h1 : c1 = c
        · by_cases h2 : c2 = c
          · rw [h1, h2]
          · rw [h1, hself] at hh1; rw [hother c2 h2] at hh2
            exact absurd hh1 (hnew c2 i hi h2 hh2)
        · by_cases h2 : c2 = c
          · rw [h2, hself] at hh2; rw [hother c1 h1] at hh1
            exact absurd hh2 (hnew c1 i hi h1 hh1)
          · rw [hother c1 h1] at hh1; rw [hother c2 h2] at hh2
            exact h.mutex c1 c2 i hi hh1 hh2
      · intro c' hc'
        have hc'' : upd s.cores c (.running k (f v)) c' = CoreState.idle := hc'
        by_cases hcc : c' = c
        · rw [hcc, upd_same] at hc''; exact absurd hc'' (by simp)
        · rw [upd_ne _ _ hcc] at hc''; rw [hother c' hcc]; exact h.idle c' hc''
      · intro c' k' p' hc'
        have hc'' : upd s.cores c (.running k (f v)) c' = CoreState.running k' p' := hc'
        by_cases hcc : c' = c
        · subst hcc
          rw [upd_same] at hc''
          obtain ⟨rfl, rfl⟩ := CoreState.running.inj hc''
          obtain ⟨q1, q2, q3, _⟩ := h.safe c' k _ hrun
          rw [hself]
          exact ⟨q1, q2, hmid q3, m', Agree.refl _ _, h4⟩
        · rw [upd_ne _ _ hcc] at hc''
          obtain ⟨q1, q2, q3, m, q4, q5⟩ := h.safe c' k' p' hc''
          rw [hother c' hcc]
          refine ⟨q1, q2, hmid q3, m, q4.trans ⟨?_, ?_⟩, q5⟩
          · intro i hi hh
            exact h3.record i hi (hsafe' c' hcc i hi hh)
          · intro hh
            exact h3.map (hsafe' c' hcc 0 h0 hh)
      · intro hnl i hi hne
        rcases h3.lock i hi with hl | hl | hl
        · exact ⟨c, by rw [hself]; exact hl.1⟩
        · exact absurd hl.2.2 hne
        · have hne' : s.m.mem (lockA g i) ≠ 0 := fun hz => hne (hl.2.2.trans hz)
          obtain ⟨c', hc'⟩ := h.noLeak hnl.prefix i hi hne'
          by_cases hcc : c' = c
          · rw [hcc] at hc'; exact absurd hc' hl.2.1
          · exact ⟨c', by rw [hother c' hcc]; exact hc'⟩
  | @done c k v hrun =>
      obtain ⟨q1, q2, q3, m, q4, q5⟩ := h.safe c k _ hrun
      have hself : holds g (t ++ [Label.done c k v]) c = fun _ => False := by rw [holds_snoc, heldLabel_done_self]
      have hother : ∀ c', c' ≠ c → holds g (t ++ [Label.done c k v]) c' = holds g t c' := fun c' hc' => by
        rw [holds_snoc, heldLabel_done_other (Ne.symm hc')]
      have hsub : ∀ c' i, holds g (t ++ [Label.done c k v]) c' i → holds g t c' i := by
        intro c' i hh
        by_cases hcc : c' = c
        · rw [hcc, hself] at hh; exact hh.elim
        · rw [hother c' hcc] at hh; exact hh
      refine ⟨h.inv, fun c' i hi hh => h.held c' i hi (hsub c' i hh), fun c1 c2 i hi h1 h2 => h.mutex c1 c2 i hi (hsub c1 i h1) (hsub c2 i h2), ?_, ?_, ?_⟩
      · intro c' hc' i hh
        have hc'' : upd s.cores c .idle c' = CoreState.idle := hc'
        by_cases hcc : c' = c
        · rw [hcc, hself] at hh; exact hh
        · rw [upd_ne _ _ hcc] at hc''; exact h.idle c' hc'' i (hsub c' i hh)
      · intro c' k' p' hc'
        have hc'' : upd s.cores c .idle c' = CoreState.running k' p' := hc'
        by_cases hcc : c' = c
        · rw [hcc, upd_same] at hc''; exact absurd hc'' (by simp)
        · rw [upd_ne _ _ hcc] at hc''
          obtain ⟨h1, h2, h3, h4⟩ := h.safe c' k' p' hc''
          rw [hother c' hcc]
          exact ⟨h1, h2, hmid h3, h4⟩
      · intro hnl i hi hne
        obtain ⟨c', hc'⟩ := h.noLeak hnl.prefix i hi hne
        by_cases hcc : c' = c
        · have hk : NoLeak k := by
            obtain ⟨t1, t2, rfl⟩ := q3
            exact hnl c k (by simp)
          rw [hcc] at hc'
          exact absurd hc' (q5 hk i hi)
        · exact ⟨c', by rw [hother c' hcc]; exact hc'⟩
  | @soft m' hsoft =>
      obtain ⟨a, v, ha, rfl⟩ := hsoft
      have hsame : ∀ c', holds g (t ++ [Label.soft]) c' = holds g t c' := fun c' => by rw [holds_snoc]; rfl
      have hmem : ∀ x, x < g.monitorTop.toNat → upd s.m.mem a v x = s.m.mem x := fun x hx => upd_ne _ _ (by omega)
      have hlock : ∀ i, i < g.regions → upd s.m.mem a v (lockA g i) = s.m.mem (lockA g i) := fun i hi => hmem _ (by have := lockA_lt hw hi; omega)
      have hrec : ∀ i x, i < g.regions → RecordWord g i x → upd s.m.mem a v x = s.m.mem x := by
        intro i x hi hx
        refine hmem x ?_
        have h1 := ownerA_lt hw hi; have h2 := prevA_lt hw hi; have h3 := pinnedA_lt hw hi; have h4 := blockedA_lt hw hi
        rcases hx with hx | hx | hx | hx <;> omega
      have hos : ∀ i, i < g.regions → upd s.m.mem a v (osWordA g i) = s.m.mem (osWordA g i) := fun i hi => hmem _ (by have := osWordA_lt hw hi; omega)
      have hown : ∀ i, i < g.regions → Machine.owner { s.m with mem := upd s.m.mem a v } g i = s.m.owner g i := fun i hi => hrec i _ hi (Or.inl rfl)
      have hbit : ∀ i, i < g.regions → Machine.osBit { s.m with mem := upd s.m.mem a v } g i = s.m.osBit g i := fun i hi => by
        show (upd s.m.mem a v (osWordA g i)).getLsbD _ = _; rw [hos i hi]; rfl
      have h0 : 0 < g.regions := by have := hw.regions_ge; omega
      have hag : ∀ H, Agree g H s.m { s.m with mem := upd s.m.mem a v } := fun H =>
        ⟨fun i hi _ => ⟨fun x hx => hrec i x hi hx, hbit i hi⟩, fun _ => ⟨hos, rfl, rfl⟩⟩
      refine ⟨?_, ?_, ?_, ?_, ?_, ?_⟩
      · refine ⟨⟨?_, ?_, ?_⟩, ?_, ?_⟩
        · intro i hi; have := h.inv.owners i hi; rw [← hown i hi] at this; exact this
        · have := h.inv.region0; rw [← hown 0 h0] at this; exact this
        · intro i hi hu
          have hu' : s.m.locked g i = false := by unfold Machine.locked at hu ⊢; rw [← hlock i hi]; exact hu
          have := h.inv.bitmap i hi hu'; rw [← hown i hi, ← hbit i hi] at this; exact this
        · intro i hi; have := h.inv.locks i hi; rw [← hlock i hi] at this; exact this
        · intro c hc
          have := h.inv.os c hc
          rw [← this]
          exact hmem _ (by have := coreEnclaveA_lt hw hc; omega)
      · intro c i hi hh
        rw [hsame] at hh
        exact (hlock i hi).trans (h.held c i hi hh)
      · intro c1 c2 i hi; rw [hsame, hsame]; exact h.mutex c1 c2 i hi
      · intro c hc; rw [hsame]; exact h.idle c hc
      · intro c k p hc
        obtain ⟨h1, h2, h3, m, h4, h5⟩ := h.safe c k p hc
        rw [hsame]
        exact ⟨h1, h2, hmid h3, m, h4.trans (hag _), h5⟩
      · intro hnl i hi hne
        have hne' : s.m.mem (lockA g i) ≠ 0 := fun hz => hne ((hlock i hi).trans hz)
        obtain ⟨c', hc'⟩ := h.noLeak hnl.prefix i hi hne'
        exact ⟨c', by rw [hsame]; exact hc'⟩

end Sanctum
