import Verif.Lemmas.Confine
import Verif.Props.Conc
/-
Soundness of the confinement logic for interleavings.
-/
namespace Sanctum
open Machine

variable {g : Cfg}

/-- Actions change at most the words they mutate. -/
theorem exec_mutates {c : Nat} {o : Op} {m m' : Machine} {v : W} (he : exec g c o m = some (v, m')) {x : Nat} (hx : ¬ o.mutates x) : m'.mem x = m.mem x := by
  cases o <;> simp only [exec] at he <;> simp only [Op.mutates] at hx
  case store a w => split at he <;> cases he; exact upd_ne _ _ (fun hh => hx hh.symm)
  case store32 a w => split at he <;> cases he; exact upd_ne _ _ (fun hh => hx hh.symm)
  case tas a => split at he <;> cases he; exact upd_ne _ _ (fun hh => hx hh.symm)
  case fetchAdd a w => split at he <;> cases he; exact upd_ne _ _ (fun hh => hx hh.symm)
  all_goals first | (split at he <;> cases he; rfl) | (cases he; rfl)

/-- The responses are as expected in states with the invariant. -/
theorem exec_respOk {c : Nat} {o : Op} {m m' : Machine} {v : W} {H : Nat → Prop} (hi : CInv g m) (hh : HeldOk g H m)
    (he : exec g c o m = some (v, m')) : RespOk g c H o v := by
  refine ⟨?_, ?_, ?_, ?_⟩
  · rintro rfl; cases he; rfl
  · rintro a c' rfl hc ha
    simp only [exec] at he
    split at he <;> cases he
    rw [ha]; exact hi.os c' hc
  · rintro a i rfl hlt ha
    simp only [exec] at he
    split at he <;> cases he
    rw [ha]
    exact ⟨hi.owners i hlt, fun h0 => by rw [h0]; exact hi.region0⟩
  · rintro a i rfl hlt ha hv hHi
    simp only [exec] at he
    split at he <;> cases he
    rw [ha, hh i hlt hHi] at hv
    exact absurd hv (by decide)

/-- The regions in `T` are held and are metadata. -/
def Known (g : Cfg) (H T : Nat → Prop) (m : Machine) : Prop := ∀ i, T i → i < g.regions ∧ H i ∧ m.owner g i = metadataEnclaveId

theorem Known.step {c : Nat} {o : Op} {m m' : Machine} {v : W} {H T : Nat → Prop} (h : Known g H T m) (he : exec g c o m = some (v, m')) :
    Known g (heldStep g o v H) (tStep g o v H T) m' := by
  intro i hi
  rcases hi with ⟨h1, h2, h3⟩ | ⟨h1, h2, a, h3, h4⟩
  · obtain ⟨q1, q2, q3⟩ := h i h1
    refine ⟨q1, ?_, (exec_mutates he h2).trans q3⟩
    cases o <;> simp only [heldStep]
    case tas a => exact Or.inl q2
    case store a w => exact ⟨q2, h3 a w rfl⟩
    all_goals exact q2
  · rcases h4 with ⟨rfl, rfl⟩ | rfl
    · simp only [exec] at he
      split at he
      · injection he with he
        injection he with e1 e2
        subst e2
        refine ⟨h1, h2, ?_⟩
        show m.mem (ownerA g i) = _
        rw [← h3, e1]
      · cases he
    · simp only [exec] at he
      split at he
      · injection he with he
        injection he with e1 e2
        subst e2
        refine ⟨h1, ⟨h2, ?_⟩, ?_⟩
        · rw [h3]; simp
        · show upd m.mem a.toNat _ (ownerA g i) = _
          rw [h3]; exact upd_same _ _ _
      · cases he

/-- What the confinement logic says of a configuration. -/
def GoodC (g : Cfg) (t : List Label) (s : Conf) : Prop :=
  ∀ c k p, s.cores c = .running k p → Confined g k →
    ∃ T, p.Cfn g c (ArgWord k) Top (holds g t c) T ∧ Known g (holds g t c) T s.m

theorem GoodC.step (hw : g.WF)
    (hs : ∀ c k, c < g.cores → CoveredC g k → Confined g k → (k.prog g).Cfn g c (ArgWord k) Top noL noL)
    {t : List Label} {s s' : Conf} {l : Label} (hg : Good g t s) (h : GoodC g t s) (hcov : OnlyCalls (CoveredC g) (t ++ [l]))
    (hl : Step g s l s') : GoodC g (t ++ [l]) s' := by
  intro c k p hc hk
  cases hl with
  | @start c' k' hlt hidle =>
      have hsame : holds g (t ++ [Label.start c' k']) c = holds g t c := by rw [holds_snoc]; rfl
      rw [hsame]
      have hc' : upd s.cores c' (.running k' (k'.prog g)) c = CoreState.running k p := hc
      by_cases hcc : c = c'
      · subst hcc
        rw [upd_same] at hc'
        obtain ⟨rfl, rfl⟩ := CoreState.running.inj hc'
        have hck := hcov c k' (List.mem_append_right _ (List.mem_singleton.2 rfl))
        exact ⟨noL, (hs c k' hlt hck hk).weaken (fun _ hh => hh.elim) (fun _ hh => hh), fun _ hh => hh.elim⟩
      · rw [upd_ne _ _ hcc] at hc'
        exact h c k p hc' hk
  | @act c' k' o f v m' hrun hex =>
      have hc' : upd s.cores c' (.running k' (f v)) c = CoreState.running k p := hc
      by_cases hcc : c = c'
      · subst hcc
        rw [upd_same] at hc'
        obtain ⟨rfl, rfl⟩ := CoreState.running.inj hc'
        rw [holds_snoc, heldLabel_act_self]
        obtain ⟨T, h1, h2⟩ := h c k' _ hrun hk
        exact ⟨_, h1.2 v (exec_respOk hg.inv (hg.held c) hex), h2.step hex⟩
      · rw [upd_ne _ _ hcc] at hc'
        rw [holds_snoc, heldLabel_act_other (Ne.symm hcc)]
        obtain ⟨T, h1, h2⟩ := h c k p hc' hk
        refine ⟨T, h1, fun i hi => ?_⟩
        obtain ⟨q1, q2, q3⟩ := h2 i hi
        obtain ⟨v2, m2, w1, w2, w3, w4⟩ := hg.act hrun
        rw [hex] at w1
        obtain ⟨rfl, rfl⟩ := Prod.mk.inj (Option.some.inj w1)
        have hn : ¬ holds g t c' i := fun hh => hcc (hg.mutex c c' i q1 q2 hh)
        exact ⟨q1, q2, ((w3.record i q1 hn).1 _ (Or.inl rfl)).trans q3⟩
  | @done c' k' v hrun =>
      have hc' : upd s.cores c' .idle c = CoreState.running k p := hc
      by_cases hcc : c = c'
      · subst hcc; rw [upd_same] at hc'; exact absurd hc' (by simp)
      · rw [upd_ne _ _ hcc] at hc'
        rw [holds_snoc, heldLabel_done_other (Ne.symm hcc)]
        exact h c k p hc' hk
  | @soft m' hsoft =>
      obtain ⟨a, v, ha, rfl⟩ := hsoft
      have hsame : holds g (t ++ [Label.soft]) c = holds g t c := by rw [holds_snoc]; rfl
      rw [hsame]
      obtain ⟨T, h1, h2⟩ := h c k p hc hk
      refine ⟨T, h1, fun i hi => ?_⟩
      obtain ⟨q1, q2, q3⟩ := h2 i hi
      refine ⟨q1, q2, Eq.trans ?_ q3⟩
      have := ownerA_lt hw q1
      exact upd_ne _ _ (by omega)

end Sanctum
