import Verif.Spec.Count
import Verif.Lemmas.AtomicRun
/-
Counting effects in runs of the atomic specification.
-/
namespace Sanctum

variable {g : Cfg}

/-! ### Sums over cores -/

theorem countP_upd {β : Type} (P : β → Bool) (f : Nat → β) (c : Nat) (x : β) : ∀ n, c < n →
    (List.range n).countP (fun i => P (upd f c x i)) + (P (f c)).toNat = (List.range n).countP (fun i => P (f i)) + (P x).toNat := by
  have out : ∀ n, n ≤ c → (List.range n).countP (fun i => P (upd f c x i)) = (List.range n).countP (fun i => P (f i)) := fun n hn => by
    refine List.countP_congr fun i hi => ?_
    have := List.mem_range.1 hi
    rw [upd_ne _ _ (by omega)]
  intro n
  induction n with
  | zero => intro h; omega
  | succ n ih =>
      intro h
      have one : ∀ (Q : Nat → Bool), [n].countP Q = (Q n).toNat := fun Q => by
        rw [List.countP_singleton]; cases Q n <;> rfl
      rw [List.range_succ, List.countP_append, List.countP_append, one, one]
      by_cases hc : c = n
      · subst hc
        rw [out c (Nat.le_refl _), upd_same]
        omega
      · have := ih (by omega)
        rw [upd_ne _ _ (Ne.symm hc)]
        omega

theorem countP_le {f h : Nat → Bool} (hfh : ∀ i, f i = true → h i = true) : ∀ l : List Nat, l.countP f ≤ l.countP h :=
  fun l => List.countP_mono_left fun i _ hi => hfh i hi

/-! ### Effects -/

/-- The call of the phase took effect with success and satisfies `Q`. -/
def Phase.won (Q : Call → Bool) : Phase → Bool
  | .decided k v => Q k && v == monitorOk
  | _ => false

/-- The number of cores with such a phase. -/
def won (g : Cfg) (Q : Call → Bool) (a : AtomicState) : Nat := (List.range g.cores).countP fun c => (a.phase c).won Q

/-- The number of effects so far: of the calls that returned, and of those that will. -/
def effects (g : Cfg) (Q : Call → Bool) (h : List Label) (a : AtomicState) : Nat := succeeded Q h + won g Q a

theorem succeeded_append (Q : Call → Bool) (h h' : List Label) : succeeded Q (h ++ h') = succeeded Q h + succeeded Q h' := List.countP_append

theorem effects_mayCount {Q : Call → Bool} {h : List Label} {a : AtomicState} (hc : ∀ c, (a.phase c).call = current h c) : MayCount g Q h (effects g Q h a) := by
  refine ⟨Nat.le_add_right _ _, Nat.add_le_add_left ?_ _⟩
  refine countP_le (fun c hw => ?_) _
  rw [← hc c]
  unfold Phase.won at hw
  split at hw
  · rename_i k v hp
    rw [hp]
    exact (Bool.and_eq_true_iff.1 hw).1
  · cases hw

/-- A class of calls that a refusal cannot be mistaken for a success of, without flushes. -/
structure Countable (Q : Call → Bool) : Prop where
  flush : Q .flushCachedDramRegions = false
  busy : ∀ k v, Q k = true → BusyAnswer k v → v ≠ monitorOk

/-- How a step changes the numbers of effects. -/
theorem AtomicStep.effects {a a' : AtomicState} {h h' : List Label} (hs : AtomicStep g a h' a') (hlt : ∀ c, a.phase c ≠ .idle → c < g.cores) :
    (a'.table.owner = a.table.owner ∧ ∀ Q, Countable Q → effects g Q (h ++ h') a' = effects g Q h a) ∨
    (∃ k v, TakesEffect g k a.table v a'.table ∧ ∀ Q, Countable Q → effects g Q (h ++ h') a' = effects g Q h a + (Q k && v == monitorOk).toNat) := by
  -- one core changes its phase
  have upd1 : ∀ (Q : Call → Bool) (c : Nat) (p : Phase) (t : RegionTable), c < g.cores → won g Q { phase := upd a.phase c p, table := t } + ((a.phase c).won Q).toNat =
      won g Q a + (p.won Q).toNat := fun Q c p _ hc => countP_upd (Phase.won Q) a.phase c p g.cores hc
  have w1 : ∀ Q k, ((Phase.pending k).won Q).toNat = 0 := fun _ _ => rfl
  have w2 : ∀ Q, (Phase.idle.won Q).toNat = 0 := fun _ => rfl
  have w3 : ∀ Q, (Phase.flushing.won Q).toNat = 0 := fun _ => rfl
  have w4 : ∀ Q k v, (Phase.decided k v).won Q = (Q k && v == monitorOk) := fun _ _ _ => rfl
  have h0 : ∀ Q, succeeded Q [] = 0 := fun _ => rfl
  have h00 : ∀ Q c k, succeeded Q [Label.start c k] = 0 := fun _ _ _ => rfl
  unfold Sanctum.effects
  cases hs with
  | @start c k hc hi =>
      refine Or.inl ⟨rfl, fun Q _ => ?_⟩
      have h1 := upd1 Q c (.pending k) a.table hc
      rw [hi, w1, w2] at h1
      rw [succeeded_append, h00]
      omega
  | @effect c k v table hp he =>
      refine Or.inr ⟨k, v, he, fun Q _ => ?_⟩
      have hc := hlt c (by rw [hp]; exact Phase.noConfusion)
      have h1 := upd1 Q c (.decided k v) table hc
      rw [hp, w1, w4] at h1
      rw [succeeded_append, h0]
      omega
  | @busy c c' k v hp _ _ hbz =>
      refine Or.inl ⟨rfl, fun Q hQ => ?_⟩
      have hc := hlt c (by rw [hp]; exact Phase.noConfusion)
      have h1 := upd1 Q c (.decided k v) a.table hc
      rw [hp, w1, w4] at h1
      have hb : (Q k && v == monitorOk) = false := by
        cases hh : Q k && v == monitorOk with
        | false => rfl
        | true =>
            obtain ⟨hb1, hb2⟩ := Bool.and_eq_true_iff.1 hh
            exact absurd (beq_iff_eq.1 hb2) (hQ.busy k v hb1 hbz)
      rw [hb, Bool.toNat_false] at h1
      rw [succeeded_append, h0]
      omega
  | @sample c hp =>
      refine Or.inl ⟨rfl, fun Q _ => ?_⟩
      have hc := hlt c (by rw [hp]; exact Phase.noConfusion)
      have h1 := upd1 Q c .flushing { a.table with sampled := upd a.table.sampled c a.table.clock } hc
      rw [hp, w1, w3] at h1
      rw [succeeded_append, h0]
      omega
  | @flush c hp =>
      refine Or.inl ⟨rfl, fun Q hQ => ?_⟩
      have hc := hlt c (by rw [hp]; exact Phase.noConfusion)
      have h1 := upd1 Q c (.decided .flushCachedDramRegions monitorOk) { a.table with flushed := upd a.table.flushed c (a.table.sampled c) } hc
      rw [hp, w3, w4, hQ.flush, Bool.false_and, Bool.toNat_false] at h1
      rw [succeeded_append, h0]
      omega
  | @done c k v hp =>
      refine Or.inl ⟨rfl, fun Q _ => ?_⟩
      have hc := hlt c (by rw [hp]; exact Phase.noConfusion)
      have h1 := upd1 Q c .idle a.table hc
      rw [hp, w2, w4] at h1
      have h2 : succeeded Q [Label.done c k v] = (Q k && v == monitorOk).toNat := by
        unfold succeeded
        rw [List.countP_singleton]
        show (if (Q k && v == monitorOk) = true then 1 else 0) = _
        cases Q k && v == monitorOk <;> rfl
      rw [succeeded_append, h2]
      omega

theorem AtomicStep.inRange {a a' : AtomicState} {h : List Label} (hs : AtomicStep g a h a') (hlt : ∀ c, a.phase c ≠ .idle → c < g.cores) :
    ∀ c, a'.phase c ≠ .idle → c < g.cores := by
  have key : ∀ (c : Nat) (p : Phase), (c < g.cores) → ∀ c', upd a.phase c p c' ≠ .idle → c' < g.cores := fun c p hc c' hne => by
    by_cases hcc : c' = c
    · rw [hcc]; exact hc
    · rw [upd_ne _ _ hcc] at hne; exact hlt c' hne
  cases hs with
  | @start c k hc hi => exact key c _ hc
  | @effect c k v table hp he => exact key c _ (hlt c (by rw [hp]; exact Phase.noConfusion))
  | @busy c c' k v hp _ _ hbz => exact key c _ (hlt c (by rw [hp]; exact Phase.noConfusion))
  | @sample c hp => exact key c _ (hlt c (by rw [hp]; exact Phase.noConfusion))
  | @flush c hp => exact key c _ (hlt c (by rw [hp]; exact Phase.noConfusion))
  | @done c k v hp => exact key c _ (hlt c (by rw [hp]; exact Phase.noConfusion))

/-! ### Observations -/

theorem succeeded_observed (Q : Call → Bool) (t : List Label) : succeeded Q (observed t) = succeeded Q t := by
  induction t with
  | nil => rfl
  | cons l t ih =>
      cases l with
      | start c k => exact ih
      | act c o v => exact ih
      | done c k v =>
          show succeeded Q (Label.done c k v :: observed t) = succeeded Q (Label.done c k v :: t)
          unfold succeeded at ih ⊢
          rw [List.countP_cons, List.countP_cons, ih]
      | soft => exact ih

theorem current_observed (t : List Label) (c : Nat) : current (observed t) c = current t c := by
  unfold current
  generalize (none : Option Call) = x
  induction t generalizing x with
  | nil => rfl
  | cons l t ih =>
      cases l with
      | start c' k => exact ih _
      | act c' o v => exact ih _
      | done c' k v => exact ih _
      | soft => exact ih _

theorem mayCount_observed {Q : Call → Bool} {t : List Label} {n : Nat} (h : MayCount g Q (observed t) n) : MayCount g Q t n := by
  have : inProgress g Q (observed t) = inProgress g Q t := by
    unfold inProgress
    congr 1
    funext c
    rw [current_observed]
  unfold MayCount at h ⊢
  rw [succeeded_observed, this] at h
  exact h

end Sanctum
