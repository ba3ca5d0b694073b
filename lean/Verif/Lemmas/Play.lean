import Verif.Spec.Conc
/-
Interleavings: splitting and joining them, an interpreter of schedules, and sequential histories as interleavings.
-/
namespace Sanctum

variable {g : Cfg}

theorem Steps.trans {s s1 s2 : Conf} {t1 t2 : List Label} (h1 : Steps g s t1 s1) (h2 : Steps g s1 t2 s2) : Steps g s (t1 ++ t2) s2 := by
  induction h2 with
  | refl => rw [List.append_nil]; exact h1
  | @tail s' s'' t l _ hl ih => rw [← List.append_assoc]; exact .tail ih hl

theorem Steps.one {s s1 : Conf} {l : Label} (h : Step g s l s1) : Steps g s [l] s1 := .tail (.refl s) h

theorem Steps.head {s s1 s2 : Conf} {l : Label} {t : List Label} (h1 : Step g s l s1) (h2 : Steps g s1 t s2) : Steps g s (l :: t) s2 :=
  (Steps.one h1).trans h2

/-- An interleaving can be cut anywhere. -/
theorem Steps.cut {s s2 : Conf} {t : List Label} (h : Steps g s t s2) {t1 t2 : List Label} {l : Label} (ht : t = t1 ++ l :: t2) :
    ∃ s', ∃ s'', Steps g s t1 s' ∧ Step g s' l s'' ∧ Steps g s'' t2 s2 := by
  induction h generalizing t2 with
  | refl => simp at ht
  | @tail s' s'' t l' hs hl ih =>
      rcases List.eq_nil_or_concat t2 with rfl | ⟨t3, l3, rfl⟩
      · obtain ⟨h1, h2⟩ := List.append_inj' ht rfl
        cases h1; cases h2
        exact ⟨s', s'', hs, hl, .refl _⟩
      · rw [List.concat_eq_append] at ht ⊢
        rw [show t1 ++ l :: (t3 ++ [l3]) = (t1 ++ l :: t3) ++ [l3] by simp] at ht
        obtain ⟨h1, h2⟩ := List.append_inj' ht rfl
        cases h2
        obtain ⟨a, b, q1, q2, q3⟩ := ih h1
        exact ⟨a, b, q1, q2, .tail q3 hl⟩

/-- A move of a schedule: core `c` starts a call, or makes its next step. -/
inductive Move where
  | start (c : Nat) (k : Call)
  | go (c : Nat)

/-- Plays one move. -/
def playMove (g : Cfg) (x : Move) (s : Conf) : Option (Label × Conf) :=
  match x with
  | .start c k =>
      match s.cores c with
      | .idle => if c < g.coreCount.toNat then some (.start c k, { s with cores := upd s.cores c (.running k (k.prog g)) }) else none
      | _ => none
  | .go c =>
      match s.cores c with
      | .running k (.op o f) =>
          match exec g c o s.m with
          | some (v, m') => some (.act c o v, { m := m', cores := upd s.cores c (.running k (f v)) })
          | none => none
      | .running k (.ret v) => some (.done c k v, { s with cores := upd s.cores c .idle })
      | _ => none

/-- Plays a schedule; the trace and the final configuration. -/
def play (g : Cfg) : List Move → Conf → Option (List Label × Conf)
  | [], s => some ([], s)
  | x :: xs, s =>
      match playMove g x s with
      | some (l, s') => (play g xs s').map (fun y => (l :: y.1, y.2))
      | none => none

theorem playMove_step {x : Move} {s s' : Conf} {l : Label} (h : playMove g x s = some (l, s')) : Step g s l s' := by
  cases x with
  | start c k =>
      simp only [playMove] at h
      split at h
      · rename_i hc
        split at h
        · rename_i hlt
          cases h
          exact Step.start k hlt hc
        · cases h
      · cases h
  | go c =>
      simp only [playMove] at h
      split at h
      · rename_i hc
        split at h
        · rename_i he
          cases h
          exact Step.act hc he
        · cases h
      · rename_i hc
        cases h
        exact Step.done hc
      · cases h

theorem play_steps (xs : List Move) : ∀ {s s' : Conf} {t : List Label}, play g xs s = some (t, s') → Steps g s t s' := by
  induction xs with
  | nil =>
      intro s s' t h
      cases h
      exact .refl _
  | cons x xs ih =>
      intro s s' t h
      rw [play] at h
      split at h
      · rename_i l s1 hm
        cases hr : play g xs s1 with
        | none => rw [hr] at h; cases h
        | some y =>
            rw [hr] at h
            cases h
            exact .head (playMove_step hm) (ih hr)
      · cases h

/-- The calls started by a schedule. -/
theorem play_onlyCalls {P : Call → Prop} (xs : List Move) (hx : ∀ c k, Move.start c k ∈ xs → P k) : ∀ {s s' : Conf} {t : List Label},
    play g xs s = some (t, s') → OnlyCalls P t := by
  induction xs with
  | nil => intro s s' t h c k hk; cases h; cases hk
  | cons x xs ih =>
      intro s s' t h
      rw [play] at h
      split at h
      · rename_i l s1 hm
        cases hr : play g xs s1 with
        | none => rw [hr] at h; cases h
        | some y =>
            rw [hr] at h
            cases h
            intro c k hk
            rcases List.mem_cons.1 hk with hk | hk
            · subst hk
              cases x with
              | start c' k' =>
                  simp only [playMove] at hm
                  split at hm
                  · split at hm
                    · cases hm; exact hx c k List.mem_cons_self
                    · cases hm
                  · cases hm
              | go c' =>
                  simp only [playMove] at hm
                  split at hm
                  · split at hm <;> cases hm
                  · cases hm
                  · cases hm
            · exact ih (fun c k h => hx c k (List.mem_cons_of_mem _ h)) hr c k hk
      · cases h

/-- A call that runs to completion, as an interleaving. -/
theorem run_steps {k : Call} {c : Nat} (p : Prog W) : ∀ {s : Conf} {v : W} {m' : Machine}, s.cores c = .running k p → run g c p s.m = some (v, m') →
    ∃ t, Steps g s t ⟨m', upd s.cores c .idle⟩ ∧ (∀ l ∈ t, (∃ o v, l = .act c o v) ∨ ∃ v, l = .done c k v) := by
  induction p with
  | ret a =>
      intro s v m' hc hr
      cases hr
      exact ⟨_, .one (Step.done hc), fun l hl => Or.inr ⟨a, by simpa using hl⟩⟩
  | op o f ih =>
      intro s v m' hc hr
      rw [run] at hr
      split at hr
      · rename_i v1 m1 he
        have hs := Step.act hc he
        obtain ⟨t, h1, h2⟩ := ih v1 (s := ⟨m1, upd s.cores c (.running k (f v1))⟩) (if_pos rfl) hr
        have hcores : upd (upd s.cores c (.running k (f v1))) c .idle = upd s.cores c .idle := by
          funext x; unfold upd; split <;> rfl
        rw [hcores] at h1
        refine ⟨_, .head hs h1, fun l hl => ?_⟩
        rcases List.mem_cons.1 hl with rfl | hl
        · exact Or.inl ⟨o, v1, rfl⟩
        · exact h2 l hl
      · cases hr
  | fault => intro s v m' _ hr; cases hr
  | diverge => intro s v m' _ hr; cases hr

/-- A sequential call is an interleaving. -/
theorem call_steps {k : Call} {c : Nat} {cores : Nat → CoreState} {m m' : Machine} {v : W} (hc : c < g.coreCount.toNat) (hi : cores c = .idle)
    (hcall : call g c k m = some (v, m')) : ∃ t, Steps g ⟨m, cores⟩ t ⟨m', cores⟩ ∧ (∀ c' k', Label.start c' k' ∈ t → c' = c ∧ k' = k) := by
  obtain ⟨t, h1, h2⟩ := run_steps (g := g) (k := k) (c := c) (k.prog g) (s := ⟨m, upd cores c (.running k (k.prog g))⟩) (if_pos rfl) hcall
  have hcores : upd (upd cores c (.running k (k.prog g))) c .idle = cores := by
    funext x; unfold upd; split
    · rename_i hx; rw [hx, hi]
    · rfl
  simp only [hcores] at h1
  refine ⟨_, .head (Step.start (s := ⟨m, cores⟩) k hc hi) h1, fun c' k' hk => ?_⟩
  rcases List.mem_cons.1 hk with hk | hk
  · cases hk; exact ⟨rfl, rfl⟩
  · rcases h2 _ hk with ⟨o, v, h⟩ | ⟨v, h⟩ <;> cases h

/-- A sequential history is an interleaving in which the same calls are made. -/
theorem hist_steps {m m' : Machine} {h : List Event} (hh : Hist g m h m') {cores : Nat → CoreState} (hi : ∀ c, cores c = .idle) :
    ∃ t, Steps g ⟨m, cores⟩ t ⟨m', cores⟩ ∧ ∀ c k, Label.start c k ∈ t → ∃ v, ⟨c, k, v⟩ ∈ h := by
  induction hh with
  | nil m => exact ⟨[], .refl _, fun c k hk => by cases hk⟩
  | @cons m m1 m2 c k v h hc hcall _ ih =>
      obtain ⟨t2, h1, h2⟩ := ih
      obtain ⟨t1, h3, h4⟩ := call_steps hc (hi c) hcall
      refine ⟨t1 ++ t2, h3.trans h1, fun c' k' hk => ?_⟩
      rcases List.mem_append.1 hk with hk | hk
      · obtain ⟨rfl, rfl⟩ := h4 c' k' hk
        exact ⟨v, List.mem_cons_self⟩
      · obtain ⟨v', hv'⟩ := h2 c' k' hk
        exact ⟨v', List.mem_cons_of_mem _ hv'⟩
  | soft hs _ ih =>
      obtain ⟨t2, h1, h2⟩ := ih
      refine ⟨_, .head (Step.soft (s := ⟨_, cores⟩) hs) h1, fun c' k' hk => ?_⟩
      rcases List.mem_cons.1 hk with hk | hk
      · cases hk
      · exact h2 c' k' hk

end Sanctum
