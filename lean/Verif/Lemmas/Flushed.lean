import Verif.Spec.Flush
import Verif.Lemmas.Play
import Verif.Lemmas.Count
/-
Removing the start of a call from an interleaving, and the first action of a flush.
-/
namespace Sanctum
variable {g : Cfg}

theorem append_split {α : Type} {P Q A B : List α} {l : α} (h : P ++ Q = A ++ l :: B) :
    (∃ A', P = A ++ l :: A' ∧ B = A' ++ Q) ∨ ∃ Q1, A = P ++ Q1 ∧ Q = Q1 ++ l :: B := by
  induction P generalizing A with
  | nil => exact Or.inr ⟨A, rfl, h⟩
  | cons x P ih =>
      cases A with
      | nil =>
          rw [List.cons_append, List.nil_append] at h
          injection h with h1 h2
          exact Or.inl ⟨P, by rw [h1]; rfl, h2.symm⟩
      | cons y A =>
          rw [List.cons_append, List.cons_append] at h
          injection h with h1 h2
          rcases ih h2 with ⟨A', e1, e2⟩ | ⟨Q1, e1, e2⟩
          · exact Or.inl ⟨A', by rw [h1, e1]; rfl, e2⟩
          · exact Or.inr ⟨Q1, by rw [h1, e1]; rfl, e2⟩

/-- What core `c` is doing does not matter for the steps of the others. -/
theorem Steps.forget {s s' : Conf} {t : List Label} {c : Nat} (x : CoreState) (hs : Steps g s t s') (hc : ∀ l ∈ t, l.core ≠ some c) :
    Steps g { s with cores := upd s.cores c x } t { s' with cores := upd s'.cores c x } := by
  induction hs with
  | refl => exact .refl _
  | @tail s1 s2 t l h1 h2 ih =>
      refine .tail (ih fun l hl => hc l (List.mem_append_left _ hl)) ?_
      have hl := hc l (List.mem_append_right _ (List.mem_singleton.2 rfl))
      have comm : ∀ {c' : Nat} (_ : c' ≠ c) (y : CoreState), upd (upd s1.cores c' y) c x = upd (upd s1.cores c x) c' y := fun {c'} hne y => by
        funext i; unfold upd
        by_cases h1 : i = c
        · rw [if_pos h1, if_neg (fun hh => hne (hh.symm.trans h1)), if_pos h1]
        · rw [if_neg h1, if_neg h1]
      have other : ∀ {c' : Nat} (_ : c' ≠ c), upd s1.cores c x c' = s1.cores c' := fun hne => if_neg hne
      cases h2 with
      | @start c' k g1 g2 =>
          have hne : c' ≠ c := fun hh => hl (by rw [hh]; rfl)
          rw [comm hne]
          exact .start k g1 ((other hne).trans g2)
      | @act c' k o f v m' g1 g2 =>
          have hne : c' ≠ c := fun hh => hl (by rw [hh]; rfl)
          rw [comm hne]
          exact .act ((other hne).trans g1) g2
      | @done c' k v g1 =>
          have hne : c' ≠ c := fun hh => hl (by rw [hh]; rfl)
          rw [comm hne]
          exact .done ((other hne).trans g1)
      | soft g1 => exact .soft g1

/-- A call that was made and has not taken a step can be removed. -/
theorem Steps.removeStart {s s' : Conf} {A B : List Label} {c : Nat} {k : Call} (hs : Steps g s (A ++ Label.start c k :: B) s') (hc : ∀ l ∈ B, l.core ≠ some c) :
    ∃ s1 s2, Steps g s A s1 ∧ s1.cores c = .idle ∧ Steps g s (A ++ B) s2 := by
  obtain ⟨s1, s2, h1, h2, h3⟩ := hs.cut rfl
  cases h2 with
  | start _ g1 g2 =>
      have := h3.forget (x := .idle) hc
      refine ⟨s1, _, h1, g2, h1.trans (?_ : Steps g s1 B { s' with cores := upd s'.cores c .idle })⟩
      have e : upd (upd s1.cores c (CoreState.running k (k.prog g))) c .idle = s1.cores := by
        funext i; unfold upd
        by_cases hi : i = c
        · rw [if_pos hi, hi, g2]
        · rw [if_neg hi, if_neg hi]
      simp only [e] at this
      exact this

/-- The next step of a core about to perform `o`. -/
theorem Steps.next {s s' : Conf} {t : List Label} {c : Nat} {k : Call} {o : Op} {f : W → Prog W} (hs : Steps g s t s') (hr : s.cores c = .running k (.op o f)) :
    ((∀ l ∈ t, l.core ≠ some c) ∧ s'.cores c = s.cores c) ∨ ∃ B1 v B2, t = B1 ++ Label.act c o v :: B2 ∧ ∀ l ∈ B1, l.core ≠ some c := by
  induction hs with
  | refl => exact Or.inl ⟨fun l hl => absurd hl List.not_mem_nil, rfl⟩
  | @tail s1 s2 t l h1 h2 ih =>
      rcases ih with ⟨i1, i2⟩ | ⟨B1, v, B2, e1, e2⟩
      · have other : ∀ {c' : Nat} (_ : c' ≠ c) (y : CoreState), upd s1.cores c' y c = s.cores c := fun hne y => (if_neg (fun hh => hne hh.symm)).trans i2
        have none : l.core ≠ some c → ∀ l' ∈ t ++ [l], l'.core ≠ some c := fun hl l' hm => by
          rcases List.mem_append.1 hm with hm | hm
          · exact i1 l' hm
          · rw [List.mem_singleton.1 hm]; exact hl
        cases h2 with
        | @start c' k' g1 g2 =>
            rcases Classical.em (c' = c) with rfl | hne
            · rw [i2, hr] at g2; cases g2
            · exact Or.inl ⟨none fun hh => hne (Option.some.inj hh), other hne _⟩
        | @act c' k' o' f' v m' g1 g2 =>
            rcases Classical.em (c' = c) with rfl | hne
            · rw [i2, hr] at g1
              injection g1 with _ g1; injection g1 with g1 _
              exact Or.inr ⟨t, v, [], by rw [g1], i1⟩
            · exact Or.inl ⟨none fun hh => hne (Option.some.inj hh), other hne _⟩
        | @done c' k' v g1 =>
            rcases Classical.em (c' = c) with rfl | hne
            · rw [i2, hr] at g1
              injection g1 with _ g1; cases g1
            · exact Or.inl ⟨none fun hh => hne (Option.some.inj hh), other hne _⟩
        | soft g1 => exact Or.inl ⟨none (fun hh => by cases hh), i2⟩
      · exact Or.inr ⟨B1, v, B2 ++ [l], by rw [e1, List.append_assoc]; rfl, e2⟩

/-- A flush starts with the flush of the TLB. -/
theorem Steps.flushes {s s' : Conf} {A B : List Label} {c : Nat} (hs : Steps g s (A ++ Label.start c .flushCachedDramRegions :: B) s') :
    (∀ l ∈ B, l.core ≠ some c) ∨ ∃ B1 v B2, B = B1 ++ Label.act c .flushTlbs v :: B2 ∧ ∀ l ∈ B1, l.core ≠ some c := by
  obtain ⟨s1, s2, h1, h2, h3⟩ := hs.cut rfl
  cases h2 with
  | start _ g1 g2 =>
      rcases h3.next (c := c) (k := .flushCachedDramRegions) (o := .flushTlbs) (if_pos rfl) with h | h
      · exact Or.inl h.1
      · exact Or.inr h

theorem current_append (t u : List Label) (c : Nat) : current (t ++ u) c = u.foldl (currentLabel c) (current t c) := by
  unfold current; rw [List.foldl_append]

theorem currentLabel_other {c : Nat} {l : Label} (x : Option Call) (h : l.core ≠ some c) : currentLabel c x l = x := by
  cases l with
  | start c' k => exact if_neg fun hh => h (by rw [hh]; rfl)
  | act c' o v => rfl
  | done c' k v => exact if_neg fun hh => h (by rw [hh]; rfl)
  | soft => rfl

theorem foldl_current_other {c : Nat} {u : List Label} (x : Option Call) (h : ∀ l ∈ u, l.core ≠ some c) : u.foldl (currentLabel c) x = x := by
  induction u generalizing x with
  | nil => rfl
  | cons l u ih =>
      rw [List.foldl_cons, currentLabel_other x (h l List.mem_cons_self)]
      exact ih x fun l hl => h l (List.mem_cons_of_mem _ hl)

/-- The call in progress was started, and has not returned. -/
theorem current_start {t : List Label} {c : Nat} {k : Call} (h : current t c = some k) :
    ∃ A B, t = A ++ Label.start c k :: B ∧ ∀ l ∈ B, ∀ k' x, l ≠ Label.done c k' x := by
  have key : ∀ (u : List Label), current u.reverse c = some k → ∃ A B, u.reverse = A ++ Label.start c k :: B ∧ ∀ l ∈ B, ∀ k' x, l ≠ Label.done c k' x := by
    intro u
    induction u with
    | nil => intro h; cases h
    | cons l u ih =>
        intro h
        rw [List.reverse_cons] at h ⊢
        rw [current_append] at h
        have h : currentLabel c (current u.reverse c) l = some k := h
        have grow : (∀ k' x, l ≠ Label.done c k' x) → current u.reverse c = some k →
            ∃ A B, u.reverse ++ [l] = A ++ Label.start c k :: B ∧ ∀ l ∈ B, ∀ k' x, l ≠ Label.done c k' x := fun hl hh => by
          obtain ⟨A, B, e1, e2⟩ := ih hh
          refine ⟨A, B ++ [l], by rw [e1, List.append_assoc]; rfl, fun l' hm => ?_⟩
          rcases List.mem_append.1 hm with hm | hm
          · exact e2 l' hm
          · rw [List.mem_singleton.1 hm]; exact hl
        cases l with
        | start c' k' =>
            rcases Classical.em (c' = c) with rfl | hne
            · have h : (if c' = c' then some k' else _) = some k := h
              rw [if_pos rfl] at h
              cases h
              exact ⟨_, [], rfl, fun l hl => absurd hl List.not_mem_nil⟩
            · exact grow (fun _ _ => Label.noConfusion) ((if_neg hne).symm.trans h)
        | act c' o v => exact grow (fun _ _ => Label.noConfusion) h
        | done c' k' v =>
            rcases Classical.em (c' = c) with rfl | hne
            · have h : (if c' = c' then none else _) = some k := h
              rw [if_pos rfl] at h; cases h
            · exact grow (fun _ _ hh => by cases hh; exact hne rfl) ((if_neg hne).symm.trans h)
        | soft => exact grow (fun _ _ => Label.noConfusion) h
  have := key t.reverse
  rw [List.reverse_reverse] at this
  exact this h

/-- Core `c` has started to flush and has not made a step since. -/
def FlushPending (t : List Label) (c : Nat) : Prop := ∃ A B, t = A ++ Label.start c .flushCachedDramRegions :: B ∧ ∀ l ∈ B, l.core ≠ some c

theorem FlushPending.current {t : List Label} {c : Nat} (h : FlushPending t c) : current t c = some .flushCachedDramRegions := by
  obtain ⟨A, B, e1, e2⟩ := h
  rw [e1, current_append, List.foldl_cons, foldl_current_other _ e2]
  exact if_pos rfl

theorem mem_observed {l : Label} {t : List Label} (h : l ∈ observed t) : l ∈ t := (List.mem_filter.1 h).1

/-- If no flush of core `c` is about to flush the TLB, calls to flush have flushed it. -/
theorem flushed_of_flushes {s s' : Conf} {t0 t1 : List Label} {c : Nat} (hs : Steps g s (t0 ++ t1) s') (hp : ¬ FlushPending (t0 ++ t1) c)
    (hf : FlushesSince (observed t0) (observed t1) c) : FlushedSince t0 t1 c := by
  rcases hf with hf | hf
  · rw [current_observed] at hf
    obtain ⟨A, B, e1, e2⟩ := current_start hf
    have e : t0 ++ t1 = A ++ Label.start c .flushCachedDramRegions :: (B ++ t1) := by rw [e1, List.append_assoc]; rfl
    rw [e] at hs hp
    rcases hs.flushes with h | ⟨B1, v, B2, h1, h2⟩
    · exact absurd ⟨_, _, rfl, h⟩ hp
    · rcases append_split h1 with ⟨A', h3, h4⟩ | ⟨Q1, h3, h4⟩
      · refine Or.inr ⟨A ++ Label.start c .flushCachedDramRegions :: B1, v, A', by rw [e1, h3, List.append_assoc]; rfl, fun l hl => e2 l ?_⟩
        rw [h3]; exact List.mem_append_right _ (List.mem_cons_of_mem _ hl)
      · exact Or.inl ⟨v, by rw [h4]; exact List.mem_append_right _ List.mem_cons_self⟩
  · obtain ⟨A, B, e1⟩ := List.append_of_mem (mem_observed hf)
    have e : t0 ++ t1 = (t0 ++ A) ++ Label.start c .flushCachedDramRegions :: B := by rw [e1, List.append_assoc]
    rw [e] at hs hp
    rcases hs.flushes with h | ⟨B1, v, B2, h1, h2⟩
    · exact absurd ⟨_, _, rfl, h⟩ hp
    · exact Or.inl ⟨v, by rw [e1, h1]; exact List.mem_append_right _ (List.mem_cons_of_mem _ (List.mem_append_right _ List.mem_cons_self))⟩

/-- Removing the start of a call from what happens during another. -/
theorem During.remove {H A B : List Label} {c c' : Nat} {k k' : Call} {v : W} (d : During c k v H) (he : H = A ++ Label.start c' k' :: B) (hk : k' ≠ k) :
    During c k v (A ++ B) := by
  obtain ⟨mid, h1, h2⟩ := d
  rw [h1] at he
  cases A with
  | nil => injection he with he _; cases he; exact absurd rfl hk
  | cons a A =>
      injection he with he1 he2
      rcases append_split he2 with ⟨A', e1, e2⟩ | ⟨Q1, e1, e2⟩
      · refine ⟨A ++ A', by rw [e2, he1]; simp only [List.cons_append, List.append_assoc], fun l hl => h2 l ?_⟩
        rw [e1]
        rcases List.mem_append.1 hl with hl | hl
        · exact List.mem_append_left _ hl
        · exact List.mem_append_right _ (List.mem_cons_of_mem _ hl)
      · cases Q1 with
        | nil => injection e2 with e2 _; cases e2
        | cons q Q1 =>
            injection e2 with _ e2
            cases Q1 with
            | nil => cases e2
            | cons _ _ => cases e2

end Sanctum
