import Verif.Lemmas.Ordered
import Verif.Props.Contention
/-
C82: contention between calls that ask for locks in the same order is settled in someone's favour.
-/
namespace Sanctum
open Machine

variable {g : Cfg}

theorem FoundSet.of_snoc {u t1 : List Label} {c x : Nat} {l : Label} (h : FoundSet (u ++ [l]) c x t1) :
    (FoundSet u c x t1 ∧ ∀ k, l ≠ .start c k) ∨ (t1 = u ∧ ∃ a v, l = .act c (.tas a) v ∧ a.toNat = x ∧ v ≠ 0) := by
  obtain ⟨t2, a, v, h1, h2, h3, h4⟩ := h
  rcases List.eq_nil_or_concat t2 with rfl | ⟨t3, y, rfl⟩
  · obtain ⟨q1, q2⟩ := List.append_inj' h1 rfl
    exact Or.inr ⟨q1.symm, a, v, (List.cons.inj q2).1, h2, h3⟩
  · rw [List.concat_eq_append] at h1 h4
    rw [← List.cons_append, ← List.append_assoc] at h1
    obtain ⟨q1, q2⟩ := List.append_inj' h1 rfl
    have q3 := (List.cons.inj q2).1
    refine Or.inl ⟨⟨t3, a, v, q1, h2, h3, fun k hk => h4 k (List.mem_append_left _ hk)⟩, fun k hk => ?_⟩
    exact h4 k (List.mem_append_right _ (by rw [← q3, hk]; exact List.mem_singleton.2 rfl))

theorem GotThrough.snoc {u : List Label} (h : GotThrough g u) (l : Label) : GotThrough g (u ++ [l]) := by
  obtain ⟨u1, c, k, v, u2, h1, h2⟩ := h
  exact ⟨u1, c, k, v, u2 ++ [l], by rw [h1]; simp, h2⟩

/-- In its call, core `c` has found no region lock taken. -/
def Unrefused (g : Cfg) (u : List Label) (c : Nat) : Prop := ∀ i t1, i < g.regions → ¬ FoundSet u c (lockA g i) t1

theorem Unrefused.snoc {u : List Label} {c : Nat} (h : Unrefused g u c) {l : Label}
    (hl : ∀ a v i, l = .act c (.tas a) v → i < g.regions → a.toNat = lockA g i → v = 0) : Unrefused g (u ++ [l]) c := by
  intro i t1 hi hf
  rcases hf.of_snoc with hf | ⟨-, a, v, q1, q2, q3⟩
  · exact h i t1 hi hf.1
  · exact q3 (hl a v i q1 hi q2)

/-- The core has found no lock taken, and asks for further locks in order or for none. -/
def Ahead (g : Cfg) (T u : List Label) (c : Nat) (k : Call) (p : Prog W) : Prop :=
  Unrefused g u c ∧ (p.Desc g c k.busyCode (holds g T c) ∨ p.NoTas g c fun w => k.busyCode ≠ some w)

/-- The core has found the lock of region `i` taken, asks for no more locks, and holds locks of larger regions only. -/
def Behind (g : Cfg) (T u : List Label) (c : Nat) (p : Prog W) (i : Nat) : Prop :=
  i < g.regions ∧ (∃ t1, FoundSet u c (lockA g i) t1) ∧ (p.NoTas g c fun _ => True) ∧ ∀ j, holds g T c j → i < j

/-- A call that was not refused has returned, or one is ahead that holds a lock up to `i` or will ask for none. -/
def Hope (g : Cfg) (T u : List Label) (s : Conf) (i : Nat) : Prop :=
  GotThrough g u ∨ ∃ c k p, s.cores c = .running k p ∧ Unrefused g u c ∧
    ((p.Desc g c k.busyCode (holds g T c) ∧ ∃ j, j ≤ i ∧ holds g T c j) ∨ p.NoTas g c fun w => k.busyCode ≠ some w)

theorem Hope.mono {T u : List Label} {s : Conf} {i i' : Nat} (h : Hope g T u s i) (hi : i ≤ i') : Hope g T u s i' :=
  h.imp id fun ⟨c, k, p, h1, h2, h3⟩ => ⟨c, k, p, h1, h2, h3.imp (fun ⟨q1, j, q2, q3⟩ => ⟨q1, j, Nat.le_trans q2 hi, q3⟩) id⟩

/-- Someone found the lock of region `i` taken. -/
def SawTaken (g : Cfg) (u : List Label) (i : Nat) : Prop := ∃ c a v, Label.act c (.tas a) v ∈ u ∧ a.toNat = lockA g i ∧ v ≠ 0

theorem SawTaken.of_snoc {u : List Label} {i : Nat} {l : Label} (h : SawTaken g (u ++ [l]) i) :
    SawTaken g u i ∨ ∃ c a v, l = .act c (.tas a) v ∧ a.toNat = lockA g i ∧ v ≠ 0 := by
  obtain ⟨c, a, v, h1, h2⟩ := h
  rcases List.mem_append.1 h1 with h1 | h1
  · exact Or.inl ⟨c, a, v, h1, h2⟩
  · exact Or.inr ⟨c, a, v, (List.mem_singleton.1 h1).symm, h2⟩

theorem SawTaken.snoc {u : List Label} {i : Nat} (h : SawTaken g u i) (l : Label) : SawTaken g (u ++ [l]) i :=
  let ⟨c, a, v, h1, h2⟩ := h
  ⟨c, a, v, List.mem_append_left _ h1, h2⟩

theorem FoundSet.saw {u t1 : List Label} {c i : Nat} (h : FoundSet u c (lockA g i) t1) : SawTaken g u i := by
  obtain ⟨t2, a, v, rfl, h1, h2, -⟩ := h
  exact ⟨c, a, v, by simp, h1, h2⟩

/-- What holds in a window `u` after the trace `t`, in which all calls ask downward. -/
structure Settling (g : Cfg) (t u : List Label) (s : Conf) : Prop where
  cores : ∀ c k p, s.cores c = .running k p → Ahead g (t ++ u) u c k p ∨ ∃ i, Behind g (t ++ u) u c p i
  hope : ∀ i, i < g.regions → SawTaken g u i → Hope g (t ++ u) u s i
  busy : (∃ c k, Label.start c k ∈ u) → (∃ c k p, s.cores c = .running k p) ∨ GotThrough g u ∨ ∃ i, i < g.regions ∧ SawTaken g u i

theorem Settling.start (hw : g.WF) {t u : List Label} {s : Conf} {c' : Nat} {k' : Call} (h : Settling g t u s) (hlt : c' < g.cores)
    (hidle : s.cores c' = .idle) (hno : holds g (t ++ u) c' = noL) (hck : CoveredC g k') (hd : AsksDownward g k') :
    Settling g t (u ++ [.start c' k']) { s with cores := upd s.cores c' (.running k' (k'.prog g)) } := by
  have hsame : ∀ c, holds g (t ++ (u ++ [Label.start c' k'])) c = holds g (t ++ u) c := fun c => by rw [← List.append_assoc, holds_snoc]; rfl
  have hun : ∀ {c : Nat}, Unrefused g u c → Unrefused g (u ++ [Label.start c' k']) c := fun hh => hh.snoc fun _ _ _ q => by cases q
  refine ⟨fun c k p hc => ?_, fun i hi hsaw => ?_, fun _ => Or.inl ⟨c', k', _, upd_same _ _ _⟩⟩
  · have hc' : upd s.cores c' (.running k' (k'.prog g)) c = CoreState.running k p := hc
    by_cases hcc : c = c'
    · subst hcc
      rw [upd_same] at hc'
      obtain ⟨rfl, rfl⟩ := CoreState.running.inj hc'
      left
      refine ⟨fun i t1 _ hf => ?_, Or.inl (by rw [hsame, hno]; exact desc_call hw c k' hlt hck hd)⟩
      rcases hf.of_snoc with hf | ⟨-, a, v, q, -⟩
      · exact hf.2 k' rfl
      · cases q
    · rw [upd_ne _ _ hcc] at hc'
      rcases h.cores c k p hc' with ⟨q1, q2⟩ | ⟨i, q1, ⟨t1, q2⟩, q3, q4⟩
      · exact Or.inl ⟨hun q1, by rw [hsame]; exact q2⟩
      · exact Or.inr ⟨i, q1, ⟨t1, q2.snoc fun k hk => hcc (by cases hk; rfl)⟩, q3, by rw [hsame]; exact q4⟩
  · have hsaw : SawTaken g u i := hsaw.of_snoc.resolve_right fun ⟨_, _, _, q, _⟩ => by cases q
    refine (h.hope i hi hsaw).imp (fun hh => hh.snoc _) fun ⟨c, k, p, q1, q2, q3⟩ => ⟨c, k, p, ?_, hun q2, by rw [hsame]; exact q3⟩
    show upd s.cores c' _ c = _
    rw [upd_ne _ _ fun hcc => by rw [hcc, hidle] at q1; cases q1]
    exact q1

theorem Settling.soft {t u : List Label} {s : Conf} (h : Settling g t u s) (m' : Machine) : Settling g t (u ++ [.soft]) { s with m := m' } := by
  have hsame : ∀ c, holds g (t ++ (u ++ [Label.soft])) c = holds g (t ++ u) c := fun c => by rw [← List.append_assoc, holds_snoc]; rfl
  have hun : ∀ {c : Nat}, Unrefused g u c → Unrefused g (u ++ [Label.soft]) c := fun hh => hh.snoc fun _ _ _ q => by cases q
  refine ⟨fun c k p hc => ?_, fun i hi hsaw => ?_, fun ⟨c, k, hm⟩ => ?_⟩
  · rcases h.cores c k p hc with ⟨q1, q2⟩ | ⟨i, q1, ⟨t1, q2⟩, q3, q4⟩
    · exact Or.inl ⟨hun q1, by rw [hsame]; exact q2⟩
    · exact Or.inr ⟨i, q1, ⟨t1, q2.snoc fun k hk => by cases hk⟩, q3, by rw [hsame]; exact q4⟩
  · have hsaw : SawTaken g u i := hsaw.of_snoc.resolve_right fun ⟨_, _, _, q, _⟩ => by cases q
    exact (h.hope i hi hsaw).imp (fun hh => hh.snoc _) fun ⟨c, k, p, q1, q2, q3⟩ => ⟨c, k, p, q1, hun q2, by rw [hsame]; exact q3⟩
  · have hm : Label.start c k ∈ u := (List.mem_append.1 hm).elim id fun q => by cases List.mem_singleton.1 q
    exact (h.busy ⟨c, k, hm⟩).imp id fun q => q.imp (fun q => q.snoc _) fun ⟨i, q1, q2⟩ => ⟨i, q1, q2.snoc _⟩

theorem Settling.done {t u : List Label} {s : Conf} {c' : Nat} {k' : Call} {v : W} (h : Settling g t u s) (hrun : s.cores c' = .running k' (.ret v)) :
    Settling g t (u ++ [.done c' k' v]) { s with cores := upd s.cores c' .idle } := by
  have hsame : ∀ c, c' ≠ c → holds g (t ++ (u ++ [Label.done c' k' v])) c = holds g (t ++ u) c := fun c hc => by
    rw [← List.append_assoc, holds_snoc, heldLabel_done_other hc]
  have hun : ∀ {c : Nat}, Unrefused g u c → Unrefused g (u ++ [Label.done c' k' v]) c := fun hh => hh.snoc fun _ _ _ q => by cases q
  have hret : Unrefused g u c' → GotThrough g (u ++ [Label.done c' k' v]) := fun hh => by
    rcases h.cores c' k' _ hrun with ⟨q1, q2⟩ | ⟨i, q1, ⟨t1, q2⟩, -⟩
    · exact ⟨u, c', k', v, [], rfl, q2.elim id id, q1⟩
    · exact absurd q2 (hh i t1 q1)
  refine ⟨fun c k p hc => ?_, fun i hi hsaw => ?_, fun _ => ?_⟩
  · have hc' : upd s.cores c' .idle c = CoreState.running k p := hc
    by_cases hcc : c = c'
    · subst hcc; rw [upd_same] at hc'; cases hc'
    · rw [upd_ne _ _ hcc] at hc'
      rcases h.cores c k p hc' with ⟨q1, q2⟩ | ⟨i, q1, ⟨t1, q2⟩, q3, q4⟩
      · exact Or.inl ⟨hun q1, by rw [hsame c (Ne.symm hcc)]; exact q2⟩
      · exact Or.inr ⟨i, q1, ⟨t1, q2.snoc fun k hk => by cases hk⟩, q3, by rw [hsame c (Ne.symm hcc)]; exact q4⟩
  · have hsaw : SawTaken g u i := hsaw.of_snoc.resolve_right fun ⟨_, _, _, q, _⟩ => by cases q
    rcases h.hope i hi hsaw with hh | ⟨c, k, p, q1, q2, q3⟩
    · exact Or.inl (hh.snoc _)
    · by_cases hcc : c = c'
      · subst hcc; exact Or.inl (hret q2)
      · refine Or.inr ⟨c, k, p, ?_, hun q2, by rw [hsame c (Ne.symm hcc)]; exact q3⟩
        show upd s.cores c' _ c = _
        rw [upd_ne _ _ hcc]; exact q1
  · right
    rcases h.cores c' k' _ hrun with ⟨q1, -⟩ | ⟨i, q1, ⟨t1, q2⟩, -⟩
    · exact Or.inl (hret q1)
    · exact Or.inr ⟨i, q1, q2.saw.snoc _⟩

/-- An action that asks for no region lock leaves the held locks or gives some up. -/
theorem heldStep_sub {o : Op} {v : W} {H : Nat → Prop} (hno : ∀ a i, o = .tas a → i < g.regions → a.toNat ≠ lockA g i) {j : Nat} (hj : heldStep g o v H j) : H j := by
  cases o <;> first | exact hj | skip
  case tas a => exact hj.elim id fun hh => absurd hh.2.2 (hno a j rfl hh.1)
  case store a w => exact hj.1

theorem Settling.act {t u : List Label} {s : Conf} {c' : Nat} {k' : Call} {o : Op} {f : W → Prog W} {v : W} {m' : Machine} (h : Settling g t u s)
    (hrun : s.cores c' = .running k' (.op o f)) (hresp : RespOk g c' (holds g (t ++ u) c') o v) (hidle : ∀ c, s.cores c = .idle → ∀ i, ¬ holds g (t ++ u) c i)
    (hheld : ∀ a i, o = .tas a → i < g.regions → a.toNat = lockA g i → v ≠ 0 → ∃ c, holds g (t ++ u) c i) :
    Settling g t (u ++ [.act c' o v]) { m := m', cores := upd s.cores c' (.running k' (f v)) } := by
  have hself : holds g (t ++ (u ++ [Label.act c' o v])) c' = heldStep g o v (holds g (t ++ u) c') := by
    rw [← List.append_assoc, holds_snoc, heldLabel_act_self]
  have hsame : ∀ c, c' ≠ c → holds g (t ++ (u ++ [Label.act c' o v])) c = holds g (t ++ u) c := fun c hc => by
    rw [← List.append_assoc, holds_snoc, heldLabel_act_other hc]
  have hun : ∀ {c : Nat}, c' ≠ c → Unrefused g u c → Unrefused g (u ++ [Label.act c' o v]) c := fun hc hh => hh.snoc fun _ _ _ q => by
    cases q; exact absurd rfl hc
  have hresp0 : RespOk g c' (fun _ => False) o v := hresp.mono fun _ hh => hh.elim
  -- other cores
  have hother : ∀ {c k p}, c' ≠ c → s.cores c = .running k p → Ahead g (t ++ (u ++ [Label.act c' o v])) (u ++ [Label.act c' o v]) c k p ∨
      ∃ i, Behind g (t ++ (u ++ [Label.act c' o v])) (u ++ [Label.act c' o v]) c p i := by
    intro c k p hcc hc
    rcases h.cores c k p hc with ⟨q1, q2⟩ | ⟨i, q1, ⟨t1, q2⟩, q3, q4⟩
    · exact Or.inl ⟨hun hcc q1, by rw [hsame c hcc]; exact q2⟩
    · exact Or.inr ⟨i, q1, ⟨t1, q2.snoc fun k hk => by cases hk⟩, q3, by rw [hsame c hcc]; exact q4⟩
  have hbusy : (∃ c k, Label.start c k ∈ u ++ [Label.act c' o v]) →
      (∃ c k p, upd s.cores c' (.running k' (f v)) c = .running k p) ∨ GotThrough g (u ++ [Label.act c' o v]) ∨
        ∃ i, i < g.regions ∧ SawTaken g (u ++ [Label.act c' o v]) i := fun _ => Or.inl ⟨c', k', _, upd_same _ _ _⟩
  have hcores : (Ahead g (t ++ (u ++ [Label.act c' o v])) (u ++ [Label.act c' o v]) c' k' (f v) ∨
      ∃ i, Behind g (t ++ (u ++ [Label.act c' o v])) (u ++ [Label.act c' o v]) c' (f v) i) →
      ∀ c k p, upd s.cores c' (.running k' (f v)) c = .running k p → Ahead g (t ++ (u ++ [Label.act c' o v])) (u ++ [Label.act c' o v]) c k p ∨
        ∃ i, Behind g (t ++ (u ++ [Label.act c' o v])) (u ++ [Label.act c' o v]) c p i := by
    intro hh c k p hc
    by_cases hcc : c' = c
    · subst hcc
      rw [upd_same] at hc
      obtain ⟨rfl, rfl⟩ := CoreState.running.inj hc
      exact hh
    · rw [upd_ne _ _ (Ne.symm hcc)] at hc
      exact hother hcc hc
  -- a hope that does not rest on this core remains
  have hkeep : ∀ {i : Nat}, Hope g (t ++ u) u s i →
      (∀ p : Prog W, p = .op o f → Unrefused g u c' → (p.Desc g c' k'.busyCode (holds g (t ++ u) c') ∧ ∃ j, j ≤ i ∧ holds g (t ++ u) c' j) ∨ (p.NoTas g c' fun w => k'.busyCode ≠ some w) →
        Hope g (t ++ (u ++ [Label.act c' o v])) (u ++ [Label.act c' o v]) { m := m', cores := upd s.cores c' (.running k' (f v)) } i) →
      Hope g (t ++ (u ++ [Label.act c' o v])) (u ++ [Label.act c' o v]) { m := m', cores := upd s.cores c' (.running k' (f v)) } i := by
    intro i hh hc'
    rcases hh with hh | ⟨c, k, p, q1, q2, q3⟩
    · exact Or.inl (hh.snoc _)
    · by_cases hcc : c' = c
      · subst hcc
        rw [hrun] at q1
        obtain ⟨rfl, rfl⟩ := CoreState.running.inj q1
        exact hc' _ rfl q2 q3
      · refine Or.inr ⟨c, k, p, ?_, hun hcc q2, by rw [hsame c hcc]; exact q3⟩
        show upd s.cores c' _ c = _
        rw [upd_ne _ _ (Ne.symm hcc)]; exact q1
  rcases h.cores c' k' _ hrun with ⟨hu, hd⟩ | ⟨i, hi, ⟨t1, hf⟩, hn, hj⟩
  · rcases hd with hd | hn
    · obtain ⟨hdown, hrest⟩ := hd
      rcases hrest v hresp with ⟨a, i, rfl, hi, ha, hv, hn⟩ | ⟨hnt, hn⟩ | ⟨hsub, hz, hd'⟩
      · -- refused
        have hst : heldStep g (.tas a) v (holds g (t ++ u) c') = holds g (t ++ u) c' := by
          funext j
          exact propext ⟨fun q => q.elim id fun q => absurd q.2.1 hv, Or.inl⟩
        have hdn : ∀ j, holds g (t ++ u) c' j → i < j := hdown a i rfl hi ha
        refine ⟨hcores (Or.inr ⟨i, hi, ⟨u, [], a, v, rfl, ha, hv, fun k hk => by cases hk⟩, hn, by rw [hself, hst]; exact hdn⟩), fun i0 hi0 hsaw => ?_, hbusy⟩
        have hnew : Hope g (t ++ (u ++ [Label.act c' (.tas a) v])) (u ++ [Label.act c' (.tas a) v]) { m := m', cores := upd s.cores c' (.running k' (f v)) } i := by
          obtain ⟨c2, hc2⟩ := hheld a i rfl hi ha hv
          have hcc : c' ≠ c2 := fun hh => by rw [← hh] at hc2; exact Nat.lt_irrefl _ (hdn i hc2)
          cases hs2 : s.cores c2 with
          | idle => exact absurd hc2 (hidle c2 hs2 i)
          | running k2 p2 =>
              rcases h.cores c2 k2 p2 hs2 with ⟨q1, q2⟩ | ⟨i2, q1, ⟨t2, q2⟩, q3, q4⟩
              · refine Or.inr ⟨c2, k2, p2, ?_, hun hcc q1, ?_⟩
                · show upd s.cores c' _ c2 = _
                  rw [upd_ne _ _ (Ne.symm hcc)]; exact hs2
                · rw [hsame c2 hcc]
                  exact q2.imp (fun q => ⟨q, i, Nat.le_refl _, hc2⟩) id
              · have hlt := q4 i hc2
                refine Hope.mono (i := i2) ?_ (Nat.le_of_lt hlt)
                refine hkeep (h.hope i2 q1 q2.saw) fun p hp _ hcase => ?_
                subst hp
                rcases hcase with ⟨-, j, hj1, hj2⟩ | hnt
                · have := hdn j hj2
                  omega
                · exact absurd ha (hnt.1 a i rfl hi)
        rcases hsaw.of_snoc with hsaw | ⟨c3, a3, v3, q1, q2, q3⟩
        · refine hkeep (h.hope i0 hi0 hsaw) fun p hp _ hcase => ?_
          subst hp
          rcases hcase with ⟨-, j, hj1, hj2⟩ | hnt
          · exact hnew.mono (Nat.le_trans (Nat.le_of_lt (hdn j hj2)) hj1)
          · exact absurd ha (hnt.1 a i rfl hi)
        · obtain ⟨rfl, rfl, rfl⟩ : c' = c3 ∧ a = a3 ∧ v = v3 := by cases q1; exact ⟨rfl, rfl, rfl⟩
          rw [lockA_inj.1 (q2.symm.trans ha)]
          exact hnew
      · -- released
        have hu' : Unrefused g (u ++ [Label.act c' o v]) c' := hu.snoc fun a _ _ q => by cases q; exact absurd rfl (hnt a)
        refine ⟨hcores (Or.inl ⟨hu', Or.inr hn⟩), fun i0 hi0 hsaw => ?_, hbusy⟩
        have hsaw : SawTaken g u i0 := hsaw.of_snoc.resolve_right fun ⟨_, a, _, q, _⟩ => by cases q; exact hnt a rfl
        exact hkeep (h.hope i0 hi0 hsaw) fun p hp _ _ => Or.inr ⟨c', k', f v, upd_same _ _ _, hu', Or.inr hn⟩
      · -- goes on
        have hu' : Unrefused g (u ++ [Label.act c' o v]) c' := hu.snoc fun a _ i q => by cases q; exact hz a i rfl
        rw [← hself] at hd' hsub
        refine ⟨hcores (Or.inl ⟨hu', Or.inl hd'⟩), fun i0 hi0 hsaw => ?_, hbusy⟩
        have hsaw : SawTaken g u i0 := hsaw.of_snoc.resolve_right fun ⟨_, a, _, q, q2, q3⟩ => by cases q; exact q3 (hz a i0 rfl hi0 q2)
        refine hkeep (h.hope i0 hi0 hsaw) fun p hp _ hcase => Or.inr ⟨c', k', f v, upd_same _ _ _, hu', ?_⟩
        subst hp
        rcases hcase with ⟨-, j, hj1, hj2⟩ | hnt
        · exact Or.inl ⟨hd', j, hj1, hsub j hj2⟩
        · exact Or.inr (hnt.2 v hresp0)
    · have hu' : Unrefused g (u ++ [Label.act c' o v]) c' := hu.snoc fun a _ i q q1 q2 => by cases q; exact absurd q2 (hn.1 a i rfl q1)
      have hn' := hn.2 v hresp0
      refine ⟨hcores (Or.inl ⟨hu', Or.inr hn'⟩), fun i0 hi0 hsaw => ?_, hbusy⟩
      have hsaw : SawTaken g u i0 := hsaw.of_snoc.resolve_right fun ⟨_, a, _, q, q2, q3⟩ => by cases q; exact hn.1 a i0 rfl hi0 q2
      exact hkeep (h.hope i0 hi0 hsaw) fun p hp _ _ => Or.inr ⟨c', k', f v, upd_same _ _ _, hu', Or.inr hn'⟩
  · refine ⟨hcores (Or.inr ⟨i, hi, ⟨t1, hf.snoc fun k hk => by cases hk⟩, hn.2 v hresp0, fun j hh => ?_⟩), fun i0 hi0 hsaw => ?_, hbusy⟩
    · rw [hself] at hh
      exact hj j (heldStep_sub hn.1 hh)
    · have hsaw : SawTaken g u i0 := hsaw.of_snoc.resolve_right fun ⟨_, a, _, q, q2, q3⟩ => by cases q; exact hn.1 a i0 rfl hi0 q2
      exact hkeep (h.hope i0 hi0 hsaw) fun p hp hh _ => absurd hf (hh i t1 hi)

/-- Calls that ask downward release their locks. -/
theorem AsksDownward.noLeak {k : Call} (h : AsksDownward g k) : NoLeak k := by cases k <;> first | exact h.elim | trivial

theorem settling_steps {s s1 s' : Conf} {t u : List Label} (h : Fresh g s) (hs : Steps g s t s1) (ht : OnlyCalls (fun k => CoveredC g k ∧ NoLeak k) t)
    (hidle : ∀ c, s1.cores c = .idle) (hu : Steps g s1 u s') (hd : OnlyCalls (fun k => CoveredC g k ∧ AsksDownward g k) u) : Settling g t u s' := by
  have hw := h.1.wf
  induction hu with
  | refl => exact ⟨fun c k p hc => (by rw [hidle c] at hc; cases hc), fun i _ ⟨_, _, _, q, _⟩ => (by cases q), fun ⟨_, _, q⟩ => (by cases q)⟩
  | @tail s2 s3 u l hu1 hl ih =>
      have ih := ih hd.prefix
      have hall : OnlyCalls (fun k => CoveredC g k ∧ NoLeak k) (t ++ u) := fun c k hk => (List.mem_append.1 hk).elim (ht c k) fun hk =>
        ⟨(hd.prefix c k hk).1, (hd.prefix c k hk).2.noLeak⟩
      have hs2 := hs.trans hu1
      have hcov : OnlyCalls (CoveredC g) (t ++ u) := fun c k hk => (hall c k hk).1
      have hg := good_steps h hs2 hcov
      cases hl with
      | @start c' k' hlt hi =>
          have hno : holds g (t ++ u) c' = noL := funext fun i => propext ⟨fun hh => hg.idle c' hi i hh, False.elim⟩
          obtain ⟨q1, q2⟩ := hd c' k' (List.mem_append_right _ (List.mem_singleton.2 rfl))
          exact ih.start hw hlt hi hno q1 q2
      | @act c' k' o f v m' hrun hex =>
          refine ih.act hrun (exec_respOk hg.inv (hg.held c') hex) hg.idle fun a i ho hi ha hv => ?_
          subst ho
          refine hg.noLeak (fun c k hk => (hall c k hk).2) i hi fun hz => ?_
          simp only [exec] at hex
          split at hex
          · cases hex
            rw [ha, hz] at hv
            exact hv rfl
          · cases hex
      | @done c' k' v hrun => exact ih.done hrun
      | @soft m' hsoft => exact ih.soft m'

/-- C82 in full: in every burst of overlapping calls that starts and ends with all cores idle, some call finds every region lock it asks for
free, and does not report a taken lock. -/
def C82_statement : Prop := ∀ (g : Cfg) (s s1 s' : Conf) (t u : List Label), Fresh g s → Steps g s t s1 →
  OnlyCalls (fun k => CoveredC g k ∧ NoLeak k ∧ ¬ AsksTwice g k) (t ++ u) → (∀ c, s1.cores c = .idle) → Steps g s1 u s' →
  (∃ c k, Label.start c k ∈ u) → (∀ c, s'.cores c = .idle) → GotThrough g u

/-- C82: in every burst of overlapping calls that ask for region locks in descending order, which starts and ends with all cores idle, some
call finds every region lock it asks for free, and does not report a taken lock. Missing: calls that ask in the opposite order
(`set_dma_range` of a range outside region 0, assignments to IDs in larger regions, debug copies to larger regions), for which the claim is false
(`C82_statement_false`), and thread calls. -/
theorem C82_someone_gets_through_partial {s s1 s' : Conf} {t u : List Label} (h : Fresh g s) (hs : Steps g s t s1)
    (ht : OnlyCalls (fun k => CoveredC g k ∧ NoLeak k) t) (hidle : ∀ c, s1.cores c = .idle) (hu : Steps g s1 u s')
    (hd : OnlyCalls (fun k => CoveredC g k ∧ AsksDownward g k) u) (hne : ∃ c k, Label.start c k ∈ u) (hend : ∀ c, s'.cores c = .idle) :
    GotThrough g u := by
  have hh := settling_steps h hs ht hidle hu hd
  rcases hh.busy hne with ⟨c, k, p, q⟩ | q | ⟨i, hi, q⟩
  · rw [hend c] at q; cases q
  · exact q
  · rcases hh.hope i hi q with q | ⟨c, k, p, q, -⟩
    · exact q
    · rw [hend c] at q; cases q


/-! ### Concrete cases -/

/-- The mutual refusal of `C77_livelock` is a burst in which no call gets through. -/
theorem C82_statement_false : ¬ C82_statement := by
  intro H
  have h : (play toyG liveMoves toyS).map (fun x => (x.1.all (fun l => match l with | .done _ k v => decide (k.busyCode = some v) | _ => true),
      x.1.head? == some (Label.start 0 (.blockDramRegion 1)))) = some (true, true) := by
    set_option maxRecDepth 100000 in decide +kernel
  have h' : (play toyG liveMoves toyS).map (fun x => ((x.2.cores 0).isIdle, (x.2.cores 1).isIdle, x.1.all fun l => match l with | .start c _ => decide (c < 2) | _ => true)) =
      some (true, true, true) := by
    set_option maxRecDepth 100000 in decide +kernel
  cases hp : play toyG liveMoves toyS with
  | none => rw [hp] at h; cases h
  | some x =>
      rw [hp] at h h'
      simp only [Option.map_some, Option.some.injEq, Prod.mk.injEq] at h h'
      obtain ⟨h1, h2⟩ := h
      obtain ⟨h5, h6, h7⟩ := h'
      have hs := play_steps _ hp
      have hcov : OnlyCalls (fun k => CoveredC toyG k ∧ NoLeak k ∧ ¬ AsksTwice toyG k) x.1 := by
        refine play_onlyCalls liveMoves (fun c k hk => ?_) hp
        simp only [liveMoves, List.replicate, List.cons_append, List.nil_append, List.mem_cons, Move.start.injEq, reduceCtorEq, or_false, false_or, List.not_mem_nil] at hk
        rcases hk with ⟨_, rfl⟩ | ⟨_, rfl⟩
        all_goals exact ⟨⟨trivial, fun _ _ _ _ hh => by cases hh⟩, trivial, fun hh => hh⟩
      have hidle : ∀ {y : CoreState}, y.isIdle = true → y = .idle := fun {y} hy => by cases y with
        | idle => rfl
        | running _ _ => cases hy
      have hend : ∀ c, x.2.cores c = .idle := fun c => by
        rcases Classical.em (c = 0) with rfl | hc0
        · exact hidle h5
        rcases Classical.em (c = 1) with rfl | hc1
        · exact hidle h6
        refine idle_of_no_start (fun _ => rfl) hs fun k hk => ?_
        have := List.all_eq_true.1 h7 _ hk
        simp only [decide_eq_true_eq] at this
        omega
      have hstart : Label.start 0 (.blockDramRegion 1) ∈ x.1 := List.mem_of_mem_head? (by simpa using h2)
      obtain ⟨u1, c, k, v, u2, q1, q2, -⟩ := H toyG toyS toyS x.2 [] x.1 toyS_fresh (.refl _) hcov (fun _ => rfl) hs ⟨_, _, hstart⟩ hend
      have := List.all_eq_true.1 h1 (.done c k v) (by rw [q1]; simp)
      exact q2 (by simpa using this)

/-- Two cores block regions 1 and 2; the second is refused the lock of region 0, and the first gets through. -/
def settledMoves : List Move := [.start 0 (.blockDramRegion 1), .start 1 (.blockDramRegion 2)] ++ List.replicate 4 (.go 1) ++ List.replicate 5 (.go 0) ++
  [.go 1, .go 1, .go 1] ++ List.replicate 17 (.go 0)

/-- The hypotheses of `C82_someone_gets_through_partial` are met, by a burst with a refusal. -/
example : ∃ u s', Fresh toyG toyS ∧ Steps toyG toyS u s' ∧ OnlyCalls (fun k => CoveredC toyG k ∧ AsksDownward toyG k) u ∧
    Label.start 1 (.blockDramRegion 2) ∈ u ∧ (∀ c, s'.cores c = .idle) ∧ results u = [(1, monitorConcurrentCall), (0, monitorOk)] := by
  have h : (play toyG settledMoves toyS).map (fun x => (results x.1, decide (Label.start 1 (.blockDramRegion 2) ∈ x.1))) =
      some ([(1, monitorConcurrentCall), (0, monitorOk)], true) := by
    set_option maxRecDepth 100000 in decide +kernel
  have h' : (play toyG settledMoves toyS).map (fun x => ((x.2.cores 0).isIdle, (x.2.cores 1).isIdle, x.1.all fun l => match l with | .start c _ => decide (c < 2) | _ => true)) =
      some (true, true, true) := by
    set_option maxRecDepth 100000 in decide +kernel
  cases hp : play toyG settledMoves toyS with
  | none => rw [hp] at h; cases h
  | some x =>
      rw [hp] at h h'
      simp only [Option.map_some, Option.some.injEq, Prod.mk.injEq, decide_eq_true_eq] at h h'
      obtain ⟨h5, h6, h7⟩ := h'
      have hs := play_steps _ hp
      have hcov : OnlyCalls (fun k => CoveredC toyG k ∧ AsksDownward toyG k) x.1 := by
        refine play_onlyCalls settledMoves (fun c k hk => ?_) hp
        simp only [settledMoves, List.replicate, List.cons_append, List.nil_append, List.mem_cons, Move.start.injEq, reduceCtorEq, or_false, false_or, List.not_mem_nil] at hk
        rcases hk with ⟨_, rfl⟩ | ⟨_, rfl⟩
        all_goals exact ⟨⟨trivial, fun _ _ _ _ hh => by cases hh⟩, trivial⟩
      have hidle : ∀ {y : CoreState}, y.isIdle = true → y = .idle := fun {y} hy => by cases y with
        | idle => rfl
        | running _ _ => cases hy
      refine ⟨x.1, x.2, toyS_fresh, hs, hcov, h.2, fun c => ?_, h.1⟩
      rcases Classical.em (c = 0) with rfl | hc0
      · exact hidle h5
      rcases Classical.em (c = 1) with rfl | hc1
      · exact hidle h6
      refine idle_of_no_start (fun _ => rfl) hs fun k hk => ?_
      have := List.all_eq_true.1 h7 _ hk
      simp only [decide_eq_true_eq] at this
      omega

end Sanctum
