import Verif.Model.Tso
import Verif.Lemmas.Late
import Verif.Props.Race
/-
The machine with store buffers simulates no more than interleavings.
-/
namespace Sanctum
open Machine

variable {g : Cfg} {c : Nat}

/-! ### Locations -/

/-- The contents of a location. -/
def Machine.at (m : Machine) : Loc → W
  | .word x => m.mem x
  | .dmaStart => m.dmaStart
  | .dmaEnd => m.dmaEnd
  | .dmarBase => m.dmarBase
  | .dmarMask => m.dmarMask

/-- The registers of the cores. -/
def Machine.rest (m : Machine) : Machine := { m with mem := fun _ => 0, dmaStart := 0, dmaEnd := 0, dmarBase := 0, dmarMask := 0 }

theorem machine_ext {m m' : Machine} (h : ∀ l, m.at l = m'.at l) (hr : m.rest = m'.rest) : m = m' := by
  cases m; cases m'
  simp only [Machine.rest, Machine.mk.injEq] at hr
  have h0 := fun x => h (.word x)
  have h1 := h .dmaStart
  have h2 := h .dmaEnd
  have h3 := h .dmarBase
  have h4 := h .dmarMask
  simp only [Machine.at] at h0 h1 h2 h3 h4
  simp only [Machine.mk.injEq]
  exact ⟨funext h0, h1, h2, h3, h4, hr.2.2.2.2.2⟩

/-- An action does not change the locations it does not write. -/
theorem exec_at {o : Op} {m m1 : Machine} {v : W} (h : exec g c o m = some (v, m1)) {l : Loc} (hl : ¬ o.writes l) : m1.at l = m.at l := by
  cases o <;> simp only [exec, Option.ite_none_right_eq_some, Option.some.injEq, Prod.mk.injEq] at h <;> simp only [Op.writes] at hl <;>
    (first | obtain ⟨rfl, rfl⟩ := h | obtain ⟨_, rfl, rfl⟩ := h) <;> cases l <;> first | rfl | (exact absurd rfl hl) | (exact upd_ne _ _ fun hh => hl (by rw [hh]))

/-- An action on another machine that agrees on the locations it accesses. -/
theorem exec_local {o : Op} {m m1 M : Machine} {v : W} (h : exec g c o m = some (v, m1)) (ht : ∀ l, o.touches l → M.at l = m.at l) (hr : M.rest = m.rest) :
    ∃ M1, exec g c o M = some (v, M1) ∧ (∀ l, o.writes l → M1.at l = m1.at l) ∧ (∀ l, ¬ o.writes l → M1.at l = M.at l) ∧ M1.rest = m1.rest := by
  have key : ∀ M1, exec g c o M = some (v, M1) → (∀ l, o.writes l → M1.at l = m1.at l) → M1.rest = m1.rest → ∃ M1, exec g c o M = some (v, M1) ∧ (∀ l, o.writes l → M1.at l = m1.at l) ∧ (∀ l, ¬ o.writes l → M1.at l = M.at l) ∧ M1.rest = m1.rest :=
    fun M1 h1 h2 h3 => ⟨M1, h1, h2, fun l => exec_at h1, h3⟩
  simp only [Machine.rest, Machine.mk.injEq, true_and] at hr
  obtain ⟨e1, e2, e3, e4, e5, e6⟩ := hr
  cases o <;> simp only [exec, Option.ite_none_right_eq_some, Option.some.injEq, Prod.mk.injEq] at h <;>
    (first | obtain ⟨rfl, rfl⟩ := h | obtain ⟨k1, rfl, rfl⟩ := h) <;>
    simp only [Op.touches, Op.reads, Op.writes, or_self, false_or, or_false, forall_eq, Machine.at] at ht <;>
    refine key _ (by simp only [exec, *, if_true]; rfl) (fun l hl => ?_) (by simp only [Machine.rest, *]) <;>
    simp only [Op.writes] at hl <;> subst hl <;> simp only [Machine.at, upd_same, *]

/-- A store does not depend on other locations. -/
theorem exec_at_congr {o : Op} {m m1 M M1 : Machine} {v v' : W} (h : exec g c o m = some (v, m1)) (h' : exec g c o M = some (v', M1)) {l : Loc} (hl : M.at l = m.at l) :
    M1.at l = m1.at l := by
  by_cases hw : o.writes l
  · cases o <;> simp only [exec, Option.ite_none_right_eq_some, Option.some.injEq, Prod.mk.injEq] at h h' <;> simp only [Op.writes] at hw <;> subst hw <;>
      (first | obtain ⟨rfl, rfl⟩ := h | obtain ⟨_, rfl, rfl⟩ := h) <;> (first | obtain ⟨rfl, rfl⟩ := h' | obtain ⟨_, rfl, rfl⟩ := h') <;>
      simp only [Machine.at] at hl <;> simp only [Machine.at, upd_same, hl]
  · rw [exec_at h hw, exec_at h' hw, hl]

/-- Whether an action succeeds depends on its address only. -/
theorem exec_isSome (o : Op) (m m' : Machine) : (exec g c o m).isSome = (exec g c o m').isSome := by
  cases o <;> simp only [exec] <;> first | (split <;> simp only [Option.isSome]; done) | simp only [Option.isSome]

theorem perform_at {o : Op} {m : Machine} {l : Loc} (hl : ¬ o.writes l) : (perform g c m o).at l = m.at l := by
  unfold perform
  split
  · rename_i x hx; exact exec_at (show exec g c o m = some (x.1, x.2) from hx) hl
  · rfl

theorem perform_congr {o : Op} {m M : Machine} {l : Loc} (hl : M.at l = m.at l) : (perform g c M o).at l = (perform g c m o).at l := by
  have hs := exec_isSome (g := g) (c := c) o M m
  unfold perform
  cases h1 : exec g c o M with
  | none =>
      cases h2 : exec g c o m with
      | none => exact hl
      | some x => rw [h1, h2] at hs; cases hs
  | some y =>
      cases h2 : exec g c o m with
      | none => rw [h1, h2] at hs; cases hs
      | some x => exact exec_at_congr (show exec g c o m = some (x.1, x.2) from h2) (show exec g c o M = some (y.1, y.2) from h1) hl

theorem perform_rest {o : Op} {m : Machine} (ho : o.Delayed g) : (perform g c m o).rest = m.rest := by
  unfold perform
  cases o <;> simp only [Op.Delayed] at ho <;> simp only [exec] <;> first | rfl | (split <;> rename_i h <;> (first | (split at h <;> cases h; rfl) | rfl))

theorem fold_at {os : List Op} {l : Loc} (h : ∀ o ∈ os, ¬ o.writes l) : ∀ m : Machine, (os.foldl (perform g c) m).at l = m.at l := by
  induction os with
  | nil => intro m; rfl
  | cons o os ih =>
      intro m
      show (os.foldl (perform g c) (perform g c m o)).at l = _
      rw [ih (fun o' ho' => h o' (List.mem_cons_of_mem _ ho')), perform_at (h o List.mem_cons_self)]

theorem fold_congr {os : List Op} {l : Loc} : ∀ {m M : Machine}, M.at l = m.at l → (os.foldl (perform g c) M).at l = (os.foldl (perform g c) m).at l := by
  induction os with
  | nil => intro m M h; exact h
  | cons o os ih => intro m M h; exact ih (perform_congr h)

/-- A store that reaches memory before older stores to other locations. -/
theorem fold_out {os os' : List Op} {o : Op} (h : ∀ o' ∈ os, ∀ l, o.writes l → ¬ o'.writes l) (m : Machine) (l : Loc) :
    ((os ++ os').foldl (perform g c) (perform g c m o)).at l = ((os ++ o :: os').foldl (perform g c) m).at l := by
  rw [List.foldl_append, List.foldl_append]
  show _ = (os'.foldl (perform g c) (perform g c (os.foldl (perform g c) m) o)).at l
  refine fold_congr ?_
  by_cases hl : o.writes l
  · rw [fold_at (fun o' ho' => h o' ho' l hl)]
    exact perform_congr (fold_at (fun o' ho' => h o' ho' l hl) m).symm
  · rw [perform_at hl]
    exact fold_congr (perform_at hl)

theorem fold_rest {os : List Op} (h : ∀ o ∈ os, o.Delayed g) : ∀ m : Machine, (os.foldl (perform g c) m).rest = m.rest := by
  induction os with
  | nil => intro m; rfl
  | cons o os ih =>
      intro m
      show (os.foldl (perform g c) (perform g c m o)).rest = _
      rw [ih (fun o' ho' => h o' (List.mem_cons_of_mem _ ho')), perform_rest (h o List.mem_cons_self)]

/-! ### The invariant -/

/-- The locks in `H` protect the location. -/
def Held (g : Cfg) (H : Nat → Prop) (m : Machine) : Loc → Prop
  | .word x => (x < g.monitorTop.toNat ∧ ∃ i, Shields g i x ∧ H i) ∨ (g.monitorTop.toNat ≤ x ∧
      ((H (regionOf g x) ∧ m.owner g (regionOf g x) = metadataEnclaveId) ∨ (H 0 ∧ m.owner g (regionOf g x) = nullEnclaveId)))
  | _ => H 0

theorem held_excl (hw : g.WF) {t : List Label} {s : Conf} (hg : Good g t s) {c c' : Nat} {l : Loc} (h : Held g (holds g t c) s.m l)
    (h' : Held g (holds g t c') s.m l) : c = c' := by
  have h0 : 0 < g.regions := by have := hw.regions_ge; omega
  cases l with
  | word x =>
      rcases h with ⟨h1, i, h2, h3⟩ | ⟨h1, ⟨h2, h3⟩ | ⟨h2, h3⟩⟩ <;> rcases h' with ⟨k1, j, k2, k3⟩ | ⟨k1, ⟨k2, k3⟩ | ⟨k2, k3⟩⟩
      · obtain ⟨rfl, hi⟩ := shields_inj hw h2 k2
        exact hg.mutex c c' i hi h3 k3
      · omega
      · omega
      · omega
      · exact hg.mutex c c' _ (regionOf_lt hw _) h2 k2
      · rw [h3] at k3; exact absurd k3 (by decide)
      · omega
      · rw [h3] at k3; exact absurd k3 (by decide)
      · exact hg.mutex c c' 0 h0 h2 k2
  | _ => exact hg.mutex c c' 0 h0 h h'

theorem held_mono (hw : g.WF) {H H' : Nat → Prop} {m m' : Machine} {l : Loc} (hH : ∀ i, i < g.regions → H i → H' i)
    (hm : ∀ i, i < g.regions → (∃ x, l = .word x ∧ g.monitorTop.toNat ≤ x) → (H i → m'.owner g i = m.owner g i) ∧
      (H 0 → m.owner g i = nullEnclaveId → m'.owner g i = nullEnclaveId))
    (h : Held g H m l) : Held g H' m' l := by
  have h0 : 0 < g.regions := by have := hw.regions_ge; omega
  cases l with
  | word x =>
      rcases h with ⟨h1, i, h2, h3⟩ | ⟨h1, ⟨h2, h3⟩ | ⟨h2, h3⟩⟩
      · exact Or.inl ⟨h1, i, h2, hH i (shields_inj hw h2 h2).2 h3⟩
      · have hr := regionOf_lt hw x
        exact Or.inr ⟨h1, Or.inl ⟨hH _ hr h2, ((hm _ hr ⟨x, rfl, h1⟩).1 h2).trans h3⟩⟩
      · have hr := regionOf_lt hw x
        exact Or.inr ⟨h1, Or.inr ⟨hH _ h0 h2, (hm _ hr ⟨x, rfl, h1⟩).2 h2 h3⟩⟩
  | _ => exact hH 0 h0 h

/-- What a core is about to write is protected by its locks, unless it is atomic. -/
theorem next_held {s s' : Conf} {t : List Label} (h : Fresh g s) (hs : Steps g s t s') (hk : OnlyCalls (fun k => CoveredC g k ∧ Orderly k) t)
    {c : Nat} {o : Op} (hn : Next s' c o) {l : Loc} (hl : o.writes l) (ha : ¬ AtomicLoc g l) : Held g (holds g t c) s'.m l := by
  have hr := goodR_steps h hs hk
  obtain ⟨k, f, hrun⟩ := id hn
  have g1 := (hr.grd c k _ hrun).1
  cases l with
  | word x =>
      obtain ⟨w1, w2⟩ := Op.writes_mutates (g := g) hl
      by_cases hx : x < g.monitorTop.toNat
      · rcases g1.low x hx w2 with q | ⟨i, q1, q2⟩ | ⟨_, q⟩
        · exact absurd q ha
        · exact Or.inl ⟨hx, i, q1, q2⟩
        · exact absurd w1 q
      · have hx : g.monitorTop.toNat ≤ x := by omega
        exact Or.inr ⟨hx, high_access h hs hk hn hx w2⟩
  | _ => exact g1.dma (Op.touches_dma (fun x hh => by cases hh) (Or.inr hl))

/-- A core about to access a protected location is the one that holds the locks. -/
theorem next_touch {s s' : Conf} {t : List Label} (h : Fresh g s) (hs : Steps g s t s') (hk : OnlyCalls (fun k => CoveredC g k ∧ Orderly k) t)
    {c c' : Nat} {o : Op} (hn : Next s' c' o) {l : Loc} (hl : o.touches l) (ha : ¬ AtomicLoc g l) (hh : Held g (holds g t c) s'.m l) : c = c' := by
  have hw := h.1.wf
  have h0 : 0 < g.regions := by have := hw.regions_ge; omega
  have hr := goodR_steps h hs hk
  have hg := good_steps h hs (fun c k hm => (hk c k hm).1)
  obtain ⟨k, f, hrun⟩ := id hn
  have g1 := (hr.grd c' k _ hrun).1
  cases l with
  | word x =>
      have w2 := Op.touches_accesses (g := g) hl
      by_cases hx : x < g.monitorTop.toNat
      · rcases hh with ⟨_, i, q1, q2⟩ | ⟨q, _⟩
        · rcases g1.low x hx w2 with p | ⟨j, p1, p2⟩ | ⟨p, _⟩
          · exact absurd p ha
          · obtain ⟨rfl, hi⟩ := shields_inj hw q1 p1
            exact hg.mutex c c' i hi q2 p2
          · exact absurd q1 (p i)
        · omega
      · have hx : g.monitorTop.toNat ≤ x := by omega
        exact held_excl hw hg hh (Or.inr ⟨hx, high_access h hs hk hn hx w2⟩)
  | _ => exact hg.mutex c c' 0 h0 hh (g1.dma (Op.touches_dma (fun x hh => by cases hh) hl))

theorem delayed_atomic {o : Op} (h : o.Delayed g) {l : Loc} (hl : o.writes l) : ¬ AtomicLoc g l := by
  cases o <;> simp only [Op.Delayed] at h <;> simp only [Op.writes] at hl <;> subst hl
  · exact h
  · exact h
  all_goals (rintro (⟨i, hi, hh⟩ | hh | ⟨c, hc, hh⟩) <;> cases hh)

/-- The program makes no plain stores. -/
def Prog.Silent (g : Cfg) : Prog W → Prop
  | .ret _ => True
  | .op o f => ¬ o.Delayed g ∧ ∀ v, Prog.Silent g (f v)
  | .fault => True
  | .diverge => True

theorem silent_deleteThread (t : W) : (deleteThread g t).Silent g :=
  ⟨fun h => h, fun _ => ⟨fun h => h, fun _ => ⟨fun h => h, fun v => by
    show Prog.Silent g (if (v != 0) = true then _ else _)
    split <;> trivial⟩⟩⟩

/-- The interleaving `s` with trace `t` has done what the machine with store buffers has done, or will have done once the buffers are
empty. -/
structure GoodT (g : Cfg) (t : List Label) (τ : TConf) (s : Conf) : Prop where
  cores : s.cores = τ.cores
  sees : ∀ c l, (∀ c', c' ≠ c → ∀ o ∈ τ.bufs c', ¬ o.writes l) → s.m.at l = (τ.view g c).at l
  rest : s.m.rest = τ.m.rest
  ent : ∀ c, ∀ o ∈ τ.bufs c, o.Delayed g ∧ ∀ l, o.writes l → Held g (holds g t c) s.m l
  late : ∀ c k p, s.cores c = .running k p → p.Late g c (holds g t c)
  after : ∀ c k p, s.cores c = .running k p → (∃ o ∈ τ.bufs c, ∃ x, o.writes (.word x) ∧ g.monitorTop.toNat ≤ x) → p.NoOwner g c (holds g t c)
  idle : ∀ c, s.cores c = .idle → τ.bufs c = []
  del : ∀ c h p, s.cores c = .running (.deleteThread h) p → τ.bufs c = [] ∧ p.Silent g

theorem GoodT.start_ {s : Conf} (h : Fresh g s) : GoodT g [] s.settled s := by
  have hr : ∀ {c k p} {P : Prop}, s.cores c = .running k p → P := fun {c k p P} hh => by rw [h.2 c] at hh; cases hh
  exact ⟨rfl, fun c l _ => rfl, rfl, fun c o ho => (by cases ho), fun c k p hh => hr hh, fun c k p hh => hr hh, fun _ _ => rfl, fun c _ p hh => hr hh⟩

theorem view_upd_other {τ : TConf} {c c' : Nat} (h : c' ≠ c) {m : Machine} {cores : Nat → CoreState} {b : List Op} :
    TConf.view g ⟨m, cores, upd τ.bufs c b⟩ c' = TConf.view g ⟨m, cores, τ.bufs⟩ c' := by
  unfold TConf.view
  show ((upd τ.bufs c b) c').foldl _ _ = _
  rw [upd_ne _ _ h]

/-- A store reaches memory. -/
theorem GoodT.drain (hw : g.WF) {t : List Label} {τ τ' : TConf} {s : Conf} (hg : Good g t s) (h : GoodT g t τ s) (hl : TStep g τ none τ') : GoodT g t τ' s := by
  cases hl with
  | @drain c o os os' hb hout =>
      have hsub : ∀ c' o', o' ∈ upd τ.bufs c (os ++ os') c' → o' ∈ τ.bufs c' := by
        intro c' o' ho'
        by_cases hc : c' = c
        · subst hc
          rw [upd_same] at ho'
          rw [hb]
          rcases List.mem_append.1 ho' with q | q
          · exact List.mem_append_left _ q
          · exact List.mem_append_right _ (List.mem_cons_of_mem _ q)
        · rw [upd_ne _ _ hc] at ho'; exact ho'
      have hmem : o ∈ τ.bufs c := by rw [hb]; exact List.mem_append_right _ List.mem_cons_self
      have hview : ∀ l, (TConf.view g ⟨perform g c τ.m o, τ.cores, upd τ.bufs c (os ++ os')⟩ c).at l = (τ.view g c).at l := by
        intro l
        unfold TConf.view
        show ((upd τ.bufs c (os ++ os') c).foldl (perform g c) (perform g c τ.m o)).at l = ((τ.bufs c).foldl (perform g c) τ.m).at l
        rw [upd_same, hb]
        exact fold_out hout τ.m l
      refine ⟨h.cores, fun c' l hno => ?_, h.rest.trans (perform_rest (h.ent c o hmem).1).symm, fun c' o' ho' => h.ent c' o' (hsub c' o' ho'), h.late,
        fun c' k p hc ⟨o', ho', hh⟩ => h.after c' k p hc ⟨o', hsub c' o' ho', hh⟩, fun c' hc => ?_, fun c' _ p hc => ⟨?_, (h.del c' _ p hc).2⟩⟩
      · by_cases hwl : o.writes l
        · -- no other core writes `l`
          have hex : ∀ c'', c'' ≠ c → ∀ o' ∈ τ.bufs c'', ¬ o'.writes l := fun c'' hne o' ho' hw' =>
            hne (held_excl hw hg ((h.ent c'' o' ho').2 l hw') ((h.ent c o hmem).2 l hwl))
          rw [h.sees c l hex]
          by_cases hc : c' = c
          · subst hc; exact (hview l).symm
          · have e1 : (TConf.view g ⟨perform g c τ.m o, τ.cores, upd τ.bufs c (os ++ os')⟩ c').at l = (perform g c τ.m o).at l := by
              rw [view_upd_other hc]
              exact fold_at (hex c' hc) _
            rw [e1, ← hview l]
            unfold TConf.view
            refine fold_at (fun o' ho' => ?_) _
            exact hno c (Ne.symm hc) o' ho'
        · have hold : ∀ c'', c'' ≠ c' → ∀ o' ∈ τ.bufs c'', ¬ o'.writes l := by
            intro c'' hne o' ho'
            by_cases hc : c'' = c
            · subst hc
              rw [hb] at ho'
              rcases List.mem_append.1 ho' with q | q
              · exact hno c'' hne o' (by show o' ∈ upd τ.bufs c'' (os ++ os') c''; rw [upd_same]; exact List.mem_append_left _ q)
              · rcases List.mem_cons.1 q with rfl | q
                · exact hwl
                · exact hno c'' hne o' (by show o' ∈ upd τ.bufs c'' (os ++ os') c''; rw [upd_same]; exact List.mem_append_right _ q)
            · exact hno c'' hne o' (by show o' ∈ upd τ.bufs c (os ++ os') c''; rw [upd_ne _ _ hc]; exact ho')
          rw [h.sees c' l hold]
          by_cases hc : c' = c
          · subst hc; exact (hview l).symm
          · rw [view_upd_other hc]
            exact (fold_congr (perform_at hwl)).symm
      · have := h.idle c' hc
        cases he : upd τ.bufs c (os ++ os') c' with
        | nil => exact he
        | cons a b =>
            have := hsub c' a (by rw [he]; exact List.mem_cons_self)
            rw [h.idle c' hc] at this
            cases this
      · cases he : upd τ.bufs c (os ++ os') c' with
        | nil => exact he
        | cons a b =>
            have := hsub c' a (by rw [he]; exact List.mem_cons_self)
            rw [(h.del c' _ p hc).1] at this
            cases this

end Sanctum
