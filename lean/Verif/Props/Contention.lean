import Verif.Lemmas.Civil
import Verif.Props.Flush
/-
C77: calls report a taken lock only when there is one, in every interleaving.
-/
namespace Sanctum
open Machine

variable {g : Cfg}

theorem FoundSet.snoc {t t1 : List Label} {c x : Nat} (h : FoundSet t c x t1) {l : Label} (hl : ∀ k, l ≠ .start c k) : FoundSet (t ++ [l]) c x t1 := by
  obtain ⟨t2, a, v, rfl, h1, h2, h3⟩ := h
  refine ⟨t2 ++ [l], a, v, by rw [List.append_assoc]; rfl, h1, h2, fun k hk => ?_⟩
  rcases List.mem_append.1 hk with hk | hk
  · exact h3 k hk
  · exact hl k (List.mem_singleton.1 hk).symm

theorem Contended.snoc {t : List Label} {c : Nat} {k : Call} (h : Contended g t c k) {l : Label} (hl : ∀ k, l ≠ .start c k) : Contended g (t ++ [l]) c k := by
  cases h with
  | other i c' t1 h1 h2 h3 h4 => exact .other i c' t1 h1 (h2.snoc hl) h3 h4
  | twice i t1 h1 h2 h3 h4 => exact .twice i t1 h1 (h2.snoc hl) h3 h4
  | kept c' k' t1 h1 h2 h3 => exact .kept c' k' t1 (h1.snoc hl) h2 h3
  | enclave e t1 h1 h2 => exact .enclave e t1 h1 (h2.snoc hl)

/-- What the logic says of a configuration. -/
structure GoodV (g : Cfg) (t : List Label) (s : Conf) : Prop where
  civil : ∀ c k p b, s.cores c = .running k p → k.busyCode = some b →
    Contended g t c k ∨ p.Civil g c (AsksTwice g k) (fun x => ∃ e, TakesEnclaveLock e k ∧ x = e.toNat) b (holds g t c)
  ends : ∀ c k p, s.cores c = .running k p → ¬ NoLeak k → p.Ends g c KeepsZero (holds g t c)
  held : ∀ i, i < g.regions → s.m.mem (lockA g i) ≠ 0 → (∃ c, holds g t c i) ∨ (i = 0 ∧ ∃ c k, ¬ NoLeak k ∧ Label.done c k monitorOk ∈ t)

theorem GoodV.step (hw : g.WF) {t : List Label} {s s' : Conf} {l : Label} (hg : Good g t s) (h : GoodV g t s)
    (hcov : OnlyCalls (CoveredC g) (t ++ [l])) (hl : Step g s l s') : GoodV g (t ++ [l]) s' := by
  have hkept : ∀ {i : Nat}, (i = 0 ∧ ∃ c k, ¬ NoLeak k ∧ Label.done c k monitorOk ∈ t) → i = 0 ∧ ∃ c k, ¬ NoLeak k ∧ Label.done c k monitorOk ∈ t ++ [l] :=
    fun ⟨h1, c, k, h2, h3⟩ => ⟨h1, c, k, h2, List.mem_append_left _ h3⟩
  cases hl with
  | @start c' k' hlt hidle =>
      have hsame : ∀ c, holds g (t ++ [Label.start c' k']) c = holds g t c := fun c => by rw [holds_snoc]; rfl
      have hck := hcov c' k' (List.mem_append_right _ (List.mem_singleton.2 rfl))
      have hno : holds g t c' = noL := funext fun i => propext ⟨fun hh => hg.idle c' hidle i hh, False.elim⟩
      refine ⟨fun c k p b hc hb => ?_, fun c k p hc hn => ?_, fun i hi hne => ?_⟩
      · rw [hsame]
        have hc' : upd s.cores c' (.running k' (k'.prog g)) c = CoreState.running k p := hc
        by_cases hcc : c = c'
        · subst hcc
          rw [upd_same] at hc'
          obtain ⟨rfl, rfl⟩ := CoreState.running.inj hc'
          rw [hno]
          exact Or.inr (civil_call hw c k' hlt hck hb)
        · rw [upd_ne _ _ hcc] at hc'
          exact (h.civil c k p b hc' hb).imp (fun hh => hh.snoc fun k hk => hcc (by cases hk; rfl)) id
      · rw [hsame]
        have hc' : upd s.cores c' (.running k' (k'.prog g)) c = CoreState.running k p := hc
        by_cases hcc : c = c'
        · subst hcc
          rw [upd_same] at hc'
          obtain ⟨rfl, rfl⟩ := CoreState.running.inj hc'
          rw [hno]
          exact ends_keep hw hlt hn
        · rw [upd_ne _ _ hcc] at hc'
          exact h.ends c k p hc' hn
      · exact (h.held i hi hne).imp (fun ⟨c, hc⟩ => ⟨c, by rw [hsame]; exact hc⟩) hkept
  | @act c' k' o f v m' hrun hex =>
      obtain ⟨v2, m2, w1, w2, w3, w4⟩ := hg.act hrun
      rw [hex] at w1
      obtain ⟨rfl, rfl⟩ := Prod.mk.inj (Option.some.inj w1)
      have hresp := exec_respOk hg.inv (hg.held c') hex
      refine ⟨fun c k p b hc hb => ?_, fun c k p hc hn => ?_, fun i hi hne => ?_⟩
      · have hc' : upd s.cores c' (.running k' (f v)) c = CoreState.running k p := hc
        by_cases hcc : c = c'
        · subst hcc
          rw [upd_same] at hc'
          obtain ⟨rfl, rfl⟩ := CoreState.running.inj hc'
          rw [holds_snoc, heldLabel_act_self]
          rcases h.civil c k' _ b hrun hb with hh | ⟨hask, hrest⟩
          · exact Or.inl (hh.snoc fun k hk => by cases hk)
          · rcases hrest v hresp with ⟨a, rfl, hv, hx⟩ | hh
            · left
              have hset : FoundSet (t ++ [Label.act c (.tas a) v]) c a.toNat t := ⟨[], a, v, rfl, rfl, hv, fun k hk => by cases hk⟩
              rcases hx with ⟨i, hi, ha⟩ | ⟨e, he, ha⟩
              · have hne : s.m.mem (lockA g i) ≠ 0 := by
                  simp only [exec] at hex
                  split at hex
                  · cases hex
                    intro hz
                    rw [ha, hz] at hv
                    exact hv rfl
                  · cases hex
                rw [ha] at hset
                rcases h.held i hi hne with ⟨c', hc'⟩ | ⟨h0, c', k', hk1, hk2⟩
                · by_cases hcc : c' = c
                  · rw [hcc] at hc'
                    exact .twice i t hi hset ((hask a i rfl hi ha).resolve_left fun hh => hh hc') hc'
                  · exact .other i c' t hi hset hcc hc'
                · rw [h0] at hset
                  exact .kept c' k' t hset hk1 hk2
              · rw [ha] at hset
                exact .enclave e t he hset
            · exact Or.inr hh
        · rw [upd_ne _ _ hcc] at hc'
          rw [holds_snoc, heldLabel_act_other (Ne.symm hcc)]
          exact (h.civil c k p b hc' hb).imp (fun hh => hh.snoc fun k hk => by cases hk) id
      · have hc' : upd s.cores c' (.running k' (f v)) c = CoreState.running k p := hc
        by_cases hcc : c = c'
        · subst hcc
          rw [upd_same] at hc'
          obtain ⟨rfl, rfl⟩ := CoreState.running.inj hc'
          rw [holds_snoc, heldLabel_act_self]
          exact h.ends c k' _ hrun hn v hresp
        · rw [upd_ne _ _ hcc] at hc'
          rw [holds_snoc, heldLabel_act_other (Ne.symm hcc)]
          exact h.ends c k p hc' hn
      · rcases w3.lock i hi with hl | hl | hl
        · exact Or.inl ⟨c', by rw [holds_snoc, heldLabel_act_self]; exact hl.1⟩
        · exact absurd hl.2.2 hne
        · have hne' : s.m.mem (lockA g i) ≠ 0 := fun hz => hne (hl.2.2.trans hz)
          refine (h.held i hi hne').imp (fun ⟨c, hc⟩ => ⟨c, ?_⟩) hkept
          by_cases hcc : c = c'
          · rw [hcc] at hc; exact absurd hc hl.2.1
          · rw [holds_snoc, heldLabel_act_other (Ne.symm hcc)]; exact hc
  | @done c' k' v hrun =>
      obtain ⟨q1, q2, q3, m, q4, q5⟩ := hg.safe c' k' _ hrun
      refine ⟨fun c k p b hc hb => ?_, fun c k p hc hn => ?_, fun i hi hne => ?_⟩
      · have hc' : upd s.cores c' .idle c = CoreState.running k p := hc
        by_cases hcc : c = c'
        · subst hcc; rw [upd_same] at hc'; exact absurd hc' (by simp)
        · rw [upd_ne _ _ hcc] at hc'
          rw [holds_snoc, heldLabel_done_other (Ne.symm hcc)]
          exact (h.civil c k p b hc' hb).imp (fun hh => hh.snoc fun k hk => by cases hk) id
      · have hc' : upd s.cores c' .idle c = CoreState.running k p := hc
        by_cases hcc : c = c'
        · subst hcc; rw [upd_same] at hc'; exact absurd hc' (by simp)
        · rw [upd_ne _ _ hcc] at hc'
          rw [holds_snoc, heldLabel_done_other (Ne.symm hcc)]
          exact h.ends c k p hc' hn
      · rcases h.held i hi hne with ⟨c, hc⟩ | hh
        · by_cases hcc : c = c'
          · right
            rw [hcc] at hc
            rcases Classical.em (NoLeak k') with hn | hn
            · exact absurd hc (q5 hn i hi)
            · obtain ⟨h1, h2⟩ := h.ends c' k' _ hrun hn i hc
              subst h2
              exact ⟨h1, c', k', hn, List.mem_append_right _ (List.mem_singleton.2 rfl)⟩
          · exact Or.inl ⟨c, by rw [holds_snoc, heldLabel_done_other (Ne.symm hcc)]; exact hc⟩
        · exact Or.inr (hkept hh)
  | @soft m' hsoft =>
      have hsame : ∀ c, holds g (t ++ [Label.soft]) c = holds g t c := fun c => by rw [holds_snoc]; rfl
      refine ⟨fun c k p b hc hb => ?_, fun c k p hc hn => ?_, fun i hi hne => ?_⟩
      · rw [hsame]; exact (h.civil c k p b hc hb).imp (fun hh => hh.snoc fun k hk => by cases hk) id
      · rw [hsame]; exact h.ends c k p hc hn
      · obtain ⟨a, v, ha, rfl⟩ := hsoft
        have hlock : upd s.m.mem a v (lockA g i) = s.m.mem (lockA g i) := upd_ne _ _ (by have := lockA_lt hw hi; omega)
        have hne : upd s.m.mem a v (lockA g i) ≠ 0 := hne
        rw [hlock] at hne
        exact (h.held i hi hne).imp (fun ⟨c, hc⟩ => ⟨c, by rw [hsame]; exact hc⟩) hkept

theorem goodV_steps {s s' : Conf} {t : List Label} (h : Fresh g s) (hs : Steps g s t s') (hk : OnlyCalls (CoveredC g) t) : GoodV g t s' := by
  have hw := h.1.wf
  induction hs with
  | refl =>
      refine ⟨fun c k p b hc => (by rw [h.2 c] at hc; cases hc), fun c k p hc => (by rw [h.2 c] at hc; cases hc), fun i hi hne => ?_⟩
      exact Or.inl (h.good.noLeak (fun c k hk => by cases hk) i hi hne)
  | @tail s1 s2 t l hs hl ih => exact GoodV.step hw (good_steps h hs hk.prefix) (ih hk.prefix) hk hl

/-- C77: in every interleaving, a call that reports a taken lock found one: held by another core at that moment, or asked for twice
because of the call's arguments, or kept for good by a successful `create_thread` or `delete_thread`, or the lock word of the enclave
named in a thread call. -/
theorem C77_contention {s s' : Conf} {t : List Label} {c : Nat} {k : Call} {v : W} (h : Fresh g s)
    (hs : Steps g s (t ++ [.done c k v]) s') (hk : OnlyCalls (CoveredC g) (t ++ [.done c k v])) (hv : k.busyCode = some v) :
    Contended g t c k := by
  obtain ⟨s1, s2, h1, h2, h3⟩ := hs.cut rfl
  cases h2 with
  | done hrun =>
      rcases (goodV_steps h h1 hk.prefix).civil c k _ v hrun hv with hh | hh
      · exact hh
      · exact absurd rfl hh

/-- C77: at every instant of every interleaving, a region lock that is taken is held by a core in the middle of a call, or is the lock of
region 0, kept by a `create_thread` or `delete_thread` that succeeded before. -/
theorem C77_locks {s s' : Conf} {t : List Label} (h : Fresh g s) (hs : Steps g s t s') (hk : OnlyCalls (CoveredC g) t) {i : Nat}
    (hi : i < g.regions) (hl : s'.m.locked g i = true) :
    (∃ c k p, holds g t c i ∧ s'.cores c = .running k p) ∨ (i = 0 ∧ ∃ c k, ¬ NoLeak k ∧ Label.done c k monitorOk ∈ t) := by
  refine ((goodV_steps h hs hk).held i hi ?_).imp (fun ⟨c, hc⟩ => ?_) id
  · unfold Machine.locked at hl; simpa using hl
  · cases hcs : s'.cores c with
    | idle => exact absurd hc ((good_steps h hs hk).idle c hcs i)
    | running k p => exact ⟨c, k, p, hc, hcs⟩

/-- C77: a call that is made while all other cores are idle, and stay idle until it returns, does not report a taken lock - unless it asks
twice for the same lock, or a lock was kept, or it is a thread call (whose enclave's lock word is set). -/
theorem C77_alone {s s' : Conf} {t t' : List Label} {c : Nat} {k : Call} {v : W} (h : Fresh g s)
    (hs : Steps g s (t ++ .start c k :: t' ++ [.done c k v]) s') (hk : OnlyCalls (CoveredC g) (t ++ .start c k :: t' ++ [.done c k v]))
    (hleak : ∀ c' k', ¬ NoLeak k' → Label.done c' k' monitorOk ∉ t ++ .start c k :: t') (hthread : ∀ e, ¬ TakesEnclaveLock e k) (htwice : ¬ AsksTwice g k)
    (hidle : ∀ c', c' ≠ c → current t c' = none) (hstart : ∀ c' k', Label.start c' k' ∉ t') : k.busyCode ≠ some v := by
  intro hv
  have hset : ∀ {x : Nat} {t1 : List Label}, FoundSet (t ++ .start c k :: t') c x t1 → ∃ t2, t ++ .start c k :: t' = t1 ++ t2 ∧ ∃ t3, t1 = t ++ .start c k :: t3 := by
    rintro x t1 ⟨t2, a, v, ht, -, -, hno⟩
    refine ⟨_, ht, ?_⟩
    rcases List.append_eq_append_iff.1 ht with ⟨u, h1, h2⟩ | ⟨u, h1, h2⟩
    · cases u with
      | nil => simp at h2
      | cons x u =>
          rw [List.cons_append] at h2
          obtain ⟨rfl, h2⟩ := List.cons.inj h2
          exact ⟨u, h1⟩
    · cases u with
      | nil => simp at h2
      | cons x u =>
          rw [List.cons_append] at h2
          have h5 := (List.cons.inj h2).2
          exact absurd (by rw [h5]; simp) (hno k)
  cases C77_contention h hs hk hv with
  | other i c' t1 h1 h2 h3 h4 =>
      obtain ⟨t2, ht, t3, rfl⟩ := hset h2
      have hcut : ∃ s1, Steps g s (t ++ .start c k :: t3) s1 := by
        obtain ⟨u2, a, w, hu, -⟩ := h2
        obtain ⟨s1, -, q, -⟩ := hs.cut (t1 := t ++ .start c k :: t3) (l := .act c (.tas a) w) (t2 := u2 ++ [.done c k v]) (by rw [hu]; simp)
        exact ⟨s1, q⟩
      obtain ⟨s1, hs1⟩ := hcut
      have hcov1 : OnlyCalls (CoveredC g) (t ++ .start c k :: t3) := fun c k hm => hk c k (by rw [ht]; exact List.mem_append_left _ (List.mem_append_left _ hm))
      have hnone : current (t ++ .start c k :: t3) c' = none := by
        have hsub : ∀ c k, Label.start c k ∉ t3 := fun c'' k'' hm => by
          have : t' = t3 ++ t2 := by
            rw [List.append_assoc, List.append_cancel_left_eq, List.cons_append] at ht
            exact (List.cons.inj ht).2
          exact hstart c'' k'' (by rw [this]; exact List.mem_append_left _ hm)
        have hfold : ∀ (u : List Label), (∀ c k, Label.start c k ∉ u) → u.foldl (currentLabel c') none = none := by
          intro u
          induction u with
          | nil => intro _; rfl
          | cons x u ih =>
              intro hu
              have hx : currentLabel c' none x = none := by
                cases x with
                | start c'' k'' => exact absurd List.mem_cons_self (hu c'' k'')
                | act => rfl
                | done => simp only [currentLabel]; split <;> rfl
                | soft => rfl
              rw [List.foldl_cons, hx]
              exact ih fun c k hm => hu c k (List.mem_cons_of_mem _ hm)
        unfold current
        rw [List.foldl_append, List.foldl_cons]
        have := hidle c' h3
        unfold current at this
        rw [this, show currentLabel c' none (.start c k) = none from if_neg (Ne.symm h3)]
        exact hfold t3 hsub
      rcases current_steps h.2 hs1 c' with ⟨q, -⟩ | ⟨k', p, -, q⟩
      · exact (good_steps h hs1 hcov1).idle c' q i h4
      · rw [hnone] at q; cases q
  | twice i t1 h1 h2 h3 h4 => exact htwice h3
  | kept c' k' t1 h1 h2 h3 =>
      obtain ⟨t2, ht, -⟩ := hset h1
      exact hleak c' k' h2 (by rw [ht]; exact List.mem_append_left _ h3)
  | enclave e t1 h1 h2 => exact hthread e h1

/-! ### Concrete cases -/

/-- Two cores block region 1; the second is refused while the first holds the lock. -/
def refusedMoves : List Move := [.start 0 (.blockDramRegion 1), .start 1 (.blockDramRegion 1), .go 0, .go 1, .go 1]

/-- The hypotheses of `C77_contention` are met. -/
example : ∃ t s', Fresh toyG toyS ∧ Steps toyG toyS (t ++ [.done 1 (.blockDramRegion 1) monitorConcurrentCall]) s' ∧
    OnlyCalls (CoveredC toyG) (t ++ [.done 1 (.blockDramRegion 1) monitorConcurrentCall]) ∧
    (Call.blockDramRegion 1).busyCode = some monitorConcurrentCall ∧ (∀ k, current t 0 = some k → k = .blockDramRegion 1) := by
  have h : (play toyG refusedMoves toyS).map (fun x => decide (x.1 = x.1.dropLast ++ [.done 1 (.blockDramRegion 1) monitorConcurrentCall] ∧ current x.1.dropLast 0 = some (.blockDramRegion 1))) = some true := by
    set_option maxRecDepth 100000 in decide +kernel
  cases hp : play toyG refusedMoves toyS with
  | none => rw [hp] at h; cases h
  | some x =>
      rw [hp] at h
      simp only [Option.map_some, Option.some.injEq, decide_eq_true_eq] at h
      have hc : OnlyCalls (CoveredC toyG) x.1 := by
        refine play_onlyCalls refusedMoves (fun c k hk => ?_) hp
        simp only [refusedMoves, List.mem_cons, Move.start.injEq, reduceCtorEq, or_false, false_or, List.not_mem_nil] at hk
        rcases hk with ⟨_, rfl⟩ | ⟨_, rfl⟩
        all_goals exact ⟨trivial, fun _ _ _ _ hh => by cases hh⟩
      exact ⟨x.1.dropLast, x.2, toyS_fresh, by rw [← h.1]; exact play_steps _ hp, by rw [← h.1]; exact hc, rfl, fun k hk => by rw [h.2] at hk; cases hk; rfl⟩

/-- The hypotheses of `C77_alone` are met: a block made alone. -/
example : ∃ t' v s', Steps toyG toyS ([] ++ .start 0 (.blockDramRegion 1) :: t' ++ [.done 0 (.blockDramRegion 1) v]) s' ∧
    (∀ e, ¬ TakesEnclaveLock e (.blockDramRegion 1)) ∧ ¬ AsksTwice toyG (.blockDramRegion 1) ∧ (∀ c', c' ≠ 0 → current [] c' = none) ∧
    (∀ c' k', Label.start c' k' ∉ t') := by
  have h : (play toyG (.start 0 (.blockDramRegion 1) :: List.replicate 22 (.go 0)) toyS).map (fun x =>
      (decide (x.1 = [] ++ .start 0 (.blockDramRegion 1) :: x.1.tail.dropLast ++ [.done 0 (.blockDramRegion 1) monitorOk]),
        x.1.tail.dropLast.all fun l => match l with | .start _ _ => false | _ => true)) = some (true, true) := by
    set_option maxRecDepth 100000 in decide +kernel
  cases hp : play toyG (.start 0 (.blockDramRegion 1) :: List.replicate 22 (.go 0)) toyS with
  | none => rw [hp] at h; cases h
  | some x =>
      rw [hp] at h
      simp only [Option.map_some, Option.some.injEq, Prod.mk.injEq, decide_eq_true_eq] at h
      have hs := play_steps _ hp
      refine ⟨x.1.tail.dropLast, monitorOk, x.2, by rw [← h.1]; exact hs, fun _ hh => hh, fun hh => hh, fun _ _ => rfl, fun c' k' hm => ?_⟩
      have := List.all_eq_true.1 h.2 _ hm
      cases this

/-- A copy between an "enclave" with an ID in region 0 and a page of region 0 is refused although no other core does anything, each time it
is tried: it waits for itself. -/
def selfMoves : List Move := .start 0 (.copyDebugEnclavePage 0 0x1000 0x2000 true) :: List.replicate 4 (.go 0)

set_option maxRecDepth 100000 in
theorem C77_self : (play toyG (selfMoves ++ selfMoves) toyS).map (fun x => (results x.1, (x.2.cores 0).isIdle, x.2.m.locked toyG 0)) =
    some ([(0, monitorConcurrentCall), (0, monitorConcurrentCall)], true, false) ∧ AsksTwice toyG (.copyDebugEnclavePage 0 0x1000 0x2000 true) := by
  refine ⟨by decide +kernel, ?_⟩
  show idRegion toyG 0 = regionOf toyG (0x2000 : W).toNat
  decide +kernel

/-! ### Livelock -/

/-- A core blocks region 1 and is about to ask for the lock of region 0; another sets a DMA range in region 1, holds the lock of region 0
and is about to ask for that of region 1. -/
def liveMoves : List Move := [.start 0 (.blockDramRegion 1), .start 1 (.setDmaRange 0x8000 0xfff), .go 0, .go 1] ++ List.replicate 4 (.go 0) ++
  [.go 1, .go 0, .go 0, .go 1, .go 1]

/-- A label that changes nothing but the words at the addresses in `L`. -/
def touchesOnly (L : List Nat) : Label → Bool
  | .start _ _ | .done _ _ _ => true
  | .act _ (.load _) _ | .act _ .curCore _ => true
  | .act _ (.tas a) _ => L.contains a.toNat
  | .act _ (.store a _) _ => L.contains a.toNat
  | _ => false

theorem touchesOnly_steps {s s' : Conf} {t : List Label} {L : List Nat} (hs : Steps g s t s') (hl : t.all (touchesOnly L) = true) :
    s'.m = { s.m with mem := s'.m.mem } ∧ ∀ x, x ∉ L → s'.m.mem x = s.m.mem x := by
  induction hs with
  | refl => exact ⟨rfl, fun _ _ => rfl⟩
  | @tail s1 s2 t l hs h1 ih =>
      rw [List.all_append, Bool.and_eq_true] at hl
      obtain ⟨q1, q2⟩ := ih hl.1
      have hl2 : touchesOnly L l = true := by simpa using hl.2
      cases h1 with
      | start _ _ => exact ⟨q1, q2⟩
      | done _ => exact ⟨q1, q2⟩
      | soft _ => cases hl2
      | @act c k o f v m' hrun hex =>
          cases o <;> first | (cases hl2; done) | skip
          all_goals simp only [exec] at hex
          all_goals first | (split at hex <;> cases hex) | cases hex
          all_goals first | exact ⟨q1, q2⟩ | skip
          all_goals
            refine ⟨by show ({ s1.m with mem := _ } : Machine) = _; rw [q1], fun x hx => ?_⟩
            rw [← q2 x hx]
            refine upd_ne _ _ fun hh => hx ?_
            rw [hh]
            simpa [touchesOnly] using hl2

/-- C77: there is no guarantee of progress. After both calls have been refused by each other, everything is as before: cores that retry may
be refused for ever. -/
theorem C77_livelock (n : Nat) : ∃ t, Steps toyG toyS t toyS ∧ OnlyCalls (fun k => CoveredC toyG k ∧ NoLeak k ∧ ¬ AsksTwice toyG k) t ∧
    (results t).length = 2 * n ∧ ∀ x ∈ results t, x.2 = monitorConcurrentCall := by
  have h : (play toyG liveMoves toyS).map (fun x => (results x.1, x.1.all (touchesOnly [lockA toyG 0, lockA toyG 1]), x.2.m.mem (lockA toyG 0), x.2.m.mem (lockA toyG 1))) =
      some ([(0, monitorConcurrentCall), (1, monitorConcurrentCall)], true, toyM.mem (lockA toyG 0), toyM.mem (lockA toyG 1)) := by
    set_option maxRecDepth 100000 in decide +kernel
  have h' : (play toyG liveMoves toyS).map (fun x => ((x.2.cores 0).isIdle, (x.2.cores 1).isIdle, x.1.all fun l => match l with | .start c _ => decide (c < 2) | _ => true)) =
      some (true, true, true) := by
    set_option maxRecDepth 100000 in decide +kernel
  cases hp : play toyG liveMoves toyS with
  | none => rw [hp] at h; cases h
  | some x =>
      rw [hp] at h h'
      simp only [Option.map_some, Option.some.injEq, Prod.mk.injEq] at h h'
      obtain ⟨h1, h2, h3, h4⟩ := h
      obtain ⟨h5, h6, h7⟩ := h'
      have hs := play_steps _ hp
      have hcov : OnlyCalls (fun k => CoveredC toyG k ∧ NoLeak k ∧ ¬ AsksTwice toyG k) x.1 := by
        refine play_onlyCalls liveMoves (fun c k hk => ?_) hp
        simp only [liveMoves, List.replicate, List.cons_append, List.nil_append, List.mem_cons, Move.start.injEq, reduceCtorEq, or_false, false_or, List.not_mem_nil] at hk
        rcases hk with ⟨_, rfl⟩ | ⟨_, rfl⟩
        all_goals exact ⟨⟨trivial, fun _ _ _ _ hh => by cases hh⟩, trivial, fun hh => hh⟩
      have hidle : ∀ {y : CoreState}, y.isIdle = true → y = .idle := fun {y} hy => by cases y with
        | idle => rfl
        | running _ _ => cases hy
      have hend : x.2 = toyS := by
        obtain ⟨q1, q2⟩ := touchesOnly_steps hs h2
        have hmem : x.2.m.mem = toyM.mem := by
          funext y
          rcases Classical.em (y = lockA toyG 0) with rfl | hy0
          · exact h3
          rcases Classical.em (y = lockA toyG 1) with rfl | hy1
          · exact h4
          exact q2 y (by simp [hy0, hy1])
        have hm : x.2.m = toyM := by rw [q1, hmem]; rfl
        have hcores : x.2.cores = fun _ => .idle := by
          funext c
          rcases Classical.em (c = 0) with rfl | hc0
          · exact hidle h5
          rcases Classical.em (c = 1) with rfl | hc1
          · exact hidle h6
          refine idle_of_no_start (fun _ => rfl) hs fun k hk => ?_
          have := List.all_eq_true.1 h7 _ hk
          simp only [decide_eq_true_eq] at this
          omega
        show (⟨x.2.m, x.2.cores⟩ : Conf) = toyS
        rw [hm, hcores]
        rfl
      rw [hend] at hs
      induction n with
      | zero => exact ⟨[], .refl _, (fun c k hk => by cases hk), rfl, (fun x hx => by cases hx)⟩
      | succ n ih =>
          obtain ⟨t, i1, i2, i3, i4⟩ := ih
          refine ⟨t ++ x.1, i1.trans hs, fun c k hk => (List.mem_append.1 hk).elim (i2 c k) (hcov c k), ?_, ?_⟩
          · unfold results at h1 i3 ⊢
            rw [List.filterMap_append, List.length_append, i3, h1]
            show 2 * n + 2 = _
            omega
          · unfold results at h1 i4 ⊢
            rw [List.filterMap_append, h1]
            intro y hy
            rcases List.mem_append.1 hy with hy | hy
            · exact i4 y hy
            · simp only [List.mem_cons, List.not_mem_nil, or_false] at hy
              rcases hy with rfl | rfl <;> rfl

end Sanctum
