import Verif.Props.Erase
import Verif.Props.CodesSys
import Verif.Props.Twin
import Verif.Spec.Again
/-
C95: making the same call again.
-/
namespace Sanctum
open Machine

variable {g : Cfg}

theorem Repeatable.sober {k : Call} (h : Repeatable g k) : Sober g k := by
  cases k with
  | copyDebugEnclavePage e a o d => exact absurd h id
  | flushCachedDramRegions => exact absurd h id
  | _ => exact h

theorem Sober.traceless {k : Call} (h : Sober g k) : Traceless g k := by
  cases k with
  | copyDebugEnclavePage e a o d => exact Or.inr h.2
  | _ => exact h

theorem again_refused {k : Call} {v : W} (hv : v ≠ monitorOk) : k.again v = v := by
  cases k <;> first | rfl | exact if_neg hv

theorem again_question {k : Call} (hk : k.isQuery = true) (v : W) : k.again v = v := by
  cases k <;> first | rfl | cases hk

theorem again_twice (k : Call) (v : W) : k.again (k.again v) = k.again v := by
  by_cases hv : v = monitorOk
  · subst hv
    cases k <;> first | rfl | (show ite _ _ _ = _; rfl) | decide
  · rw [again_refused hv, again_refused hv]

/-- A call that goes through the ID check never succeeds. -/
theorem withLocked_not_ok (hw : g.WF) {c : Nat} {e : W} {k : W → Prog W} {m m' : Machine} (hi : Inv g m)
    (hr : run g c (withLockedEnclave g e k) m = some (monitorOk, m')) : False := by
  obtain ⟨v, q1, q2⟩ := step_withLocked hw c e k hi
  rw [q1] at hr
  injection hr with hr; injection hr with hr
  exact q2 hr

/-- The calls that succeed and leave nothing to be done: the range of the DMA window is set again, an exit is an exit. -/
theorem ok_cases (hw : g.WF) {m m' : Machine} {c : Nat} {k : Call} (hi : Inv g m) (hk : Repeatable g k) (hq : k.isQuery ≠ true)
    (hr : call g c k m = some (monitorOk, m')) :
    (∃ b n, k = .setDmaRange b n) ∨ k = .exitEnclave ∨ (∃ r, k = .blockDramRegion r) ∨ (∃ r e, k = .assignDramRegion r e) ∨
      (∃ r, k = .freeDramRegion r) ∨ (∃ r, k = .createMetadataRegion r) ∨ (∃ e b n x d, k = .createEnclave e b n x d) ∨
      (∃ t p, k = .createThread t p) ∨ ∃ t, k = .deleteThread t := by
  cases k with
  | setDmaRange b n => exact Or.inl ⟨b, n, rfl⟩
  | exitEnclave => exact Or.inr (Or.inl rfl)
  | blockDramRegion r => exact Or.inr (Or.inr (Or.inl ⟨r, rfl⟩))
  | assignDramRegion r e => exact Or.inr (Or.inr (Or.inr (Or.inl ⟨r, e, rfl⟩)))
  | freeDramRegion r => exact Or.inr (Or.inr (Or.inr (Or.inr (Or.inl ⟨r, rfl⟩))))
  | createMetadataRegion r => exact Or.inr (Or.inr (Or.inr (Or.inr (Or.inr (Or.inl ⟨r, rfl⟩)))))
  | createEnclave e b n x d => exact Or.inr (Or.inr (Or.inr (Or.inr (Or.inr (Or.inr (Or.inl ⟨e, b, n, x, d, rfl⟩))))))
  | createThread t p => exact Or.inr (Or.inr (Or.inr (Or.inr (Or.inr (Or.inr (Or.inr (Or.inl ⟨t, p, rfl⟩)))))))
  | deleteThread t => exact Or.inr (Or.inr (Or.inr (Or.inr (Or.inr (Or.inr (Or.inr (Or.inr ⟨t, rfl⟩)))))))
  | loadPageTable e p v l a =>
      obtain ⟨x, q1, q2⟩ := run_loadPageTable hw c e p v l a hi.locks (fun hv => absurd hv (hi.not_valid hw e))
      have q1 : call g c (.loadPageTable e p v l a) m = _ := q1
      rw [q1] at hr
      injection hr with hr; injection hr with hr
      exact absurd (q2.1 hr).2.2.1.1 (hi.not_valid hw e)
  | loadPage e p v o a =>
      obtain ⟨x, q1, q2⟩ := run_loadPage hw c e p v o a hi.locks (fun hv => absurd hv (hi.not_valid hw e))
      have q1 : call g c (.loadPage e p v o a) m = _ := q1
      rw [q1] at hr
      injection hr with hr; injection hr with hr
      exact absurd (q2.1 hr).2.2.1.1 (hi.not_valid hw e)
  | loadThread e t a b p q =>
      obtain ⟨x, y, q1, q2, -⟩ := run_loadThread ⟨hw, hk.1, hk.2⟩ c e t a b p q hi.locks hi.region0
      have q1 : call g c (.loadThread e t a b p q) m = _ := q1
      rw [q1] at hr
      injection hr with hr; injection hr with hr
      exact absurd hr q2
  | assignThread e t =>
      obtain ⟨x, y, q1, q2, -⟩ := run_assignThread ⟨hw, hk.1, hk.2⟩ c e t hi.locks hi.region0
      have q1 : call g c (.assignThread e t) m = _ := q1
      rw [q1] at hr
      injection hr with hr; injection hr with hr
      exact absurd hr q2
  | initEnclave e =>
      have hr : run g c (initEnclave g e) m = _ := hr
      unfold initEnclave at hr
      exact (withLocked_not_ok hw hi hr).elim
  | enterEnclave e t =>
      have hr : run g c (enterEnclave g e t) m = _ := hr
      unfold enterEnclave at hr
      exact (withLocked_not_ok hw hi hr).elim
  | deleteEnclave e =>
      have hr : run g c (deleteEnclave g e) m = _ := hr
      unfold deleteEnclave at hr
      exact (withLocked_not_ok hw hi hr).elim
  | acceptThread t i => exact absurd hk id
  | copyDebugEnclavePage e a o d => exact absurd hk id
  | flushCachedDramRegions => exact absurd hk id
  | _ => exact absurd rfl hq

/-- A call on the result of itself, where it succeeded and so is refused now. -/
theorem again_of_code (hw : g.WF) {m' : Machine} {c : Nat} {k : Call} {w : W} (hi' : Inv g m') (ha' : Akin g m' m') (hc : c < g.coreCount.toNat)
    (hk : Traceless g k) (hw' : w ≠ monitorOk) (hr : ∃ m'', call g c k m' = some (w, m'')) : call g c k m' = some (w, m') := by
  obtain ⟨m'', hr⟩ := hr
  have := not_matters_noop hw hc hi' ha' hk (by simp [Item.matters, hw']) hr
  rw [this] at hr
  exact hr

/-- The same call again, on the same core, right away. -/
theorem again_now (hw : g.WF) {m m' : Machine} {c : Nat} {k : Call} {v : W} (hi : Inv g m) (ha : Akin g m m) (hc : c < g.coreCount.toNat)
    (hk : Repeatable g k) (hr : call g c k m = some (v, m')) : call g c k m' = some (k.again v, m') := by
  have hkt := hk.sober.traceless
  obtain ⟨hi', ha'⟩ := traceless_step hw hi ha hc hkt hr
  have hwf := hw
  by_cases hm : (Item.call ⟨c, k, v⟩).matters = false
  · have e := not_matters_noop hw hc hi ha hkt hm hr
    have : k.again v = v := by
      unfold Item.matters at hm
      by_cases hq : k.isQuery = true
      · exact again_question hq v
      · exact again_refused (fun hv => by simp [hq, hv] at hm)
    rw [this]
    rw [e] at hr ⊢; exact hr
  · unfold Item.matters at hm
    simp only [Bool.not_eq_false, Bool.and_eq_true, Bool.not_eq_true', beq_iff_eq] at hm
    obtain ⟨hq, hv⟩ := hm
    subst hv
    have hs := hi.stateOk hw hc
    have hs' := hi'.stateOk hw hc
    rcases ok_cases hw hi hk (by rw [hq]; decide) hr with ⟨b, n, rfl⟩ | rfl | ⟨r, rfl⟩ | ⟨r, e, rfl⟩ | ⟨r, rfl⟩ | ⟨r, rfl⟩ | ⟨e, b, n, x, d, rfl⟩ | ⟨t, p, rfl⟩ | ⟨t, rfl⟩
    · have h1 : call g c (.setDmaRange b n) m = _ := run_setDma hw c b n hi.locks
      rw [hr] at h1
      injection h1 with h1
      split at h1
      · rename_i hok
        injection h1 with _ h1
        subst h1
        have h2 : call g c (.setDmaRange b n) (m.dmaSet b n) = _ := run_setDma hw c b n hi'.locks
        rw [if_pos (by exact hok)] at h2
        exact h2
      · injection h1 with h1 _
        unfold dmaError at h1
        split at h1 <;> exact absurd h1 (by decide)
    · have h1 : call g c .exitEnclave m = _ := run_exitEnclave hw hc m
      rw [hr] at h1
      injection h1 with h1; injection h1 with _ h1
      rw [h1]
      rw [h1] at hr
      exact hr
    · obtain ⟨v, n, q1, q2, q3, -⟩ := C15_block_exact hw hc r hs.locks hs.caller hs.dma
      rw [hr] at q1
      injection q1 with q1; injection q1 with q1 q1'
      subst q1 q1'
      have hok := q2.1 rfl
      have he := q3 rfl
      refine again_of_code hw hi' ha' hc hkt (show monitorAccessDenied ≠ monitorOk by decide) ?_
      obtain ⟨m'', h1⟩ := C61_block hw hc r hs'.locks hs'.caller hs'.dma
      refine ⟨m'', ?_⟩
      rw [h1]
      have hlk : m'.locked g r.toNat = false := by
        rw [← hok.2.2.1]
        unfold Machine.locked
        rw [he.mem _ (by
          rw [hi.os c hc]
          simp [lockA_ne_clockA hw hok.2.1, lockA_ne_osWordA hw hok.2.1, bmWordA, nullEnclaveId])]
      unfold blockCode
      rw [if_neg (by have := hok.1; have := hok.2.1; omega), if_neg (by rw [hlk]; exact Bool.false_ne_true), if_pos]
      · rfl
      · rw [he.blocked, hi'.os c hc]; decide
    · obtain ⟨v, n, q1, q2, q3, -⟩ := C16_assign_exact hw c r e hs.locks (fun hh => by rw [hi.noId hw hh]; exact recordOk_zero)
      rw [hr] at q1
      injection q1 with q1; injection q1 with q1 q1'
      subst q1 q1'
      have hok := q2.1 rfl
      have he := q3 rfl
      refine again_of_code hw hi' ha' hc hkt (show monitorInvalidState ≠ monitorOk by decide) ?_
      obtain ⟨m'', h1⟩ := C61_assign hw c r e hs'.locks (fun hh => by rw [hi'.noId hw hh]; exact recordOk_zero)
      refine ⟨m'', ?_⟩
      rw [h1]
      have he0 : e = 0 := hi.noId hw hok.2.2.2.2.2
      subst he0
      have hlk : m'.locked g r.toNat = false := by
        rw [← hok.2.1]
        unfold Machine.locked
        rw [he.mem _ (by simp [lockA_ne_osWordA hw hok.1, bmWordA])]
      unfold assignCode
      rw [if_neg (by have := hok.1; omega), if_neg (by rw [hlk]; exact Bool.false_ne_true), if_pos]
      · rfl
      · rw [he.owned]; decide
    · obtain ⟨v, n, q1, q2, q3, -⟩ := C17_free_exact hw c r hs.locks
      rw [hr] at q1
      injection q1 with q1; injection q1 with q1 q1'
      subst q1 q1'
      have hok := q2.1 rfl
      have he := q3 rfl
      refine again_of_code hw hi' ha' hc hkt (show monitorInvalidState ≠ monitorOk by decide) ?_
      obtain ⟨m'', h1⟩ := C61_free hw c r hs'.locks
      refine ⟨m'', ?_⟩
      rw [h1]
      have hlk : m'.locked g r.toNat = false := by
        rw [← hok.2.1]
        unfold Machine.locked
        rw [he.mem _ (by simp)]
      unfold freeCode
      rw [if_neg (by have := hok.1; omega), if_neg (by rw [hlk]; exact Bool.false_ne_true), if_neg]
      · rfl
      · rw [he.free]
        rintro (hh | hh) <;> exact absurd hh.1 (by decide)
    · have h0 : m.owner g 0 ≠ freeEnclaveId := by rw [hi.region0]; decide
      obtain ⟨v, n, q1, q2, q3, -⟩ := C18_create_metadata_exact hw c r hs.locks h0
      rw [hr] at q1
      injection q1 with q1; injection q1 with q1 q1'
      subst q1 q1'
      have hok := q2.1 rfl
      have he := q3 rfl
      refine again_of_code hw hi' ha' hc hkt (show monitorInvalidState ≠ monitorOk by decide) ?_
      obtain ⟨m'', h1⟩ := C61_create_metadata hw c r hs'.locks (by rw [hi'.region0]; decide)
      refine ⟨m'', ?_⟩
      rw [h1]
      have hr0 : r.toNat ≠ 0 := by intro hh; rw [hh] at hok; exact h0 hok.2.2
      have hlk : m'.locked g r.toNat = false := by
        rw [← hok.2.1]
        unfold Machine.locked
        have h3 := region_start_ge g hr0
        have h4 := hw.top_le
        have h5 := lockA_lt hw hok.1
        rw [he.mem _ (by rintro (hh | hh | hh); · simp at hh
                         · simp at hh
                         · omega)]
      unfold metadataCode
      rw [if_neg (by have := hok.1; omega), if_neg (by rw [hlk]; exact Bool.false_ne_true), if_pos]
      · rfl
      · rw [he.metadata]; decide
    · have hM : g.MetaOk := ⟨hw, hk.1, hk.2.1⟩
      have hpg := hk.2.2.1
      have hrp : 1 ≤ recordPages g x.toNat := by rw [exactPages_eq hk.2.2.2]; exact exactPages_pos g x.toNat
      rcases Classical.em (CreateOk g m e b n x) with hok | hok
      · obtain ⟨mem', q1, q2, q3, q4⟩ := (run_createEnclave hM c e b n x d hi.locks hi.region0).1 hok
        have q1 : call g c (.createEnclave e b n x d) m = _ := q1
        rw [hr] at q1
        injection q1 with q1; injection q1 with _ q1
        have htop : ∀ y, y < g.monitorTop.toNat → m'.mem y = m.mem y := by
          intro y hy
          rw [q1]
          refine q4 y (fun hs => ?_)
          have := create_above hM hi.region0 hok hs
          omega
        refine again_of_code hw hi' ha' hc hkt (show monitorInvalidState ≠ monitorOk by decide) ?_
        obtain ⟨m'', h1⟩ := C62_create_enclave hw hk.1 hk.2.1 c e b n x d hi'.locks hi'.region0
        refine ⟨m'', ?_⟩
        rw [h1]
        obtain ⟨o1, ⟨o2, o3, o4, o5⟩, o6, o7⟩ := hok
        have hrl := regionOf_lt hw e.toNat
        have hpage : MetaPage g m' e.toNat := by
          refine ⟨o2, o3, ?_, ?_⟩
          · rw [← o4]; unfold Machine.locked; rw [htop _ (by have := lockA_lt hw hrl; omega)]
          · rw [← o5]; exact htop _ (by have := ownerA_lt hw hrl; omega)
        unfold createCode
        rw [if_neg (not_not_intro o1), metaCode_page hpage, if_neg (by omega), if_pos]
        · rfl
        · refine ⟨0, by omega, ?_⟩
          rw [q1]
          show mem' (entryA g e.toNat + 8 * 0) ≠ 0
          by_cases hp : recordPages g x.toNat ≤ 1
          · rw [Nat.mul_zero, Nat.add_zero, (q3 hpg).1 hp]
            intro hz
            have := congrArg (fun w : W => w.getLsbD 1) hz
            simp only [BitVec.getLsbD_or] at this
            rw [show (enclavePageType).getLsbD 1 = true from rfl, Bool.or_true] at this
            exact absurd this (by decide)
          · rw [(q3 hpg).2 0 (by omega)]; decide
      · obtain ⟨v, q1, q2⟩ := (run_createEnclave hM c e b n x d hi.locks hi.region0).2 hok
        have q1 : call g c (.createEnclave e b n x d) m = _ := q1
        rw [hr] at q1
        injection q1 with q1; injection q1 with q1 _
        exact absurd q1.symm q2
    · refine again_of_code hw hi' ha' hc hkt (show monitorConcurrentCall ≠ monitorOk by decide) ?_
      rcases run_createThread hw hc t p hs.locks hs.caller with ⟨x, q1, q2⟩ | ⟨q1, q2, q3, -⟩
      · have q1 : call g c (.createThread t p) m = _ := q1
        rw [hr] at q1
        injection q1 with q1; injection q1 with q1 _
        exact absurd q1.symm q2
      · have q1 : call g c (.createThread t p) m = _ := q1
        rw [hr] at q1
        injection q1 with q1; injection q1 with _ q1
        refine ⟨if createThreadCode g c m' p = monitorOk then m'.st (lockA g (regionOf g (m'.running c).toNat)) 1 else m', ?_⟩
        · have h2 : call g c (.createThread t p) m' = _ := run_createThread_code hw hc t p hs'.locks hs'.caller
          rw [h2]
          have hcode : createThreadCode g c m' p = monitorConcurrentCall := by
            unfold createThreadCode
            rw [if_neg (not_not_intro q2), if_pos]
            rw [hi'.os c hc, q1, hi.os c hc]
            simp [Machine.locked, mem_st]
          rw [hcode]
          rfl
    · refine again_of_code hw hi' ha' hc hkt (show monitorConcurrentCall ≠ monitorOk by decide) ?_
      have h1 : call g c (.deleteThread t) m = _ := run_deleteThread hw hc t hs.locks
      rw [hr] at h1
      injection h1 with h1; injection h1 with _ h1
      have h2 : call g c (.deleteThread t) m' = _ := run_deleteThread hw hc t hs'.locks
      refine ⟨m'.st (lockA g (regionOf g (m'.running c).toNat)) 1, ?_⟩
      rw [h2, if_pos]
      · rfl
      · rw [hi'.os c hc, h1, hi.os c hc]
        simp [Machine.locked, mem_st]

/-- What a repetition leaves alone on one core, it leaves alone on all. -/
theorem settled_cores (hw : g.WF) {m : Machine} {c : Nat} {k : Call} {w : W} (hi : Inv g m) (ha : Akin g m m) (hc : c < g.coreCount.toNat)
    (hk : Repeatable g k) (hr : call g c k m = some (w, m)) {c' : Nat} (hc' : c' < g.coreCount.toNat) : call g c' k m = some (w, m) := by
  have hkt := hk.sober.traceless
  have h1 := C89_any_core hw hc hc' m k (by rintro rfl; exact hk) (by rw [hi.os c hc, hi.os c' hc'])
  rw [hr] at h1
  cases h2 : call g c' k m with
  | none => rw [h2] at h1; exact h1.elim
  | some x =>
      obtain ⟨v, b⟩ := x
      rw [h2] at h1
      obtain ⟨rfl, -⟩ := h1
      by_cases hm : (Item.call ⟨c', k, w⟩).matters = false
      · rw [not_matters_noop hw hc' hi ha hkt hm h2]
      · unfold Item.matters at hm
        simp only [Bool.not_eq_false, Bool.and_eq_true, Bool.not_eq_true', beq_iff_eq] at hm
        obtain ⟨hq, rfl⟩ := hm
        have h3 := again_now hw hi ha hc hk hr
        rw [hr] at h3
        injection h3 with h3; injection h3 with h3 _
        rcases ok_cases hw hi hk (by rw [hq]; decide) hr with ⟨b, n, rfl⟩ | rfl | ⟨r, rfl⟩ | ⟨r, e, rfl⟩ | ⟨r, rfl⟩ | ⟨r, rfl⟩ | ⟨e, b, n, x, d, rfl⟩ | ⟨t, p, rfl⟩ | ⟨t, rfl⟩
        · have q1 : call g c (.setDmaRange b n) m = _ := run_setDma hw c b n hi.locks
          have q2 : call g c' (.setDmaRange b n) m = _ := run_setDma hw c' b n hi.locks
          rw [← h2, q2, ← q1, hr]
        · have q2 : call g c' .exitEnclave m = _ := run_exitEnclave hw hc' m
          rw [← h2, q2]
        all_goals first
          | exact absurd (show monitorOk = monitorAccessDenied from h3) (by decide)
          | exact absurd (show monitorOk = monitorInvalidState from h3) (by decide)
          | exact absurd (show monitorOk = monitorConcurrentCall from h3) (by decide)

/-- And it still does so when software has stored something in the OS's memory. -/
theorem settled_store (hw : g.WF) {m m' : Machine} {c : Nat} {k : Call} {w : W} (hi : Inv g m) (ha : Akin g m m) (hc : c < g.coreCount.toNat)
    (hk : Repeatable g k) (hr : call g c k m = some (w, m)) (hs : OsStore g m m') (hi' : Inv g m') (ha' : Akin g m' m') :
    call g c k m' = some (w, m') := by
  have hkt := hk.sober.traceless
  obtain ⟨a, v, s1, s2, s3, rfl⟩ := hs
  have hb : Akin g m { m with mem := upd m.mem a v } := by
    refine akin_os hw hi ha (mu := m.mem) (mu' := upd m.mem a v) (fun x => Or.inl rfl) (fun x => ?_)
    by_cases hx : x = a
    · subst hx; exact Or.inr ⟨s2, s1, s3⟩
    · exact Or.inl (upd_ne _ _ hx)
  obtain ⟨w', n, n', q1, q2, -⟩ := junk_call hw hi hb hc hk.sober
  rw [hr] at q1
  injection q1 with q1; injection q1 with q1 _
  subst q1
  by_cases hm : (Item.call ⟨c, k, w⟩).matters = false
  · rw [q2, not_matters_noop hw hc hi' ha' hkt hm q2]
  · unfold Item.matters at hm
    simp only [Bool.not_eq_false, Bool.and_eq_true, Bool.not_eq_true', beq_iff_eq] at hm
    obtain ⟨hq, rfl⟩ := hm
    have h3 := again_now hw hi ha hc hk hr
    rw [hr] at h3
    injection h3 with h3; injection h3 with h3 _
    rcases ok_cases hw hi hk (by rw [hq]; decide) hr with ⟨b, n, rfl⟩ | rfl | ⟨r, rfl⟩ | ⟨r, e, rfl⟩ | ⟨r, rfl⟩ | ⟨r, rfl⟩ | ⟨e, b, n, x, d, rfl⟩ | ⟨t, p, rfl⟩ | ⟨t, rfl⟩
    · have p1 : call g c (.setDmaRange b n) m = _ := run_setDma hw c b n hi.locks
      have p2 : call g c (.setDmaRange b n) { m with mem := upd m.mem a v } = _ := run_setDma hw c b n hi'.locks
      rw [hr] at p1
      injection p1 with p1
      split at p1
      · injection p1 with _ p1
        rw [q2] at p2
        injection p2 with p2
        split at p2
        · injection p2 with _ p2
          rw [q2, p2]
          have : Machine.dmaSet { m with mem := upd m.mem a v } b n = { m.dmaSet b n with mem := upd m.mem a v } := rfl
          rw [this, ← p1]
        · injection p2 with p2 _
          unfold dmaError at p2
          split at p2 <;> exact absurd p2 (by decide)
      · injection p1 with p1 _
        unfold dmaError at p1
        split at p1 <;> exact absurd p1 (by decide)
    · exact run_exitEnclave hw hc _
    all_goals first
          | exact absurd (show monitorOk = monitorAccessDenied from h3) (by decide)
          | exact absurd (show monitorOk = monitorInvalidState from h3) (by decide)
          | exact absurd (show monitorOk = monitorConcurrentCall from h3) (by decide)

/-- The induction over the repetitions. -/
theorem again_story (hw : g.WF) {c : Nat} {k : Call} {w : W} (hc : c < g.coreCount.toNat) (hk : Repeatable g k) {m m2 : Machine} {l : List Item}
    (hs : Story g m l m2) : Inv g m → Akin g m m → call g c k m = some (w, m) → OnlyRepeats k l →
    (∀ x, Item.call x ∈ l → x.result = w) ∧ Story g m (l.filter Item.isStore) m2 ∧ ∀ c', c' < g.coreCount.toNat → call g c' k m2 = some (w, m2) := by
  induction hs with
  | nil m =>
      intro hi ha hr _
      exact ⟨fun x hx => (List.not_mem_nil hx).elim, .nil m, fun c' hc' => settled_cores hw hi ha hc hk hr hc'⟩
  | @call m m' m'' c1 k1 v l hc1 hr1 _ ih =>
      intro hi ha hr ho
      have hk1 : k1 = k := ho _ List.mem_cons_self
      subst hk1
      have h1 := settled_cores hw hi ha hc hk hr hc1
      rw [hr1] at h1
      injection h1 with h1; injection h1 with h1 h2
      subst h1 h2
      obtain ⟨q1, q2, q3⟩ := ih hi ha hr (fun x hx => ho x (List.mem_cons_of_mem _ hx))
      refine ⟨fun x hx => ?_, q2, q3⟩
      rcases List.mem_cons.1 hx with hx | hx
      · injection hx with hx; rw [hx]
      · exact q1 x hx
  | @store m m'' a v l h1 h2 h3 _ ih =>
      intro hi ha hr ho
      have hst : OsStore g m (m.st a v) := ⟨a, v, h1, h2, h3, rfl⟩
      have hi' := hst.inv hw hi
      have ha' : Akin g (m.st a v) (m.st a v) := by
        refine akin_os hw hi ha (mu := upd m.mem a v) (mu' := upd m.mem a v) (fun x => ?_) (fun x => ?_) <;>
        · by_cases hx : x = a
          · subst hx; exact Or.inr ⟨h2, h1, h3⟩
          · exact Or.inl (upd_ne _ _ hx)
      obtain ⟨q1, q2, q3⟩ := ih hi' ha' (settled_store hw hi ha hc hk hr hst hi' ha') (fun x hx => ho x (List.mem_cons_of_mem _ hx))
      refine ⟨fun x hx => ?_, .store h1 h2 h3 q2, q3⟩
      rcases List.mem_cons.1 hx with hx | hx
      · cases hx
      · exact q1 x hx

/-- What holds after every story. -/
theorem story_inv (hw : g.WF) {m m2 : Machine} {l : List Item} (hs : Story g m l m2) : Inv g m → Akin g m m → AllCalls (Traceless g) l →
    Inv g m2 ∧ Akin g m2 m2 := by
  induction hs with
  | nil m => intro hi ha _; exact ⟨hi, ha⟩
  | call hc hr _ ih =>
      intro hi ha hk
      obtain ⟨hi', ha'⟩ := traceless_step hw hi ha hc (hk _ List.mem_cons_self) hr
      exact ih hi' ha' (fun x hx => hk x (List.mem_cons_of_mem _ hx))
  | @store m m'' a v l h1 h2 h3 _ ih =>
      intro hi ha hk
      have hst : OsStore g m (m.st a v) := ⟨a, v, h1, h2, h3, rfl⟩
      refine ih (hst.inv hw hi) ?_ (fun x hx => hk x (List.mem_cons_of_mem _ hx))
      refine akin_os hw hi ha (mu := upd m.mem a v) (mu' := upd m.mem a v) (fun x => ?_) (fun x => ?_) <;>
      · by_cases hx : x = a
        · subst hx; exact Or.inr ⟨h2, h1, h3⟩
        · exact Or.inl (upd_ne _ _ hx)

/-! ### C95 -/

/-- C95, for the calls `ks` that are made again, after histories of the calls `ls`. -/
def AgainHolds (g : Cfg) (ls ks : Call → Prop) : Prop :=
  ∀ m1 m m' m2 l l' c k v, FromBoot g m1 → Story g m1 l m → AllCalls ls l → ks k → c < g.coreCount.toNat → call g c k m = some (v, m') →
    Story g m' l' m2 → OnlyRepeats k l' →
    (∀ x, Item.call x ∈ l' → x.result = k.again v) ∧ Story g m' (l'.filter Item.isStore) m2 ∧
      ∀ c', c' < g.coreCount.toNat → call g c' k m2 = some (k.again v, m2)

/-- C95, in full: whatever calls are made. -/
def C95_statement (g : Cfg) : Prop := AgainHolds g (fun _ => True) (fun _ => True)

/-- C95, for the calls in `Repeatable` and histories of the calls in `Traceless`: after a call, every repetition of it, on whatever core, however often and
whatever software stores in the OS's memory in between, completes, has the result that `Call.again` says, and does nothing. -/
theorem C95_again_partial (hw : g.WF) : AgainHolds g (Traceless g) (Repeatable g) := by
  intro m1 m m' m2 l l' c k v hb hs hl hk hc hr hs' ho
  obtain ⟨hi, ha⟩ := story_inv hw hs hb.inv (hb.akin ⟨fun _ _ => rfl, rfl⟩) hl
  obtain ⟨hi', ha'⟩ := traceless_step hw hi ha hc hk.sober.traceless hr
  exact again_story hw hc hk hs' hi' ha' (again_now hw hi ha hc hk hr) ho

/-- C95: a flush again flushes again, and leaves everything else, the flush time of the core included, as the first one did. -/
theorem C95_flush_again (hw : g.WF) {c : Nat} (hc : c < g.cores) {m m' : Machine} {v : W} (hr : call g c .flushCachedDramRegions m = some (v, m')) :
    v = monitorOk ∧ ∃ m'', call g c .flushCachedDramRegions m' = some (monitorOk, m'') ∧ m''.tlbFlushes c = m'.tlbFlushes c + 1 ∧
      (∀ i, i ≠ c → m''.tlbFlushes i = m'.tlbFlushes i) ∧ { m'' with tlbFlushes := m'.tlbFlushes } = m' := by
  have h1 : call g c .flushCachedDramRegions m = _ := run_flush hw hc m
  rw [hr] at h1
  injection h1 with h1; injection h1 with h1 h2
  have h3 : call g c .flushCachedDramRegions m' = _ := run_flush hw hc m'
  refine ⟨h1, _, h3, upd_same _ _ _, fun i hi => upd_ne _ _ hi, ?_⟩
  have hclk : m'.clock g = m.clock g := by
    rw [h2]; exact upd_ne _ _ (fun hh => by have := clockA_ne_flushedA hw hc; exact this hh)
  have : (m'.flushed g c).mem = m'.mem := by
    show upd m'.mem (flushedA c) (m'.clock g) = m'.mem
    rw [hclk, h2]
    funext x
    by_cases hx : x = flushedA c
    · rw [hx, upd_same]; exact (upd_same _ _ _).symm
    · rw [upd_ne _ _ hx]
  cases m' with
  | mk => 
    dsimp only [Machine.flushed] at this ⊢
    rw [this]

/-! ### Debug copies -/

theorem copied_twice (mem : Nat → W) {d s : Nat} (h : d = s ∨ d + 4096 ≤ s ∨ s + 4096 ≤ d) : copied (copied mem 512 d s) 512 d s = copied mem 512 d s := by
  funext x
  show (if d ≤ x ∧ x < d + 8 * 512 ∧ x % 8 = 0 then copied mem 512 d s (s + (x - d)) else copied mem 512 d s x) = copied mem 512 d s x
  split
  · rename_i hx
    unfold copied
    rw [if_pos hx]
    rcases h with h | h
    · subst h
      rw [show d + (x - d) = x by omega, if_pos hx, show d + (x - d) = x by omega]
    · rw [if_neg (by omega)]
  · rfl

/-- C95, for debug copies, after histories as above: made again right away, on whatever core, a debug copy has the same result, and changes nothing. (If
software stores something in between, it copies again.) -/
theorem C95_debug_again_partial {m1 m m' : Machine} {l : List Item} {c : Nat} {e a os : W} {d : Bool} {v : W} (hb : FromBoot g m1) (hs : Story g m1 l m)
    (hl : AllCalls (Traceless g) l) (hk : Traceless g (.copyDebugEnclavePage e a os d)) (hc : c < g.coreCount.toNat)
    (hr : call g c (.copyDebugEnclavePage e a os d) m = some (v, m')) :
    ∀ c', c' < g.coreCount.toNat → call g c' (.copyDebugEnclavePage e a os d) m' = some (v, m') := by
  have hw := hb.wf
  obtain ⟨hi, ha⟩ := story_inv hw hs hb.inv (hb.akin ⟨fun _ _ => rfl, rfl⟩) hl
  intro c' hc'
  by_cases hv : v = monitorOk
  · subst hv
    by_cases he : e = nullEnclaveId
    · have h1 : g.monitorTop.toNat ≤ a.toNat := hk.resolve_left (fun hh => hh he)
      have he : e = 0 := he
      subst he
      obtain ⟨p1, p2⟩ := run_copyDebug hw c 0 a os d hi.locks recordOk_zero
      by_cases hok : CopyOk g m 0 a os
      · obtain ⟨c1, c2, c3, c4, c5, c6, c7, c8, c9⟩ := id hok
        have hos0 : regionOf g os.toNat ≠ 0 := by
          have hid : idRegion g 0 = 0 := by
            unfold idRegion
            split
            · show regionOf g 0 = 0
              unfold regionOf; simp
            · rfl
          rwa [hid] at c4
        have hos := page_high hw c2.1 c2.2 hos0
        have hown : m.owner g (regionOf g a.toNat) = nullEnclaveId := by
          rw [bmBit_zero] at c7
          exact (hi.bitmap _ (regionOf_lt hw _)).1 c7
        have hdm := dram_mod hw
        obtain ⟨a1, a2⟩ := c1
        obtain ⟨o1, o2⟩ := c2
        have hcp : ∀ (p q : W), p.toNat % 4096 = 0 → p.toNat < g.dramSize.toNat → g.monitorTop.toNat ≤ p.toNat → m.owner g (regionOf g p.toNat) = nullEnclaveId →
            ∀ x, copied m.mem 512 p.toNat q.toNat x = m.mem x ∨ (x < g.dramSize.toNat ∧ g.monitorTop.toNat ≤ x ∧ m.owner g (regionOf g x) = nullEnclaveId) := by
          intro p q z1 z2 z3 z4 x
          unfold copied
          split
          · rename_i hx
            refine Or.inr ⟨by omega, by omega, ?_⟩
            rw [page_region hw z1 hx.1 (by omega)]
            exact z4
          · exact Or.inl rfl
        have p2 : call g c (.copyDebugEnclavePage 0 a os d) m = _ := p2 hok h1 hos.2.2
        rw [hr] at p2
        injection p2 with p2; injection p2 with _ p2
        have hak : Akin g m m' := by
          rw [p2]
          refine akin_os hw hi ha (mu := m.mem) (fun x => Or.inl rfl) ?_
          cases d
          · exact hcp a os a1 a2 h1 hown
          · exact hcp os a o1 o2 hos.2.2 c8
        have hi' := hak.inv hw hi
        obtain ⟨w, n, n', q1, q2, -⟩ := junk_call hw hi hak hc (k := .copyDebugEnclavePage 0 a os d) ⟨rfl, h1⟩
        rw [hr] at q1
        injection q1 with q1; injection q1 with q1 _
        subst q1
        have hok' : CopyOk g m' 0 a os := by
          refine Classical.byContradiction fun hn => ?_
          obtain ⟨x, r1, r2⟩ := (run_copyDebug hw c 0 a os d hi'.locks recordOk_zero).1 hn
          have r1 : call g c (.copyDebugEnclavePage 0 a os d) m' = _ := r1
          rw [q2] at r1
          injection r1 with r1; injection r1 with r1 _
          exact r2 r1.symm
        have r := (run_copyDebug hw c' 0 a os d hi'.locks recordOk_zero).2 hok' h1 hos.2.2
        refine Eq.trans r ?_
        have hdis : a.toNat = os.toNat ∨ a.toNat + 4096 ≤ os.toNat ∨ os.toNat + 4096 ≤ a.toNat := by omega
        have : (if d then copied m'.mem 512 os.toNat a.toNat else copied m'.mem 512 a.toNat os.toNat) = m'.mem := by
          rw [p2]
          cases d
          · exact copied_twice _ hdis
          · exact copied_twice _ (by omega)
        rw [this]
      · obtain ⟨x, q1, q2⟩ := p1 hok
        have q1 : call g c (.copyDebugEnclavePage 0 a os d) m = _ := q1
        rw [hr] at q1
        injection q1 with q1; injection q1 with q1 _
        exact absurd q1.symm q2
    · exact absurd ⟨he, (run_copyDebug_any hw c e a os d hi.locks hr).2 rfl⟩ (hi.not_valid hw e)
  · have hm : ∀ i, (Item.call ⟨i, .copyDebugEnclavePage e a os d, v⟩).matters = false := fun i => by simp [Item.matters, hv]
    have e1 := not_matters_noop hw hc hi ha hk (hm c) hr
    subst e1
    have h1 := C89_any_core hw hc hc' m' (.copyDebugEnclavePage e a os d) (by simp) (by rw [hi.os c hc, hi.os c' hc'])
    rw [hr] at h1
    cases h2 : call g c' (.copyDebugEnclavePage e a os d) m' with
    | none => rw [h2] at h1; exact h1.elim
    | some x =>
        obtain ⟨w, b⟩ := x
        rw [h2] at h1
        obtain ⟨rfl, -⟩ := h1
        rw [not_matters_noop hw hc' hi ha hk (hm c') h2]

/-! ### What fails: debug copies with an ID -/

/-- C95 fails for debug copies with an ID (as C93 does): refused because a word of the OS's memory says that there is no debug enclave, and then, after the
OS has set the word, refused for another reason. -/
theorem C95_statement_false : ¬ C95_statement toyG := by
  intro h
  have hh : toyG.monitorTop.toNat ≤ 0x18018 ∧ 0x18018 < toyG.dramSize.toNat ∧ toyM.owner toyG (regionOf toyG 0x18018) = nullEnclaveId ∧ 0 < toyG.coreCount.toNat := by
    set_option maxRecDepth 100000 in decide +kernel
  have r1 : (call toyG 0 wildCall toyM).map (fun x => (x.1, x.2.mem 0x18018)) = some (monitorInvalidState, 0) := by
    set_option maxRecDepth 100000 in decide +kernel
  have r2 : (call toyG 0 wildCall oneM).map (·.1) = some monitorInvalidValue := by set_option maxRecDepth 100000 in decide +kernel
  cases p1 : call toyG 0 wildCall toyM with
  | none => rw [p1] at r1; cases r1
  | some x1 =>
      obtain ⟨v1, n1⟩ := x1
      rw [p1] at r1
      simp only [Option.map_some, Option.some.injEq, Prod.mk.injEq] at r1
      have hn : n1 = toyM := C22_failure_is_noop_partial toy_wf hh.2.2.2 ((toy_fromBoot.inv).stateOk toy_wf hh.2.2.2) (k := wildCall) trivial p1
        (by rw [r1.1]; decide)
      subst hn
      obtain ⟨-, -, q⟩ := h toyM toyM toyM oneM [] [.store 0x18018 1] 0 wildCall v1 toy_fromBoot (.nil _) (fun x hx => trivial) trivial hh.2.2.2 p1
        (.store hh.1 hh.2.1 hh.2.2.1 (.nil _)) (fun x hx => by simp at hx)
      have q := q 0 hh.2.2.2
      have hw : wildCall.again v1 = v1 := rfl
      rw [q, hw, r1.1] at r2
      exact absurd r2 (by decide)

/-! ### The hypotheses are met -/

/-- A region is blocked; software stores; no core can block it again. -/
example : ∀ c, c < toyG.coreCount.toNat → ∃ m2 : Machine, m2.owner toyG 1 = blockedEnclaveId ∧ m2.mem 0x10008 = 5 ∧
    call toyG c (.blockDramRegion 1) m2 = some (monitorAccessDenied, m2) := by
  intro c hc
  have hh : 0 < toyG.coreCount.toNat ∧ toyG.monitorTop.toNat ≤ 0x10008 ∧ 0x10008 < toyG.dramSize.toNat := by set_option maxRecDepth 100000 in decide +kernel
  have r1 : (call toyG 0 (.blockDramRegion 1) toyM).map (fun x => (x.1, x.2.owner toyG 1, x.2.owner toyG (regionOf toyG 0x10008))) =
      some (monitorOk, blockedEnclaveId, nullEnclaveId) := by set_option maxRecDepth 100000 in decide +kernel
  cases p1 : call toyG 0 (.blockDramRegion 1) toyM with
  | none => rw [p1] at r1; cases r1
  | some x1 =>
      obtain ⟨v1, n1⟩ := x1
      rw [p1] at r1
      simp only [Option.map_some, Option.some.injEq, Prod.mk.injEq] at r1
      obtain ⟨rfl, t1, t2⟩ := r1
      obtain ⟨-, -, q⟩ := C95_again_partial toy_wf toyM toyM n1 (n1.st 0x10008 5) [] [.store 0x10008 5] 0 _ _ toy_fromBoot (.nil _) (fun x hx => by simp at hx)
        (show Repeatable toyG (.blockDramRegion 1) from trivial) hh.1 p1 (.store hh.2.1 hh.2.2 t2 (.nil _)) (fun x hx => by simp at hx)
      refine ⟨n1.st 0x10008 5, ?_, by rw [mem_st, if_pos rfl], q c hc⟩
      rw [← t1]
      show (n1.st 0x10008 5).mem (ownerA toyG 1) = n1.mem (ownerA toyG 1)
      rw [mem_st, if_neg (by decide +kernel)]

set_option maxRecDepth 100000 in
/-- Every kind of call that succeeds once and is refused then. -/
example : (after toyG [(0, .blockDramRegion 1), (0, .blockDramRegion 1), (0, .freeDramRegion 1), (0, .freeDramRegion 1), (0, .assignDramRegion 1 0),
      (2, .assignDramRegion 1 0)] toyM).1 = [monitorOk, monitorAccessDenied, monitorOk, monitorInvalidState, monitorOk, monitorInvalidState] ∧
    (after toyG [(0, .setDmaRange 0x18000 0xfff), (0, .setDmaRange 0x18000 0xfff), (0, .deleteThread 0), (0, .deleteThread 0)] toyM).1 =
      [monitorOk, monitorOk, monitorOk, monitorConcurrentCall] ∧
    (after toyG [(0, .createEnclave 0x9000 0 4095 1 true), (1, .createEnclave 0x9000 0 4095 1 true)] metaM).1 = [monitorOk, monitorInvalidState] := by
  decide +kernel

set_option maxRecDepth 100000 in
/-- A debug copy that succeeds, twice, and one that is refused twice. -/
example : (after toyG [(0, .blockDramRegion 1), (0, .flushCachedDramRegions), (0, .copyDebugEnclavePage 0 0x18000 0x10000 true),
      (1, .copyDebugEnclavePage 0 0x18000 0x10000 true), (2, wildCall), (3, wildCall)] toyM).1 =
    [monitorOk, monitorOk, monitorOk, monitorOk, monitorInvalidState, monitorInvalidState] := by
  decide +kernel

end Sanctum
