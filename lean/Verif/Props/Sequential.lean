import Verif.Props.Footprint
import Verif.Props.Instances
/-
C53 and C88 for calls made one after the other: then they hold for all covered calls.
-/
namespace Sanctum
open Machine

variable {g : Cfg}

/-- The machine with all cores idle. -/
def atRest (m : Machine) : Conf := { m := m, cores := fun _ => .idle }

/-- The interleaving invariant holds of every state between calls; the trace stands for calls that kept locks. -/
theorem good_atRest {m : Machine} (hi : Inv g m) : Good g [.start 0 (.deleteThread 0)] (atRest m) := by
  refine ⟨⟨⟨hi.owners, hi.region0, fun i h1 _ => hi.bitmap i h1⟩, hi.locks, hi.os⟩, fun c i _ hh => ?_, fun c _ _ _ hh => ?_, fun c _ _ hh => ?_,
    fun c k p hc => ?_, fun hn => ?_⟩
  · exact hh.elim
  · exact hh.elim
  · exact hh.elim
  · cases hc
  · exact (hn 0 (.deleteThread 0) (List.mem_singleton.2 rfl)).elim

theorem frame_run (hw : g.WF) {c : Nat} {k : Call} {P : Nat → Prop} {x : Nat} (hx : g.monitorTop.toNat ≤ x) (hn : ¬ P x) (p : Prog W) :
    ∀ {t : List Label} {s : Conf} {v : W} {m' : Machine}, Good g t s → OnlyCalls (CoveredC g) t → s.cores c = .running k p → p.Puts g c P →
    run g c p s.m = some (v, m') → m'.mem x = s.m.mem x := by
  induction p with
  | ret a => intro t s v m' _ _ _ _ hr; cases hr; rfl
  | fault => intro t s v m' _ _ _ _ hr; cases hr
  | diverge => intro t s v m' _ _ _ _ hr; cases hr
  | op o f ih =>
      intro t s v m' hg hcov hrun hp hr
      rw [run] at hr
      split at hr
      · rename_i u m1 hex
        have hst : Step g s (.act c o u) { m := m1, cores := upd s.cores c (.running k (f u)) } := .act hrun hex
        have hcov' : OnlyCalls (CoveredC g) (t ++ [.act c o u]) := fun c1 k1 hm => by
          rcases List.mem_append.1 hm with hm | hm
          · exact hcov c1 k1 hm
          · cases List.mem_singleton.1 hm
        have hg' := hg.step hw (fun c k m hc hkk => safe_call hw c k m hc hkk) hcov' hst
        have h1 := ih u hg' hcov' (upd_same _ _ _) (hp.2 u ((exec_respOk hg.inv (hg.held c) hex).mono fun _ hh => hh.elim)) hr
        rw [h1]
        exact exec_mutates hex fun hm => (hp.1 x hm).elim (fun q => by omega) hn
      · cases hr

theorem frame_call (hw : g.WF) {c : Nat} (hc : c < g.cores) {k : Call} (hk : CoveredC g k) {m m' : Machine} {v : W} (hi : Inv g m)
    (hr : call g c k m = some (v, m')) {x : Nat} (hx : g.monitorTop.toNat ≤ x) (hn : ¬ Names g k x) : m'.mem x = m.mem x := by
  have h0 := good_atRest hi
  have hcov0 : OnlyCalls (CoveredC g) [.start 0 (.deleteThread 0)] := fun c1 k1 hm => by
    cases List.mem_singleton.1 hm
    exact ⟨trivial, fun _ _ _ _ h => by cases h⟩
  have hst : Step g (atRest m) (.start c k) { m := m, cores := upd (fun _ => .idle) c (.running k (k.prog g)) } := .start k hc rfl
  have hcov1 : OnlyCalls (CoveredC g) ([.start 0 (.deleteThread 0)] ++ [.start c k]) := fun c1 k1 hm => by
    rcases List.mem_append.1 hm with hm | hm
    · exact hcov0 c1 k1 hm
    · cases List.mem_singleton.1 hm; exact hk
  exact frame_run (k := k) hw hx hn (k.prog g) (h0.step hw (fun c k m hc hkk => safe_call hw c k m hc hkk) hcov1 hst) hcov1 (if_pos rfl) (puts_call hw k hc hk) hr

/-- A debug copy, with any ID. -/
theorem frame_copy (h : g.WF) {c : Nat} {e a os : W} {dir : Bool} {m m' : Machine} {v : W} (hi : Inv g m)
    (hk : e ≠ 0 ∨ g.monitorTop.toNat ≤ a.toNat) (hr : call g c (.copyDebugEnclavePage e a os dir) m = some (v, m')) :
    m' = m ∨ (v = monitorOk ∧ e = nullEnclaveId ∧ ∀ x, ¬ InBytes (if dir then os.toNat else a.toNat) 4096 x → m'.mem x = m.mem x) := by
  obtain ⟨h1, h2⟩ := run_copyDebug_any h c e a os dir hi.locks hr
  by_cases hv : v = monitorOk
  · have h0 := hi.noId h (h2 hv)
    subst h0
    have ha : g.monitorTop.toNat ≤ a.toNat := hk.resolve_left (fun hh => hh rfl)
    obtain ⟨h3, h4⟩ := run_copyDebug h c 0 a os dir hi.locks recordOk_zero
    rcases Classical.em (CopyOk g m 0 a os) with hc | hc
    · have hos : g.monitorTop.toNat ≤ os.toNat := by
        rcases Nat.lt_or_ge os.toNat g.monitorTop.toNat with hlt | hge
        · have := hc.2.2.2.1
          rw [region0_of_low h hlt] at this
          exact absurd (by unfold idRegion; split; exact (region0_of_low h (by have := h.top_pow; obtain ⟨t, ht⟩ := this; rw [ht]; exact Nat.two_pow_pos t)).symm; rfl) this
        · exact hge
      have hr2 : call g c (.copyDebugEnclavePage 0 a os dir) m = _ := h4 hc ha hos
      rw [hr2] at hr
      injection hr with hr; injection hr with q1 q2
      refine Or.inr ⟨hv, rfl, fun x hx => ?_⟩
      rw [← q2]
      cases dir
      · show copied m.mem 512 a.toNat os.toNat x = _
        unfold copied; rw [if_neg (fun hh => hx ⟨hh.1, by show x < a.toNat + 4096; omega⟩)]
      · show copied m.mem 512 os.toNat a.toNat x = _
        unfold copied; rw [if_neg (fun hh => hx ⟨hh.1, by show x < os.toNat + 4096; omega⟩)]
    · obtain ⟨x, q1, q2⟩ := h3 hc
      have q1 : call g c (.copyDebugEnclavePage 0 a os dir) m = _ := q1
      rw [q1] at hr
      injection hr with hr; injection hr with r1 r2
      exact absurd (r1.trans hv) q2
  · exact Or.inl (h1 hv)

/-- C88 for histories: after every history of covered calls, with stores by software between them, a covered call (a debug copy with any ID among them)
changes, outside the monitor's memory, only what its arguments name. -/
theorem C88_histories_partial {m1 : Machine} (hb : FromBoot g m1) {l : List Event} {m2 : Machine} (hh : Hist g m1 l m2) (hv : CoveredHist g l)
    {c : Nat} (hc : c < g.cores) {k : Call} (hk : Covered g k) {v : W} {m3 : Machine} (hr : call g c k m2 = some (v, m3)) :
    ∀ x, g.monitorTop.toNat ≤ x → ¬ Names g k x → m3.mem x = m2.mem x := by
  intro x hx hn
  have hi := hist_inv hb.wf hh hv hb.inv
  rcases Classical.em (∃ e a os d, k = .copyDebugEnclavePage e a os d) with ⟨e, a, os, d, rfl⟩ | hne
  · rcases frame_copy hb.wf hi hk hr with rfl | ⟨-, rfl, h⟩
    · rfl
    · exact h x fun hh => hn ⟨rfl, hh⟩
  · exact frame_call hb.wf hc ⟨hk, fun e a os d he => absurd ⟨e, a, os, d, he⟩ hne⟩ hi hr hx hn

theorem seq_frame (h : g.WF) {c : Nat} (hc : c < g.cores) {k : Call} (hk : Covered g k) {m m' : Machine} {v : W} (hi : Inv g m)
    (hr : call g c k m = some (v, m')) {x : Nat} (hx : g.monitorTop.toNat ≤ x) (ha : ¬ ArgWord k x) (ho : m.owner g (regionOf g x) ≠ metadataEnclaveId)
    (ho' : m'.owner g (regionOf g x) ≠ metadataEnclaveId) : m'.mem x = m.mem x := by
  have hdec : (m' = m → m'.mem x = m.mem x) := fun hh => by rw [hh]
  have hcc : (∀ e a os d, k ≠ .copyDebugEnclavePage e a os d) → CoveredC g k := fun hne => ⟨hk, fun e a os d he => absurd he (hne e a os d)⟩
  have hlock : ∀ {e : W}, g.MetaOk → LockTried g m m' e → m'.mem x = m.mem x := by
    intro e hmo ht
    rcases ht with rfl | ⟨⟨hm, -⟩, -, -, rfl⟩
    · rfl
    · rw [mem_st, if_neg]
      rintro rfl
      exact ho hm.2.2.2
  cases k
  case copyDebugEnclavePage e a os d =>
      rcases frame_copy h hi hk hr with rfl | ⟨-, -, hh⟩
      · rfl
      · refine hh x fun hin => ha ?_
        cases d
        · exact Or.inl hin
        · exact Or.inr hin
  case assignThread e t =>
      have hmo : g.MetaOk := ⟨h, hk.1, hk.2⟩
      obtain ⟨v1, m1, q1, -, q3⟩ := run_assignThread hmo c e t hi.locks hi.region0
      have q1 : call g c (.assignThread e t) m = _ := q1
      rw [q1] at hr
      injection hr with hr; injection hr with r1 r2
      subst r2
      exact hlock hmo q3
  case loadThread e t p1 p2 p3 p4 =>
      have hmo : g.MetaOk := ⟨h, hk.1, hk.2⟩
      obtain ⟨v1, m1, q1, -, q3⟩ := run_loadThread hmo c e t p1 p2 p3 p4 hi.locks hi.region0
      have q1 : call g c (.loadThread e t p1 p2 p3 p4) m = _ := q1
      rw [q1] at hr
      injection hr with hr; injection hr with r1 r2
      subst r2
      exact hlock hmo q3
  case createMetadataRegion r =>
      obtain ⟨v1, m1, q1, q2, q3, q4⟩ := C18_create_metadata_exact h c r hi.locks (by rw [hi.region0]; decide)
      rw [q1] at hr
      injection hr with hr; injection hr with r1 r2
      subst r1; subst r2
      by_cases hv : v1 = monitorOk
      · have he := q3 hv
        refine frame_call h hc (hcc (by simp)) hi q1 hx fun hn => ho' ?_
        have hmb := mapBytes_le h
        have hre := (q2.1 hv).1
        rw [regionOf_span h hre hn.1 (by have := hn.2; rw [Nat.add_mul]; omega)]
        exact he.metadata
      · rw [q4 hv]
  case createEnclave e b n cnt d =>
      have hmo : g.MetaOk := ⟨h, hk.1, hk.2⟩
      obtain ⟨h1, h2⟩ := run_createEnclave hmo c e b n cnt d hi.locks hi.region0
      rcases Classical.em (CreateOk g m e b n cnt) with hok | hok
      · obtain ⟨mem', q1, -, -, q4⟩ := h1 hok
        have q1 : call g c (.createEnclave e b n cnt d) m = _ := q1
        rw [q1] at hr
        injection hr with hr; injection hr with r1 r2
        subst r2
        refine q4 x fun hs => ho ?_
        obtain ⟨-, ⟨m1, m2, m3, m4⟩, hfit, -⟩ := hok
        have hb := entry_bounds hmo m2
        have hp := page_in_region hmo m2 m1
        have hre := regionOf_lt h e.toNat
        have hin : regionOf g x = regionOf g e.toNat := by
          have h5 := hb.2.2.1
          have h6 := hb.2.2.2.1
          have h7 := hb.2.2.2.2.1
          refine regionOf_span h hre ?_ ?_
          · rcases hs with hs | hs | ⟨k, -, hs⟩ <;> omega
          · rw [Nat.add_mul]
            rcases hs with hs | hs | ⟨k, hk', hs⟩ <;> omega
        rw [hin]; exact m4
      · obtain ⟨v1, q1, -⟩ := h2 hok
        have q1 : call g c (.createEnclave e b n cnt d) m = _ := q1
        rw [q1] at hr
        injection hr with hr; injection hr with r1 r2
        rw [← r2]
  case acceptThread => exact hk.elim
  all_goals exact frame_call h hc (hcc (by simp)) hi hr hx (fun hn => hn)

/-- C53 for histories: after every history of covered calls, with stores by software between them, a covered call (thread calls, and debug copies with any
ID, among them) changes no word of a region that is no metadata region (neither before the call nor through it), but for the pages that are passed
to a debug copy. -/
theorem C53_histories_partial {m1 : Machine} (hb : FromBoot g m1) {l : List Event} {m2 : Machine} (hh : Hist g m1 l m2) (hv : CoveredHist g l)
    {c : Nat} (hc : c < g.cores) {k : Call} (hk : Covered g k) {v : W} {m3 : Machine} (hr : call g c k m2 = some (v, m3)) :
    ∀ x, g.monitorTop.toNat ≤ x → ¬ ArgWord k x → m2.owner g (regionOf g x) ≠ metadataEnclaveId → m3.owner g (regionOf g x) ≠ metadataEnclaveId →
      m3.mem x = m2.mem x :=
  fun _ h1 h2 h3 h4 => seq_frame hb.wf hc hk (hist_inv hb.wf hh hv hb.inv) hr h1 h2 h3 h4

/-- `load_thread` on a live enclave, after eight calls that made it: C53 applies although C53 is false of this call when others run at the same time. -/
example : ∃ v m3, call toyG 1 (.loadThread 0x9000 0xa000 1 2 3 4) (after toyG liveCalls toyM).2 = some (v, m3) ∧
    m3.mem 0x7000 = (after toyG liveCalls toyM).2.mem 0x7000 := by
  have ht : ((call toyG 1 (.loadThread 0x9000 0xa000 1 2 3 4) (after toyG liveCalls toyM).2).map fun x => x.2.owner toyG 0) = some nullEnclaveId := by
    set_option maxRecDepth 100000 in decide +kernel
  cases hc : call toyG 1 (.loadThread 0x9000 0xa000 1 2 3 4) (after toyG liveCalls toyM).2 with
  | none => rw [hc] at ht; cases ht
  | some x =>
      obtain ⟨v, m3⟩ := x
      rw [hc] at ht
      have ho : m3.owner toyG 0 = nullEnclaveId := Option.some.inj ht
      have hr : regionOf toyG 0x7000 = 0 := by decide
      exact ⟨v, m3, rfl, C53_histories_partial toy_fromBoot (hist_after live_runs.1 (by set_option maxRecDepth 100000 in decide +kernel)) (coveredHist_of live_covered)
        (by decide) (k := .loadThread 0x9000 0xa000 1 2 3 4) ⟨toy_single, toy_shiftOk⟩ hc 0x7000 (by decide) (fun h => h)
        (by rw [hr]; set_option maxRecDepth 100000 in decide +kernel) (by rw [hr, ho]; decide)⟩

end Sanctum
