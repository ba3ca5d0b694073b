import Verif.Spec.Buffers
import Verif.Lemmas.TsoSoft
import Verif.Props.Tso
import Verif.Props.Serial
/-
Property C86: calls on several cores with store buffers behave as calls made one after the other on the whole machine.
-/
namespace Sanctum
open Machine
variable {g : Cfg}

/-- Each execution with store buffers follows an interleaving, and software sees the same. -/
theorem seenT_follows {s : Conf} {t : List Label} {hist : List Seen} {τ : TConf} (h : Fresh g s) (hs : SeenT g s.settled t hist τ)
    (hk : OnlyCalls (fun k => CoveredC g k ∧ Lockwise k) t) : ∃ s', SeenSteps g s t hist s' ∧ GoodT g t τ s' ∧ GoodS g t τ s' := by
  have hw := h.1.wf
  generalize hτ : s.settled = τ0 at hs
  induction hs with
  | refl => subst hτ; exact ⟨s, .refl s, GoodT.start_ h, GoodS.start_ h⟩
  | @step τ1 τ2 t hist l h1 h2 h3 ih =>
      obtain ⟨s1, q1, q2, q3⟩ := ih hk.prefix
      obtain ⟨s2, p1, p2⟩ := q2.step h q1.steps (lockwise_only hk) h2
      exact ⟨s2, q1.step p1 h3, p2, q3.step h q1.steps hk q2 h2 p1 p2⟩
  | @drain τ1 τ2 t hist h1 h2 ih =>
      obtain ⟨s1, q1, q2, q3⟩ := ih hk
      have hg := good_steps h q1.steps (racing_covered (lockwise_only hk))
      exact ⟨s1, q1, q2.drain hw hg h2, q3.drain hw hg q2 h2⟩
  | @load τ1 t hist a h1 h2 h3 ih =>
      obtain ⟨s1, q1, q2, q3⟩ := ih hk
      obtain ⟨_, r2, r3, r4⟩ := q3.access hw q2 h2 h3
      rw [← r2]
      exact ⟨s1, q1.load a h2 r3 r4, q2, q3⟩
  | @store τ1 t hist a v h1 h2 h3 ih =>
      obtain ⟨s1, q1, q2, q3⟩ := ih hk.prefix
      obtain ⟨_, r2, r3, r4⟩ := q3.access hw q2 h2 h3
      have hst : TStep g τ1 (some .soft) { τ1 with m := τ1.m.put a v } := .soft ⟨a, v, h2, rfl⟩
      obtain ⟨s2, p1, p2⟩ := q2.step h q1.steps (lockwise_only hk) hst
      have he := q3.put hw h q1.steps hk.prefix q2 h2 h3 p2
      have p3 := q3.step h q1.steps hk q2 hst p1 p2
      subst he
      exact ⟨_, q1.store a v h2 r3 r4, p2, p3⟩

/-- C86. Whatever software sees of covered calls, that use what other calls use under its locks, on cores with store buffers, and of loads and stores of software in the
regions that are the OS's according to memory, of any length below 2^64, it can see of an execution of the serial machine from the same state, in which every call but a flush
takes one step. What waits in the buffers can reach memory at any time, and then the two machines are in states that correspond. -/
theorem C86_store_buffers {s : Conf} {t : List Label} {hist : List Seen} {τ : TConf} (h : Fresh g s) (hfl : ∀ c, c < g.cores → s.m.flushedAt c = 0)
    (hs : SeenT g s.settled t hist τ) (hk : OnlyCalls (CoveredC g) t) (hn : OnlyCalls Lockwise t) (hlen : t.length < 2 ^ 64) :
    ∃ S s', SerialRun g ⟨fun _ => .idle, s.m⟩ hist S ∧ s'.cores = τ.cores ∧ TSteps g τ [] s'.settled ∧ Matches g s' S := by
  have hkn : OnlyCalls (fun k => CoveredC g k ∧ Lockwise k) t := fun c k hm => ⟨hk c k hm, hn c k hm⟩
  obtain ⟨s', h1, h2, -⟩ := seenT_follows h hs hkn
  obtain ⟨S, h3, h4⟩ := C81_serializable h hfl h1 hk hn hlen
  exact ⟨S, s', h3, h2.cores, h2.settles h h1.steps (lockwise_only hkn), h4⟩

/-- When no call is in progress, nothing waits, and the machines are equal. -/
theorem C86_quiet {s : Conf} {t : List Label} {hist : List Seen} {τ : TConf} (h : Fresh g s) (hfl : ∀ c, c < g.cores → s.m.flushedAt c = 0)
    (hs : SeenT g s.settled t hist τ) (hk : OnlyCalls (CoveredC g) t) (hn : OnlyCalls Lockwise t) (hlen : t.length < 2 ^ 64) (hq : ∀ c, τ.cores c = .idle) :
    (∀ c, τ.bufs c = []) ∧ ∃ S, SerialRun g ⟨fun _ => .idle, s.m⟩ hist S ∧ S.m = τ.m ∧ ∀ c, S.phase c = .idle := by
  have hkn : OnlyCalls (fun k => CoveredC g k ∧ Lockwise k) t := fun c k hm => ⟨hk c k hm, hn c k hm⟩
  obtain ⟨s', h1, h2, -⟩ := seenT_follows h hs hkn
  obtain ⟨S, h3, h4⟩ := C81_serializable h hfl h1 hk hn hlen
  have hq' : ∀ c, s'.cores c = .idle := fun c => by rw [h2.cores]; exact hq c
  have hb : ∀ c, τ.bufs c = [] := fun c => h2.idle c (hq' c)
  have hm : s'.m = τ.m := machine_ext (fun l => by
    have := h2.sees 0 l (fun c' _ o ho => by rw [hb c'] at ho; cases ho)
    rw [this]
    unfold TConf.view
    rw [hb 0]; rfl) h2.rest
  exact ⟨hb, S, h3, (h4.quiet hq').trans hm, fun c => (h4.idle c).2 (hq' c)⟩

/-! ### The witness -/

theorem Steps.seenT {s s' : Conf} {t : List Label} (hs : Steps g s t s') (hn : Label.soft ∉ t) : SeenT g s.settled t ((observed t).map .call) s'.settled := by
  induction hs with
  | refl => exact .refl _
  | @tail s1 s2 t l _ h2 ih =>
      have hne : l ≠ .soft := fun hh => hn (by rw [hh]; exact List.mem_append_right _ List.mem_cons_self)
      have h1 := ih fun hh => hn (List.mem_append_left _ hh)
      have h3 : observed (t ++ [l]) = observed t ++ observed [l] := List.filter_append _ _
      rw [h3, List.map_append]
      rcases h2.settled with h | ⟨τ, h4, h5⟩
      · exact h1.step h hne
      · exact (h1.step h4 hne).drain h5

/-- Core 1 asks for the region's state while core 0 is about to write that it blocked region 1. -/
def bufferMoves : List Move := [.start 0 (.blockDramRegion 1)] ++ List.replicate 12 (.go 0) ++ [.start 1 (.dramRegionState 1), .go 1, .go 1]

set_option maxRecDepth 100000 in
theorem buffer_plays : (play toyG bufferMoves toyS).map (fun x => (nextWrite x.2 0, x.2.m.owner toyG 1, callsOnly x.1 && decide (x.1.length = 16), results x.1)) =
    some (some 0xb0, nullEnclaveId, true, [(1, stateLocked)]) := by decide +kernel

theorem buffer_calls : ∀ c k, Move.start c k ∈ bufferMoves → CoveredC toyG k ∧ Lockwise k := by
  intro c k hk
  simp only [bufferMoves, List.mem_append, List.mem_replicate, List.mem_cons, Move.start.injEq, reduceCtorEq, false_or, or_false, and_false,
    List.not_mem_nil] at hk
  rcases hk with ⟨_, rfl⟩ | ⟨_, rfl⟩
  all_goals exact ⟨⟨trivial, fun _ _ _ _ hh => by cases hh⟩, trivial⟩

theorem owner_plain_toy : ¬ AtomicLoc toyG (.word (0xb0 : W).toNat) := by
  rintro (⟨i, hi, hh⟩ | hh | ⟨c, hc, hh⟩)
  · have : ∀ i, i < 8 → ¬ (0xb0 : W).toNat = lockA toyG i := by decide
    exact this i hi (Loc.word.inj hh)
  · exact absurd (Loc.word.inj hh) (by decide)
  · have : ∀ c, c < 4 → ¬ (0xb0 : W).toNat = flushedA c := by decide
    exact this c hc (Loc.word.inj hh)

/-- The hypotheses of C86 are met, by an execution in which another core found the region in use, the store that says that the region is blocked waits, and the OS stores in
the region and loads what it stored. -/
example : ∃ t h1 τ, Fresh toyG toyS ∧ (∀ c, c < toyG.cores → toyS.m.flushedAt c = 0) ∧ SeenT toyG toyS.settled t (h1 ++ [.store 0x8008 7] ++ [.load 0x8008 7]) τ ∧
    OnlyCalls (CoveredC toyG) t ∧ OnlyCalls Lockwise t ∧ t.length < 2 ^ 64 ∧ results t = [(1, stateLocked)] ∧ τ.m.owner toyG 1 = nullEnclaveId ∧
    ∃ v, τ.bufs 0 = [.store 0xb0 v] := by
  have h := buffer_plays
  cases hp : play toyG bufferMoves toyS with
  | none => rw [hp] at h; cases h
  | some x =>
      rw [hp] at h
      simp only [Option.map_some, Option.some.injEq, Prod.mk.injEq, Bool.and_eq_true, decide_eq_true_eq] at h
      obtain ⟨e1, e2, ⟨e3, e5⟩, e4⟩ := h
      obtain ⟨v, hn⟩ := next_of_store e1
      obtain ⟨τ, q1, q2, q3, q4⟩ := delay_next hn owner_plain_toy (by simp only [exec]; rw [if_pos (by decide)]; rfl)
      have htop : toyG.monitorTop.toNat ≤ 0x8008 := by decide +kernel
      have hreg : regionOf toyG 0x8008 = 1 := by decide +kernel
      have hc := play_onlyCalls bufferMoves buffer_calls hp
      have s1 := ((play_steps _ hp).seenT (callsOnly_iff e3)).step q1 (by intro hh; cases hh)
      have hown : τ.m.owner toyG (regionOf toyG 0x8008) = nullEnclaveId := by rw [q2, hreg]; exact e2
      have s2 := s1.store 0x8008 7 htop hown
      have hsame : (τ.m.put 0x8008 7).owner toyG (regionOf toyG 0x8008) = τ.m.owner toyG (regionOf toyG 0x8008) :=
        (upd_ne τ.m.mem (7 : W) (show ownerA toyG (regionOf toyG 0x8008) ≠ 0x8008 by decide +kernel))
      have s3 := s2.load 0x8008 htop (hsame.trans hown)
      have hall : OnlyCalls (fun k => CoveredC toyG k ∧ Lockwise k) (x.1 ++ [.act 0 (.store 0xb0 v) 0] ++ [.soft]) := fun c k hm => by
        simp only [List.mem_append, List.mem_cons, List.not_mem_nil, or_false, reduceCtorEq] at hm
        exact hc c k hm
      refine ⟨_, _, _, toyS_fresh, ?_, s3, hall.mono (fun _ h => h.1), hall.mono (fun _ h => h.2), ?_, ?_, ?_, v, ?_⟩
      · have : ∀ c, c < 4 → toyS.m.flushedAt c = 0 := by decide +kernel
        exact fun c hc => this c hc
      · simp only [List.length_append, List.length_cons, List.length_nil, e5]
        decide
      · have : results (x.1 ++ [.act 0 (.store 0xb0 v) 0] ++ [.soft]) = results x.1 := by
          unfold results
          rw [List.filterMap_append, List.filterMap_append]
          simp only [List.filterMap_cons, List.filterMap_nil, List.append_nil]
        rw [this]
        exact e4
      · rw [hreg] at hsame hown
        exact hsame.trans hown
      · show τ.bufs 0 = _
        rw [q3, upd_same]

end Sanctum
