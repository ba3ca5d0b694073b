import Verif.Lemmas.TsoBytes
/-
Property C92: the machine of the test architecture, with bytes, and with store buffers.
-/
namespace Sanctum
open Machine

variable {g : Cfg}

/-- A byte machine that just booted, with nothing waiting. -/
def bootedT (x : ByteMachine) : ByteTConf := ⟨x, fun _ => .idle, fun _ => []⟩

/-- A byte machine that just booted is in the same state as a word machine that just booted, with zero flush times. -/
theorem FromBootB.wordZero {x : ByteMachine} (h : FromBootB g x) : ∃ m, FromBoot g m ∧ RepM g x m ∧ ∀ c, c < g.cores → m.flushedAt c = 0 := by
  obtain ⟨p, x0, hp, hs, hb, hz⟩ := h
  obtain ⟨m0, h0⟩ := same_exists x0
  obtain ⟨m, h1, h2, h3⟩ := (C78_boot p hs h0 g).2 x hb
  have hr0 : RepM { g with dramSize := p.dramSize } x0 m0 := repM_iff.2 ⟨hs, h0⟩
  have hword : ∀ a, a % 8 = 0 → a + 8 ≤ 32 * g.cores → m0.mem a = 0 := fun a ha hlt => by
    rw [← hr0.word ha]
    refine bytes_ext (n := 8) fun i hi => ?_
    refine (leNat_byte x0.buf.byte 8 a i hi).trans ?_
    rw [hz _ (by omega)]
    apply BitVec.eq_of_toNat_eq
    rw [extract_digit]
    simp
  refine ⟨m, ⟨p, m0, hp, h1, fun c hc => ?_⟩, repM_iff.2 ⟨h3, h2⟩, fun c hc => ?_⟩
  · exact hword _ (by unfold coreEnclaveA; omega) (by unfold coreEnclaveA; omega)
  · rw [(C12_cores_not_initialised hp h1 c hc).2]
    exact hword _ (by unfold flushedA; omega) (by unfold flushedA; omega)

theorem repT_start {x : ByteMachine} {m : Machine} (h : RepM g x m) : RepT g (bootedT x) (Conf.settled ⟨m, fun _ => .idle⟩) :=
  ⟨h, rfl, rfl, fun _ o ho => by cases ho⟩

/-- What the machine with bytes and store buffers does, the machine with words and store buffers does. -/
theorem tsteps_of_tstepsB {y : ByteTConf} {t : List Label} {x : ByteMachine} {m : Machine} (hf : Fresh g ⟨m, fun _ => .idle⟩) (hr : RepM g x m) (hs : TStepsB g (bootedT x) t y)
    (hk : OnlyCalls (fun k => CoveredC g k ∧ Orderly k) t) : ∃ τ, TSteps g (Conf.settled ⟨m, fun _ => .idle⟩) t τ ∧ RepT g y τ := by
  have hw := hf.1.wf
  generalize hy : bootedT x = y0 at hs
  induction hs with
  | refl => subst hy; exact ⟨_, .refl _, repT_start hr⟩
  | @tail y1 y2 t l h1 h2 ih =>
      obtain ⟨τ1, q1, q2⟩ := ih hk.prefix
      obtain ⟨s1, p1, p2⟩ := goodT_steps hf q1 hk.prefix
      have hg := good_steps hf p1 (racing_covered hk.prefix)
      rcases Classical.em (l = .soft) with hl | hl
      · subst hl
        cases h2 with
        | soft a v ha =>
            obtain ⟨r1, r2⟩ := q2.soft hw v ha
            exact ⟨_, .tail q1 r1, r2⟩
      · obtain ⟨τ2, r1, r2⟩ := q2.step hw hg p2.cores h2 hl
        exact ⟨τ2, .tail q1 r1, r2⟩
  | @drain y1 y2 t h1 h2 ih =>
      obtain ⟨τ1, q1, q2⟩ := ih hk
      obtain ⟨τ2, r1, r2⟩ := q2.drain h2
      exact ⟨τ2, .drain q1 r1, r2⟩

/-- C92, interleavings, for orderly calls: with bytes and store buffers, the trace is that of an interleaving on words, and once the stores that wait have reached memory, which can
happen at any time, the machine is in that interleaving's state. No core is ever stuck: its call returns, or its next action succeeds, on memory and on what the core sees, without a
failed assertion or a wild access; and no store fails when it reaches memory. -/
theorem C92_no_fault {x : ByteMachine} {y : ByteTConf} {t : List Label} (hb : FromBootB g x) (hs : TStepsB g (bootedT x) t y)
    (hk : OnlyCalls (fun k => CoveredC g k ∧ Orderly k) t) :
    (∃ s s' x', Fresh g s ∧ SameState x s.m ∧ Steps g s t s' ∧ s'.cores = y.cores ∧ TStepsB g y [] ⟨x', y.cores, fun _ => []⟩ ∧ SameState x' s'.m) ∧
    (∀ c k p, y.cores c = .running k p → (∃ v, p = .ret v) ∨ ∃ o f, p = .op o f ∧ (∃ v x', execB g c o y.x = .ok (v, x')) ∧ ∃ v x', execB g c o (y.view g c) = .ok (v, x')) ∧
    ∀ c, ∀ o ∈ y.bufs c, ∃ v x', execB g c o y.x = .ok (v, x') := by
  obtain ⟨m, hf, hr⟩ := hb.word
  have hfr : Fresh g ⟨m, fun _ => .idle⟩ := ⟨hf, fun _ => rfl⟩
  obtain ⟨τ, q1, q2⟩ := tsteps_of_tstepsB hfr hr hs hk
  obtain ⟨s', p1, p2⟩ := goodT_steps hfr q1 hk
  have hg := good_steps hfr p1 (racing_covered hk)
  obtain ⟨y', r1, r2⟩ := q2.drainsB (p2.settles hfr p1 hk)
  have hy : y' = ⟨y'.x, y.cores, fun _ => []⟩ := by
    have h1 := r2.cores
    have h2 := r2.bufs
    have h3 : s'.cores = y.cores := p2.cores.trans q2.cores
    cases y' with
    | mk x' cores bufs =>
        have h1 : s'.cores = cores := h1
        have h2 : (fun _ => []) = bufs := h2
        subst h1 h2
        exact congrArg (fun cs => ByteTConf.mk x' cs fun _ => []) h3
  rw [hy] at r1
  refine ⟨⟨_, s', y'.x, hfr, (repM_iff.1 hr).2, p1, p2.cores.trans q2.cores, r1, (repM_iff.1 r2.rep).2⟩, fun c k p hc => ?_, fun c o ho => ?_⟩
  · rw [← q2.cores, ← p2.cores] at hc
    cases p with
    | ret v => exact Or.inl ⟨v, rfl⟩
    | op o f =>
        obtain ⟨v, m1, h1, -⟩ := hg.act hc
        refine Or.inr ⟨o, f, rfl, ?_, ?_⟩
        · obtain ⟨v, m', h2⟩ := exec_any h1 τ.m
          obtain ⟨x1, h3, -⟩ := execB_rep q2.rep h2
          exact ⟨v, x1, h3⟩
        · obtain ⟨v, m', h2⟩ := exec_any h1 (τ.view g c)
          obtain ⟨x1, h3, -⟩ := execB_rep (q2.view c) h2
          exact ⟨v, x1, h3⟩
    | fault => obtain ⟨h1, h2, h3, m, h4, h5⟩ := hg.safe c k _ hc; exact h5.elim
    | diverge => obtain ⟨h1, h2, h3, m, h4, h5⟩ := hg.safe c k _ hc; exact h5.elim
  · rw [← q2.bufs] at ho
    have h1 := q2.ok c o ho τ.m
    cases he : exec g c o τ.m with
    | none => rw [he] at h1; cases h1
    | some z =>
        obtain ⟨x1, h3, -⟩ := execB_rep q2.rep (show exec g c o τ.m = some (z.1, z.2) from he)
        exact ⟨z.1, x1, h3⟩

/-! ### The serial machine -/

/-- What the machine with bytes and store buffers, the two machines with words and the serial machines have done so far. -/
structure Follows (g : Cfg) (s0 : Conf) (x : ByteMachine) (t : List Label) (hist : List SeenByte) (y : ByteTConf) (s : Conf) (τ : TConf) (S : SerialState) (z : ByteMachine) : Prop where
  steps : Steps g s0 t s
  rep : RepT g y τ
  goodT : GoodT g t τ s
  goodS : GoodS g t τ s
  sim : ∃ K, Sim g t K s S
  serial : RepM g z S.m
  run : SerialRunB g ⟨fun _ => .idle, x⟩ hist ⟨S.phase, z⟩

theorem follows {x : ByteMachine} {m : Machine} {y : ByteTConf} {t : List Label} {hist : List SeenByte} (h : Fresh g ⟨m, fun _ => .idle⟩) (hfl : ∀ c, c < g.cores → m.flushedAt c = 0)
    (hr : RepM g x m) (hs : SeenTB g (bootedT x) t hist y) (hkn : OnlyCalls (fun k => CoveredC g k ∧ Lockwise k) t) (hlen : t.length < 2 ^ 64) :
    ∃ s τ S z, Follows g ⟨m, fun _ => .idle⟩ x t hist y s τ S z := by
  have hw := h.1.wf
  have h8 := top_mod8 hw
  have hclk : m.clock g = 0 := (fresh_goodL h hfl).clocks.clock
  have hrest : Rested g m := fun i hi => by
    obtain ⟨⟨p, m0, hp, hb, -⟩, -⟩ := h
    exact (C12_boot_state hp hb).unlocked i hi
  generalize hy : bootedT x = y0 at hs
  induction hs with
  | refl =>
      subst hy
      refine ⟨_, _, ⟨fun _ => .idle, m⟩, x, .refl _, repT_start hr, GoodT.start_ h, GoodS.start_ h, ⟨fun _ => noL, hrest, fun _ _ _ => rfl, fun c => .idle rfl, ⟨?_, ?_, fun j w _ hh => by cases hh⟩,
        fun c i _ => ⟨False.elim, False.elim⟩, fun c i hh => hh.elim⟩, hr, .refl _⟩
      · rw [hclk]; exact Nat.zero_le _
      · intro j hj; rw [hfl j hj]; exact Nat.zero_le _
  | @step y1 y2 t hist l h1 h2 h3 ih =>
      have hlen' : t.length + 1 < 2 ^ 64 := by simpa using hlen
      obtain ⟨s, τ, S, z, f⟩ := ih hkn.prefix (by omega)
      have hkp := lockwise_only hkn.prefix
      have hg := good_steps h f.steps (racing_covered hkp)
      obtain ⟨τ2, r1, r2⟩ := f.rep.step hw hg f.goodT.cores h2 h3
      obtain ⟨s2, p1, p2⟩ := f.goodT.step h f.steps (lockwise_only hkn) r1
      obtain ⟨K, hK⟩ := f.sim
      obtain ⟨S2, K2, e1, e2⟩ := hK.step hw hg (fun c k hm => (hkn.prefix c k hm).2.noLeak) hlen' (fun c k hl hc => by
        subst hl
        obtain ⟨k1, k2⟩ := hkn c k (List.mem_append_right _ List.mem_cons_self)
        exact (Classical.em (k = .flushCachedDramRegions)).imp id fun hne => two_call hw c k hc k1 k2 hne) p1 h3
      obtain ⟨z2, e3, e4⟩ := serialRunB_rep hw e1 rfl f.serial
      exact ⟨s2, τ2, S2, z2, f.steps.tail p1, r2, p2, f.goodS.step h f.steps hkn f.goodT r1 p1 p2, ⟨K2, e2⟩, e4, f.run.trans e3⟩
  | @drain y1 y2 t hist h1 h2 ih =>
      obtain ⟨s, τ, S, z, f⟩ := ih hkn hlen
      have hg := good_steps h f.steps (racing_covered (lockwise_only hkn))
      obtain ⟨τ2, r1, r2⟩ := f.rep.drain h2
      exact ⟨s, τ2, S, z, f.steps, r2, f.goodT.drain hw hg r1, f.goodS.drain hw hg f.goodT r1, f.sim, f.serial, f.run⟩
  | @load y1 t hist a h1 h2 h3 ih =>
      obtain ⟨s, τ, S, z, f⟩ := ih hkn hlen
      obtain ⟨K, hK⟩ := f.sim
      rw [f.rep.rep.ownerOf hw, ← regionOf_word] at h3
      have ha : g.monitorTop.toNat ≤ a / 8 * 8 := by omega
      obtain ⟨_, r2, r3, r4⟩ := f.goodS.access hw f.goodT ha h3
      have hm : S.m.mem (a / 8 * 8) = s.m.mem (a / 8 * 8) := hK.eq (.word _) (page_not_lock hw ha) fun c => hK.page_free ha r3 r4 c
      have hb : z.buf.byte a = y1.x.buf.byte a := by rw [f.serial.byte, f.rep.rep.byte, hm, r2]
      have hrun := f.run.load a
      rw [show (SerialStateB.mk S.phase z).x.buf.byte a = y1.x.buf.byte a from hb] at hrun
      exact ⟨s, τ, S, z, f.steps, f.rep, f.goodT, f.goodS, f.sim, f.serial, hrun⟩
  | @store y1 t hist a v h1 h2 h3 ih =>
      have hlen' : t.length + 1 < 2 ^ 64 := by simpa using hlen
      obtain ⟨s, τ, S, z, f⟩ := ih hkn.prefix (by omega)
      obtain ⟨K, hK⟩ := f.sim
      rw [f.rep.rep.ownerOf hw, ← regionOf_word] at h3
      have ha : g.monitorTop.toNat ≤ a / 8 * 8 := by omega
      obtain ⟨_, r2, r3, r4⟩ := f.goodS.access hw f.goodT ha h3
      have hm : S.m.mem (a / 8 * 8) = s.m.mem (a / 8 * 8) := hK.eq (.word _) (page_not_lock hw ha) fun c => hK.page_free ha r3 r4 c
      have hwp : z.wordPut a v = y1.x.wordPut a v := wordPut_congr v fun b hb => by rw [f.serial.byte, f.rep.rep.byte, hb, hm, r2]
      obtain ⟨r1, r5⟩ := f.rep.soft hw v h2
      obtain ⟨s2, p1, p2⟩ := f.goodT.step h f.steps (lockwise_only hkn) r1
      have he := f.goodS.put hw h f.steps hkn.prefix f.goodT ha h3 p2
      have p3 := f.goodS.step h f.steps hkn f.goodT r1 p1 p2
      have hz := f.serial.put a v
      rw [hwp] at hz
      subst he
      exact ⟨_, _, { S with m := S.m.put (a / 8 * 8) (y1.x.wordPut a v) }, z.put a v, f.steps.tail p1, r5, p2, p3, ⟨K, hK.store hw _ ha r3 r4⟩, hz, f.run.store a v⟩

/-- C92. Whatever software sees, since boot, of covered calls, that use what other calls use under its locks, on cores with store buffers and memory of bytes, and of its own loads and
stores of bytes in the regions that are the OS's according to memory, it can see of an execution of the serial machine with bytes from the same state. The same cores are in a call, and the
memory of the OS has the same contents. -/
theorem C92_serial {x : ByteMachine} {y : ByteTConf} {t : List Label} {hist : List SeenByte} (hb : FromBootB g x) (hs : SeenTB g (bootedT x) t hist y)
    (hk : OnlyCalls (CoveredC g) t) (hn : OnlyCalls Lockwise t) (hlen : t.length < 2 ^ 64) :
    ∃ S, SerialRunB g ⟨fun _ => .idle, x⟩ hist S ∧ (∀ c, S.phase c = .idle ↔ y.cores c = .idle) ∧
      ∀ a, g.monitorTop.toNat ≤ a → y.x.ownerOf g a = nullEnclaveId → S.x.buf.byte a = y.x.buf.byte a := by
  obtain ⟨m, hf, hr, hfl⟩ := hb.wordZero
  have hfr : Fresh g ⟨m, fun _ => .idle⟩ := ⟨hf, fun _ => rfl⟩
  have hw := hf.wf
  obtain ⟨s, τ, S, z, f⟩ := follows hfr hfl hr hs (fun c k hm => ⟨hk c k hm, hn c k hm⟩) hlen
  obtain ⟨K, hK⟩ := f.sim
  have hm := hK.matches hfr f.steps hk hn
  refine ⟨_, f.run, fun c => ?_, fun a ha ho => ?_⟩
  · rw [← f.rep.cores, ← f.goodT.cores]
    exact hm.idle c
  · have h8 := top_mod8 hw
    rw [f.rep.rep.ownerOf hw, ← regionOf_word] at ho
    have ha : g.monitorTop.toNat ≤ a / 8 * 8 := by omega
    obtain ⟨_, r2, r3, r4⟩ := f.goodS.access hw f.goodT ha ho
    rw [f.rep.rep.byte, f.serial.byte, hm.software _ ha r3 r4, r2]

/-- When no call is in progress, nothing waits, and the machines have the same bytes and registers. -/
theorem C92_quiet {x : ByteMachine} {y : ByteTConf} {t : List Label} {hist : List SeenByte} (hb : FromBootB g x) (hs : SeenTB g (bootedT x) t hist y)
    (hk : OnlyCalls (CoveredC g) t) (hn : OnlyCalls Lockwise t) (hlen : t.length < 2 ^ 64) (hq : ∀ c, y.cores c = .idle) :
    (∀ c, y.bufs c = []) ∧ ∃ S, SerialRunB g ⟨fun _ => .idle, x⟩ hist S ∧ S.x.Same y.x ∧ ∀ c, S.phase c = .idle := by
  obtain ⟨m, hf, hr, hfl⟩ := hb.wordZero
  have hfr : Fresh g ⟨m, fun _ => .idle⟩ := ⟨hf, fun _ => rfl⟩
  obtain ⟨s, τ, S, z, f⟩ := follows hfr hfl hr hs (fun c k hm => ⟨hk c k hm, hn c k hm⟩) hlen
  obtain ⟨K, hK⟩ := f.sim
  have hm := hK.matches hfr f.steps hk hn
  have hq' : ∀ c, s.cores c = .idle := fun c => by rw [f.goodT.cores, f.rep.cores]; exact hq c
  have hbuf : ∀ c, τ.bufs c = [] := fun c => f.goodT.idle c (hq' c)
  have hmm : s.m = τ.m := machine_ext (fun l => by
    have := f.goodT.sees 0 l (fun c' _ o ho => by rw [hbuf c'] at ho; cases ho)
    rw [this]
    unfold TConf.view
    rw [hbuf 0]; rfl) f.goodT.rest
  refine ⟨fun c => by rw [← f.rep.bufs]; exact hbuf c, _, f.run, ?_, fun c => (hm.idle c).2 (hq' c)⟩
  have h1 := f.serial
  rw [hm.quiet hq', hmm] at h1
  exact h1.same f.rep.rep

/-! ### The witness -/

/-- The machine with bytes can do what the machine with words and store buffers does (software's stores left out). -/
theorem RepT.stepB {y : ByteTConf} {τ τ' : TConf} {l : Label} (h : RepT g y τ) (hl : TStep g τ (some l) τ') (hns : l ≠ .soft) : ∃ y', TStepB g y (some l) y' ∧ RepT g y' τ' := by
  cases hl with
  | @start c k hlt hidle =>
      rw [h.cores] at hidle
      exact ⟨_, .start k hlt hidle, h.rep, by show upd τ.cores c _ = upd y.cores c _; rw [h.cores], h.bufs, h.ok⟩
  | @delay c k o f v m' hrun hd hex =>
      rw [h.cores] at hrun
      obtain ⟨x1, h2, h3⟩ := execB_rep (h.view c) hex
      refine ⟨_, .delay hrun hd h2, h.rep, by show upd τ.cores c _ = upd y.cores c _; rw [h.cores], by show upd τ.bufs c _ = upd y.bufs c _; rw [h.bufs], fun c' => ?_⟩
      show AllOps g c' (upd τ.bufs c (τ.bufs c ++ [o]) c')
      by_cases hcc : c' = c
      · subst hcc
        rw [upd_same]
        intro o' ho'
        rcases List.mem_append.1 ho' with ho' | ho'
        · exact h.ok c' o' ho'
        · rw [List.mem_singleton.1 ho']
          intro m
          obtain ⟨_, _, h4⟩ := exec_any hex m
          rw [h4]; rfl
      · rw [upd_ne _ _ hcc]; exact h.ok c'
  | @fenced c k o f v m' hrun hd hb hex =>
      rw [h.cores] at hrun
      rw [h.bufs] at hb
      obtain ⟨x1, h2, h3⟩ := execB_rep h.rep hex
      exact ⟨_, .fenced hrun hd hb h2, h3, by show upd τ.cores c _ = upd y.cores c _; rw [h.cores], h.bufs, h.ok⟩
  | @fetch c k o f v m' hrun hd hex =>
      rw [h.cores] at hrun
      obtain ⟨x1, h2, h3⟩ := execB_rep (h.view c) hex
      exact ⟨_, .fetch hrun hd h2, h.rep, by show upd τ.cores c _ = upd y.cores c _; rw [h.cores], h.bufs, h.ok⟩
  | @own c k o f v m' hrun hd hex =>
      rw [h.cores] at hrun
      obtain ⟨x1, h2, h3⟩ := execB_rep h.rep hex
      exact ⟨_, .own hrun hd h2, h3, by show upd τ.cores c _ = upd y.cores c _; rw [h.cores], h.bufs, h.ok⟩
  | @done c k v hrun =>
      rw [h.cores] at hrun
      exact ⟨_, .done hrun, h.rep, by show upd τ.cores c _ = upd y.cores c _; rw [h.cores], h.bufs, h.ok⟩
  | soft ha => exact absurd rfl hns

theorem SeenT.bytes {τ τ' : TConf} {t : List Label} {hist : List Seen} (hs : SeenT g τ t hist τ') {ls : List Label} (he : hist = ls.map .call) {y : ByteTConf} (h : RepT g y τ) :
    ∃ y', SeenTB g y t (ls.map .call) y' ∧ RepT g y' τ' := by
  induction hs generalizing ls with
  | refl =>
      cases ls with
      | nil => exact ⟨y, .refl _, h⟩
      | cons l ls => cases he
  | @step τ1 τ2 t hist l h1 h2 h3 ih =>
      obtain ⟨l1, l2, rfl, e1, e2⟩ := List.map_eq_append_iff.1 he.symm
      obtain ⟨y1, q1, q2⟩ := ih e1.symm
      obtain ⟨y2, q3, q4⟩ := q2.stepB h2 h3
      have hl : l2 = observed [l] := (List.map_inj_right fun a b hab => Seen.call.inj hab).1 e2
      subst hl
      rw [List.map_append]
      exact ⟨y2, q1.step q3 h3, q4⟩
  | drain h1 h2 ih =>
      obtain ⟨y1, q1, q2⟩ := ih he
      obtain ⟨y2, q3, q4⟩ := q2.drainB h2
      exact ⟨y2, q1.drain q3, q4⟩
  | load a h1 h2 h3 ih => exact (calls_nil_of_last (fun l hh => by cases hh) he).elim
  | store a v h1 h2 h3 ih => exact (calls_nil_of_last (fun l hh => by cases hh) he).elim

/-- The hypotheses of C92 are met, by an execution in which another core found the region in use, the store that says that the region is blocked waits, and the OS stores a byte in
the region and loads what it stored. -/
example : ∃ x t h1 y, FromBootB toyG x ∧ SeenTB toyG (bootedT x) t (h1 ++ [.store 0x800b 7] ++ [.load 0x800b 7]) y ∧ OnlyCalls (CoveredC toyG) t ∧ OnlyCalls Lockwise t ∧
    t.length < 2 ^ 64 ∧ results t = [(1, stateLocked)] ∧ ∃ v, y.bufs 0 = [.store 0xb0 v] := by
  have h := buffer_plays
  obtain ⟨x, hb, hsame⟩ := toy_fromBootB
  obtain ⟨m0, -, hr0⟩ := hb.word
  have hr : RepM toyG x toyM := repM_iff.2 ⟨hr0.mem.size, hsame⟩
  cases hp : play toyG bufferMoves toyS with
  | none => rw [hp] at h; cases h
  | some z =>
      rw [hp] at h
      simp only [Option.map_some, Option.some.injEq, Prod.mk.injEq, Bool.and_eq_true, decide_eq_true_eq] at h
      obtain ⟨e1, e2, ⟨e3, e5⟩, e4⟩ := h
      obtain ⟨v, hn⟩ := next_of_store e1
      obtain ⟨τ, q1, q2, q3, q4⟩ := delay_next hn owner_plain_toy (by simp only [exec]; rw [if_pos (by decide)]; rfl)
      have hc := play_onlyCalls bufferMoves buffer_calls hp
      have s0 := (play_steps _ hp).seenT (callsOnly_iff e3)
      obtain ⟨y1, w1, w2⟩ := s0.bytes rfl (repT_start hr)
      obtain ⟨y2, w3, w4⟩ := w2.stepB q1 (by intro hh; cases hh)
      have s1 := w1.step w3 (by intro hh; cases hh)
      have hw : toyG.WF := toyS_fresh.1.wf
      have htop : toyG.monitorTop.toNat ≤ 0x800b := by decide +kernel
      have hreg : regionOf toyG 0x800b = 1 := by decide +kernel
      have hown : y2.x.ownerOf toyG 0x800b = nullEnclaveId := by rw [w4.rep.ownerOf hw, hreg, q2]; exact e2
      have s2 := s1.store 0x800b 7 htop hown
      have w5 := (w4.soft hw 7 htop).2
      have hown2 : (y2.x.put 0x800b 7).ownerOf toyG 0x800b = nullEnclaveId := by
        refine (w5.rep.ownerOf hw _).trans ?_
        rw [hreg]
        show upd τ.m.mem (0x800b / 8 * 8) (y2.x.wordPut 0x800b 7) (ownerA toyG 1) = _
        rw [upd_ne _ _ (show ownerA toyG 1 ≠ 0x800b / 8 * 8 by decide +kernel), q2]
        exact e2
      have s3 := s2.load 0x800b htop hown2
      rw [show (ByteTConf.mk (y2.x.put 0x800b 7) y2.cores y2.bufs).x.buf.byte 0x800b = 7 from upd_same y2.x.buf.byte 0x800b 7] at s3
      have hall : OnlyCalls (fun k => CoveredC toyG k ∧ Lockwise k) (z.1 ++ [.act 0 (.store 0xb0 v) 0] ++ [.soft]) := fun c k hm => by
        simp only [List.mem_append, List.mem_cons, List.not_mem_nil, or_false, reduceCtorEq] at hm
        exact hc c k hm
      refine ⟨x, _, _, _, hb, s3, hall.mono (fun _ h => h.1), hall.mono (fun _ h => h.2), ?_, ?_, v, ?_⟩
      · simp only [List.length_append, List.length_cons, List.length_nil, e5]
        decide
      · have : results (z.1 ++ [.act 0 (.store 0xb0 v) 0] ++ [.soft]) = results z.1 := by
          unfold results
          rw [List.filterMap_append, List.filterMap_append]
          simp only [List.filterMap_cons, List.filterMap_nil, List.append_nil]
        rw [this]
        exact e4
      · show y2.bufs 0 = _
        rw [← w4.bufs, q3, upd_same]

end Sanctum
