import Verif.Lemmas.Bytes
import Verif.Spec.Bytes
import Verif.Props.Conc
/-
C78: everything proved of the word machine holds of the machine of the test architecture, whose memory is an array of bytes.
-/
namespace Sanctum
open Machine

variable {g : Cfg}

theorem sameState_iff {x : ByteMachine} {m : Machine} : SameState x m ↔
    (∀ a, x.buf.byte a = (m.mem (a / 8 * 8)).extractLsb' (8 * (a % 8)) 8) ∧ { x.regs with mem := m.mem } = m := by
  cases m with
  | mk mem a1 a2 a3 a4 a5 a6 a7 a8 a9 a10 =>
      constructor
      · rintro ⟨h1, h2, h3⟩
        refine ⟨h1, ?_⟩
        simp only [Machine.mk.injEq, true_and]
        exact ⟨h2.1, h2.2.1, h2.2.2.1, h2.2.2.2, h3.1, h3.2.1, h3.2.2.1, h3.2.2.2.1, h3.2.2.2.2.1, h3.2.2.2.2.2⟩
      · rintro ⟨h1, h2⟩
        simp only [Machine.mk.injEq, true_and] at h2
        exact ⟨h1, ⟨h2.1, h2.2.1, h2.2.2.1, h2.2.2.2.1⟩, h2.2.2.2.2⟩

theorem repM_iff {x : ByteMachine} {m : Machine} : RepM g x m ↔ x.buf.size = g.dramSize ∧ SameState x m := by
  rw [sameState_iff]
  exact ⟨fun h => ⟨h.mem.size, h.mem.bytes, h.regs⟩, fun h => ⟨⟨h.1, h.2.1⟩, h.2.2⟩⟩

/-- Every byte machine is in the same state as some word machine. -/
theorem same_exists (x : ByteMachine) : ∃ m, SameState x m := by
  refine ⟨{ x.regs with mem := fun a => BitVec.ofNat 64 (leNat x.buf.byte a 8) }, sameState_iff.2 ⟨fun a => ?_, rfl⟩⟩
  have := leNat_byte x.buf.byte 8 (a / 8 * 8) (a % 8) (by omega)
  rw [show a / 8 * 8 + a % 8 = a by omega] at this
  exact this.symm

/-- C78, programs: every piece of monitor code that ends on the word machine ends with the same result on the byte machine, without failed
assertions or wild accesses. -/
theorem C78_programs {α : Type} (c : Nat) (p : Prog α) {x : ByteMachine} {m m' : Machine} {v : α} (hs : x.buf.size = g.dramSize)
    (h : SameState x m) (hr : run g c p m = some (v, m')) : ∃ x', runB g c p x = .ok (v, x') ∧ SameState x' m' ∧ x'.buf.size = g.dramSize := by
  obtain ⟨x', h1, h2⟩ := runB_rep p (repM_iff.2 ⟨hs, h⟩) hr
  have := repM_iff.1 h2
  exact ⟨x', h1, this.2, this.1⟩

theorem layout_dram (p : Platform) (g : Cfg) : (bootLayout p (bootInitMetadata g)).dramSize = g.dramSize := by
  unfold bootInitMetadata
  dsimp only
  split <;> rfl

theorem RepM.dram {g g' : Cfg} (hg : g'.dramSize = g.dramSize) {x : ByteMachine} {m : Machine} (h : RepM g x m) : RepM g' x m :=
  ⟨⟨by rw [hg]; exact h.mem.size, h.mem.bytes⟩, h.regs⟩

/-- The second half of boot, once the configuration `g1` is computed. -/
theorem boot_rest (g1 : Cfg) (s : W) (l1 : g1.regionBase.toNat % 8 = 0) (l2 : g1.regionsBase.toNat % 8 = 0) (l3 : g1.osBitmap.toNat % 8 = 0)
    {x : ByteMachine} {m : Machine} (hr : RepM g1 x m) (top : W) :
    (∀ m1 m2, bootRun g1 (do act_ (.setCacheShift s); bootArrays g1) m = .ok m1 →
      bootRun { g1 with monitorTop := top } (bootProtection { g1 with monitorTop := top } top) m1 = .ok m2 →
      ∃ x1 x2, bootRunB g1 (do act_ (.setCacheShift s); bootArrays g1) x = .ok x1 ∧
        bootRunB { g1 with monitorTop := top } (bootProtection { g1 with monitorTop := top } top) x1 = .ok x2 ∧ RepM { g1 with monitorTop := top } x2 m2) ∧
    (∀ x1 x2, bootRunB g1 (do act_ (.setCacheShift s); bootArrays g1) x = .ok x1 →
      bootRunB { g1 with monitorTop := top } (bootProtection { g1 with monitorTop := top } top) x1 = .ok x2 →
      ∃ m1 m2, bootRun g1 (do act_ (.setCacheShift s); bootArrays g1) m = .ok m1 ∧
        bootRun { g1 with monitorTop := top } (bootProtection { g1 with monitorTop := top } top) m1 = .ok m2 ∧ RepM { g1 with monitorTop := top } x2 m2) := by
  generalize hg : ({ g1 with monitorTop := top } : Cfg) = g2
  have hd : g2.dramSize = g1.dramSize := by rw [← hg]
  have l3' : g2.osBitmap.toNat % 8 = 0 := by rw [← hg]; exact l3
  constructor
  · intro m1 m2 h1 h2
    unfold bootRun at h1 h2
    split at h1
    · rename_i m1' hrun
      cases h1
      split at h2
      · rename_i m2' hrun2
        cases h2
        obtain ⟨x1, q1, q2⟩ := runB_rep _ hr hrun
        obtain ⟨x2, q3, q4⟩ := runB_rep _ (q2.dram hd) hrun2
        exact ⟨x1, x2, by unfold bootRunB; rw [q1], by unfold bootRunB; rw [q3], q4⟩
      · cases h2
    · cases h1
  · intro x1 x2 h1 h2
    unfold bootRunB at h1 h2
    split at h1
    · rename_i x1' hrun
      cases h1
      split at h2
      · rename_i x2' hrun2
        cases h2
        obtain ⟨m1, q1, q2⟩ := run_of_runB _ hr (aligned_bind (al_act (o := .setCacheShift s) trivial) fun _ => al_arrays l1 l2 l3) hrun
        obtain ⟨m2, q3, q4⟩ := run_of_runB _ (q2.dram hd) (al_protection l3' top) hrun2
        exact ⟨m1, m2, by unfold bootRun; rw [q1], by unfold bootRun; rw [q3], q4⟩
      · cases h2
    · cases h1

attribute [local irreducible] bootRun bootRunB ceilPowerOfTwo bootLayout bootInitMetadata bootArrays bootProtection bootInitDramRegions

/-- What boot does with the configuration `g1`, on the word machine. -/
def bootTail (g1 : Cfg) (s : W) (m : Machine) : Boot (Cfg × Machine) :=
  Boot.bind (bootRun g1 (do act_ (.setCacheShift s); bootArrays g1) m) fun m1 =>
    match ceilPowerOfTwo g1.monitorTop with
    | none => .ub
    | some top =>
        if top > g1.stripeSize then .panic
        else Boot.bind (bootRun { g1 with monitorTop := top } (bootProtection { g1 with monitorTop := top } top) m1) fun m2 =>
          .ok ({ g1 with monitorTop := top }, m2)

/-- What boot does with the configuration `g1`, on the byte machine. -/
def bootTailB (g1 : Cfg) (s : W) (x : ByteMachine) : Boot (Cfg × ByteMachine) :=
  Boot.bind (bootRunB g1 (do act_ (.setCacheShift s); bootArrays g1) x) fun x1 =>
    match ceilPowerOfTwo g1.monitorTop with
    | none => .ub
    | some top =>
        if top > g1.stripeSize then .panic
        else Boot.bind (bootRunB { g1 with monitorTop := top } (bootProtection { g1 with monitorTop := top } top) x1) fun x2 =>
          .ok ({ g1 with monitorTop := top }, x2)

theorem boot_tail (p : Platform) (m : Machine) : boot p m = Boot.bind (bootInitDramRegions p) fun y => bootTail (bootLayout p (bootInitMetadata y.1)) y.2 m := by
  unfold boot bootTail
  cases bootInitDramRegions p with
  | ok y => obtain ⟨g0, s⟩ := y; rfl
  | panic => rfl
  | ub => rfl
  | fault => rfl

theorem bootB_tail (p : Platform) (x : ByteMachine) : bootB p x = Boot.bind (bootInitDramRegions p) fun y => bootTailB (bootLayout p (bootInitMetadata y.1)) y.2 x := by
  unfold bootB bootTailB
  cases bootInitDramRegions p with
  | ok y => obtain ⟨g0, s⟩ := y; rfl
  | panic => rfl
  | ub => rfl
  | fault => rfl

/-- C78, boot: the byte machine boots if and only if the word machine does, with the same configuration and into the same state. -/
theorem C78_boot (p : Platform) {x : ByteMachine} {m : Machine} (hs : x.buf.size = p.dramSize) (h : SameState x m) (g : Cfg) :
    (∀ m', boot p m = .ok (g, m') → ∃ x', bootB p x = .ok (g, x') ∧ SameState x' m' ∧ x'.buf.size = g.dramSize) ∧
    (∀ x', bootB p x = .ok (g, x') → ∃ m', boot p m = .ok (g, m') ∧ SameState x' m' ∧ x'.buf.size = g.dramSize) := by
  have hdram : ∀ {g0 s}, bootInitDramRegions p = .ok (g0, s) → (bootLayout p (bootInitMetadata g0)).dramSize = p.dramSize := by
    intro g0 s h0
    obtain ⟨lb, sb, -, -, -, -, -, -, -, -, -, -, -, -, -, -, -, -, -, -, -, hh, -⟩ := bootInitDramRegions_ok h0
    rw [layout_dram]
    exact hh
  rw [boot_tail, bootB_tail]
  cases h0 : bootInitDramRegions p with
  | panic => exact ⟨fun _ hb => (by cases hb), fun _ hb => (by cases hb)⟩
  | ub => exact ⟨fun _ hb => (by cases hb), fun _ hb => (by cases hb)⟩
  | fault => exact ⟨fun _ hb => (by cases hb), fun _ hb => (by cases hb)⟩
  | ok y =>
      obtain ⟨g0, s⟩ := y
      have hd := hdram h0
      obtain ⟨l1, l2, l3⟩ := layout_aligned p (bootInitMetadata g0)
      show (∀ m', bootTail (bootLayout p (bootInitMetadata g0)) s m = _ → ∃ x', bootTailB (bootLayout p (bootInitMetadata g0)) s x = _ ∧ _) ∧
        ∀ x', bootTailB (bootLayout p (bootInitMetadata g0)) s x = _ → ∃ m', bootTail (bootLayout p (bootInitMetadata g0)) s m = _ ∧ _
      generalize bootLayout p (bootInitMetadata g0) = g1 at hd l1 l2 l3
      have hr : RepM g1 x m := repM_iff.2 ⟨by rw [hd]; exact hs, h⟩
      unfold bootTail bootTailB
      cases htop : ceilPowerOfTwo g1.monitorTop with
      | none => exact ⟨fun _ hb => (by obtain ⟨_, -, hb⟩ := boot_bind_ok hb; cases hb), fun _ hb => (by obtain ⟨_, -, hb⟩ := boot_bind_ok hb; cases hb)⟩
      | some top =>
          dsimp only
          by_cases hle : top > g1.stripeSize
          · simp only [if_pos hle]
            exact ⟨fun _ hb => (by obtain ⟨_, -, hb⟩ := boot_bind_ok hb; cases hb), fun _ hb => (by obtain ⟨_, -, hb⟩ := boot_bind_ok hb; cases hb)⟩
          · simp only [if_neg hle]
            have hrest := boot_rest g1 s l1 l2 l3 hr top
            refine ⟨fun m' hb => ?_, fun x' hb => ?_⟩
            · obtain ⟨m1, h1, hb⟩ := boot_bind_ok hb
              obtain ⟨m2, h2, hb⟩ := boot_bind_ok hb
              obtain ⟨x1, x2, q1, q2, q3⟩ := hrest.1 m1 m2 h1 h2
              obtain ⟨hg, rfl⟩ := Prod.mk.inj (Boot.ok.inj hb)
              rw [hg] at q3
              have q4 := repM_iff.1 q3
              exact ⟨x2, by rw [q1]; show Boot.bind (bootRunB _ _ x1) _ = _; rw [q2]; show Boot.ok (_, x2) = _; rw [hg], q4.2, q4.1⟩
            · obtain ⟨x1, h1, hb⟩ := boot_bind_ok hb
              obtain ⟨x2, h2, hb⟩ := boot_bind_ok hb
              obtain ⟨m1, m2, q1, q2, q3⟩ := hrest.2 x1 x2 h1 h2
              obtain ⟨hg, rfl⟩ := Prod.mk.inj (Boot.ok.inj hb)
              rw [hg] at q3
              have q4 := repM_iff.1 q3
              exact ⟨m2, by rw [q1]; show Boot.bind (bootRun _ _ m1) _ = _; rw [q2]; show Boot.ok (_, m2) = _; rw [hg], q4.2, q4.1⟩

/-- A byte machine that just booted is in the same state as a word machine that just booted. -/
theorem FromBootB.word {x : ByteMachine} (h : FromBootB g x) : ∃ m, FromBoot g m ∧ RepM g x m := by
  obtain ⟨p, x0, hp, hs, hb, hz⟩ := h
  obtain ⟨m0, h0⟩ := same_exists x0
  obtain ⟨m, h1, h2, h3⟩ := (C78_boot p hs h0 g).2 x hb
  refine ⟨m, ⟨p, m0, hp, h1, fun c hc => ?_⟩, repM_iff.2 ⟨h3, h2⟩⟩
  show m0.mem (coreEnclaveA c) = 0
  refine bytes_ext (n := 8) fun i hi => ?_
  have h4 := h0.bytes (coreEnclaveA c + i)
  rw [show (coreEnclaveA c + i) / 8 * 8 = coreEnclaveA c by unfold coreEnclaveA; omega, show (coreEnclaveA c + i) % 8 = i by unfold coreEnclaveA; omega,
    hz _ (by unfold coreEnclaveA; omega)] at h4
  rw [← h4]
  apply BitVec.eq_of_toNat_eq
  rw [extract_digit]
  simp

/-- What the byte machine does in an interleaving, the word machine does. -/
theorem steps_of_stepsB (hw : g.WF) {y y' : ByteConf} {t : List Label} (hs : StepsB g y t y') {m : Machine} (hf : Fresh g ⟨m, y.cores⟩) (h : RepM g y.x m)
    (hk : OnlyCalls (CoveredC g) t) : ∃ s', Steps g ⟨m, y.cores⟩ t s' ∧ s'.cores = y'.cores ∧ RepM g y'.x s'.m := by
  induction hs with
  | refl => exact ⟨_, .refl _, rfl, h⟩
  | @tail y1 y2 t l hs hl ih =>
      obtain ⟨s1, q1, q2, q3⟩ := ih hk.prefix
      have hgood := good_steps hf q1 hk.prefix
      cases hl with
      | @start c k hlt hidle =>
          rw [← q2] at hidle
          exact ⟨_, q1.tail (Step.start k hlt hidle), by show upd s1.cores c _ = upd y1.cores c _; rw [q2], q3⟩
      | @act c k o f v x' hrun hex =>
          rw [← q2] at hrun
          obtain ⟨w, m1, h1, -⟩ := hgood.act hrun
          obtain ⟨x1, h2, h3⟩ := execB_rep q3 h1
          rw [hex] at h2
          obtain ⟨rfl, rfl⟩ := Prod.mk.inj (Out.ok.inj h2)
          exact ⟨_, q1.tail (Step.act hrun h1), by show upd s1.cores c _ = upd y1.cores c _; rw [q2], h3⟩
      | @done c k v hrun =>
          rw [← q2] at hrun
          exact ⟨_, q1.tail (Step.done hrun), by show upd s1.cores c _ = upd y1.cores c _; rw [q2], q3⟩
      | @soft a v ha =>
          have h8 : g.monitorTop.toNat % 8 = 0 := by
            obtain ⟨n, hn⟩ := hw.top_pow
            have h1 := hw.arrays_le
            have h2 := hw.osBitmap
            have h3 := hw.regionsBase
            have h4 := hw.regionBase
            have h5 := hw.cores_pos
            rw [hn] at h1 ⊢
            have h6 : 3 ≤ n := by
              rcases Nat.lt_or_ge n 3 with h | h
              · have : 2 ^ n ≤ 2 ^ 3 := Nat.pow_le_pow_right (by decide) (by omega)
                omega
              · exact h
            rw [show n = 3 + (n - 3) by omega, Nat.pow_add]
            omega
          let f := upd y1.x.buf.byte a v
          let w : W := BitVec.ofNat 64 (leNat f (a / 8 * 8) 8)
          refine ⟨_, q1.tail (Step.soft (m' := { s1.m with mem := upd s1.m.mem (a / 8 * 8) w }) ⟨a / 8 * 8, w, by omega, rfl⟩), q2, ?_⟩
          refine repM_buf q3 ⟨q3.mem.size, fun b => ?_⟩
          show f b = (upd s1.m.mem (a / 8 * 8) w (b / 8 * 8)).extractLsb' (8 * (b % 8)) 8
          by_cases hb : b / 8 * 8 = a / 8 * 8
          · rw [hb, upd_same]
            have := leNat_byte f 8 (a / 8 * 8) (b % 8) (by omega)
            rw [show a / 8 * 8 + b % 8 = b by omega] at this
            exact this.symm
          · rw [upd_ne _ _ hb]
            have hba : b ≠ a := fun hh => hb (by rw [hh])
            exact (upd_ne _ _ hba).trans (q3.mem.bytes b)

/-- C78, interleavings: a trace of the byte machine since boot is a trace of the word machine since boot, which ends in the same state; and
no core is ever stuck: its call returns, or its next action succeeds, without a failed assertion or a wild access. -/
theorem C78_interleavings {x : ByteMachine} {y' : ByteConf} {t : List Label} (hb : FromBootB g x) (hs : StepsB g ⟨x, fun _ => .idle⟩ t y')
    (hk : OnlyCalls (CoveredC g) t) :
    (∃ s s', Fresh g s ∧ SameState x s.m ∧ Steps g s t s' ∧ s'.cores = y'.cores ∧ SameState y'.x s'.m) ∧
    ∀ c k p, y'.cores c = .running k p → (∃ v, p = .ret v) ∨ ∃ o f v x', p = .op o f ∧ execB g c o y'.x = .ok (v, x') := by
  obtain ⟨m, hf, hr⟩ := hb.word
  have hfr : Fresh g ⟨m, fun _ => .idle⟩ := ⟨hf, fun _ => rfl⟩
  obtain ⟨s', q1, q2, q3⟩ := steps_of_stepsB hf.wf hs hfr hr hk
  refine ⟨⟨_, s', hfr, (repM_iff.1 hr).2, q1, q2, (repM_iff.1 q3).2⟩, fun c k p hc => ?_⟩
  rw [← q2] at hc
  have hgood := good_steps hfr q1 hk
  cases p with
  | ret v => exact Or.inl ⟨v, rfl⟩
  | op o f =>
      obtain ⟨v, m1, h1, -⟩ := hgood.act hc
      obtain ⟨x1, h2, -⟩ := execB_rep q3 h1
      exact Or.inr ⟨o, f, v, x1, rfl, h2⟩
  | fault => obtain ⟨h1, h2, h3, m, h4, h5⟩ := hgood.safe c k _ hc; exact h5.elim
  | diverge => obtain ⟨h1, h2, h3, m, h4, h5⟩ := hgood.safe c k _ hc; exact h5.elim

/-- C78, the other way round: the byte machine can do what the word machine does (with software's stores left out: they are words there). -/
theorem C78_complete {s s' : Conf} {t : List Label} {x : ByteMachine} (hsz : x.buf.size = g.dramSize) (h : SameState x s.m) (hs : Steps g s t s')
    (hn : Label.soft ∉ t) : ∃ y', StepsB g ⟨x, s.cores⟩ t y' ∧ y'.cores = s'.cores ∧ SameState y'.x s'.m := by
  suffices hh : ∃ y', StepsB g ⟨x, s.cores⟩ t y' ∧ y'.cores = s'.cores ∧ RepM g y'.x s'.m by
    obtain ⟨y', h1, h2, h3⟩ := hh
    exact ⟨y', h1, h2, (repM_iff.1 h3).2⟩
  induction hs with
  | refl => exact ⟨_, .refl _, rfl, repM_iff.2 ⟨hsz, h⟩⟩
  | @tail s1 s2 t l hs hl ih =>
      obtain ⟨y1, q1, q2, q3⟩ := ih fun hm => hn (List.mem_append_left _ hm)
      cases hl with
      | @start c k hlt hidle =>
          rw [← q2] at hidle
          exact ⟨_, q1.tail (StepB.start k hlt hidle), by show upd y1.cores c _ = upd s1.cores c _; rw [q2], q3⟩
      | @act c k o f v x' hrun hex =>
          rw [← q2] at hrun
          obtain ⟨x1, h2, h3⟩ := execB_rep q3 hex
          exact ⟨_, q1.tail (StepB.act hrun h2), by show upd y1.cores c _ = upd s1.cores c _; rw [q2], h3⟩
      | @done c k v hrun =>
          rw [← q2] at hrun
          exact ⟨_, q1.tail (StepB.done hrun), by show upd y1.cores c _ = upd s1.cores c _; rw [q2], q3⟩
      | soft _ => exact absurd (List.mem_append_right _ (List.mem_singleton.2 rfl)) hn

/-! ### Concrete cases -/

/-- The toy platform's buffer before boot: all zero. -/
def toyBytes : ByteMachine := ⟨⟨toyPlatform.dramSize, fun _ => 0⟩, zeroMachine⟩

theorem toyBytes_same : SameState toyBytes zeroMachine := by
  refine sameState_iff.2 ⟨fun a => ?_, rfl⟩
  apply BitVec.eq_of_toNat_eq
  rw [extract_digit]
  show 0 = (0 : W).toNat / _ % 256
  simp

/-- The byte machine boots on the toy platform, into the state of the toy machine. -/
theorem toy_fromBootB : ∃ x, FromBootB toyG x ∧ SameState x toyM := by
  have hb : boot toyPlatform zeroMachine = .ok (toyG, toyM) := booted_ok toy_boots
  obtain ⟨x, h1, h2, h3⟩ := (C78_boot toyPlatform rfl toyBytes_same toyG).1 toyM hb
  exact ⟨x, ⟨toyPlatform, toyBytes, toy_sane, rfl, h1, fun _ _ => rfl⟩, h2⟩

/-- The hypotheses of `C78_interleavings` are met: the race of C29, on the byte machine. -/
example : ∃ x t y', FromBootB toyG x ∧ StepsB toyG ⟨x, fun _ => .idle⟩ t y' ∧ OnlyCalls (CoveredC toyG) t ∧
    results t = [(1, monitorConcurrentCall), (2, nullEnclaveId), (0, monitorOk)] := by
  have h := race_plays
  obtain ⟨x, h1, h2⟩ := toy_fromBootB
  cases hp : play toyG raceMoves toyS with
  | none => rw [hp] at h; cases h
  | some z =>
      rw [hp] at h
      simp only [Option.map_some, Option.some.injEq, Prod.mk.injEq] at h
      have hn : (play toyG raceMoves toyS).map (fun x => x.1.all fun l => match l with | .soft => false | _ => true) = some true := by
        set_option maxRecDepth 100000 in decide +kernel
      rw [hp] at hn
      simp only [Option.map_some, Option.some.injEq] at hn
      obtain ⟨m, -, hr⟩ := h1.word
      obtain ⟨y', q1, -⟩ := C78_complete (repM_iff.1 hr).1 (s := toyS) h2 (play_steps _ hp) (fun hm => by cases List.all_eq_true.1 hn _ hm)
      exact ⟨x, z.1, y', h1, q1, (play_onlyCalls raceMoves race_calls hp).mono (fun _ h => h.1), h.1⟩

end Sanctum
