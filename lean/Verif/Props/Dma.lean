import Verif.Model.Dma
import Verif.Lemmas.Uses
import Verif.Props.Boot
import Verif.Props.Serial
import Verif.Props.Registers
/-
Property C87: DMA devices.
-/
namespace Sanctum
open Machine
variable {g : Cfg} {α β : Type}

/-! ### What the DMA master's base register can hold -/

/-- The program writes the DMA master's base register only with addresses in `B`. -/
def Prog.Bases (B : W → Prop) : Prog α → Prop
  | .ret _ => True
  | .op o f => (∀ b, o = .setDmarBase b → B b) ∧ ∀ v, Prog.Bases B (f v)
  | .fault => True
  | .diverge => True

theorem bases_bind {B : W → Prop} {p : Prog α} {f : α → Prog β} (hp : p.Bases B) (hf : ∀ a, (f a).Bases B) : (p >>= f).Bases B := by
  show (p.bind f).Bases B
  induction p with
  | ret a => exact hf a
  | op o k ih => exact ⟨hp.1, fun v => ih v (hp.2 v)⟩
  | fault => trivial
  | diverge => trivial

theorem Prog.Uses.bases {R : Reg → Prop} {B : W → Prop} {p : Prog α} (hp : p.Uses R) (hR : ¬ R .dma) : p.Bases B := by
  induction p with
  | ret a => trivial
  | op o k ih => exact ⟨fun b hb => by subst hb; exact absurd hp.1 hR, fun v => ih v (hp.2 v)⟩
  | fault => trivial
  | diverge => trivial

theorem bases_setDma {B : W → Prop} {b n : W} (hb : B b) : (setDmaRange g b n).Bases B := by
  unfold setDmaRange
  split
  · trivial
  split
  · trivial
  have hq : ∀ (o : Op) (f : Unit → Prog W), (∀ x, o = .setDmarBase x → B x) → (f ()).Bases B → (act_ o >>= f).Bases B := fun o f h1 h2 => ⟨h1, fun _ => h2⟩
  refine bases_bind (p := tasLock g 0) (Prog.Uses.bases (R := fun _ => False) (uses_tasLock 0) id) fun busy => ?_
  dsimp only
  split
  · trivial
  refine bases_bind (Prog.Uses.bases (R := fun _ => False) (uses_dmaLoop _ _ _ _) id) fun res => ?_
  cases res with
  | none => trivial
  | some v =>
      dsimp only
      refine hq _ _ (fun x hx => by cases hx) (hq _ _ (fun x hx => by cases hx) (hq _ _ (fun x hx => by cases hx; exact hb) (hq _ _ (fun x hx => by cases hx) ?_)))
      exact bases_bind (Prog.Uses.bases (R := fun _ => False) (uses_clearLock 0) id) fun _ => trivial

/-- The call does not ask for a DMA window that starts in the monitor's memory. -/
def AsksAbove (g : Cfg) : Call → Prop
  | .setDmaRange b _ => g.monitorTop.toNat ≤ b.toNat
  | _ => True

theorem bases_call (k : Call) (hk : AsksAbove g k) : (k.prog g).Bases (fun b => g.monitorTop.toNat ≤ b.toNat) := by
  have hu := uses_call g k
  cases k
  case setDmaRange b n => exact bases_setDma hk
  all_goals exact hu.bases (by simp [Call.regs, Call.MovesDma])

/-- The DMA master admits no address of the monitor's memory now or after what is left of the calls. -/
structure GoodD (g : Cfg) (s : Conf) : Prop where
  base : g.monitorTop.toNat ≤ s.m.dmarBase.toNat
  prog : ∀ c k p, s.cores c = .running k p → p.Bases (fun b => g.monitorTop.toNat ≤ b.toNat)

/-- The window has no addresses below its base. -/
theorem rangeCovers_ge {b m a : W} (h : rangeCovers b m a = true) : b.toNat ≤ a.toNat := by
  have h : a &&& m = b := by simpa [rangeCovers] using h
  rw [← h, BitVec.toNat_and]
  exact Nat.and_le_left

theorem exec_dmarBase {c : Nat} {o : Op} {m m' : Machine} {v : W} (h : exec g c o m = some (v, m')) : m'.dmarBase = m.dmarBase ∨ o = .setDmarBase m'.dmarBase := by
  cases o <;> simp only [exec, Option.ite_none_right_eq_some, Option.some.injEq, Prod.mk.injEq] at h <;>
    (first | obtain ⟨rfl, rfl⟩ := h | obtain ⟨_, rfl, rfl⟩ := h) <;> first | exact Or.inl rfl | exact Or.inr rfl

theorem GoodD.step {s s' : Conf} {l : Label} (h : GoodD g s) (hk : ∀ c k, l = .start c k → AsksAbove g k) (hl : Step g s l s') : GoodD g s' := by
  cases hl with
  | @start c k _ _ =>
      refine ⟨h.base, fun c' k' p hc => ?_⟩
      have hc : upd s.cores c (.running k (k.prog g)) c' = .running k' p := hc
      by_cases hcc : c' = c
      · rw [hcc, upd_same] at hc; cases hc; exact bases_call k (hk c k rfl)
      · rw [upd_ne _ _ hcc] at hc; exact h.prog c' k' p hc
  | @act c k o f v m' hrun hex =>
      have hp := h.prog c k _ hrun
      refine ⟨?_, fun c' k' p hc => ?_⟩
      · rcases exec_dmarBase hex with q | q
        · show g.monitorTop.toNat ≤ m'.dmarBase.toNat
          rw [q]; exact h.base
        · exact hp.1 _ q
      · have hc : upd s.cores c (.running k (f v)) c' = .running k' p := hc
        by_cases hcc : c' = c
        · rw [hcc, upd_same] at hc; cases hc; exact hp.2 v
        · rw [upd_ne _ _ hcc] at hc; exact h.prog c' k' p hc
  | @done c k v _ =>
      refine ⟨h.base, fun c' k' p hc => ?_⟩
      have hc : upd s.cores c .idle c' = .running k' p := hc
      by_cases hcc : c' = c
      · rw [hcc, upd_same] at hc; cases hc
      · rw [upd_ne _ _ hcc] at hc; exact h.prog c' k' p hc
  | soft hsoft =>
      obtain ⟨a, v, _, rfl⟩ := hsoft
      exact ⟨h.base, h.prog⟩

/-- Words are their bytes. -/
theorem word_bytes {v w : W} (h : ∀ j, j < 8 → v.extractLsb' (8 * j) 8 = w.extractLsb' (8 * j) 8) : v = w := by
  refine BitVec.eq_of_getLsbD_eq fun i hi => ?_
  have h1 := congrArg (fun x => x.getLsbD (i % 8)) (h (i / 8) (by omega))
  simp only [BitVec.getLsbD_extractLsb'] at h1
  have h2 : i % 8 < 8 := Nat.mod_lt _ (by decide)
  have h3 : 8 * (i / 8) + i % 8 = i := Nat.div_add_mod i 8
  simpa [h2, h3] using h1

/-- A transfer through such a window is a store outside the monitor's memory, or changes nothing. -/
theorem transfer_soft (hw : g.WF) {m m' : Machine} (hb : g.monitorTop.toNat ≤ m.dmarBase.toNat) (h : Transfer g m m') : m' = m ∨ SoftwareStore g m m' := by
  obtain ⟨a, v, h8, hd, rfl, hv⟩ := h
  by_cases ha : g.monitorTop.toNat ≤ a
  · exact Or.inr ⟨a, v, ha, rfl⟩
  · refine Or.inl ?_
    have hlt := g.dramSize.isLt
    have htop : 8 ∣ g.monitorTop.toNat := by
      obtain ⟨t, ht⟩ := hw.top_pow
      obtain ⟨h1, h2, h3', h4, h5, h6, h7, h8, h9, h10, h11, h12⟩ := hw.layout
      have h8 : 8 ≤ g.monitorTop.toNat := by omega
      rw [ht] at h8 ⊢
      have h3 : 3 ≤ t := by
        apply Classical.byContradiction
        intro hh
        have : t = 0 ∨ t = 1 ∨ t = 2 := by omega
        rcases this with rfl | rfl | rfl <;> simp at h8
      exact Nat.pow_dvd_pow 2 h3
    have he : v = m.mem a := word_bytes fun j hj => hv j hj (by
      cases hc : rangeCovers m.dmarBase m.dmarMask (BitVec.ofNat 64 (a + j)) with
      | false => rfl
      | true =>
          have h1 := rangeCovers_ge hc
          rw [BitVec.toNat_ofNat, Nat.mod_eq_of_lt (by omega)] at h1
          omega)
    rw [he, upd_eq_self]

/-! ### C87 -/

/-- C87, in full: a transfer of a DMA device changes only memory of the OS outside the monitor's. -/
def C87_statement (g : Cfg) (s : Conf) : Prop := ∀ t s', DSteps g s t s' → ∀ m', Transfer g s'.m m' →
  ∀ x, x < g.monitorTop.toNat ∨ s'.m.owner g (regionOf g x) ≠ nullEnclaveId → m'.mem x = s'.m.mem x

/-- The labels of the cores. -/
def coreLabels (t : List Label) : List Label := t.filter fun l => match l with | .soft => false | _ => true

theorem dsteps_follow {s s' : Conf} {t : List Label} (h : Fresh g s) (hs : DSteps g s t s') (hk : OnlyCalls (AsksAbove g) t) :
    GoodD g s' ∧ ∃ t', Steps g s t' s' ∧ coreLabels t' = coreLabels t := by
  have hw := h.1.wf
  induction hs with
  | refl =>
      obtain ⟨⟨p, m0, hp, hb, -⟩, hi⟩ := h
      refine ⟨⟨?_, fun c k p hc => by rw [hi c] at hc; cases hc⟩, [], .refl _, rfl⟩
      rw [(C12_boot_state hp hb).dma.2.2.1]
      exact Nat.le_refl _
  | @tail s1 s2 t l _ hl ih =>
      obtain ⟨q1, t', q2, q3⟩ := ih hk.prefix
      cases hl with
      | step hl =>
          refine ⟨q1.step (fun c k hh => hk c k (by rw [hh]; exact List.mem_append_right _ (List.mem_singleton.2 rfl))) hl, t' ++ [l], .tail q2 hl, ?_⟩
          unfold coreLabels at q3 ⊢
          rw [List.filter_append, List.filter_append, q3]
  | @dma s1 s2 t _ hl ih =>
      obtain ⟨q1, t', q2, q3⟩ := ih hk
      cases hl with
      | @dma m' htr =>
          rcases transfer_soft hw q1.base htr with q | q
          · have : ({ s1 with m := m' } : Conf) = s1 := by rw [q]
            rw [this]
            exact ⟨q1, t', q2, q3⟩
          · refine ⟨q1.step (fun c k hh => by cases hh) (.soft q), t' ++ [.soft], .tail q2 (.soft q), ?_⟩
            unfold coreLabels at q3 ⊢
            rw [List.filter_append, q3]
            exact List.append_nil _

/-- C87 for the monitor's memory and an OS that asks for no window that starts in it, whatever other calls it makes: no transfer, at any instant, not even between the writes of
the two registers, changes a word of the monitor's memory. -/
theorem C87_monitor_partial {s s' : Conf} {t : List Label} (h : Fresh g s) (hs : DSteps g s t s') (hk : OnlyCalls (AsksAbove g) t) {m' : Machine} (hm : Transfer g s'.m m')
    {x : Nat} (hx : x < g.monitorTop.toNat) : m'.mem x = s'.m.mem x := by
  rcases transfer_soft h.1.wf (dsteps_follow h hs hk).1.base hm with rfl | ⟨a, v, ha, rfl⟩
  · rfl
  · exact upd_ne _ _ (by omega)

/-- Devices can then do no more to the monitor than software: every execution with devices is an interleaving with software's stores in the place of transfers, in which the cores
do the same. -/
theorem C87_devices_partial {s s' : Conf} {t : List Label} (h : Fresh g s) (hs : DSteps g s t s') (hk : OnlyCalls (AsksAbove g) t) :
    ∃ t', Steps g s t' s' ∧ coreLabels t' = coreLabels t := (dsteps_follow h hs hk).2

theorem Steps.devices {s s' : Conf} {t : List Label} (hs : Steps g s t s') : DSteps g s t s' := by
  induction hs with
  | refl => exact .refl _
  | tail _ hl ih => exact .tail ih (.step hl)

/-- The OS sets the DMA window to the page at 0. -/
def lowDmaMoves : List Move := [.start 0 (.setDmaRange 0 0xfff)] ++ List.replicate 8 (.go 0)

set_option maxRecDepth 100000 in
theorem lowDma_plays : (play toyG lowDmaMoves toyS).map (fun x => (results x.1, x.2.m.dmarBase, x.2.m.dmarMask, x.2.m.mem (ownerA toyG 1))) =
    some ([(0, monitorOk)], 0, ~~~ 0xfff, nullEnclaveId) := by decide +kernel

/-- A transfer of all bytes of an admitted word. -/
theorem transfer_word {m : Machine} {a : Nat} (v : W) (h8 : 8 ∣ a) (hd : a + 8 ≤ g.dramSize.toNat)
    (hc : ∀ j, j < 8 → rangeCovers m.dmarBase m.dmarMask (BitVec.ofNat 64 (a + j)) = true) : Transfer g m { m with mem := upd m.mem a v } :=
  ⟨a, v, h8, hd, rfl, fun j hj hh => by rw [hc j hj] at hh; cases hh⟩

/-- The full statement is false: `set_dma_range` accepts a window over the monitor's memory, and a device can then say that region 1 holds metadata. -/
theorem C87_statement_false : ∃ g s, Fresh g s ∧ ¬ C87_statement g s := by
  refine ⟨toyG, toyS, toyS_fresh, fun hst => ?_⟩
  have h := lowDma_plays
  cases hp : play toyG lowDmaMoves toyS with
  | none => rw [hp] at h; cases h
  | some x =>
      rw [hp] at h
      simp only [Option.map_some, Option.some.injEq, Prod.mk.injEq] at h
      obtain ⟨-, h1, h2, h3⟩ := h
      have htr : Transfer toyG x.2.m { x.2.m with mem := upd x.2.m.mem (ownerA toyG 1) metadataEnclaveId } := by
        refine transfer_word metadataEnclaveId (by decide) (by decide +kernel) ?_
        rw [h1, h2]
        decide
      have := hst x.1 x.2 (play_steps _ hp).devices _ htr (ownerA toyG 1) (Or.inl (by decide +kernel))
      have this : upd x.2.m.mem (ownerA toyG 1) metadataEnclaveId (ownerA toyG 1) = x.2.m.mem (ownerA toyG 1) := this
      rw [upd_same, h3] at this
      exact absurd this (by decide)

/-- Every address of every window that a call asked for is memory of the OS outside the monitor's. -/
def AsksOwn (g : Cfg) (t : List Label) (m : Machine) : Prop :=
  ∀ c b n, Label.start c (.setDmaRange b n) ∈ t → ∀ a, b.toNat ≤ a → a ≤ b.toNat + n.toNat → g.monitorTop.toNat ≤ a ∧ m.owner g (regionOf g a) = nullEnclaveId

/-- Region 7 becomes a metadata region. The OS sets the window to its regions 4 and 5. Core 1 starts to set it to region 6, and has just written the base register. -/
def metaDmaMoves : List Move :=
  [.start 0 (.blockDramRegion 7)] ++ List.replicate 22 (.go 0) ++
  [.start 0 .flushCachedDramRegions] ++ List.replicate 5 (.go 0) ++ [.start 1 .flushCachedDramRegions] ++ List.replicate 5 (.go 1) ++
  [.start 2 .flushCachedDramRegions] ++ List.replicate 5 (.go 2) ++ [.start 3 .flushCachedDramRegions] ++ List.replicate 5 (.go 3) ++
  [.start 0 (.freeDramRegion 7)] ++ List.replicate 10 (.go 0) ++ [.start 0 (.createMetadataRegion 7)] ++ List.replicate 518 (.go 0) ++
  [.start 0 (.setDmaRange 0x20000 0xffff)] ++ List.replicate 13 (.go 0) ++ [.start 1 (.setDmaRange 0x30000 0x7fff)] ++ List.replicate 7 (.go 1)

set_option maxRecDepth 100000 in
theorem metaDma_plays : (play toyG metaDmaMoves toyS).map (fun x => (x.2.m.dmarBase, x.2.m.dmarMask, x.2.m.mem 0x38000,
    [4, 5, 6, 7].map (fun i => x.2.m.owner toyG i))) = some (0x30000, ~~~ 0xffff, 0, [0, 0, 0, metadataEnclaveId]) := by decide +kernel

theorem metaDma_calls : ∀ c k, Move.start c k ∈ metaDmaMoves →
    CoveredC toyG k ∧ ∀ b n, k = .setDmaRange b n → (b = 0x20000 ∧ n = 0xffff) ∨ (b = 0x30000 ∧ n = 0x7fff) := by
  intro c k hk
  simp only [metaDmaMoves, List.mem_append, List.mem_replicate, List.mem_cons, Move.start.injEq, reduceCtorEq, false_or, or_false, and_false,
    List.not_mem_nil, or_assoc] at hk
  have hmeta : toyG.SingleStripe ∧ toyG.ShiftOk := ⟨toy_single, toy_shiftOk⟩
  rcases hk with ⟨_, rfl⟩ | ⟨_, rfl⟩ | ⟨_, rfl⟩ | ⟨_, rfl⟩ | ⟨_, rfl⟩ | ⟨_, rfl⟩ | ⟨_, rfl⟩ | ⟨_, rfl⟩ | ⟨_, rfl⟩
  all_goals refine ⟨?_, fun b n hh => ?_⟩
  all_goals first
    | exact ⟨trivial, fun _ _ _ _ hh => by cases hh⟩
    | exact ⟨hmeta, fun _ _ _ _ hh => by cases hh⟩
    | (cases hh; done)
    | (cases hh; exact Or.inl ⟨rfl, rfl⟩)
    | (cases hh; exact Or.inr ⟨rfl, rfl⟩)

/-- It is false even for an OS that asks only for windows over its own memory: between the writes of the base and the mask register a device can change a metadata region, here
the entry of the page map that says who owns the region's first page. -/
theorem C87_careful_false : ∃ g s t s' m', Fresh g s ∧ DSteps g s t s' ∧ OnlyCalls (CoveredC g) t ∧ AsksOwn g t s'.m ∧ Transfer g s'.m m' ∧
    ∃ x, s'.m.owner g (regionOf g x) = metadataEnclaveId ∧ m'.mem x ≠ s'.m.mem x := by
  have h := metaDma_plays
  cases hp : play toyG metaDmaMoves toyS with
  | none => rw [hp] at h; cases h
  | some x =>
      rw [hp] at h
      simp only [Option.map_some, Option.some.injEq, Prod.mk.injEq, List.map_cons, List.map_nil, List.cons.injEq, and_true] at h
      obtain ⟨h1, h2, h3, h4, h5, h6, h7⟩ := h
      have hc := play_onlyCalls metaDmaMoves metaDma_calls hp
      have hst : toyG.stripeSize.toNat = 0x8000 := by decide +kernel
      have htop : toyG.monitorTop.toNat ≤ 0x8000 := by decide +kernel
      have hreg : ∀ i a, i < 8 → i * 0x8000 ≤ a → a < (i + 1) * 0x8000 → regionOf toyG a = i := fun i a hi q1 q2 =>
        regionOf_span (g := toyG) toyS_fresh.1.wf (show i < toyG.regions from hi) (by rw [hst]; exact q1) (by rw [hst]; exact q2)
      have htr : Transfer toyG x.2.m { x.2.m with mem := upd x.2.m.mem 0x38000 1 } := by
        refine transfer_word 1 (by decide) (by decide +kernel) ?_
        rw [h1, h2]
        decide
      refine ⟨toyG, toyS, x.1, x.2, _, toyS_fresh, (play_steps _ hp).devices, hc.mono fun _ hh => hh.1, fun c b n hm a q1 q2 => ?_, htr, 0x38000, ?_, ?_⟩
      · rcases (hc c _ hm).2 b n rfl with ⟨rfl, rfl⟩ | ⟨rfl, rfl⟩
        · have q1 : 0x20000 ≤ a := q1
          have q2 : a ≤ 0x20000 + 0xffff := q2
          refine ⟨by omega, ?_⟩
          by_cases ha : a < 0x28000
          · rw [hreg 4 a (by decide) (by omega) (by omega)]; exact h4
          · rw [hreg 5 a (by decide) (by omega) (by omega)]; exact h5
        · have q1 : 0x30000 ≤ a := q1
          have q2 : a ≤ 0x30000 + 0x7fff := q2
          refine ⟨by omega, ?_⟩
          rw [hreg 6 a (by decide) (by omega) (by omega)]; exact h6
      · rw [hreg 7 0x38000 (by decide) (by decide) (by decide)]; exact h7
      · show upd x.2.m.mem 0x38000 1 0x38000 ≠ _
        rw [upd_same, h3]
        decide

/-- The hypotheses of C87 are met: the window was moved, and a device writes through it. -/
example : ∃ t s' m', Fresh toyG toyS ∧ DSteps toyG toyS t s' ∧ OnlyCalls (AsksAbove toyG) t ∧ Transfer toyG s'.m m' ∧ s'.m.dmarBase = 0x10000 ∧ m'.mem 0x10008 = 7 := by
  have h := register_plays
  have h2 : (play toyG registerMoves toyS).map (fun x => (x.2.m.dmarBase, x.2.m.dmarMask)) = some (0x10000, ~~~ 0xfff) := by
    set_option maxRecDepth 100000 in decide +kernel
  cases hp : play toyG registerMoves toyS with
  | none => rw [hp] at h; cases h
  | some x =>
      rw [hp] at h2
      simp only [Option.map_some, Option.some.injEq, Prod.mk.injEq] at h2
      have htr : Transfer toyG x.2.m { x.2.m with mem := upd x.2.m.mem 0x10008 7 } := by
        refine transfer_word 7 (by decide) (by decide +kernel) ?_
        rw [h2.1, h2.2]
        decide
      refine ⟨x.1, x.2, _, toyS_fresh, (play_steps _ hp).devices, play_onlyCalls registerMoves (fun c k hk => ?_) hp, htr, h2.1, upd_same x.2.m.mem 0x10008 7⟩
      simp only [registerMoves, List.mem_append, List.mem_replicate, List.mem_cons, Move.start.injEq, reduceCtorEq, false_or, or_false, and_false,
        List.not_mem_nil, or_assoc] at hk
      rcases hk with ⟨_, rfl⟩ | ⟨_, rfl⟩
      · trivial
      · show toyG.monitorTop.toNat ≤ 0x10000
        decide +kernel

end Sanctum
