import Verif.Lemmas.Track
import Verif.Props.Frame
/-
C25 (TLB flushes before a free), C26, C27 (DMA window), C28 (access maps).
-/
namespace Sanctum
open Machine

variable {g : Cfg}

/-! ### C25 -/

/-- Core `c` flushed in `l`. -/
def FlushedIn (l : List Event) (c : Nat) : Prop := ∃ x ∈ l, x.core = c ∧ x.call = .flushCachedDramRegions

/-- A successful `block_dram_region(r)`. -/
def IsBlock (r : W) (x : Event) : Prop := x.call = .blockDramRegion r ∧ x.result = monitorOk
/-- A successful `free_dram_region(r)`. -/
def IsFree (r : W) (x : Event) : Prop := x.call = .freeDramRegion r ∧ x.result = monitorOk

/-- C25, in full: between a successful block of `r` and the next successful free of `r`, every core flushes. -/
def C25_statement (g : Cfg) (m1 : Machine) : Prop :=
  ∀ l l2 r b f m2, Hist g m1 (l ++ b :: (l2 ++ [f])) m2 → IsBlock r b → IsFree r f → (∀ x ∈ l2, ¬ IsBlock r x ∧ ¬ IsFree r x) →
    ∀ c, c < g.cores → FlushedIn l2 c

theorem hist_append {m m2 : Machine} {l1 l2 : List Event} (hh : Hist g m (l1 ++ l2) m2) : ∃ m1, Hist g m l1 m1 ∧ Hist g m1 l2 m2 := by
  generalize hl : l1 ++ l2 = l at hh
  induction hh generalizing l1 with
  | nil m =>
      have := List.append_eq_nil_iff.1 hl
      rw [this.1, this.2]; exact ⟨m, .nil m, .nil m⟩
  | @cons m m' m'' c k v l hc hcall hrest ih =>
      cases l1 with
      | nil =>
          rw [List.nil_append] at hl; subst hl
          exact ⟨m, .nil m, .cons hc hcall hrest⟩
      | cons x l1 =>
          rw [List.cons_append] at hl
          injection hl with h1 h2
          obtain ⟨m1, q1, q2⟩ := ih h2
          subst h1
          exact ⟨m1, .cons hc hcall q1, q2⟩
  | soft hs hrest ih =>
      obtain ⟨m1, q1, q2⟩ := ih hl
      exact ⟨m1, .soft hs q1, q2⟩

/-- A history that starts with event `x`. -/
theorem hist_cons {m m2 : Machine} {x : Event} {l : List Event} (hh : Hist g m (x :: l) m2) :
    ∃ m1 m1', Hist g m [] m1 ∧ x.core < g.cores ∧ call g x.core x.call m1 = some (x.result, m1') ∧ Hist g m1' l m2 := by
  generalize hl : x :: l = l' at hh
  induction hh with
  | nil m => cases hl
  | cons hc hcall hrest ih =>
      injection hl with h1 h2
      subst h1; subst h2
      exact ⟨_, _, .nil _, hc, hcall, hrest⟩
  | soft hs hrest ih =>
      obtain ⟨m1, m1', q1, q2, q3, q4⟩ := ih hl
      exact ⟨m1, m1', .soft hs q1, q2, q3, q4⟩

/-- What a covered history does to the clocks. -/
structure TrackHist (g : Cfg) (l : List Event) (m m' : Machine) : Prop where
  clock_le : (m.clock g).toNat + l.length < 2 ^ 64 → (m.clock g).toNat ≤ (m'.clock g).toNat ∧ (m'.clock g).toNat ≤ (m.clock g).toNat + l.length
  flushed : ∀ c, c < g.cores → ¬ FlushedIn l c → m'.flushedAt c = m.flushedAt c
  flushed_le : (m.clock g).toNat + l.length < 2 ^ 64 → (∀ c, c < g.cores → (m.flushedAt c).toNat ≤ (m.clock g).toNat) →
    ∀ c, c < g.cores → (m'.flushedAt c).toNat ≤ (m'.clock g).toNat
  blocked : ∀ r : W, r.toNat < g.regions → (∀ x ∈ l, ¬ IsBlock r x ∧ ¬ IsFree r x) → m.owner g r.toNat = blockedEnclaveId →
    m'.owner g r.toNat = blockedEnclaveId ∧ m'.blockedAt g r.toNat = m.blockedAt g r.toNat

theorem sameTop_track (h : g.WF) {m m' m'' : Machine} (hs : SameTop g m m') {l : List Event} (ht : TrackHist g l m' m'') : TrackHist g l m m'' := by
  have h1 : m'.clock g = m.clock g := hs.1 _ (by have := clockA_lt h; omega)
  have h2 : ∀ c, c < g.cores → m'.flushedAt c = m.flushedAt c := fun c hc => hs.1 _ (by have := flushedA_lt h hc; omega)
  have h3 : ∀ i, i < g.regions → m'.owner g i = m.owner g i := fun i hi => hs.1 _ (by have := ownerA_lt h hi; omega)
  have h4 : ∀ i, i < g.regions → m'.blockedAt g i = m.blockedAt g i := fun i hi => hs.1 _ (by have := blockedA_lt h hi; omega)
  refine ⟨by rw [← h1]; exact ht.clock_le, fun c hc hf => by rw [ht.flushed c hc hf, h2 c hc], fun hb hf => ?_, fun r hr hl ho => ?_⟩
  · rw [← h1] at hb
    exact ht.flushed_le hb (fun c hc => by rw [h2 c hc, h1]; exact hf c hc)
  · have := ht.blocked r hr hl (by rw [h3 _ hr]; exact ho)
    rw [h4 _ hr] at this; exact this

theorem track_hist (h : g.WF) {m m' : Machine} {l : List Event} (hh : Hist g m l m') (hk : CoveredHist g l) (hi : Inv g m) : TrackHist g l m m' := by
  induction hh with
  | nil m => exact ⟨fun _ => ⟨Nat.le_refl _, Nat.le_add_right _ _⟩, fun _ _ _ => rfl, fun _ hf => hf, fun _ _ _ ho => ⟨ho, rfl⟩⟩
  | @cons m m1 m2 c k v l hc hcall hrest ih =>
      have hkc := hk _ List.mem_cons_self
      have st := step_call h hc hkc hi hcall
      have tr := track_call h hc hkc hi hcall
      have it := ih (fun x hx => hk x (List.mem_cons_of_mem _ hx)) st.inv
      have hck : (m.clock g).toNat + (l.length + 1) < 2 ^ 64 → (m.clock g).toNat ≤ (m1.clock g).toNat ∧ (m1.clock g).toNat ≤ (m.clock g).toNat + 1 := by
        intro hlt
        rcases tr.clock with hh | ⟨-, -, hh⟩
        · rw [hh]; exact ⟨Nat.le_refl _, Nat.le_succ _⟩
        · rw [hh, BitVec.toNat_add, show (1 : W).toNat = 1 from rfl, Nat.mod_eq_of_lt (by omega)]; exact ⟨Nat.le_succ _, Nat.le_refl _⟩
      refine ⟨fun hlt => ?_, fun c' hc' hf => ?_, fun hlt hf => ?_, fun r hr hl ho => ?_⟩
      · rw [List.length_cons] at hlt
        have h1 := hck hlt
        have h2 := it.clock_le (by omega)
        rw [List.length_cons]; omega
      · have hf' : ¬ FlushedIn l c' := fun ⟨x, hx, q⟩ => hf ⟨x, List.mem_cons_of_mem _ hx, q⟩
        rw [it.flushed c' hc' hf']
        rcases tr.flushed c' hc' with hh | ⟨q1, q2, -⟩
        · exact hh
        · exact absurd ⟨_, List.mem_cons_self, q2.symm, q1⟩ hf
      · rw [List.length_cons] at hlt
        have h1 := hck hlt
        refine it.flushed_le (by omega) (fun c' hc' => ?_)
        rcases tr.flushed c' hc' with hh | ⟨-, -, hh⟩
        · rw [hh]; have := hf c' hc'; omega
        · rw [hh]; omega
      · have hlx := hl _ List.mem_cons_self
        have hown : m1.owner g r.toNat = blockedEnclaveId := by
          rcases tr.owner _ hr with hh | ⟨r', q1, q2, q3 | q3 | q3 | ⟨e, q3⟩⟩
          · rw [hh]; exact ho
          · exact absurd ⟨by rw [q3, (W.eq_iff r' r).2 q1], q2⟩ hlx.1
          · exact absurd ⟨by rw [q3, (W.eq_iff r' r).2 q1], q2⟩ hlx.2
          · have hleg := st.legal _ hr
            rw [ho] at hleg
            subst q3
            obtain ⟨v1, m3, q4, q5, -, -⟩ := C18_create_metadata_exact h c r' hi.locks (by rw [hi.region0]; decide)
            rw [q4] at hcall
            injection hcall with hcall; injection hcall with z1 z2
            have := (q5.1 (z1.trans q2)).2.2
            rw [q1, ho] at this; exact absurd this (by decide)
          · subst q3
            obtain ⟨v1, m3, q4, q5, -, -⟩ := C16_assign_exact h c r' e hi.locks (fun hh => by rw [hi.noId h hh]; exact recordOk_zero)
            rw [q4] at hcall
            injection hcall with hcall; injection hcall with z1 z2
            have := (q5.1 (z1.trans q2)).2.2.1
            rw [q1, ho] at this; exact absurd this (by decide)
        have hbl : m1.blockedAt g r.toNat = m.blockedAt g r.toNat := by
          rcases tr.blockedAt _ hr with hh | ⟨r', q1, q2, q3, -⟩
          · exact hh
          · exact absurd ⟨by rw [q1, (W.eq_iff r' r).2 q2], q3⟩ hlx.1
        have := it.blocked r hr (fun x hx => hl x (List.mem_cons_of_mem _ hx)) hown
        rw [hbl] at this; exact this
  | @soft m m1 m2 l hs hrest ih =>
      obtain ⟨a, v, ha, rfl⟩ := hs
      have hst := sameTop_st (g := g) (m := m) ha v
      exact sameTop_track h hst (ih hk (hst.inv h hi).1)

/-- C25, the part that holds: if `r` is blocked, and then freed, every core has flushed since the *previous*
successful block (of any region `r0`). Missing: that the flush is after the block of `r` itself. (Histories of
covered calls shorter than `2^64` calls, from boot with zeroed core records.) -/
theorem C25_flush_before_free_partial {m1 : Machine} (hb : FromBoot g m1) (hf0 : ∀ c, c < g.cores → m1.flushedAt c = 0)
    {l0 l1 l2 : List Event} {r0 r : W} {b0 b f : Event} {m2 : Machine} (hh : Hist g m1 (l0 ++ b0 :: (l1 ++ b :: (l2 ++ [f]))) m2)
    (hk : CoveredHist g (l0 ++ b0 :: (l1 ++ b :: (l2 ++ [f])))) (hlen : (l0 ++ b0 :: (l1 ++ b :: (l2 ++ [f]))).length < 2 ^ 64)
    (hb0 : IsBlock r0 b0) (hbr : IsBlock r b) (hfr : IsFree r f) (hno : ∀ x ∈ l2, ¬ IsBlock r x ∧ ¬ IsFree r x) :
    ∀ c, c < g.cores → FlushedIn (l1 ++ b :: (l2 ++ [f])) c := by
  have h := hb.wf
  have hlen2 : l0.length + (l1.length + (l2.length + 3)) < 2 ^ 64 := by
    simp only [List.length_append, List.length_cons, List.length_nil] at hlen; omega
  obtain ⟨p, m0, hp, hboot, -⟩ := id hb
  have hclk0 : m1.clock g = 0 := (C12_boot_state hp hboot).clock
  obtain ⟨a1, s1, s2⟩ := hist_append hh
  have hk0 : CoveredHist g l0 := fun x hx => hk x (List.mem_append_left _ hx)
  have hi1 := hist_inv h s1 hk0 hb.inv
  have t1 := track_hist h s1 hk0 hb.inv
  obtain ⟨a2, a3, s3, c1, e1, s4⟩ := hist_cons s2
  have hkb0 : Covered g b0.call := hk b0 (by simp)
  have hknil : CoveredHist g [] := fun x hx => absurd hx List.not_mem_nil
  have hi2 := hist_inv h s3 hknil hi1
  have t2 := track_hist h s3 hknil hi1
  have st3 := step_call h c1 hkb0 hi2 e1
  have tr3 := track_call h c1 hkb0 hi2 e1
  intro c hc
  rcases Classical.em (FlushedIn (l1 ++ b :: (l2 ++ [f])) c) with hfl | hfl
  · exact hfl
  exfalso
  -- before b0, the flush time is at most the clock
  have z0 : (m1.clock g).toNat = 0 := by rw [hclk0]; rfl
  have b1 := t1.clock_le (by omega)
  have f1 := t1.flushed_le (by omega) (fun c' hc' => by rw [hf0 c' hc', hclk0]; exact Nat.le_refl _)
  have b2 := t2.clock_le (by simp only [List.length_nil]; omega)
  simp only [List.length_nil, Nat.add_zero] at b2
  have f2 := t2.flushed c hc (fun ⟨x, hx, _⟩ => absurd hx List.not_mem_nil)
  have f1c := f1 c hc
  -- b0 advances the clock
  have hclk3 : a3.clock g = a2.clock g + 1 := by
    obtain ⟨hb01, hb02⟩ := hb0
    rw [hb01, hb02] at e1
    obtain ⟨v, m', q1, q2, q3, -⟩ := C15_block_exact h c1 r0 hi2.locks (hi2.recordOk c1) hi2.dma
    rw [q1] at e1; injection e1 with e1; injection e1 with z1 z2
    rw [← z2]; exact (q3 z1).clock
  have hclk3' : (a3.clock g).toNat = (a2.clock g).toNat + 1 := by
    rw [hclk3, BitVec.toNat_add, show (1 : W).toNat = 1 from rfl, Nat.mod_eq_of_lt (by omega)]
  have f3 : a3.flushedAt c = a2.flushedAt c := by
    rcases tr3.flushed c hc with hh | ⟨q1, -, -⟩
    · exact hh
    · rw [hb0.1] at q1; cases q1
  -- up to b
  obtain ⟨a4, s5, s6⟩ := hist_append s4
  have hk1 : CoveredHist g l1 := fun x hx => hk x (by simp [hx])
  have hi4 := hist_inv h s5 hk1 st3.inv
  have t4 := track_hist h s5 hk1 st3.inv
  have hlb : ∀ l : List Event, (∀ x ∈ l, x ∈ l1 ++ b :: (l2 ++ [f])) → ¬ FlushedIn l c := fun l hsub ⟨x, hx, q⟩ => hfl ⟨x, hsub x hx, q⟩
  have f4 := t4.flushed c hc (hlb _ (fun x hx => List.mem_append_left _ hx))
  have b4 := t4.clock_le (by omega)
  obtain ⟨a5, a6, s7, c2, e2, s8⟩ := hist_cons s6
  have hi5 := hist_inv h s7 hknil hi4
  have t5 := track_hist h s7 hknil hi4
  have f5 := t5.flushed c hc (fun ⟨x, hx, _⟩ => absurd hx List.not_mem_nil)
  have b5 := t5.clock_le (by simp only [List.length_nil]; omega)
  have hkb : Covered g b.call := hk b (by simp)
  have st6 := step_call h c2 hkb hi5 e2
  have tr6 := track_call h c2 hkb hi5 e2
  have hblk : r.toNat < g.regions ∧ a6.owner g r.toNat = blockedEnclaveId ∧ a6.blockedAt g r.toNat = a5.clock g := by
    obtain ⟨hb01, hb02⟩ := hbr
    rw [hb01, hb02] at e2
    obtain ⟨v, m', q1, q2, q3, -⟩ := C15_block_exact h c2 r hi5.locks (hi5.recordOk c2) hi5.dma
    rw [q1] at e2; injection e2 with e2; injection e2 with z1 z2
    rw [← z2]; exact ⟨(q2.1 z1).2.1, (q3 z1).blocked, (q3 z1).time⟩
  have f6 : a6.flushedAt c = a5.flushedAt c := by
    rcases tr6.flushed c hc with hh | ⟨q1, -, -⟩
    · exact hh
    · rw [hbr.1] at q1; cases q1
  -- up to f
  obtain ⟨a7, s9, s10⟩ := hist_append s8
  have hk2 : CoveredHist g l2 := fun x hx => hk x (by simp [hx])
  have hi7 := hist_inv h s9 hk2 st6.inv
  have t7 := track_hist h s9 hk2 st6.inv
  have f7 := t7.flushed c hc (hlb _ (fun x hx => by simp [hx]))
  have o7 := t7.blocked r hblk.1 hno hblk.2.1
  obtain ⟨a8, a9, s11, c3, e3, -⟩ := hist_cons s10
  have hi8 := hist_inv h s11 hknil hi7
  have t8 := track_hist h s11 hknil hi7
  have f8 := t8.flushed c hc (fun ⟨x, hx, _⟩ => absurd hx List.not_mem_nil)
  have o8 := t8.blocked r hblk.1 (fun x hx => absurd hx List.not_mem_nil) o7.1
  obtain ⟨hf1, hf2⟩ := hfr
  rw [hf1, hf2] at e3
  obtain ⟨v, m', q1, q2, -, -⟩ := C17_free_exact h f.core r hi8.locks
  rw [q1] at e3; injection e3 with e3; injection e3 with z1 z2
  obtain ⟨-, -, hor⟩ := q2.1 z1
  rcases hor with ⟨-, hall⟩ | ⟨hm, -⟩
  · have hc' := hall c hc
    rw [W.le_iff, o8.2, o7.2, hblk.2.2, f8, f7, f6, f5, f4, f3, f2] at hc'
    simp only [List.length_nil, Nat.add_zero] at b5
    omega
  · rw [o8.1] at hm; exact absurd hm (by decide)

/-- A history that meets the hypotheses: two blocks, flushes, a free. -/
def flushCalls : List (Nat × Call) :=
  [(0, .blockDramRegion 1), (1, .flushCachedDramRegions), (0, .flushCachedDramRegions), (2, .flushCachedDramRegions), (0, .blockDramRegion 2),
   (3, .flushCachedDramRegions), (0, .freeDramRegion 2)]

set_option maxRecDepth 100000 in
theorem flush_runs : (runCalls toyG flushCalls toyM).isSome = true ∧ (after toyG flushCalls toyM).1 = [0, 0, 0, 0, 0, 0, 0] := by decide +kernel

/-- C25's theorem applies to it, and its conclusion is what happened: cores 0, 1, 2 flushed before region 2 was blocked. -/
example : ∀ c, c < toyG.cores → FlushedIn ([⟨1, .flushCachedDramRegions, 0⟩, ⟨0, .flushCachedDramRegions, 0⟩, ⟨2, .flushCachedDramRegions, 0⟩] ++
    ⟨0, .blockDramRegion 2, 0⟩ :: ([⟨3, .flushCachedDramRegions, 0⟩] ++ [⟨0, .freeDramRegion 2, 0⟩])) c := by
  have hh := hist_after flush_runs.1 (by set_option maxRecDepth 100000 in decide +kernel)
  unfold events at hh
  rw [flush_runs.2] at hh
  refine C25_flush_before_free_partial (l0 := []) (b0 := ⟨0, .blockDramRegion 1, 0⟩) (r0 := 1) (r := 2) toy_fromBoot
    (by set_option maxRecDepth 100000 in decide +kernel) hh ?_ (by simp) ⟨rfl, rfl⟩ ⟨rfl, rfl⟩ ⟨rfl, rfl⟩ ?_
  · intro x hx
    simp only [List.nil_append, List.cons_append, List.mem_cons, List.not_mem_nil, or_false] at hx
    rcases hx with rfl | rfl | rfl | rfl | rfl | rfl | rfl <;> trivial
  · intro x hx
    simp only [List.mem_cons, List.not_mem_nil, or_false] at hx
    subst hx
    constructor <;> (intro hh; cases hh.1)

/-- Block and free at once. -/
def blockFreeCalls : List (Nat × Call) := [(0, .blockDramRegion 1), (0, .freeDramRegion 1)]
set_option maxRecDepth 100000 in
theorem blockFree_runs : (runCalls toyG blockFreeCalls toyM).isSome = true ∧ (after toyG blockFreeCalls toyM).1 = [0, 0] := by decide +kernel

/-- C25 is false of the code: right after boot, a blocked region can be freed without any flush. -/
theorem C25_statement_false : ∃ g m, FromBoot g m ∧ (∀ c, c < g.cores → m.flushedAt c = 0) ∧ ¬ C25_statement g m := by
  refine ⟨toyG, toyM, toy_fromBoot, by set_option maxRecDepth 100000 in decide +kernel, fun hst => ?_⟩
  have hh := hist_after blockFree_runs.1 (by set_option maxRecDepth 100000 in decide +kernel)
  unfold events at hh
  rw [blockFree_runs.2] at hh
  obtain ⟨x, hx, -⟩ := hst [] [] 1 ⟨0, .blockDramRegion 1, 0⟩ ⟨0, .freeDramRegion 1, 0⟩ _ hh ⟨rfl, rfl⟩ ⟨rfl, rfl⟩ (fun x hx => absurd hx List.not_mem_nil) 0
    (by set_option maxRecDepth 100000 in decide +kernel)
  exact absurd hx List.not_mem_nil

/-! ### C27 -/

/-- C27, in full. -/
def C27_statement (g : Cfg) : Prop :=
  ∀ c r m v m' a, c < g.cores → LockWords g m → RecordOk g (m.running c) → m.dmaStart ≤ m.dmaEnd →
    m.owner g r.toNat = nullEnclaveId → m.dmaStart.toNat ≤ a → a < m.dmaEnd.toNat → a < g.dramSize.toNat → regionOf g a = r.toNat →
    call g c (.blockDramRegion r) m = some (v, m') → v ≠ monitorOk

theorem single_region (h : g.WF) (hs : g.SingleStripe) {a : Nat} (ha : a < g.dramSize.toNat) : regionOf g a = a / g.stripeSize.toNat := by
  unfold regionOf
  rw [h.stripeSize]
  apply Nat.mod_eq_of_lt
  rw [Nat.div_lt_iff_lt_mul (Nat.two_pow_pos _), ← Nat.pow_add]
  rw [h.dramSize, hs] at ha
  rwa [Nat.add_comm]

/-- C27 on machines whose regions have one stripe. -/
theorem C27_dma_blocks_block_partial (h : g.WF) (hs : g.SingleStripe) : C27_statement g := by
  intro c r m v m' a hc hl hre hd ho h1 h2 h3 h4 hr hv
  obtain ⟨v1, m1, q1, q2, -, -⟩ := C15_block_exact h hc r hl hre hd
  rw [q1] at hr; injection hr with hr; injection hr with z1 z2
  obtain ⟨p1, p2, p3, p4, p5, p6, p7, p8⟩ := q2.1 (z1.trans hv)
  have hrun : m.running c = 0 := by rw [← p4, ho]; rfl
  rw [hrun] at p8
  refine p8 (region0_of_low h (by obtain ⟨t, ht⟩ := h.top_pow; show 0 < _; rw [ht]; exact Nat.two_pow_pos t)) ?_
  rw [single_region h hs h3] at h4
  have hpos : 0 < g.stripeSize.toNat := by rw [h.stripeSize]; exact Nat.two_pow_pos _
  have hlo : a / g.stripeSize.toNat * g.stripeSize.toNat ≤ a := Nat.div_mul_le_self _ _
  have hhi : a < (a / g.stripeSize.toNat + 1) * g.stripeSize.toNat := by
    have := Nat.lt_mul_div_succ a hpos
    rw [Nat.mul_comm] at this; exact this
  rw [h4] at hlo hhi
  exact ⟨by omega, by omega⟩

/-- The hypotheses are met: after boot, the window at the top of the monitor's memory is in region 0; here it is moved to region 3. -/
example : (runCalls toyG [(0, .setDmaRange 0x18000 0x3ff), (0, .blockDramRegion 3), (0, .blockDramRegion 4)] toyM).map (fun x => x.1.map (· == monitorOk)) =
    some [true, false, true] := by
  set_option maxRecDepth 100000 in decide +kernel

/-- Moves the window to the second stripe of region 1 of the striped machine. -/
def stripeDmaCalls : List (Nat × Call) := [(0, .setDmaRange 0x12000 0xfff)]
set_option maxRecDepth 100000 in
theorem stripeDma_runs : (runCalls (booted stripedPlatform).1 stripeDmaCalls (booted stripedPlatform).2).isSome = true := by decide +kernel

/-- C27 is false of the code on machines with several stripes per region. -/
theorem C27_statement_false : ∃ g m, FromBoot g m ∧ ¬ C27_statement g := by
  have hfb : FromBoot (booted stripedPlatform).1 (booted stripedPlatform).2 :=
    ⟨stripedPlatform, zeroMachine, striped_sane, booted_ok striped_boots, fun _ _ => rfl⟩
  refine ⟨_, _, hfb, fun hst => ?_⟩
  have hh := hist_after stripeDma_runs (by set_option maxRecDepth 100000 in decide +kernel)
  have hinv := hist_inv hfb.wf hh (fun x hx => by
    unfold events stripeDmaCalls at hx
    cases hr : (after (booted stripedPlatform).1 stripeDmaCalls (booted stripedPlatform).2).1 with
    | nil => rw [show [((0 : Nat), Call.setDmaRange 0x12000 0xfff)] = stripeDmaCalls from rfl, hr] at hx; cases hx
    | cons v vs =>
        rw [show [((0 : Nat), Call.setDmaRange 0x12000 0xfff)] = stripeDmaCalls from rfl, hr] at hx
        simp only [stripeDmaCalls, List.zipWith, List.mem_cons, List.not_mem_nil, or_false] at hx
        subst hx; trivial) hfb.inv
  generalize hm : (after (booted stripedPlatform).1 stripeDmaCalls (booted stripedPlatform).2).2 = m at *
  have hc0 : 0 < (booted stripedPlatform).1.cores := by set_option maxRecDepth 100000 in decide +kernel
  have hrun : (call (booted stripedPlatform).1 0 (.blockDramRegion 1) m).map Prod.fst = some monitorOk := by
    rw [← hm]; set_option maxRecDepth 100000 in decide +kernel
  cases hcall : call (booted stripedPlatform).1 0 (.blockDramRegion 1) m with
  | none => rw [hcall] at hrun; cases hrun
  | some x =>
      rw [hcall] at hrun
      injection hrun with hrun
      refine hst 0 1 m x.1 x.2 0x12000 hc0 hinv.locks (hinv.recordOk hc0) hinv.dma ?_ ?_ ?_ ?_ ?_ hcall hrun
      all_goals try rw [← hm]
      all_goals set_option maxRecDepth 100000 in decide +kernel

/-! ### C26 -/

/-- C26, in full. -/
def C26_statement (g : Cfg) (m1 : Machine) : Prop := ∀ l m2, Hist g m1 l m2 → DmaSafe g m2

theorem FromBoot.dmaSafe {m : Machine} (hb : FromBoot g m) : DmaSafe g m := by
  have h := hb.wf
  obtain ⟨p, m0, hp, hboot, -⟩ := hb
  have hs := C12_boot_state hp hboot
  intro a h1 h2
  have h3 := h.top_le
  have h4 := h.dram_ge
  have h5 := h.stripe_ge
  have h6 := h.dram_le
  rw [hs.dma.1] at h1
  rw [hs.dma.2.1, BitVec.toNat_add, show (1 : W).toNat = 1 from rfl, Nat.mod_eq_of_lt (by omega)] at h2
  exact ⟨by omega, h1, (hs.owned _ (regionOf_lt h a)).1⟩

/-- C26, the part that holds: in every history in which the OS only sets the window over its own memory, on
machines whose regions have one stripe. Missing: the monitor does not check it. -/
theorem C26_dma_window_partial {m1 : Machine} (hb : FromBoot g m1) (hs : g.SingleStripe) {m2 : Machine} (hh : CarefulHist g m1 m2) :
    DmaSafe g m2 := by
  have h := hb.wf
  suffices hboth : Inv g m2 ∧ DmaSafe g m2 from hboth.2
  induction hh with
  | nil => exact ⟨hb.inv, hb.dmaSafe⟩
  | @call m' m'' c k v _ hc hk hw hcall ih =>
      obtain ⟨hi, hd⟩ := ih
      have st := step_call h hc hk hi hcall
      have tr := track_call h hc hk hi hcall
      refine ⟨st.inv, ?_⟩
      rcases tr.dma with ⟨q1, q2⟩ | ⟨b, n, rfl, hv, q1, q2⟩
      · intro a h1 h2
        rw [q1] at h1; rw [q2] at h2
        obtain ⟨d1, d2, d3⟩ := hd a h1 h2
        refine ⟨d1, d2, ?_⟩
        have hr := regionOf_lt h a
        rcases tr.owner _ hr with ho | ⟨r, z1, z2, z3 | z3 | z3 | ⟨e, z3⟩⟩
        · rw [ho]; exact d3
        · subst z3
          exact absurd z2 (C27_dma_blocks_block_partial h hs c r m' v m'' a hc hi.locks (hi.recordOk hc) hi.dma (by rw [z1]; exact d3) h1 h2 d1 z1.symm hcall)
        · subst z3
          obtain ⟨v1, m3, q4, q5, -, -⟩ := C17_free_exact h c r hi.locks
          rw [q4] at hcall; injection hcall with hcall; injection hcall with y1 y2
          obtain ⟨-, -, hor⟩ := q5.1 (y1.trans z2)
          rw [z1, d3] at hor
          rcases hor with ⟨hx, -⟩ | ⟨hx, -⟩ <;> exact absurd hx (by decide)
        · subst z3
          obtain ⟨v1, m3, q4, q5, -, -⟩ := C18_create_metadata_exact h c r hi.locks (by rw [hi.region0]; decide)
          rw [q4] at hcall; injection hcall with hcall; injection hcall with y1 y2
          have := (q5.1 (y1.trans z2)).2.2
          rw [z1, d3] at this; exact absurd this (by decide)
        · subst z3
          obtain ⟨v1, m3, q4, q5, -, -⟩ := C16_assign_exact h c r e hi.locks (fun hh => by rw [hi.noId h hh]; exact recordOk_zero)
          rw [q4] at hcall; injection hcall with hcall; injection hcall with y1 y2
          have := (q5.1 (y1.trans z2)).2.2.1
          rw [z1, d3] at this; exact absurd this (by decide)
      · obtain ⟨v1, m3, q4, q5, q6, -⟩ := C49_set_dma_exact h c b n hi.locks
        rw [q4] at hcall; injection hcall with hcall; injection hcall with y1 y2
        have hok := q5.1 (y1.trans hv)
        obtain ⟨⟨kk, k1, k2, k3⟩, hlt, -, -⟩ := id hok
        have hor : (b ||| n).toNat = b.toNat + n.toNat := by
          rw [BitVec.toNat_or, k2]
          obtain ⟨t, ht⟩ := k3
          rw [ht, Nat.mul_comm, ← Nat.shiftLeft_eq, Nat.shiftLeft_add_eq_or_of_lt (by have := Nat.two_pow_pos kk; omega)]
        have hle := h.dram_le
        have hend : ((b ||| n) + 1).toNat = b.toNat + n.toNat + 1 := by
          rw [BitVec.toNat_add, hor, show (1 : W).toNat = 1 from rfl, Nat.mod_eq_of_lt (by omega)]
        intro a h1 h2
        rw [q1] at h1; rw [q2, hend] at h2
        obtain ⟨w1, w2⟩ := hw b n rfl a h1 (by omega)
        refine ⟨by omega, w1, ?_⟩
        rw [← y2]
        show m3.mem _ = _
        rw [(q6 (y1.trans hv)).mem]; exact w2
  | @soft m m' _ hs' ih =>
      obtain ⟨hi, hd⟩ := ih
      obtain ⟨a, v, ha, rfl⟩ := hs'
      have hst := sameTop_st (g := g) (m := m) ha v
      refine ⟨(hst.inv h hi).1, fun x h1 h2 => ?_⟩
      obtain ⟨d1, d2, d3⟩ := hd x h1 h2
      refine ⟨d1, d2, ?_⟩
      have : regionOf g x < g.regions := regionOf_lt h x
      rw [← d3]
      exact hst.1 _ (by have := ownerA_lt h this; omega)

/-- A careful history that moves the window to regions 2 and 3. -/
example : ∃ m2, CarefulHist toyG toyM m2 ∧ m2.dmaStart = 0x10000 ∧ m2.dmaEnd = 0x20000 := by
  have hs := (C12_boot_state toy_sane (booted_ok toy_boots))
  have hr : ∃ x, call toyG 0 (.setDmaRange 0x10000 0xffff) toyM = some x ∧ x.2.dmaStart = 0x10000 ∧ x.2.dmaEnd = 0x20000 := by
    have ht : (call toyG 0 (.setDmaRange 0x10000 0xffff) toyM).map (fun x => (x.2.dmaStart, x.2.dmaEnd)) = some (0x10000, 0x20000) := by
      set_option maxRecDepth 100000 in decide +kernel
    cases hc : call toyG 0 (.setDmaRange 0x10000 0xffff) toyM with
    | none => rw [hc] at ht; cases ht
    | some x =>
        rw [hc] at ht
        simp only [Option.map_some, Option.some.injEq, Prod.mk.injEq] at ht
        exact ⟨x, rfl, ht.1, ht.2⟩
  obtain ⟨⟨v, m2⟩, h1, h2⟩ := hr
  refine ⟨m2, .call (k := .setDmaRange 0x10000 0xffff) (.nil _) (by set_option maxRecDepth 100000 in decide +kernel) trivial (fun b n hbn a h3 h4 => ?_) h1, h2⟩
  injection hbn with hb hn
  subst hb; subst hn
  have htop : toyG.monitorTop.toNat ≤ 0x10000 := by set_option maxRecDepth 100000 in decide +kernel
  exact ⟨Nat.le_trans htop h3, (hs.owned _ (regionOf_lt toy_wf a)).1⟩

set_option maxRecDepth 100000 in
theorem dma_over_monitor : (call toyG 0 (.setDmaRange 0 0xfff) toyM).map (fun x => (x.1, x.2.dmaStart, x.2.dmaEnd)) = some (monitorOk, 0, 0x1000) := by decide +kernel

/-- C26 is false of the code: the OS can set the window over the monitor's own memory. -/
theorem C26_statement_false : ∃ g m, FromBoot g m ∧ ¬ C26_statement g m := by
  refine ⟨toyG, toyM, toy_fromBoot, fun hst => ?_⟩
  have ht := dma_over_monitor
  cases hc : call toyG 0 (.setDmaRange 0 0xfff) toyM with
  | none => rw [hc] at ht; cases ht
  | some x =>
      rw [hc] at ht
      simp only [Option.map_some, Option.some.injEq, Prod.mk.injEq] at ht
      have hs := hst _ x.2 (.cons (by set_option maxRecDepth 100000 in decide +kernel) hc (.nil _)) 0 (by rw [ht.2.1]; decide) (by rw [ht.2.2]; decide)
      have : 0 < toyG.monitorTop.toNat := by set_option maxRecDepth 100000 in decide +kernel
      omega

/-! ### C28 -/

/-- `k` blocks a region, or assigns one to the OS. -/
def BlockOrAssign (k : Call) : Prop := (∃ r, k = .blockDramRegion r) ∨ ∃ r, k = .assignDramRegion r 0

/-- C28, in full. -/
def C28_statement (g : Cfg) (m1 : Machine) : Prop :=
  ∀ l m2 c k m3, Hist g m1 l m2 → c < g.cores → BlockOrAssign k → call g c k m2 = some (monitorOk, m3) →
    ∀ c' i, c' < g.cores → i < g.regions → (m3.drbBit c' i = true ↔ m3.owner g i = nullEnclaveId)

/-- C28 on the core that made the call, after every covered history. Missing: the other cores. -/
theorem C28_access_map_partial {m1 : Machine} (hb : FromBoot g m1) {l : List Event} {m2 m3 : Machine} (hh : Hist g m1 l m2) (hcov : CoveredHist g l)
    {c : Nat} (hc : c < g.cores) {k : Call} (hk : BlockOrAssign k) (hr : call g c k m2 = some (monitorOk, m3)) :
    ∀ i, i < g.regions → (m3.drbBit c i = true ↔ m3.owner g i = nullEnclaveId) := by
  have h := hb.wf
  have hi := hist_inv h hh hcov hb.inv
  intro i hlt
  rcases hk with ⟨r, rfl⟩ | ⟨r, rfl⟩
  · have hi' := (step_call (k := .blockDramRegion r) h hc trivial hi hr).inv
    obtain ⟨v, m', q1, q2, q3, -⟩ := C15_block_exact h hc r hi.locks (hi.recordOk hc) hi.dma
    rw [q1] at hr; injection hr with hr; injection hr with z1 z2
    subst z2
    rw [(q3 z1).map_os (hi.os c hc) i hlt]
    exact hi'.bitmap i hlt
  · have hi' := (step_call (k := .assignDramRegion r 0) h hc trivial hi hr).inv
    obtain ⟨v, m', q1, q2, q3, -⟩ := C16_assign_exact h c r 0 hi.locks (fun _ => recordOk_zero)
    rw [q1] at hr; injection hr with hr; injection hr with z1 z2
    subst z2
    rw [(q3 z1).map_os rfl i hlt]
    exact hi'.bitmap i hlt

/-- Core 1 blocks region 2, core 0 blocks region 1: core 1 can still access region 1. -/
def staleMapCalls : List (Nat × Call) := [(1, .blockDramRegion 2)]
set_option maxRecDepth 100000 in
theorem staleMap_runs : (runCalls toyG staleMapCalls toyM).isSome = true ∧
    (call toyG 0 (.blockDramRegion 1) (after toyG staleMapCalls toyM).2).map (fun x => (x.1, x.2.drbBit 1 1, x.2.owner toyG 1, x.2.drbBit 0 1, x.2.drbBit 0 2, x.2.drbBit 0 3)) =
      some (monitorOk, true, blockedEnclaveId, false, false, true) := by decide +kernel

/-- C28 is false of the code on the other cores. (The history is one to which the partial theorem applies.) -/
theorem C28_statement_false : ∃ g m, FromBoot g m ∧ ¬ C28_statement g m := by
  refine ⟨toyG, toyM, toy_fromBoot, fun hst => ?_⟩
  have hh := hist_after staleMap_runs.1 (by set_option maxRecDepth 100000 in decide +kernel)
  have ht := staleMap_runs.2
  cases hc : call toyG 0 (.blockDramRegion 1) (after toyG staleMapCalls toyM).2 with
  | none => rw [hc] at ht; cases ht
  | some x =>
      rw [hc] at ht
      simp only [Option.map_some, Option.some.injEq, Prod.mk.injEq] at ht
      obtain ⟨v, m3⟩ := x
      dsimp only at ht
      rw [ht.1] at hc
      have := (hst _ _ 0 _ m3 hh (by set_option maxRecDepth 100000 in decide +kernel) (Or.inl ⟨1, rfl⟩) hc 1 1 (by set_option maxRecDepth 100000 in decide +kernel)
        (by set_option maxRecDepth 100000 in decide +kernel)).1 ht.2.1
      rw [ht.2.2.1] at this
      exact absurd this (by decide)

end Sanctum
