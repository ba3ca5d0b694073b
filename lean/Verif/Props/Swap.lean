import Verif.Lemmas.Swap
import Verif.Props.System
import Verif.Props.Instances
/-
C91: calls about different regions can be made in either order.
-/
namespace Sanctum
open Machine

variable {g : Cfg}

theorem Shape.Did.snap (h : g.WF) {s : Shape} {c r : Nat} {m m' : Machine} (hd : s.Did g c r m m') (h1 : s ≠ .skip → r < g.regions ∧ r ≠ 0) (hl : s.loads = false) :
    snapshot m' g.osBitmap.toNat g.bitmapWords.toNat = snapshot m g.osBitmap.toNat g.bitmapWords.toNat := by
  obtain ⟨l1, l2, l3, l4, l5, l6, l7, l8, l9, l10, l11, l12⟩ := h.layout
  unfold snapshot
  refine List.map_congr_left fun i hi => ?_
  have hi := List.mem_range.1 hi
  have hw := h.words
  have hlt : g.osBitmap.toNat + 8 * i < g.monitorTop.toNat := by omega
  by_cases hs : s = .skip
  · subst hs
    by_cases hx : g.osBitmap.toNat + 8 * i = blockedA g r
    · rw [hx, hd.time]; simp
    · exact hd.mem _ hx
  · obtain ⟨hr, h0⟩ := h1 hs
    have hlow := Nat.mul_le_mul_right g.stripeSize.toNat (Nat.one_le_iff_ne_zero.2 h0)
    rw [hd.mem _ (by unfold blockedA; omega)]
    have n1 : g.osBitmap.toNat + 8 * i ≠ ownerA g r := by unfold ownerA; omega
    have n2 : g.osBitmap.toNat + 8 * i ≠ pinnedA g r := by unfold pinnedA; omega
    have n3 : ¬ (r * g.stripeSize.toNat ≤ g.osBitmap.toNat + 8 * i ∧ g.osBitmap.toNat + 8 * i < r * g.stripeSize.toNat + mapBytes g ∧ (g.osBitmap.toNat + 8 * i) % 8 = 0) := by omega
    cases s
    · rfl
    · cases hl
    · cases hl
    · simp only [Shape.put, if_neg n1]
    · simp only [Shape.put, if_neg n1, if_neg n2, if_neg n3]

/-- C91, for one state. -/
theorem swap_calls (h : g.WF) {c1 c2 : Nat} (hc1 : c1 < g.cores) (hc2 : c2 < g.cores) {k1 k2 : Call} {r1 r2 : W} (hk1 : k1.about = some r1)
    (hk2 : k2.about = some r2) (hne : r1 ≠ r2) {m : Machine} (hi : Inv g m) :
    ∃ v1 v2 m1 m2 m12 m21, call g c1 k1 m = some (v1, m1) ∧ call g c2 k2 m1 = some (v2, m12) ∧
      call g c2 k2 m = some (v2, m2) ∧ call g c1 k1 m2 = some (v1, m21) ∧
      AlmostSame (fun x => Blocked k1 v1 ∧ Blocked k2 v2 ∧ (x = blockedA g r1.toNat ∨ x = blockedA g r2.toNat)) (fun c => c1 ≠ c2 ∧ (c = c1 ∨ c = c2)) m12 m21 := by
  have hcov : ∀ {k : Call} {r : W}, k.about = some r → Covered g k := fun {k r} hk => by
    cases k <;> simp only [Call.about, reduceCtorEq] at hk <;> trivial
  have hneN : r1.toNat ≠ r2.toNat := fun hh => hne (BitVec.eq_of_toNat_eq hh)
  obtain ⟨v1, s1, p1, b1, q1⟩ := about_call h hc1 hk1 hi
  obtain ⟨v2, s2, p2, b2, q2⟩ := about_call h hc2 hk2 hi
  obtain ⟨m1, e1, d1⟩ := q1 m hi (.refl _ _)
  obtain ⟨m2, e2, d2⟩ := q2 m hi (.refl _ _)
  have i1 := (step_call h hc1 (hcov hk1) hi e1).inv
  have i2 := (step_call h hc2 (hcov hk2) hi e2).inv
  obtain ⟨m12, e12, d12⟩ := q2 m1 i1 (d1.view h p1 hneN)
  obtain ⟨m21, e21, d21⟩ := q1 m2 i2 (d2.view h p2 (Ne.symm hneN))
  refine ⟨v1, v2, m1, m2, m12, m21, e1, e12, e2, e21, ?_⟩
  obtain ⟨l1, l2, l3, l4, l5, l6, l7, l8, l9, l10, l11, l12⟩ := h.layout
  -- the block time of one region does not change with a call about another
  have other : ∀ {s : Shape} {c r r' : Nat} {m m' : Machine}, s.Did g c r m m' → (s ≠ .skip → r < g.regions ∧ r ≠ 0) → r ≠ r' → (r' < g.regions) →
      m'.mem (blockedA g r') = m.mem (blockedA g r') := fun hd hp hn hr' => (hd.view h hp hn).time hr'
  have clock : ∀ {s : Shape} {c r : Nat} {m m' : Machine}, s.Did g c r m m' → (s ≠ .skip → r < g.regions ∧ r ≠ 0) → s ≠ .blk → m'.clock g = m.clock g := by
    intro s c r m m' hd hp hn
    by_cases hs : s = .skip
    · subst hs
      by_cases hx : clockA g = blockedA g r
      · show m'.mem (clockA g) = m.mem (clockA g); rw [hx, hd.time]; simp
      · exact hd.mem _ hx
    · obtain ⟨hr, h0⟩ := hp hs
      have hlow := Nat.mul_le_mul_right g.stripeSize.toNat (Nat.one_le_iff_ne_zero.2 h0)
      show m'.mem (clockA g) = m.mem (clockA g)
      rw [hd.mem _ (by unfold clockA blockedA; omega), put_clock h0 _ rfl (by unfold clockA osWordA; omega), if_neg (by simpa using hn)]
      rintro (hh | ⟨-, hh, -⟩) <;> unfold clockA at hh <;> omega
  have hmem : ∀ x, ¬ (s1 = .blk ∧ s2 = .blk ∧ (x = blockedA g r1.toNat ∨ x = blockedA g r2.toNat)) → m21.mem x = m12.mem x := by
    intro x hx
    by_cases hb1 : s1 = .skip
    · subst hb1
      have a1 : ∀ y, m1.mem y = m.mem y := fun y => by
        by_cases hy : y = blockedA g r1.toNat
        · rw [hy, d1.time]; simp
        · exact d1.mem y hy
      have a2 : ∀ y, m21.mem y = m2.mem y := fun y => by
        by_cases hy : y = blockedA g r1.toNat
        · rw [hy, d21.time]; simp
        · exact d21.mem y hy
      rw [a2]
      by_cases hy : x = blockedA g r2.toNat
      · rw [hy, d2.time, d12.time]; unfold Machine.clock; rw [a1, a1]
      · rw [d2.mem x hy, d12.mem x hy, a1]
    by_cases hb2 : s2 = .skip
    · subst hb2
      have a1 : ∀ y, m2.mem y = m.mem y := fun y => by
        by_cases hy : y = blockedA g r2.toNat
        · rw [hy, d2.time]; simp
        · exact d2.mem y hy
      have a2 : ∀ y, m12.mem y = m1.mem y := fun y => by
        by_cases hy : y = blockedA g r2.toNat
        · rw [hy, d12.time]; simp
        · exact d12.mem y hy
      rw [a2]
      by_cases hy : x = blockedA g r1.toNat
      · rw [hy, d1.time, d21.time]; unfold Machine.clock; rw [a1, a1]
      · rw [d1.mem x hy, d21.mem x hy, a1]
    have hr1 := (p1 hb1).1
    have hr2 := (p2 hb2).1
    by_cases hx1 : x = blockedA g r1.toNat
    · subst hx1
      rw [other d12 p2 (Ne.symm hneN) hr1, d1.time, d21.time]
      by_cases hs1 : s1 = .blk
      · rw [if_pos hs1, if_pos hs1]
        exact clock d2 p2 fun hs2 => hx ⟨hs1, hs2, Or.inl rfl⟩
      · rw [if_neg hs1, if_neg hs1, other d2 p2 (Ne.symm hneN) hr1]
    · by_cases hx2 : x = blockedA g r2.toNat
      · subst hx2
        rw [other d21 p1 hneN hr2, d2.time, d12.time]
        by_cases hs2 : s2 = .blk
        · rw [if_pos hs2, if_pos hs2]
          exact (clock d1 p1 fun hs1 => hx ⟨hs1, hs2, Or.inr rfl⟩).symm
        · rw [if_neg hs2, if_neg hs2, other d1 p1 hneN hr2]
      · rw [d21.mem x hx1, d2.mem x hx2, d12.mem x hx2, d1.mem x hx1, put_comm h p1 p2 hneN]
  refine ⟨fun x hx => hmem x fun hh => hx ⟨b1 hh.1, b2 hh.2.1, hh.2.2⟩, fun c hcc => ?_, by rw [d21.edrb, d2.edrb, d12.edrb, d1.edrb], ?_, ?_⟩
  · have hsnap : snapshot m21 g.osBitmap.toNat g.bitmapWords.toNat = snapshot m12 g.osBitmap.toNat g.bitmapWords.toNat := by
      unfold snapshot
      refine List.map_congr_left fun i hi => hmem _ ?_
      rintro ⟨z1, z2, hh⟩
      have hr1 := (p1 (by rw [z1]; decide)).1
      have hr2 := (p2 (by rw [z2]; decide)).1
      unfold blockedA at hh
      omega
    by_cases hcore : c1 = c2
    · subst hcore
      have t1 := d1.drb
      have t2 := d2.drb
      have t3 := d12.drb
      have t4 := d21.drb
      cases hl1 : s1.loads <;> cases hl2 : s2.loads <;> simp only [hl1, hl2, if_true, if_false, Bool.false_eq_true] at t1 t2 t3 t4
      · rw [t4, t2, t3, t1]
      · rw [t4, t2, t3, t1, ← d21.snap h p1 hl1, hsnap]
      · rw [t4, t2, t3, t1, ← d12.snap h p2 hl2, hsnap]
      · rw [t4, t2, t3, t1, upd_upd, upd_upd, hsnap]
    · have hn1 : c ≠ c1 := fun hh => hcc ⟨hcore, Or.inl hh⟩
      have hn2 : c ≠ c2 := fun hh => hcc ⟨hcore, Or.inr hh⟩
      have keep : ∀ {s : Shape} {c' r : Nat} {m m' : Machine}, s.Did g c' r m m' → c ≠ c' → m'.drb c = m.drb c := fun {s c' r m m'} hd hn => by
        rw [hd.drb]; cases s.loads
        · rfl
        · exact upd_ne _ _ hn
      rw [keep d21 hn1, keep d2 hn2, keep d12 hn2, keep d1 hn1]
  · exact ⟨by rw [d21.dma.1, d2.dma.1, d12.dma.1, d1.dma.1], by rw [d21.dma.2.1, d2.dma.2.1, d12.dma.2.1, d1.dma.2.1],
      by rw [d21.dma.2.2.1, d2.dma.2.2.1, d12.dma.2.2.1, d1.dma.2.2.1], by rw [d21.dma.2.2.2, d2.dma.2.2.2, d12.dma.2.2.2, d1.dma.2.2.2]⟩
  · exact ⟨by rw [d21.regs.1, d2.regs.1, d12.regs.1, d1.regs.1], by rw [d21.regs.2.1, d2.regs.2.1, d12.regs.2.1, d1.regs.2.1],
      by rw [d21.regs.2.2.1, d2.regs.2.2.1, d12.regs.2.2.1, d1.regs.2.2.1], by rw [d21.regs.2.2.2, d2.regs.2.2.2, d12.regs.2.2.2, d1.regs.2.2.2]⟩

/-- C91: after every history of covered calls, with stores by software between them, two calls about different regions can be made in either order, on any
cores: each returns the same in both orders, and the machines at the end are the same, but for the access maps of the two cores (if they are
different) and, if both calls were successful blocks, the two block times. -/
theorem C91_either_order {m0 : Machine} (hb : FromBoot g m0) {l : List Event} {m : Machine} (hh : Hist g m0 l m) (hv : CoveredHist g l) {c1 c2 : Nat}
    (hc1 : c1 < g.cores) (hc2 : c2 < g.cores) {k1 k2 : Call} {r1 r2 : W} (hk1 : k1.about = some r1) (hk2 : k2.about = some r2) (hne : r1 ≠ r2) :
    ∃ v1 v2 m1 m2 m12 m21, call g c1 k1 m = some (v1, m1) ∧ call g c2 k2 m1 = some (v2, m12) ∧
      call g c2 k2 m = some (v2, m2) ∧ call g c1 k1 m2 = some (v1, m21) ∧
      AlmostSame (fun x => Blocked k1 v1 ∧ Blocked k2 v2 ∧ (x = blockedA g r1.toNat ∨ x = blockedA g r2.toNat)) (fun c => c1 ≠ c2 ∧ (c = c1 ∨ c = c2)) m12 m21 :=
  swap_calls hb.wf hc1 hc2 hk1 hk2 hne (hist_inv hb.wf hh hv hb.inv)

/-- C91: on one core, and not for two successful blocks, the machine at the end is the same. -/
theorem C91_one_core {m0 : Machine} (hb : FromBoot g m0) {l : List Event} {m : Machine} (hh : Hist g m0 l m) (hv : CoveredHist g l) {c : Nat}
    (hc : c < g.cores) {k1 k2 : Call} {r1 r2 : W} (hk1 : k1.about = some r1) (hk2 : k2.about = some r2) (hne : r1 ≠ r2) {v1 v2 : W} {m1 m12 : Machine}
    (h1 : call g c k1 m = some (v1, m1)) (h2 : call g c k2 m1 = some (v2, m12)) (hnb : ¬ (Blocked k1 v1 ∧ Blocked k2 v2)) :
    ∃ m2, call g c k2 m = some (v2, m2) ∧ call g c k1 m2 = some (v1, m12) := by
  obtain ⟨u1, u2, n1, n2, n12, n21, q1, q2, q3, q4, q5⟩ := C91_either_order hb hh hv hc hc hk1 hk2 hne
  rw [h1] at q1
  obtain ⟨rfl, rfl⟩ := Prod.mk.inj (Option.some.inj q1)
  rw [h2] at q2
  obtain ⟨rfl, rfl⟩ := Prod.mk.inj (Option.some.inj q2)
  refine ⟨n2, q3, ?_⟩
  have : n21 = m12 := by
    obtain ⟨a1, a2, a3, ⟨a4, a5, a6, a7⟩, a8, a9, a10, a11⟩ := q5
    have hm := funext fun x => a1 x fun hx => hnb ⟨hx.1, hx.2.1⟩
    have hd := funext fun c => a2 c fun hx => hx.1 rfl
    cases n21; cases m12
    simp only at hm hd a3 a4 a5 a6 a7 a8 a9 a10 a11
    subst hm hd a3 a4 a5 a6 a7 a8 a9 a10 a11
    rfl
  rw [q4, this]

/-- The exception for block times shows: `free_dram_region` of region 1 succeeds or fails depending on the order
of two blocks (block times are off by one, see C25). -/
theorem C91_block_times : ((runCalls toyG [(0, .blockDramRegion 1), (0, .blockDramRegion 2), (0, .freeDramRegion 1)] toyM).map Prod.fst,
    (runCalls toyG [(0, .blockDramRegion 2), (0, .blockDramRegion 1), (0, .freeDramRegion 1)] toyM).map Prod.fst) =
    (some [monitorOk, monitorOk, monitorOk], some [monitorOk, monitorOk, monitorInvalidState]) := by
  set_option maxRecDepth 100000 in decide +kernel

/-- The exception for access maps shows: core 0, which blocked region 1 first, still has region 2 in its map. -/
theorem C91_maps : ((runCalls toyG [(0, .blockDramRegion 1), (1, .blockDramRegion 2)] toyM).map fun x => x.2.drbBit 0 2,
    (runCalls toyG [(1, .blockDramRegion 2), (0, .blockDramRegion 1)] toyM).map fun x => x.2.drbBit 0 2) = (some true, some false) := by
  set_option maxRecDepth 100000 in decide +kernel

/-- Freeing region 2 and assigning region 3, in either order, after calls that got the two regions there; both succeed. -/
def swapCalls : List (Nat × Call) := [(0, .blockDramRegion 2), (1, .blockDramRegion 3), (0, .flushCachedDramRegions), (1, .flushCachedDramRegions),
  (2, .flushCachedDramRegions), (3, .flushCachedDramRegions), (0, .freeDramRegion 3)]

set_option maxRecDepth 100000 in
theorem swap_runs : (runCalls toyG swapCalls toyM).isSome = true ∧ ((runCalls toyG (swapCalls ++ [(2, .freeDramRegion 2), (2, .assignDramRegion 3 0)]) toyM).map Prod.fst) =
    some [monitorOk, monitorOk, monitorOk, monitorOk, monitorOk, monitorOk, monitorOk, monitorOk, monitorOk] := by decide +kernel

example : ∃ v1 v2 m1 m2 m12 m21, call toyG 2 (.freeDramRegion 2) (after toyG swapCalls toyM).2 = some (v1, m1) ∧ call toyG 2 (.assignDramRegion 3 0) m1 = some (v2, m12) ∧
    call toyG 2 (.assignDramRegion 3 0) (after toyG swapCalls toyM).2 = some (v2, m2) ∧ call toyG 2 (.freeDramRegion 2) m2 = some (v1, m21) ∧ m21.mem = m12.mem := by
  obtain ⟨v1, v2, m1, m2, m12, m21, h1, h2, h3, h4, h5⟩ := C91_either_order toy_fromBoot (hist_after swap_runs.1 (by set_option maxRecDepth 100000 in decide +kernel))
    (l := events toyG swapCalls toyM) (coveredHist_of (by unfold swapCalls; simp [Covered])) (c1 := 2) (c2 := 2) (by decide) (by decide) (k1 := .freeDramRegion 2)
    (k2 := .assignDramRegion 3 0) rfl rfl (by decide)
  exact ⟨v1, v2, m1, m2, m12, m21, h1, h2, h3, h4, funext fun x => h5.mem x (by rintro ⟨⟨⟨r, hr⟩, -⟩, -⟩; cases hr)⟩

end Sanctum
