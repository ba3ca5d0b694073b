import Verif.Spec.Swap
import Verif.Lemmas.Step2
/-
Calls about different regions: what each does to memory, word by word.
-/
namespace Sanctum
open Machine

variable {g : Cfg}

/-- What a call about a region did. -/
inductive Shape where
  | skip | blk | asg | fre | met
deriving DecidableEq

/-- What happened to the word at `x`, other than to the region's block time. -/
def Shape.put (g : Cfg) (r : Nat) : Shape → Nat → W → W
  | .skip, _, w => w
  | .blk, x, w => if x = ownerA g r then blockedEnclaveId else if x = prevA g r then 0 else if x = clockA g then w + 1
      else if x = osWordA g r then setBit w (r % 64) false else w
  | .asg, x, w => if x = ownerA g r then 0 else if x = osWordA g r then setBit w (r % 64) true else w
  | .fre, x, w => if x = ownerA g r then freeEnclaveId else w
  | .met, x, w => if x = ownerA g r then metadataEnclaveId else if x = pinnedA g r then 0
      else if r * g.stripeSize.toNat ≤ x ∧ x < r * g.stripeSize.toNat + mapBytes g ∧ x % 8 = 0 then 0 else w

def Shape.loads : Shape → Bool
  | .blk => true
  | .asg => true
  | _ => false

/-- Words of region `r` only. -/
def Mine (g : Cfg) (r x : Nat) : Prop :=
  (g.regionBase.toNat + 40 * r + 8 ≤ x ∧ x < g.regionBase.toNat + 40 * r + 40) ∨
    (r ≠ 0 ∧ r * g.stripeSize.toNat ≤ x ∧ x < r * g.stripeSize.toNat + mapBytes g)

theorem put_else {s : Shape} {r : Nat} (h0 : s = .met → r ≠ 0) {x : Nat} (h1 : ¬ Mine g r x) (h2 : x ≠ clockA g) (h3 : x ≠ osWordA g r) (w : W) :
    s.put g r x w = w := by
  have ho : x ≠ ownerA g r := fun hh => h1 (Or.inl (by unfold ownerA at hh; omega))
  have hp : x ≠ prevA g r := fun hh => h1 (Or.inl (by unfold prevA at hh; omega))
  have hn : x ≠ pinnedA g r := fun hh => h1 (Or.inl (by unfold pinnedA at hh; omega))
  cases s
  · rfl
  · simp only [Shape.put, if_neg ho, if_neg hp, if_neg h2, if_neg h3]
  · simp only [Shape.put, if_neg ho, if_neg h3]
  · simp only [Shape.put, if_neg ho]
  · simp only [Shape.put, if_neg ho, if_neg hn]
    rw [if_neg fun hh => h1 (Or.inr ⟨h0 rfl, hh.1, hh.2.1⟩)]

theorem mine_other (h : g.WF) {r1 r2 x : Nat} (hr1 : r1 < g.regions) (hr2 : r2 < g.regions) (hne : r1 ≠ r2) (h1 : Mine g r1 x) :
    ¬ Mine g r2 x ∧ x ≠ clockA g ∧ ∀ i, i < g.regions → x ≠ osWordA g i := by
  obtain ⟨l1, l2, l3, l4, l5, l6, l7, l8, l9, l10, l11, l12⟩ := h.layout
  have hmb := mapBytes_le h
  have habove : ∀ {r : Nat}, r ≠ 0 → r * g.stripeSize.toNat ≤ x → g.monitorTop.toNat ≤ x := fun {r} h0 hx => by
    have := Nat.mul_le_mul_right g.stripeSize.toNat (Nat.one_le_iff_ne_zero.2 h0)
    omega
  have hos : ∀ i, i < g.regions → osWordA g i < g.monitorTop.toNat := fun i hi => by unfold osWordA; omega
  unfold Mine clockA
  rcases h1 with h1 | ⟨h0, h1, h2⟩
  · refine ⟨?_, by omega, fun i hi => by unfold osWordA; omega⟩
    rintro (h2 | ⟨h0, h2, -⟩)
    · omega
    · have := habove h0 h2; omega
  · have ha := habove h0 h1
    refine ⟨?_, by omega, fun i hi => by have := hos i hi; omega⟩
    rintro (h3 | ⟨h0', h3, h4⟩)
    · omega
    · rcases Nat.lt_or_gt_of_ne hne with hlt | hlt
      · have := Nat.mul_le_mul_right g.stripeSize.toNat hlt
        rw [Nat.succ_mul] at this; omega
      · have := Nat.mul_le_mul_right g.stripeSize.toNat hlt
        rw [Nat.succ_mul] at this; omega

theorem setBit_comm (w : W) {i j : Nat} (hi : i < 64) (hj : j < 64) (hne : i ≠ j) (u v : Bool) : setBit (setBit w i u) j v = setBit (setBit w j v) i u := by
  apply BitVec.eq_of_getLsbD_eq
  intro n hn
  rw [getLsbD_setBit _ _ _ _ hj hn, getLsbD_setBit _ _ _ _ hi hn, getLsbD_setBit _ _ _ _ hi hn, getLsbD_setBit _ _ _ _ hj hn]
  by_cases h1 : n = i
  · by_cases h2 : n = j
    · omega
    · simp [h1]; intro h; omega
  · simp [h1]

theorem not_mine {r x : Nat} (hm : ¬ Mine g r x) (hz : r ≠ 0) : x ≠ ownerA g r ∧ x ≠ prevA g r ∧ x ≠ pinnedA g r ∧
    ¬ (r * g.stripeSize.toNat ≤ x ∧ x < r * g.stripeSize.toNat + mapBytes g ∧ x % 8 = 0) :=
  ⟨fun hh => hm (Or.inl (by unfold ownerA at hh; omega)), fun hh => hm (Or.inl (by unfold prevA at hh; omega)),
    fun hh => hm (Or.inl (by unfold pinnedA at hh; omega)), fun hh => hm (Or.inr ⟨hz, hh.1, hh.2.1⟩)⟩

theorem put_clock {s : Shape} {r x : Nat} (hz : r ≠ 0) (hm : ¬ Mine g r x) (hc : x = clockA g) (ho : x ≠ osWordA g r) (w : W) :
    s.put g r x w = if decide (s = .blk) = true then w + 1 else w := by
  obtain ⟨a1, a2, a3, a4⟩ := not_mine hm hz
  cases s
  · rfl
  · simp only [Shape.put, if_neg a1, if_neg a2, if_pos hc]; rfl
  · simp only [Shape.put, if_neg a1, if_neg ho]; rfl
  · simp only [Shape.put, if_neg a1]; rfl
  · simp only [Shape.put, if_neg a1, if_neg a3, if_neg a4]; rfl

theorem put_os {s : Shape} {r x : Nat} (hz : r ≠ 0) (hm : ¬ Mine g r x) (hc : x ≠ clockA g) (ho : x = osWordA g r) (w : W) :
    s.put g r x w = match s with | .blk => setBit w (r % 64) false | .asg => setBit w (r % 64) true | _ => w := by
  obtain ⟨a1, a2, a3, a4⟩ := not_mine hm hz
  cases s
  · rfl
  · simp only [Shape.put, if_neg a1, if_neg a2, if_neg hc, if_pos ho]
  · simp only [Shape.put, if_neg a1, if_pos ho]
  · simp only [Shape.put, if_neg a1]
  · simp only [Shape.put, if_neg a1, if_neg a3, if_neg a4]

theorem put_comm (h : g.WF) {s1 s2 : Shape} {r1 r2 : Nat} (h1 : s1 ≠ .skip → r1 < g.regions ∧ r1 ≠ 0) (h2 : s2 ≠ .skip → r2 < g.regions ∧ r2 ≠ 0) (hne : r1 ≠ r2)
    (x : Nat) (w : W) : s2.put g r2 x (s1.put g r1 x w) = s1.put g r1 x (s2.put g r2 x w) := by
  by_cases e1 : s1 = .skip
  · subst e1; rfl
  by_cases e2 : s2 = .skip
  · subst e2; rfl
  obtain ⟨q1, z1⟩ := h1 e1
  obtain ⟨q2, z2⟩ := h2 e2
  obtain ⟨l1, l2, l3, l4, l5, l6, l7, l8, l9, l10, l11, l12⟩ := h.layout
  rcases Classical.em (Mine g r1 x) with m1 | m1
  · obtain ⟨a1, a2, a3⟩ := mine_other h q1 q2 hne m1
    rw [put_else (fun _ => z2) a1 a2 (a3 _ q2), put_else (fun _ => z2) a1 a2 (a3 _ q2)]
  rcases Classical.em (Mine g r2 x) with m2 | m2
  · obtain ⟨a1, a2, a3⟩ := mine_other h q2 q1 (Ne.symm hne) m2
    rw [put_else (fun _ => z1) a1 a2 (a3 _ q1), put_else (fun _ => z1) a1 a2 (a3 _ q1)]
  by_cases hc : x = clockA g
  · have hn1 : x ≠ osWordA g r1 := by unfold osWordA; unfold clockA at hc; omega
    have hn2 : x ≠ osWordA g r2 := by unfold osWordA; unfold clockA at hc; omega
    rw [put_clock z2 m2 hc hn2, put_clock z1 m1 hc hn1, put_clock z1 m1 hc hn1, put_clock z2 m2 hc hn2]
    cases decide (s1 = .blk) <;> cases decide (s2 = .blk) <;> rfl
  · by_cases ho1 : x = osWordA g r1
    · by_cases ho2 : x = osWordA g r2
      · have hd : r1 % 64 ≠ r2 % 64 := by unfold osWordA at ho1 ho2; omega
        have hl1 := Nat.mod_lt r1 (show 64 > 0 by decide)
        have hl2 := Nat.mod_lt r2 (show 64 > 0 by decide)
        rw [put_os z2 m2 hc ho2, put_os z1 m1 hc ho1, put_os z1 m1 hc ho1, put_os z2 m2 hc ho2]
        cases s1 <;> cases s2 <;> first | rfl | exact setBit_comm _ hl1 hl2 hd _ _
      · rw [put_else (fun _ => z2) m2 hc ho2, put_else (fun _ => z2) m2 hc ho2]
    · rw [put_else (fun _ => z1) m1 hc ho1, put_else (fun _ => z1) m1 hc ho1]

/-! ### The calls -/

/-- What the result of a call about region `r` depends on. -/
structure SameView (g : Cfg) (r : Nat) (m m' : Machine) : Prop where
  locks : ∀ i, i < g.regions → m'.mem (lockA g i) = m.mem (lockA g i)
  owner : r < g.regions → m'.owner g r = m.owner g r
  pinned : r < g.regions → m'.pinned g r = m.pinned g r
  time : r < g.regions → m'.blockedAt g r = m.blockedAt g r
  flushed : ∀ c, c < g.cores → m'.flushedAt c = m.flushedAt c
  dma : m'.dmaStart = m.dmaStart ∧ m'.dmaEnd = m.dmaEnd

theorem SameView.refl (r : Nat) (m : Machine) : SameView g r m m := ⟨fun _ _ => rfl, fun _ => rfl, fun _ => rfl, fun _ => rfl, fun _ _ => rfl, rfl, rfl⟩

/-- The call did what its shape says. -/
structure Shape.Did (s : Shape) (g : Cfg) (c r : Nat) (m m' : Machine) : Prop where
  mem : ∀ x, x ≠ blockedA g r → m'.mem x = s.put g r x (m.mem x)
  time : m'.mem (blockedA g r) = if s = .blk then m.clock g else m.mem (blockedA g r)
  drb : m'.drb = if s.loads then upd m.drb c (snapshot m' g.osBitmap.toNat g.bitmapWords.toNat) else m.drb
  edrb : m'.edrb = m.edrb
  dma : m'.dmaStart = m.dmaStart ∧ m'.dmaEnd = m.dmaEnd ∧ m'.dmarBase = m.dmarBase ∧ m'.dmarMask = m.dmarMask
  regs : m'.parBase = m.parBase ∧ m'.parMask = m.parMask ∧ m'.cacheShift = m.cacheShift ∧ m'.tlbFlushes = m.tlbFlushes

theorem did_skip (c r : Nat) (m : Machine) : Shape.skip.Did g c r m m :=
  ⟨fun _ _ => rfl, by simp, rfl, rfl, ⟨rfl, rfl, rfl, rfl⟩, rfl, rfl, rfl, rfl⟩

theorem did_free (c r : Nat) (m : Machine) : Shape.fre.Did g c r m (m.st (ownerA g r) freeEnclaveId) :=
  ⟨fun x _ => rfl, by rw [mem_st, if_neg blockedA_ne_ownerA]; simp, rfl, rfl, ⟨rfl, rfl, rfl, rfl⟩, rfl, rfl, rfl, rfl⟩

theorem did_meta (h : g.WF) {c r : Nat} (hr : r < g.regions) (h0 : r ≠ 0) (m : Machine) : Shape.met.Did g c r m (m.madeMetadata g r) := by
  obtain ⟨l1, l2, l3, l4, l5, l6, l7, l8, l9, l10, l11, l12⟩ := h.layout
  have hlow := Nat.mul_le_mul_right g.stripeSize.toNat (Nat.one_le_iff_ne_zero.2 h0)
  have key : ∀ x, (m.madeMetadata g r).mem x = Shape.met.put g r x (m.mem x) := by
    intro x
    unfold Machine.madeMetadata
    rw [zero_mem, mem_st, mem_st]
    simp only [Shape.put]
    by_cases h1 : x = ownerA g r
    · have : ¬ (r * g.stripeSize.toNat ≤ x ∧ x < r * g.stripeSize.toNat + mapBytes g ∧ x % 8 = 0) := by unfold ownerA at h1; omega
      have h2 : x ≠ pinnedA g r := by rw [h1]; exact ownerA_ne_pinnedA
      rw [if_neg this, if_neg h2, if_pos h1, if_pos h1]
    · by_cases h2 : x = pinnedA g r
      · have : ¬ (r * g.stripeSize.toNat ≤ x ∧ x < r * g.stripeSize.toNat + mapBytes g ∧ x % 8 = 0) := by unfold pinnedA at h2; omega
        rw [if_neg this, if_pos h2, if_neg h1, if_pos h2]
      · rw [if_neg h1, if_neg h2, if_neg h1, if_neg h2]
  refine ⟨fun x _ => key x, ?_, rfl, rfl, ⟨rfl, rfl, rfl, rfl⟩, rfl, rfl, rfl, rfl⟩
  rw [key]
  have : ¬ (r * g.stripeSize.toNat ≤ blockedA g r ∧ blockedA g r < r * g.stripeSize.toNat + mapBytes g ∧ blockedA g r % 8 = 0) := by unfold blockedA; omega
  simp only [Shape.put, if_neg this, if_neg blockedA_ne_ownerA, if_neg blockedA_ne_pinnedA]
  simp

theorem did_assign (h : g.WF) {c r : Nat} (hr : r < g.regions) (m : Machine) : Shape.asg.Did g c r m (m.assigned g c r 0) := by
  obtain ⟨l1, l2, l3, l4, l5, l6, l7, l8, l9, l10, l11, l12⟩ := h.layout
  have hb : bmWordA g 0 r = osWordA g r := if_pos rfl
  have hne : ownerA g r ≠ osWordA g r := by unfold ownerA osWordA; omega
  have key : ∀ x, (m.assigned g c r 0).mem x = Shape.asg.put g r x (m.mem x) := by
    intro x
    show (((m.st (ownerA g r) 0).setBmBit g 0 r true).loadMap g c 0).mem x = _
    show ((m.st (ownerA g r) 0).setBmBit g 0 r true).mem x = _
    unfold Machine.setBmBit
    rw [mem_st, mem_st, mem_st, hb]
    simp only [Shape.put]
    by_cases h1 : x = ownerA g r
    · rw [if_neg (by rw [h1]; exact hne), if_pos h1, if_pos h1]
    · by_cases h2 : x = osWordA g r
      · rw [if_pos h2, if_neg h1, if_pos h2, if_neg (Ne.symm hne), h2]
      · rw [if_neg h2, if_neg h1, if_neg h1, if_neg h2]
  refine ⟨fun x _ => key x, ?_, rfl, rfl, ⟨rfl, rfl, rfl, rfl⟩, rfl, rfl, rfl, rfl⟩
  rw [key]
  have : blockedA g r ≠ osWordA g r := by unfold blockedA osWordA; omega
  simp only [Shape.put, if_neg this, if_neg blockedA_ne_ownerA]
  simp

theorem did_block (h : g.WF) {c r : Nat} (hr : r < g.regions) (m : Machine) : Shape.blk.Did g c r m (m.blocked g c r 0) := by
  obtain ⟨l1, l2, l3, l4, l5, l6, l7, l8, l9, l10, l11, l12⟩ := h.layout
  have hb : bmWordA g 0 r = osWordA g r := if_pos rfl
  have n1 : ownerA g r ≠ osWordA g r := by unfold ownerA osWordA; omega
  have n2 : prevA g r ≠ osWordA g r := by unfold prevA osWordA; omega
  have n3 : clockA g ≠ osWordA g r := by unfold clockA osWordA; omega
  have n4 : blockedA g r ≠ osWordA g r := by unfold blockedA osWordA; omega
  have n5 : ownerA g r ≠ clockA g := by unfold clockA ownerA; omega
  have n6 : prevA g r ≠ clockA g := by unfold clockA prevA; omega
  have n7 : blockedA g r ≠ clockA g := by unfold clockA blockedA; omega
  have key : ∀ x, (m.blocked g c r 0).mem x = if x = blockedA g r then m.clock g else Shape.blk.put g r x (m.mem x) := by
    intro x
    show ((((((m.st (prevA g r) 0).st (ownerA g r) blockedEnclaveId).st (clockA g) (m.clock g + 1)).st (blockedA g r) (m.clock g)).setBmBit
      g 0 r false).loadMap g c 0).mem x = _
    show (((((m.st (prevA g r) 0).st (ownerA g r) blockedEnclaveId).st (clockA g) (m.clock g + 1)).st (blockedA g r) (m.clock g)).setBmBit
      g 0 r false).mem x = _
    unfold Machine.setBmBit
    simp only [mem_st, hb, Shape.put, if_neg (Ne.symm n1), if_neg (Ne.symm n2), if_neg (Ne.symm n3), if_neg (Ne.symm n4)]
    by_cases h0 : x = blockedA g r
    · rw [if_neg (by rw [h0]; exact n4), if_pos h0, if_pos h0]
    · rw [if_neg h0, if_neg h0]
      by_cases h1 : x = ownerA g r
      · rw [if_neg (by rw [h1]; exact n1), if_neg (by rw [h1]; exact n5), if_pos h1, if_pos h1]
      · rw [if_neg h1, if_neg h1]
        by_cases h2 : x = prevA g r
        · rw [if_neg (by rw [h2]; exact n2), if_neg (by rw [h2]; exact n6), if_pos h2, if_pos h2]
        · rw [if_neg h2, if_neg h2]
          by_cases h3 : x = clockA g
          · rw [if_neg (by rw [h3]; exact n3), if_pos h3, if_pos h3, h3]; rfl
          · rw [if_neg h3, if_neg h3]
            by_cases h4 : x = osWordA g r
            · rw [if_pos h4, if_pos h4, h4]
            · rw [if_neg h4, if_neg h4]
  refine ⟨fun x hx => by rw [key, if_neg hx], by rw [key, if_pos rfl, if_pos rfl], rfl, rfl, ⟨rfl, rfl, rfl, rfl⟩, rfl, rfl, rfl, rfl⟩

theorem Shape.Did.view (h : g.WF) {s : Shape} {c r1 r2 : Nat} {m m' : Machine} (hd : s.Did g c r1 m m') (h1 : s ≠ .skip → r1 < g.regions ∧ r1 ≠ 0) (hne : r1 ≠ r2) :
    SameView g r2 m m' := by
  by_cases e : s = .skip
  · subst e
    have hm : ∀ x, m'.mem x = m.mem x := fun x => by
      by_cases hx : x = blockedA g r1
      · rw [hx, hd.time]; simp
      · exact hd.mem x hx
    exact ⟨fun _ _ => hm _, fun _ => hm _, fun _ => hm _, fun _ => hm _, fun _ _ => hm _, hd.dma.1, hd.dma.2.1⟩
  · obtain ⟨q1, z1⟩ := h1 e
    obtain ⟨l1, l2, l3, l4, l5, l6, l7, l8, l9, l10, l11, l12⟩ := h.layout
    have hlow := Nat.mul_le_mul_right g.stripeSize.toNat (Nat.one_le_iff_ne_zero.2 z1)
    have key : ∀ x, x < clockA g → ¬ (g.regionBase.toNat + 40 * r1 + 8 ≤ x ∧ x < g.regionBase.toNat + 40 * r1 + 40) → m'.mem x = m.mem x := by
      intro x hx hn
      unfold clockA at hx
      rw [hd.mem x (by unfold blockedA; omega)]
      refine put_else (fun _ => z1) ?_ (by unfold clockA; omega) (by unfold osWordA; omega) _
      rintro (hh | ⟨-, hh, -⟩)
      · exact hn hh
      · omega
    refine ⟨fun i hi => key _ ?_ ?_, fun hr => key _ ?_ ?_, fun hr => key _ ?_ ?_, fun hr => key _ ?_ ?_, fun c hc => key _ ?_ ?_, hd.dma.1, hd.dma.2.1⟩ <;>
      (try unfold lockA) <;> (try unfold ownerA) <;> (try unfold pinnedA) <;> (try unfold blockedA) <;> (try unfold flushedA) <;> (try unfold clockA) <;> omega

/-- A call about region `r`: its result and shape are the same in all states that look the same to it. -/
theorem about_call (h : g.WF) {c : Nat} (hc : c < g.cores) {k : Call} {r : W} (hk : k.about = some r) {m : Machine} (hi : Inv g m) :
    ∃ v s, (s ≠ Shape.skip → r.toNat < g.regions ∧ r.toNat ≠ 0) ∧ (s = .blk → Blocked k v) ∧
      ∀ m', Inv g m' → SameView g r.toNat m m' → ∃ m1, call g c k m' = some (v, m1) ∧ s.Did g c r.toNat m' m1 := by
  have hlk : ∀ {m'}, SameView g r.toNat m m' → ∀ i, i < g.regions → m'.locked g i = m.locked g i := fun hv i hh => by
    unfold Machine.locked; rw [hv.locks i hh]
  cases k <;> simp only [Call.about, Option.some.injEq, reduceCtorEq] at hk
  all_goals subst hk
  case freeDramRegion r =>
    have hok : ∀ {m'}, SameView g r.toNat m m' → (FreeOk g m' r.toNat ↔ FreeOk g m r.toNat) := fun {m'} hv => by
      unfold FreeOk
      refine and_congr_right fun hr => ?_
      rw [hlk hv _ hr, hv.owner hr, hv.pinned hr, hv.time hr]
      refine and_congr_right fun _ => or_congr (and_congr_right fun _ => ?_) Iff.rfl
      exact ⟨fun hh k hkk => by rw [← hv.flushed k hkk]; exact hh k hkk, fun hh k hkk => by rw [hv.flushed k hkk]; exact hh k hkk⟩
    rcases Classical.em (FreeOk g m r.toNat) with hf | hf
    · refine ⟨monitorOk, .fre, fun _ => ⟨hf.1, fun h0 => ?_⟩, by simp, fun m' hi' hv => ?_⟩
      · have := hf.2.2; rw [h0, hi.region0] at this
        rcases this with ⟨hh, -⟩ | ⟨hh, -⟩ <;> exact absurd hh (by decide)
      · exact ⟨_, (run_free h c r hi'.locks).trans (by rw [if_pos ((hok hv).2 hf)]), did_free _ _ _⟩
    · refine ⟨if ¬ r.toNat < g.regions then monitorInvalidValue else if m.locked g r.toNat then monitorConcurrentCall else monitorInvalidState,
        .skip, by simp, by simp, fun m' hi' hv => ⟨m', ?_, did_skip _ _ _⟩⟩
      refine (run_free h c r hi'.locks).trans ?_
      rw [if_neg fun hh => hf ((hok hv).1 hh)]
      by_cases hr : r.toNat < g.regions
      · rw [hlk hv _ hr]
      · rw [if_pos hr, if_pos hr]
  case createMetadataRegion r =>
    have h0 : ∀ {m'}, Inv g m' → m'.owner g 0 ≠ freeEnclaveId := fun hh => by rw [hh.region0]; decide
    by_cases hr : r.toNat < g.regions
    · cases hl : m.locked g r.toNat
      · by_cases hf : m.owner g r.toNat = freeEnclaveId
        · have hz : r.toNat ≠ 0 := fun hz => by rw [hz] at hf; exact h0 hi hf
          refine ⟨monitorOk, .met, fun _ => ⟨hr, hz⟩, by simp, fun m' hi' hv => ⟨_, (run_createMetadata h c r hi'.locks (h0 hi')).trans ?_, did_meta h hr hz m'⟩⟩
          rw [if_neg (not_not_intro hr), hlk hv _ hr, hl, if_neg Bool.false_ne_true, hv.owner hr, if_pos hf]
        · refine ⟨monitorInvalidState, .skip, by simp, by simp, fun m' hi' hv => ⟨m', (run_createMetadata h c r hi'.locks (h0 hi')).trans ?_, did_skip _ _ _⟩⟩
          rw [if_neg (not_not_intro hr), hlk hv _ hr, hl, if_neg Bool.false_ne_true, hv.owner hr, if_neg hf]
      · refine ⟨monitorConcurrentCall, .skip, by simp, by simp, fun m' hi' hv => ⟨m', (run_createMetadata h c r hi'.locks (h0 hi')).trans ?_, did_skip _ _ _⟩⟩
        rw [if_neg (not_not_intro hr), hlk hv _ hr, hl, if_pos rfl]
    · refine ⟨monitorInvalidValue, .skip, by simp, by simp, fun m' hi' hv => ⟨m', (run_createMetadata h c r hi'.locks (h0 hi')).trans ?_, did_skip _ _ _⟩⟩
      rw [if_pos hr]
  case assignDramRegion r e =>
    have hre := regionOf_lt h e.toNat
    have hid : ∀ {m'}, Inv g m' → (m'.owner g (idRegion g e) = e ↔ e = 0) := fun {m'} hh => by
      refine ⟨hh.noId h, fun he => ?_⟩
      subst he
      have : idRegion g 0 = 0 := by
        unfold idRegion; split
        · exact region0_of_low h (by have := h.top_pow; obtain ⟨t, ht⟩ := this; rw [ht]; exact Nat.two_pow_pos t)
        · rfl
      rw [this]; exact hh.region0
    have hok : ∀ {m'}, Inv g m' → SameView g r.toNat m m' → (AssignOk g m' r.toNat e ↔ AssignOk g m r.toNat e) := fun {m'} hi' hv => by
      unfold AssignOk
      refine and_congr_right fun hr => ?_
      rw [hlk hv _ hr, hlk hv _ hre, hv.owner hr, hid hi', hid hi]
    have hrec : ∀ {m'}, Inv g m' → m'.owner g (idRegion g e) = e → RecordOk g e := fun hh he => by rw [(hid hh).1 he]; exact recordOk_zero
    rcases Classical.em (AssignOk g m r.toNat e) with hf | hf
    · have he := (hid hi).1 hf.2.2.2.2.2
      refine ⟨monitorOk, .asg, fun _ => ⟨hf.1, fun h0 => ?_⟩, by simp, fun m' hi' hv => ?_⟩
      · have := hf.2.2.1; rw [h0, hi.region0] at this; exact absurd this (by decide)
      · refine ⟨_, (run_assign h c r e hi'.locks (hrec hi')).trans (by rw [if_pos ((hok hi' hv).2 hf)]), ?_⟩
        rw [he]; exact did_assign h hf.1 m'
    · refine ⟨assignError g m r.toNat e, .skip, by simp, by simp, fun m' hi' hv => ⟨m', (run_assign h c r e hi'.locks (hrec hi')).trans ?_, did_skip _ _ _⟩⟩
      rw [if_neg fun hh => hf ((hok hi' hv).1 hh)]
      unfold assignError
      by_cases hr : r.toNat < g.regions
      · rw [hlk hv _ hr, hlk hv _ hre, hv.owner hr]
      · rw [if_pos hr, if_pos hr]
  case blockDramRegion r =>
    have hos : ∀ {m'}, Inv g m' → m'.running c = 0 := fun hh => hh.os c hc
    have hre := regionOf_lt h (0 : W).toNat
    have hdt : ∀ {m'}, SameView g r.toNat m m' → (DmaTouches g m' r.toNat ↔ DmaTouches g m r.toNat) := fun hv => by
      unfold DmaTouches; rw [hv.dma.1, hv.dma.2]
    have hok : ∀ {m'}, Inv g m' → SameView g r.toNat m m' → (BlockOk g c m' r.toNat ↔ BlockOk g c m r.toNat) := fun {m'} hi' hv => by
      unfold BlockOk
      rw [hos hi', hos hi]
      refine and_congr_right fun _ => and_congr_right fun hr => ?_
      rw [hlk hv _ hr, hlk hv _ hre, hv.owner hr, hv.pinned hr, hdt hv]
    rcases Classical.em (BlockOk g c m r.toNat) with hf | hf
    · refine ⟨monitorOk, .blk, fun _ => ⟨hf.2.1, hf.1⟩, fun _ => ⟨⟨r, rfl⟩, rfl⟩, fun m' hi' hv => ?_⟩
      refine ⟨_, (run_block h hc r hi'.locks (hi'.recordOk hc) hi'.dma).trans (by rw [if_pos ((hok hi' hv).2 hf)]), ?_⟩
      rw [hos hi']; exact did_block h hf.2.1 m'
    · refine ⟨blockError g c m r.toNat, .skip, by simp, by simp, fun m' hi' hv => ⟨m', (run_block h hc r hi'.locks (hi'.recordOk hc) hi'.dma).trans ?_, did_skip _ _ _⟩⟩
      rw [if_neg fun hh => hf ((hok hi' hv).1 hh)]
      unfold blockError
      by_cases hr : r.toNat < g.regions
      · rw [hos hi', hos hi, hlk hv _ hr, hlk hv _ hre, hv.owner hr, hv.pinned hr]
      · have : ¬ (r.toNat ≠ 0 ∧ r.toNat < g.regions) := fun hh => hr hh.2
        rw [if_pos this, if_pos this]
  case dramRegionState r =>
    refine ⟨if ¬ r.toNat < g.regions then stateInvalid
       else if m.locked g r.toNat then stateLocked
       else if m.owner g r.toNat = nullEnclaveId then stateOwned
       else if m.owner g r.toNat = blockedEnclaveId then stateBlocked
       else if m.owner g r.toNat = freeEnclaveId then stateFree
       else stateOwned,
      .skip, by simp, by simp, fun m' hi' hv => ⟨m', (run_state h c r hi'.locks).trans ?_, did_skip _ _ _⟩⟩
    · by_cases hr : r.toNat < g.regions
      · rw [hlk hv _ hr, hv.owner hr]
      · rw [if_pos hr, if_pos hr]
  case dramRegionOwner r =>
    refine ⟨if ¬ r.toNat < g.regions then nullEnclaveId
       else if m.locked g r.toNat then nullEnclaveId
       else if m.owner g r.toNat = blockedEnclaveId ∨ m.owner g r.toNat = freeEnclaveId then nullEnclaveId
       else m.owner g r.toNat,
      .skip, by simp, by simp, fun m' hi' hv => ⟨m', (run_owner h c r hi'.locks).trans ?_, did_skip _ _ _⟩⟩
    · by_cases hr : r.toNat < g.regions
      · rw [hlk hv _ hr, hv.owner hr]
      · rw [if_pos hr, if_pos hr]
  case dramRegionCheckOwnership r =>
    refine ⟨if ¬ (r.toNat ≠ 0 ∧ r.toNat < g.regions) then monitorInvalidValue
       else if m.locked g r.toNat then monitorConcurrentCall
       else if m.owner g r.toNat = 0 then monitorOk else monitorInvalidState,
      .skip, by simp, by simp, fun m' hi' hv => ⟨m', (run_checkOwnership h hc r hi'.locks).trans ?_, did_skip _ _ _⟩⟩
    · rw [hi'.os c hc]
      by_cases hr : r.toNat < g.regions
      · rw [hlk hv _ hr, hv.owner hr]; rfl
      · have : ¬ (r.toNat ≠ 0 ∧ r.toNat < g.regions) := fun hh => hr hh.2
        rw [if_pos this, if_pos this]

end Sanctum
