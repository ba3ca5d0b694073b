import Verif.Lemmas.Sound
/-
The monitor's basic operations in the rely-guarantee logic.
-/
namespace Sanctum
open Machine

variable {g : Cfg} {c : Nat} {α β : Type} {D : Prop} {H : Nat → Prop} {m : Machine}

/-- The owners and bitmap bits of the regions in `H` are the same. -/
def Same (g : Cfg) (H : Nat → Prop) (m m' : Machine) : Prop :=
  ∀ i, i < g.regions → H i → m'.owner g i = m.owner g i ∧ m'.osBit g i = m.osBit g i

theorem Agree.same {m m' : Machine} (h : Agree g H m m') : Same g H m m' := fun i hi hh => ⟨h.owner hi hh, h.bit hi hh⟩

theorem Same.trans {m m1 m2 : Machine} (h1 : Same g H m m1) (h2 : Same g H m1 m2) : Same g H m m2 :=
  fun i hi hh => ⟨(h2 i hi hh).1.trans (h1 i hi hh).1, (h2 i hi hh).2.trans (h1 i hi hh).2⟩

theorem Same.mono {H' : Nat → Prop} {m m1 : Machine} (hs : ∀ i, H' i → H i) (h1 : Same g H m m1) : Same g H' m m1 :=
  fun i hi hh => h1 i hi (hs i hh)

/-- The bitmap bit of region `i` says whether the OS owns it. -/
def Bit (g : Cfg) (m : Machine) (i : Nat) : Prop := m.osBit g i = true ↔ m.owner g i = nullEnclaveId

theorem Same.bit {m m1 : Machine} (h1 : Same g H m m1) {i : Nat} (hi : i < g.regions) (hh : H i) (hb : Bit g m i) : Bit g m1 i := by
  unfold Bit; rw [(h1 i hi hh).1, (h1 i hi hh).2]; exact hb

def addL (H : Nat → Prop) (r : Nat) : Nat → Prop := fun i => H i ∨ i = r
def subL (H : Nat → Prop) (r : Nat) : Nat → Prop := fun i => H i ∧ i ≠ r

/-- Nothing that the invariant is about changed. -/
structure Frm (g : Cfg) (m m1 : Machine) : Prop where
  lock : ∀ i, i < g.regions → m1.mem (lockA g i) = m.mem (lockA g i)
  record : ∀ i x, i < g.regions → RecordWord g i x → m1.mem x = m.mem x
  map : ∀ i, i < g.regions → m1.mem (osWordA g i) = m.mem (osWordA g i)
  os : ∀ c, c < g.cores → m1.mem (coreEnclaveA c) = m.mem (coreEnclaveA c)
  dmaStart : m1.dmaStart = m.dmaStart
  dmaEnd : m1.dmaEnd = m.dmaEnd

theorem Frm.refl (m : Machine) : Frm g m m := ⟨fun _ _ => rfl, fun _ _ _ _ => rfl, fun _ _ => rfl, fun _ _ => rfl, rfl, rfl⟩

theorem Frm.owner {m m1 : Machine} (h : Frm g m m1) {i : Nat} (hi : i < g.regions) : m1.owner g i = m.owner g i := h.record i _ hi (Or.inl rfl)
theorem Frm.bit {m m1 : Machine} (h : Frm g m m1) {i : Nat} (hi : i < g.regions) : m1.osBit g i = m.osBit g i := by
  unfold Machine.osBit; rw [h.map i hi]

theorem Frm.same {m m1 : Machine} (h : Frm g m m1) (H : Nat → Prop) : Same g H m m1 := fun _ hi _ => ⟨h.owner hi, h.bit hi⟩

theorem Frm.cinv (hw : g.WF) {m m1 : Machine} (h : Frm g m m1) (hi : CInv g m) : CInv g m1 := by
  have h0 : 0 < g.regions := by have := hw.regions_ge; omega
  refine ⟨⟨?_, ?_, ?_⟩, ?_, ?_⟩
  · intro i hlt; rw [h.owner hlt]; exact hi.owners i hlt
  · rw [h.owner h0]; exact hi.region0
  · intro i hlt hu
    rw [h.owner hlt, h.bit hlt]
    refine hi.bitmap i hlt ?_
    rw [not_locked] at hu ⊢; rw [← h.lock i hlt]; exact hu
  · intro i hlt; rw [h.lock i hlt]; exact hi.locks i hlt
  · intro c hc; exact (h.os c hc).trans (hi.os c hc)

theorem Frm.legal {m m1 : Machine} (h : Frm g m m1) : Legal g m m1 := by
  intro i hi; rw [h.owner hi]; exact LegalEdge.same _

theorem Frm.guar (hw : g.WF) {m m1 : Machine} (h : Frm g m m1) (hi : CInv g m) (hh : HeldOk g H m) : Guar g H m H m1 := by
  refine ⟨?_, fun i hlt _ => ⟨fun x hx => h.record i x hlt hx, h.bit hlt⟩, fun _ => ⟨h.map, h.dmaStart, h.dmaEnd⟩, h.cinv hw hi, h.legal⟩
  intro i hlt
  rw [h.lock i hlt]
  rcases Classical.em (H i) with hH | hH
  · exact Or.inl ⟨hH, hh i hlt hH⟩
  · exact Or.inr (Or.inr ⟨hH, hH, rfl⟩)

/-- Words that are not under the invariant: above the monitor, the clock, the flush timestamps. -/
def FreeWord (g : Cfg) (c : Nat) (x : Nat) : Prop := g.monitorTop.toNat ≤ x ∨ (c < g.cores ∧ x = clockA g) ∨ (c < g.cores ∧ x = flushedA c)

theorem FreeWord.lock (hw : g.WF) {x i : Nat} (h : FreeWord g c x) (hi : i < g.regions) : lockA g i ≠ x := by
  rcases h with h | ⟨-, rfl⟩ | ⟨hc, rfl⟩
  · have := lockA_lt hw hi; omega
  · exact lockA_ne_clockA hw hi
  · exact lockA_ne_flushedA hw hc
theorem FreeWord.record (hw : g.WF) {x i y : Nat} (h : FreeWord g c x) (hi : i < g.regions) (hy : RecordWord g i y) : y ≠ x := by
  rcases h with h | ⟨-, rfl⟩ | ⟨hc, rfl⟩
  · have h1 := ownerA_lt hw hi; have h2 := prevA_lt hw hi; have h3 := pinnedA_lt hw hi; have h4 := blockedA_lt hw hi
    rcases hy with hx | hx | hx | hx <;> omega
  · rcases hy with rfl | rfl | rfl | rfl <;> simp [hw, hi]
  · rcases hy with rfl | rfl | rfl | rfl <;> simp [hw, hc]
theorem FreeWord.map (hw : g.WF) {x i : Nat} (h : FreeWord g c x) (hi : i < g.regions) : osWordA g i ≠ x := by
  rcases h with h | ⟨-, rfl⟩ | ⟨hc, rfl⟩
  · have := osWordA_lt hw hi; omega
  · exact osWordA_ne_clockA hw
  · exact osWordA_ne_flushedA hw hc
theorem FreeWord.os (hw : g.WF) {x c' : Nat} (h : FreeWord g c x) (hi : c' < g.cores) : coreEnclaveA c' ≠ x := by
  rcases h with h | ⟨-, rfl⟩ | ⟨hc, rfl⟩
  · have := coreEnclaveA_lt hw hi; omega
  · exact coreEnclaveA_ne_clockA hw hi
  · exact coreEnclaveA_ne_flushedA

theorem Frm.upd (hw : g.WF) {m : Machine} {x : Nat} {v : W} (h : FreeWord g c x) : Frm g m { m with mem := upd m.mem x v } :=
  ⟨fun _ hi => upd_ne _ _ (h.lock hw hi), fun _ _ hi hy => upd_ne _ _ (h.record hw hi hy), fun _ hi => upd_ne _ _ (h.map hw hi),
   fun _ hi => upd_ne _ _ (h.os hw hi), rfl, rfl⟩

/-- Actions that change nothing the invariant is about, and never fault. -/
def OpFrame (g : Cfg) (D : Prop) (c : Nat) : Op → Prop
  | .load a => okAddr g a = true ∧ (D → ∀ i, i < g.regions → ¬ RecordWord g i a.toNat)
  | .store a _ => okAddr g a = true ∧ FreeWord g c a.toNat
  | .load32 a => okAddr32 g a = true ∧ g.monitorTop.toNat ≤ a.toNat / 8 * 8
  | .store32 a _ => okAddr32 g a = true ∧ g.monitorTop.toNat ≤ a.toNat / 8 * 8
  | .tas a => okAddr g a = true ∧ g.monitorTop.toNat ≤ a.toNat
  | .fetchAdd a _ => okAddr g a = true ∧ FreeWord g c a.toNat
  | .curCore => c < g.cores
  | .setEdrb _ => False
  | .setDmaStart _ => False
  | .setDmaEnd _ => False
  | .setDrb _ => c < g.cores
  | .setDmarBase _ => c < g.cores
  | .setDmarMask _ => c < g.cores
  | .setParBase _ => False
  | .setParMask _ => False
  | .setCacheShift _ => False
  | _ => True

theorem heldStep_frame {o : Op} (h : ∀ i, i < g.regions → ∀ a v, o = .tas a ∨ o = .store a v → a.toNat ≠ lockA g i)
    (hH : ∀ i, H i → i < g.regions) (v : W) : heldStep g o v H = H := by
  funext i
  cases o <;> simp only [heldStep]
  case tas a =>
    refine propext ⟨fun hh => hh.elim id (fun hh => absurd hh.2.2 (h i hh.1 a 0 (Or.inl rfl))), Or.inl⟩
  case store a w =>
    refine propext ⟨fun hh => hh.1, fun hh => ⟨hh, h i (hH i hh) a w (Or.inr rfl)⟩⟩

theorem drb_ok (hw : g.WF) : okRange g g.osBitmap g.bitmapWords.toNat = true := by
  obtain ⟨h1, h2, h3, h4, h5, h6, h7, h8, h9, h10, h11, h12⟩ := hw.layout
  unfold okRange
  have := hw.arrays_le; have := hw.top_le; have := hw.dram_ge
  rw [decide_eq_true_iff]; omega

theorem osBitmap_not_record (hw : g.WF) {i x k : Nat} (hi : i < g.regions) (hx : RecordWord g i x) : x ≠ g.osBitmap.toNat + 8 * k := by
  obtain ⟨h1, h2, h3, h4, h5, h6, h7, h8, h9, h10, h11, h12⟩ := hw.layout
  unfold RecordWord ownerA prevA pinnedA blockedA at hx
  omega

theorem record_lt (hw : g.WF) {i x : Nat} (hi : i < g.regions) (hx : RecordWord g i x) : x < g.monitorTop.toNat := by
  have h1 := ownerA_lt hw hi; have h2 := prevA_lt hw hi; have h3 := pinnedA_lt hw hi; have h4 := blockedA_lt hw hi
  rcases hx with hx | hx | hx | hx <;> omega

/-- A frame action in the logic. -/
theorem safe_op_frame (hw : g.WF) (hH : ∀ i, H i → i < g.regions) {Q : α → (Nat → Prop) → Machine → Prop} {o : Op} {k : W → Prog α}
    (ho : OpFrame g D c o)
    (hk : ∀ v m', Same g H m m' → (o = .curCore → v = BitVec.ofNat 64 c) → (∀ a, o = .load a → ∃ m0, Agree g H m m0 ∧ CInv g m0 ∧ v = m0.mem a.toNat) →
      Safe g D c Q H m' (k v)) :
    Safe g D c Q H m (.op o k) := by
  intro m' hag hinv hheld
  have key : ∃ v m1, exec g c o m' = some (v, m1) ∧ Frm g m' m1 ∧ (o = .curCore → v = BitVec.ofNat 64 c) ∧ (∀ a, o = .load a → v = m'.mem a.toNat) := by
    cases o <;> simp only [OpFrame] at ho
    case load a =>
      exact ⟨m'.mem a.toNat, m', by simp [exec, ho.1], Frm.refl m', fun hh => by simp at hh, fun b hb => by cases hb; rfl⟩
    case store a v =>
      exact ⟨0, { m' with mem := Sanctum.upd m'.mem a.toNat v }, by simp only [exec, ho.1, if_true], Frm.upd hw ho.2, fun hh => by simp at hh, fun b hb => by simp at hb⟩
    case load32 a => exact ⟨_, m', by simp only [exec, ho.1, if_true]; rfl, Frm.refl m', fun hh => by simp at hh, fun b hb => by simp at hb⟩
    case store32 a v =>
      exact ⟨0, _, by simp only [exec, ho.1, if_true]; rfl, Frm.upd (c := c) hw (Or.inl ho.2), fun hh => by simp at hh, fun b hb => by simp at hb⟩
    case tas a =>
      exact ⟨_, _, by simp only [exec, ho.1, if_true]; rfl, Frm.upd (c := c) hw (Or.inl ho.2), fun hh => by simp at hh, fun b hb => by simp at hb⟩
    case fetchAdd a v =>
      exact ⟨_, _, by simp only [exec, ho.1, if_true]; rfl, Frm.upd hw ho.2, fun hh => by simp at hh, fun b hb => by simp at hb⟩
    case curCore => exact ⟨_, _, rfl, Frm.refl m', fun _ => rfl, fun b hb => by simp at hb⟩
    all_goals exact ⟨_, _, rfl, ⟨fun _ _ => rfl, fun _ _ _ _ => rfl, fun _ _ => rfl, fun _ _ => rfl, rfl, rfl⟩, fun hh => by simp at hh, fun b hb => by simp at hb⟩
  obtain ⟨v, m1, h1, h2, h3, h4⟩ := key
  have hst : heldStep g o v H = H := by
    refine heldStep_frame ?_ hH v
    rintro i hi a w (rfl | rfl)
    · exact fun hh => FreeWord.lock (c := c) hw (Or.inl ho.2) hi hh.symm
    · exact fun hh => FreeWord.lock hw ho.2 hi hh.symm
  refine ⟨v, m1, h1, ⟨?_, ?_⟩, ?_, ?_⟩
  · intro hD i x hi hx hacc
    exfalso
    cases o <;> simp only [OpFrame, Op.accesses] at ho hacc
    case load a => rw [hacc] at ho; exact ho.2 hD i hi hx
    case store a v => exact ho.2.record hw hi hx hacc.symm
    case load32 a => have := record_lt hw hi hx; omega
    case store32 a v => have := record_lt hw hi hx; omega
    case tas a => have := record_lt hw hi hx; omega
    case fetchAdd a v => exact ho.2.record hw hi hx hacc.symm
  · intro i hi hov
    exfalso
    cases o <;> simp only [OpFrame, Op.overwrites] at ho hov
    case store a v => exact ho.2.lock hw hi hov.symm
    case store32 a v => have := lockA_lt hw hi; omega
    case fetchAdd a v => exact ho.2.lock hw hi hov.symm
  · rw [hst]; exact h2.guar hw hinv hheld
  · rw [hst]
    exact hk v m1 (hag.same.trans (h2.same H)) h3 (fun a ha => ⟨m', hag, hinv, h4 a ha⟩)

/-- Programs of frame actions. -/
def Prog.Frame (g : Cfg) (D : Prop) (c : Nat) : Prog α → Prop
  | .ret _ => True
  | .op o k => OpFrame g D c o ∧ ∀ v, (o = .curCore → v = BitVec.ofNat 64 c) → Prog.Frame g D c (k v)
  | .fault => False
  | .diverge => False

theorem Frame.bind {p : Prog α} {f : α → Prog β} (hp : p.Frame g D c) (hf : ∀ a, (f a).Frame g D c) : (p >>= f).Frame g D c := by
  show (p.bind f).Frame g D c
  induction p with
  | ret a => exact hf a
  | op o k ih => exact ⟨hp.1, fun v hv => ih v (hp.2 v hv)⟩
  | fault => exact hp
  | diverge => exact hp

theorem Frame.pure (a : α) : (pure a : Prog α).Frame g D c := trivial

theorem Frame.ite {b : Prop} [Decidable b] {p q : Prog α} (hp : b → p.Frame g D c) (hq : ¬ b → q.Frame g D c) : (if b then p else q).Frame g D c := by
  split
  · exact hp ‹_›
  · exact hq ‹_›

/-- Keep: same locks, same held records. -/
def Keep (g : Cfg) (H : Nat → Prop) (m : Machine) : α → (Nat → Prop) → Machine → Prop := fun _ H' m' => H' = H ∧ Same g H m m'

theorem safe_frame (hw : g.WF) (hH : ∀ i, H i → i < g.regions) {p : Prog α} (hp : p.Frame g D c) : Safe g D c (Keep g H m) H m p := by
  induction p generalizing m with
  | ret a => exact ⟨rfl, fun _ _ _ => ⟨rfl, rfl⟩⟩
  | op o k ih =>
      refine safe_op_frame hw hH hp.1 fun v m' h1 h2 _ => ?_
      exact (ih v (m := m') (hp.2 v h2)).mono fun a H' m'' hk => ⟨hk.1, h1.trans hk.2⟩
  | fault => exact hp
  | diverge => exact hp

/-- A frame program followed by the rest. -/
theorem safe_frame_bind (hw : g.WF) (hH : ∀ i, H i → i < g.regions) {p : Prog α} {f : α → Prog β} {Q : β → (Nat → Prop) → Machine → Prop}
    (hp : p.Frame g D c) (hf : ∀ a m', Same g H m m' → Safe g D c Q H m' (f a)) : Safe g D c Q H m (p >>= f) :=
  Safe.bind (safe_frame hw hH hp) fun a H' m' h1 => by obtain ⟨rfl, h2⟩ := h1; exact hf a m' h2

/-! ### Locks -/

theorem addL_lt (hH : ∀ i, H i → i < g.regions) {r : Nat} (hr : r < g.regions) : ∀ i, addL H r i → i < g.regions :=
  fun i hi => hi.elim (hH i) (fun hh => hh ▸ hr)
theorem subL_lt (hH : ∀ i, H i → i < g.regions) (r : Nat) : ∀ i, subL H r i → i < g.regions := fun i hi => hH i hi.1

/-- Taking a lock. -/
theorem safe_tasLock (hw : g.WF) (hH : ∀ i, H i → i < g.regions) {r : W} (hr : r.toNat < g.regions) {f : Bool → Prog β}
    {Q : β → (Nat → Prop) → Machine → Prop} (hbusy : ∀ m', Same g H m m' → Safe g D c Q H m' (f true))
    (hfree : ∀ m', Same g H m m' → ¬ H r.toNat → Bit g m' r.toNat → Safe g D c Q (addL H r.toNat) m' (f false)) :
    Safe g D c Q H m (tasLock g r >>= f) := by
  intro m' hag hinv hheld
  have ha := lockA_toNat hw hr
  have hok : okAddr g (regionA g r + offLock) = true := field_ok hw hr _ (by decide) (by decide)
  have hlw := hinv.locks r.toNat hr
  have hopok : OpOk g D H (.tas (regionA g r + offLock)) := by
    refine ⟨?_, fun i hi hov => hov.elim⟩
    intro _ i x hi hx hacc
    exfalso
    have hacc : (regionA g r + offLock).toNat = x := hacc
    rw [ha] at hacc
    rcases hx with rfl | rfl | rfl | rfl <;> simp at hacc
  rcases hlw with hz | hone
  · -- free
    have hnH : ¬ H r.toNat := fun hh => by have := hheld _ hr hh; rw [hz] at this; exact absurd this (by decide)
    have hst : heldStep g (.tas (regionA g r + offLock)) 0 H = addL H r.toNat := by
      funext i
      simp only [heldStep, addL, ha, lockA_inj]
      refine propext ⟨fun hh => hh.imp id (fun hh => hh.2.2.symm), fun hh => hh.imp id (fun hh => ⟨by rw [hh]; exact hr, trivial, hh.symm⟩)⟩
    have hframe : ∀ y, y ≠ lockA g r.toNat → upd m'.mem (lockA g r.toNat) 1 y = m'.mem y := fun y hy => upd_ne _ _ hy
    have hown : ∀ i, Machine.owner { m' with mem := upd m'.mem (lockA g r.toNat) 1 } g i = m'.owner g i := fun i => hframe _ (by simp)
    have hbit : ∀ i, Machine.osBit { m' with mem := upd m'.mem (lockA g r.toNat) 1 } g i = m'.osBit g i := fun i => by
      show (upd m'.mem (lockA g r.toNat) 1 (osWordA g i)).getLsbD _ = _; rw [hframe _ (osWordA_ne_lockA hw hr)]; rfl
    have hrec : ∀ i x, RecordWord g i x → upd m'.mem (lockA g r.toNat) 1 x = m'.mem x := by
      intro i x hx
      refine hframe x ?_
      rcases hx with rfl | rfl | rfl | rfl <;> simp
    refine ⟨0, { m' with mem := upd m'.mem (lockA g r.toNat) 1 }, ?_, hopok, ?_, ?_⟩
    · simp only [exec, hok, if_true, ha, hz]; rfl
    · rw [hst]
      refine ⟨?_, ?_, ?_, ⟨⟨?_, ?_, ?_⟩, ?_, ?_⟩, ?_⟩
      · intro i hi
        by_cases hir : i = r.toNat
        · exact Or.inl ⟨Or.inr hir, by rw [hir]; exact upd_same _ _ _⟩
        · have hl : upd m'.mem (lockA g r.toNat) 1 (lockA g i) = m'.mem (lockA g i) := hframe _ (by simp [hir])
          rcases Classical.em (H i) with hh | hh
          · exact Or.inl ⟨Or.inl hh, hl.trans (hheld i hi hh)⟩
          · exact Or.inr (Or.inr ⟨fun hh2 => hh2.elim hh hir, hh, hl⟩)
      · exact fun i hi _ => ⟨fun x hx => hrec i x hx, hbit i⟩
      · exact fun _ => ⟨fun i hi => hframe _ (osWordA_ne_lockA hw hr), rfl, rfl⟩
      · intro i hi; rw [hown]; exact hinv.owners i hi
      · rw [hown]; exact hinv.region0
      · intro i hi hu
        rw [hown, hbit]
        by_cases hir : i = r.toNat
        · rw [not_locked, hir] at hu
          rw [show Machine.mem { m' with mem := upd m'.mem (lockA g r.toNat) 1 } (lockA g r.toNat) = 1 from upd_same _ _ _] at hu
          exact absurd hu (by decide)
        · refine hinv.bitmap i hi ?_
          rw [not_locked] at hu ⊢
          rw [← hu]; exact (hframe _ (by simp [hir])).symm
      · intro i hi
        by_cases hir : i = r.toNat
        · exact Or.inr (by rw [hir]; exact upd_same _ _ _)
        · show upd m'.mem (lockA g r.toNat) 1 (lockA g i) = 0 ∨ upd m'.mem (lockA g r.toNat) 1 (lockA g i) = 1
          rw [hframe _ (by simp [hir])]; exact hinv.locks i hi
      · intro c' hc'
        exact (hframe _ (coreEnclaveA_ne_lockA hw hc')).trans (hinv.os c' hc')
      · intro i hi; rw [hown]; exact LegalEdge.same _
    · rw [hst]
      refine hfree _ ?_ hnH ?_
      · exact hag.same.trans fun i hi hh => ⟨hown i, hbit i⟩
      · unfold Bit; rw [hown, hbit]
        exact hinv.bitmap _ hr ((not_locked m').2 hz)
  · -- busy
    have hself : upd m'.mem (lockA g r.toNat) 1 = m'.mem := by rw [← hone]; exact upd_eq_self _ _
    have hst : heldStep g (.tas (regionA g r + offLock)) 1 H = H := by
      funext i
      simp only [heldStep]
      refine propext ⟨fun hh => hh.elim id (fun hh => absurd hh.2.1 (by decide)), Or.inl⟩
    refine ⟨1, m', ?_, hopok, ?_, ?_⟩
    · simp only [exec, hok, if_true, ha, hone, hself]; rfl
    · rw [hst]; exact (Frm.refl m').guar hw hinv hheld
    · rw [hst]; exact hbusy m' hag.same

/-- Releasing a lock. -/
theorem safe_clearLock (hw : g.WF) {r : W} (hr : r.toNat < g.regions) {f : Unit → Prog β}
    {Q : β → (Nat → Prop) → Machine → Prop} (hHr : H r.toNat) (hb : Bit g m r.toNat)
    (hf : ∀ m', Same g H m m' → Safe g D c Q (subL H r.toNat) m' (f ())) : Safe g D c Q H m (clearLock g r >>= f) := by
  intro m' hag hinv hheld
  have ha := lockA_toNat hw hr
  have hok : okAddr g (regionA g r + offLock) = true := field_ok hw hr _ (by decide) (by decide)
  have hb' := hag.same.bit hr hHr hb
  have hst : heldStep g (.store (regionA g r + offLock) 0) 0 H = subL H r.toNat := by
    funext i
    simp only [heldStep, subL, ha]
    refine propext ⟨fun hh => ⟨hh.1, fun h1 => hh.2 (by rw [h1])⟩, fun hh => ⟨hh.1, fun h1 => hh.2 (lockA_inj.1 h1).symm⟩⟩
  have hframe : ∀ y, y ≠ lockA g r.toNat → upd m'.mem (lockA g r.toNat) 0 y = m'.mem y := fun y hy => upd_ne _ _ hy
  have hown : ∀ i, Machine.owner { m' with mem := upd m'.mem (lockA g r.toNat) 0 } g i = m'.owner g i := fun i => hframe _ (by simp)
  have hbit : ∀ i, Machine.osBit { m' with mem := upd m'.mem (lockA g r.toNat) 0 } g i = m'.osBit g i := fun i => by
    show (upd m'.mem (lockA g r.toNat) 0 (osWordA g i)).getLsbD _ = _; rw [hframe _ (osWordA_ne_lockA hw hr)]; rfl
  have hrec : ∀ i x, RecordWord g i x → upd m'.mem (lockA g r.toNat) 0 x = m'.mem x := by
    intro i x hx
    refine hframe x ?_
    rcases hx with rfl | rfl | rfl | rfl <;> simp
  refine ⟨0, { m' with mem := upd m'.mem (lockA g r.toNat) 0 }, ?_, ⟨?_, ?_⟩, ?_, ?_⟩
  · simp only [exec, hok, if_true, ha]
  · intro _ i x hi hx hacc
    exfalso
    have hacc : (regionA g r + offLock).toNat = x := hacc
    rw [ha] at hacc
    rcases hx with rfl | rfl | rfl | rfl <;> simp at hacc
  · intro i hi hov
    have hov : (regionA g r + offLock).toNat = lockA g i := hov
    rw [ha, lockA_inj] at hov
    rw [← hov]; exact hHr
  · rw [hst]
    refine ⟨?_, ?_, ?_, ⟨⟨?_, ?_, ?_⟩, ?_, ?_⟩, ?_⟩
    · intro i hi
      by_cases hir : i = r.toNat
      · exact Or.inr (Or.inl ⟨fun hh => hh.2 hir, by rw [hir]; exact hHr, by rw [hir]; exact upd_same _ _ _⟩)
      · have hl : upd m'.mem (lockA g r.toNat) 0 (lockA g i) = m'.mem (lockA g i) := hframe _ (by simp [hir])
        rcases Classical.em (H i) with hh | hh
        · exact Or.inl ⟨⟨hh, hir⟩, hl.trans (hheld i hi hh)⟩
        · exact Or.inr (Or.inr ⟨fun hh2 => hh hh2.1, hh, hl⟩)
    · exact fun i hi _ => ⟨fun x hx => hrec i x hx, hbit i⟩
    · exact fun _ => ⟨fun i hi => hframe _ (osWordA_ne_lockA hw hr), rfl, rfl⟩
    · intro i hi; rw [hown]; exact hinv.owners i hi
    · rw [hown]; exact hinv.region0
    · intro i hi hu
      rw [hown, hbit]
      by_cases hir : i = r.toNat
      · rw [hir]; exact hb'
      · refine hinv.bitmap i hi ?_
        rw [not_locked] at hu ⊢
        rw [← hu]; exact (hframe _ (by simp [hir])).symm
    · intro i hi
      by_cases hir : i = r.toNat
      · exact Or.inl (by rw [hir]; exact upd_same _ _ _)
      · show upd m'.mem (lockA g r.toNat) 0 (lockA g i) = 0 ∨ upd m'.mem (lockA g r.toNat) 0 (lockA g i) = 1
        rw [hframe _ (by simp [hir])]; exact hinv.locks i hi
    · intro c' hc'
      exact (hframe _ (coreEnclaveA_ne_lockA hw hc')).trans (hinv.os c' hc')
    · intro i hi; rw [hown]; exact LegalEdge.same _
  · rw [hst]
    exact hf _ (hag.same.trans fun i hi hh => ⟨hown i, hbit i⟩)

/-! ### Records -/

/-- The owners that occur. -/
def OwnerVal (v : W) : Prop := v = nullEnclaveId ∨ v = blockedEnclaveId ∨ v = metadataEnclaveId ∨ v = freeEnclaveId

/-- Reading a word of a held record. -/
theorem safe_loadRec (hw : g.WF) {i : Nat} {a : W} (hi : i < g.regions) (hok : okAddr g a = true) (hx : RecordWord g i a.toNat)
    {f : W → Prog β} {Q : β → (Nat → Prop) → Machine → Prop} (hHi : H i)
    (hf : ∀ v m', Same g H m m' → (a.toNat = ownerA g i → v = m.owner g i ∧ OwnerVal v ∧ (i = 0 → v = nullEnclaveId)) →
      Safe g D c Q H m' (f v)) : Safe g D c Q H m (load a >>= f) := by
  intro m' hag hinv hheld
  have hun : ∀ j, RecordWord g j a.toNat → j = i := by
    intro j hj
    unfold RecordWord ownerA prevA pinnedA blockedA at hj hx
    omega
  have hst : heldStep g (.load a) (m'.mem a.toNat) H = H := rfl
  refine ⟨m'.mem a.toNat, m', by simp only [exec, hok, if_true], ⟨?_, fun j hj hov => hov.elim⟩, ?_, ?_⟩
  · intro _ j x hj hx' hacc
    have hacc : a.toNat = x := hacc
    rw [← hacc] at hx'
    rw [hun j hx']; exact hHi
  · rw [hst]; exact (Frm.refl m').guar hw hinv hheld
  · rw [hst]
    refine hf _ m' hag.same ?_
    intro ha
    refine ⟨?_, ?_, ?_⟩
    · rw [ha]; exact (hag.same i hi hHi).1
    · rw [ha]; exact hinv.owners i hi
    · intro h0; rw [ha, h0]; exact hinv.region0

theorem safe_readOwner (hw : g.WF) {r : W} (hr : r.toNat < g.regions) {f : W → Prog β} {Q : β → (Nat → Prop) → Machine → Prop} (hHr : H r.toNat)
    (hf : ∀ m', Same g H m m' → OwnerVal (m.owner g r.toNat) → (r.toNat = 0 → m.owner g r.toNat = nullEnclaveId) →
      Safe g D c Q H m' (f (m.owner g r.toNat))) : Safe g D c Q H m (readOwner g r >>= f) := by
  have ha := ownerA_toNat hw hr
  refine safe_loadRec hw hr (field_ok hw hr _ (by decide) (by decide)) (Or.inl ha) hHr fun v m' h1 h2 => ?_
  obtain ⟨rfl, h3, h4⟩ := h2 ha
  exact hf m' h1 h3 h4

/-- Writing the owner of a held region. -/
theorem safe_storeOwner (hw : g.WF) {r v : W} (hr : r.toNat < g.regions) {f : Unit → Prog β} {Q : β → (Nat → Prop) → Machine → Prop}
    (hHr : H r.toNat) (hr0 : r.toNat ≠ 0) (hv : OwnerVal v) (hleg : LegalEdge (m.owner g r.toNat) v) (hH : ∀ i, H i → i < g.regions)
    (hf : ∀ m', Same g (subL H r.toNat) m m' → m'.owner g r.toNat = v → m'.osBit g r.toNat = m.osBit g r.toNat → Safe g D c Q H m' (f ())) :
    Safe g D c Q H m (store (regionA g r + offOwner) v >>= f) := by
  intro m' hag hinv hheld
  have ha := ownerA_toNat hw hr
  have hok : okAddr g (regionA g r + offOwner) = true := field_ok hw hr _ (by decide) (by decide)
  have hframe : ∀ y, y ≠ ownerA g r.toNat → upd m'.mem (ownerA g r.toNat) v y = m'.mem y := fun y hy => upd_ne _ _ hy
  have hown : ∀ i, i ≠ r.toNat → Machine.owner { m' with mem := upd m'.mem (ownerA g r.toNat) v } g i = m'.owner g i := fun i hi => hframe _ (by simp [hi])
  have hownr : Machine.owner { m' with mem := upd m'.mem (ownerA g r.toNat) v } g r.toNat = v := upd_same _ _ _
  have hbit : ∀ i, Machine.osBit { m' with mem := upd m'.mem (ownerA g r.toNat) v } g i = m'.osBit g i := fun i => by
    show (upd m'.mem (ownerA g r.toNat) v (osWordA g i)).getLsbD _ = _; rw [hframe _ (osWordA_ne_ownerA hw hr)]; rfl
  have hst : heldStep g (.store (regionA g r + offOwner) v) 0 H = H := by
    refine heldStep_frame ?_ hH 0
    rintro i hi a w (hh | hh)
    · simp at hh
    · cases hh; rw [ha]; simp
  refine ⟨0, { m' with mem := upd m'.mem (ownerA g r.toNat) v }, ?_, ⟨?_, ?_⟩, ?_, ?_⟩
  · simp only [exec, hok, if_true, ha]
  · intro _ i x hi hx hacc
    have hacc : (regionA g r + offOwner).toNat = x := hacc
    rw [ha] at hacc
    have : i = r.toNat := by
      unfold RecordWord ownerA prevA pinnedA blockedA at hx
      unfold ownerA at hacc
      omega
    rw [this]; exact hHr
  · intro i hi hov
    have hov : (regionA g r + offOwner).toNat = lockA g i := hov
    rw [ha] at hov
    exact absurd hov (by simp)
  · rw [hst]
    have hlk : ∀ i, upd m'.mem (ownerA g r.toNat) v (lockA g i) = m'.mem (lockA g i) := fun i => hframe _ (by simp)
    refine ⟨?_, ?_, ?_, ⟨⟨?_, ?_, ?_⟩, ?_, ?_⟩, ?_⟩
    · intro i hi
      show _ ∨ (_ ∧ _ ∧ upd m'.mem (ownerA g r.toNat) v (lockA g i) = 0) ∨ _ ∧ _ ∧ upd m'.mem (ownerA g r.toNat) v (lockA g i) = _
      rcases Classical.em (H i) with hh | hh
      · exact Or.inl ⟨hh, (hlk i).trans (hheld i hi hh)⟩
      · exact Or.inr (Or.inr ⟨hh, hh, hlk i⟩)
    · intro i hi hni
      refine ⟨fun x hx => hframe x ?_, hbit i⟩
      rintro rfl
      refine hni ?_
      have : i = r.toNat := by unfold RecordWord ownerA prevA pinnedA blockedA at hx; omega
      rw [this]; exact hHr
    · exact fun _ => ⟨fun i hi => hframe _ (osWordA_ne_ownerA hw hr), rfl, rfl⟩
    · intro i hi
      by_cases hir : i = r.toNat
      · rw [hir, hownr]; exact hv
      · rw [hown i hir]; exact hinv.owners i hi
    · rw [hown 0 (Ne.symm hr0)]; exact hinv.region0
    · intro i hi hu
      rw [hbit]
      by_cases hir : i = r.toNat
      · rw [not_locked, hir] at hu
        have h1 : m'.mem (lockA g r.toNat) = 0 := (hlk _).symm.trans hu
        rw [hheld _ hr hHr] at h1
        exact absurd h1 (by decide)
      · rw [hown i hir]
        refine hinv.bitmap i hi ?_
        rw [not_locked] at hu ⊢
        exact (hlk i).symm.trans hu
    · intro i hi
      show upd m'.mem (ownerA g r.toNat) v (lockA g i) = 0 ∨ upd m'.mem (ownerA g r.toNat) v (lockA g i) = 1
      rw [hlk]; exact hinv.locks i hi
    · intro c' hc'
      exact (hframe _ (coreEnclaveA_ne_ownerA hw hc')).trans (hinv.os c' hc')
    · intro i hi
      by_cases hir : i = r.toNat
      · rw [hir, hownr, (hag.same _ hr hHr).1]; exact hleg
      · rw [hown i hir]; exact LegalEdge.same _
  · rw [hst]
    refine hf _ ?_ hownr ((hbit _).trans (hag.same _ hr hHr).2)
    intro i hi hh
    exact ⟨(hown i hh.2).trans (hag.same i hi hh.1).1, (hbit i).trans (hag.same i hi hh.1).2⟩

/-- Writing another word of a held record. -/
theorem safe_storeRec (hw : g.WF) {i : Nat} {a v : W} (hi : i < g.regions) (hok : okAddr g a = true) (hx : RecordWord g i a.toNat)
    (hno : a.toNat ≠ ownerA g i) {f : Unit → Prog β} {Q : β → (Nat → Prop) → Machine → Prop} (hHi : H i) (hH : ∀ i, H i → i < g.regions)
    (hf : ∀ m', Same g H m m' → Safe g D c Q H m' (f ())) : Safe g D c Q H m (store a v >>= f) := by
  intro m' hag hinv hheld
  have hun : ∀ j, RecordWord g j a.toNat → j = i := by
    intro j hj
    unfold RecordWord ownerA prevA pinnedA blockedA at hj hx
    omega
  have hlk : ∀ j, a.toNat ≠ lockA g j := by
    intro j
    unfold RecordWord ownerA prevA pinnedA blockedA at hx
    unfold lockA; omega
  have hos : ∀ j, osWordA g j ≠ a.toNat := by
    intro j
    obtain ⟨h1, h2, h3, h4, h5, h6, h7, h8, h9, h10, h11, h12⟩ := hw.layout
    unfold RecordWord ownerA prevA pinnedA blockedA at hx
    unfold osWordA; omega
  have hce : ∀ c', c' < g.cores → coreEnclaveA c' ≠ a.toNat := by
    intro c' hc'
    rcases hx with hx | hx | hx | hx <;> rw [hx] <;> simp [hw, hc']
  have hownne : ∀ j, ownerA g j ≠ a.toNat := by
    intro j hj
    have := hun j (Or.inl hj.symm)
    rw [this] at hj; exact hno hj.symm
  have hframe : ∀ y, y ≠ a.toNat → upd m'.mem a.toNat v y = m'.mem y := fun y hy => upd_ne _ _ hy
  have hown : ∀ j, Machine.owner { m' with mem := upd m'.mem a.toNat v } g j = m'.owner g j := fun j => hframe _ (hownne j)
  have hbit : ∀ j, Machine.osBit { m' with mem := upd m'.mem a.toNat v } g j = m'.osBit g j := fun j => by
    show (upd m'.mem a.toNat v (osWordA g j)).getLsbD _ = _; rw [hframe _ (hos j)]; rfl
  have hst : heldStep g (.store a v) 0 H = H := by
    refine heldStep_frame ?_ hH 0
    rintro j hj b w (hh | hh)
    · simp at hh
    · cases hh; exact hlk j
  refine ⟨0, { m' with mem := upd m'.mem a.toNat v }, ?_, ⟨?_, ?_⟩, ?_, ?_⟩
  · simp only [exec, hok, if_true]
  · intro _ j x hj hx' hacc
    have hacc : a.toNat = x := hacc
    rw [← hacc] at hx'
    rw [hun j hx']; exact hHi
  · intro j hj hov
    exact absurd hov (hlk j)
  · rw [hst]
    have hlk2 : ∀ j, upd m'.mem a.toNat v (lockA g j) = m'.mem (lockA g j) := fun j => hframe _ (fun hh => hlk j hh.symm)
    refine ⟨?_, ?_, ?_, ⟨⟨?_, ?_, ?_⟩, ?_, ?_⟩, ?_⟩
    · intro j hj
      show _ ∨ (_ ∧ _ ∧ upd m'.mem a.toNat v (lockA g j) = 0) ∨ _ ∧ _ ∧ upd m'.mem a.toNat v (lockA g j) = _
      rcases Classical.em (H j) with hh | hh
      · exact Or.inl ⟨hh, (hlk2 j).trans (hheld j hj hh)⟩
      · exact Or.inr (Or.inr ⟨hh, hh, hlk2 j⟩)
    · intro j hj hni
      refine ⟨fun x hx => hframe x ?_, hbit j⟩
      rintro rfl
      exact hni (by rw [hun j hx]; exact hHi)
    · exact fun _ => ⟨fun j hj => hframe _ (hos j), rfl, rfl⟩
    · intro j hj; rw [hown]; exact hinv.owners j hj
    · rw [hown]; exact hinv.region0
    · intro j hj hu
      rw [hown, hbit]
      refine hinv.bitmap j hj ?_
      rw [not_locked] at hu ⊢
      exact (hlk2 j).symm.trans hu
    · intro j hj
      show upd m'.mem a.toNat v (lockA g j) = 0 ∨ upd m'.mem a.toNat v (lockA g j) = 1
      rw [hlk2]; exact hinv.locks j hj
    · intro c' hc'
      exact (hframe _ (hce c' hc')).trans (hinv.os c' hc')
    · intro j hj; rw [hown]; exact LegalEdge.same _
  · rw [hst]
    exact hf _ (hag.same.trans fun j hj hh => ⟨hown j, hbit j⟩)

/-! ### The OS bitmap and the DMA window -/

/-- Changing a bit of the OS bitmap, holding the locks of region 0 and of the region. -/
theorem safe_setOsBit (hw : g.WF) {r : W} (hr : r.toNat < g.regions) (hH0 : H 0) (hHr : H r.toNat) (hH : ∀ i, H i → i < g.regions) (b : Bool)
    {f : Unit → Prog β} {Q : β → (Nat → Prop) → Machine → Prop}
    (hf : ∀ m', Same g (subL H r.toNat) m m' → m'.owner g r.toNat = m.owner g r.toNat → m'.osBit g r.toNat = b → Safe g D c Q H m' (f ())) :
    Safe g D c Q H m (setBitmapBit g.osBitmap r b >>= f) := by
  have ha := osWordA_toNat hw hr
  have hok := osWord_ok hw hr
  have hload : Safe g D c (fun v H' m' => H' = H ∧ Agree g H m m' ∧ v = m.mem (osWordA g r.toNat)) H m (load (g.osBitmap + bitmapOffset r * 8)) := by
    intro m' hag hinv hheld
    refine ⟨m'.mem (osWordA g r.toNat), m', ?_, ⟨?_, fun _ _ hov => hov.elim⟩, (Frm.refl m').guar hw hinv hheld, rfl, hag, (hag.map hH0).1 _ hr⟩
    · show (if okAddr g (bitWordA g.osBitmap r) then some (m'.mem (bitWordA g.osBitmap r).toNat, m') else none) = _
      rw [if_pos hok, ha]
    · intro _ i x hi hx hacc
      exfalso
      have hacc : (bitWordA g.osBitmap r).toNat = x := hacc
      rw [ha] at hacc
      exact osBitmap_not_record hw hi hx hacc.symm
  have hstore : ∀ m1 w, Agree g H m m1 → (∀ j, j < 64 → w.getLsbD j = if j = r.toNat % 64 then b else (m.mem (osWordA g r.toNat)).getLsbD j) →
      Safe g D c Q H m1 (store (g.osBitmap + bitmapOffset r * 8) w >>= f) := by
    intro m1 w hag1 hbits m' hag2 hinv hheld
    have hag := hag1.trans hag2
    have hframe : ∀ y, y ≠ osWordA g r.toNat → upd m'.mem (osWordA g r.toNat) w y = m'.mem y := fun y hy => upd_ne _ _ hy
    have hown : ∀ i, i < g.regions → Machine.owner { m' with mem := upd m'.mem (osWordA g r.toNat) w } g i = m'.owner g i :=
      fun i hi => hframe _ (ownerA_ne_osWordA hw hi)
    have hbit : ∀ i, i < g.regions → Machine.osBit { m' with mem := upd m'.mem (osWordA g r.toNat) w } g i = if i = r.toNat then b else m'.osBit g i := by
      intro i hi
      show (upd m'.mem (osWordA g r.toNat) w (osWordA g i)).getLsbD (i % 64) = _
      by_cases hq : osWordA g i = osWordA g r.toNat
      · rw [hq, upd_same, hbits _ (Nat.mod_lt _ (by omega))]
        have hdiv : i / 64 = r.toNat / 64 := by unfold osWordA at hq; omega
        by_cases hir : i = r.toNat
        · rw [if_pos (by rw [hir]), if_pos hir]
        · rw [if_neg (by omega), if_neg hir, ← (hag.map hH0).1 _ hr, ← hq]; rfl
      · rw [hframe _ hq, if_neg (fun hh => hq (by rw [hh]))]; rfl
    have hst : heldStep g (.store (g.osBitmap + bitmapOffset r * 8) w) 0 H = H := by
      refine heldStep_frame ?_ hH 0
      rintro i hi a w (hh | hh)
      · simp at hh
      · cases hh
        intro hh
        have : (bitWordA g.osBitmap r).toNat = lockA g i := hh
        rw [ha] at this; exact osWordA_ne_lockA hw hi this
    refine ⟨0, { m' with mem := upd m'.mem (osWordA g r.toNat) w }, ?_, ⟨?_, ?_⟩, ?_, ?_⟩
    · show (if okAddr g (bitWordA g.osBitmap r) then some ((0 : W), ({ m' with mem := upd m'.mem (bitWordA g.osBitmap r).toNat w } : Machine)) else none) = _
      rw [if_pos hok, ha]
    · intro _ i x hi hx hacc
      exfalso
      have hacc : (bitWordA g.osBitmap r).toNat = x := hacc
      rw [ha] at hacc
      exact osBitmap_not_record hw hi hx hacc.symm
    · intro i hi hov
      have hov : (bitWordA g.osBitmap r).toNat = lockA g i := hov
      rw [ha] at hov
      exact absurd hov (osWordA_ne_lockA hw hi)
    · rw [hst]
      have hlk : ∀ i, i < g.regions → upd m'.mem (osWordA g r.toNat) w (lockA g i) = m'.mem (lockA g i) := fun i hi => hframe _ (lockA_ne_osWordA hw hi)
      refine ⟨?_, ?_, ?_, ⟨⟨?_, ?_, ?_⟩, ?_, ?_⟩, ?_⟩
      · intro i hi
        show _ ∨ (_ ∧ _ ∧ upd m'.mem (osWordA g r.toNat) w (lockA g i) = 0) ∨ _ ∧ _ ∧ upd m'.mem (osWordA g r.toNat) w (lockA g i) = _
        rcases Classical.em (H i) with hh | hh
        · exact Or.inl ⟨hh, (hlk i hi).trans (hheld i hi hh)⟩
        · exact Or.inr (Or.inr ⟨hh, hh, hlk i hi⟩)
      · intro i hi hni
        refine ⟨fun x hx => hframe x ?_, ?_⟩
        · exact osBitmap_not_record hw hi hx
        · rw [hbit i hi, if_neg]; rintro rfl; exact hni hHr
      · exact fun hn => absurd hH0 hn
      · intro i hi; rw [hown i hi]; exact hinv.owners i hi
      · rw [hown 0 (by have := hw.regions_ge; omega)]; exact hinv.region0
      · intro i hi hu
        have hu' : m'.mem (lockA g i) = 0 := by rw [not_locked] at hu; exact (hlk i hi).symm.trans hu
        rw [hown i hi, hbit i hi, if_neg]
        · exact hinv.bitmap i hi ((not_locked m').2 hu')
        · rintro rfl
          rw [hheld _ hr hHr] at hu'
          exact absurd hu' (by decide)
      · intro i hi
        show upd m'.mem (osWordA g r.toNat) w (lockA g i) = 0 ∨ upd m'.mem (osWordA g r.toNat) w (lockA g i) = 1
        rw [hlk i hi]; exact hinv.locks i hi
      · intro c' hc'
        exact (hframe _ (coreEnclaveA_ne_osWordA hw hc')).trans (hinv.os c' hc')
      · intro i hi; rw [hown i hi]; exact LegalEdge.same _
    · rw [hst]
      refine hf _ ?_ ((hown _ hr).trans (hag.same _ hr hHr).1) (by rw [hbit _ hr, if_pos rfl])
      intro i hi hh
      rw [hbit i hi, if_neg hh.2]
      exact ⟨(hown i hi).trans (hag.same i hi hh.1).1, (hag.same i hi hh.1).2⟩
  have hmask : (1 : W) <<< (r.toNat % 64) = bitmapMask r := by
    unfold bitmapMask
    rw [mod64_toNat]
  unfold setBitmapBit
  show Safe g D c Q H m ((load (g.osBitmap + bitmapOffset r * 8) >>= fun w => _) >>= f)
  have hassoc : ∀ (p : Prog W) (q : W → Prog Unit), ((p >>= q) >>= f) = (p >>= fun w => q w >>= f) := by
    intro p q
    show (p.bind q).bind f = p.bind (fun w => (q w).bind f)
    induction p with
    | ret a => rfl
    | op o k ih => simp only [Prog.bind]; congr 1; funext v; exact ih v
    | fault => rfl
    | diverge => rfl
  rw [hassoc]
  refine Safe.bind hload ?_
  rintro w H' m1 ⟨rfl, h1, rfl⟩
  cases b with
  | true =>
      simp only [if_true]
      refine hstore m1 _ h1 fun j hj => ?_
      have := getLsbD_setBit (m.mem (osWordA g r.toNat)) (r.toNat % 64) j true (Nat.mod_lt _ (by omega)) hj
      rw [← hmask]; exact this
  | false =>
      simp only [Bool.false_eq_true, if_false]
      refine hstore m1 _ h1 fun j hj => ?_
      have := getLsbD_setBit (m.mem (osWordA g r.toNat)) (r.toNat % 64) j false (Nat.mod_lt _ (by omega)) hj
      rw [← hmask]; exact this

end Sanctum
