import Verif.Spec.Race
import Verif.Lemmas.ConfineCalls2
import Verif.Lemmas.MirrorCalls
/-
A logic for the locks under which the monitor's programs access its tables, and its soundness for interleavings.
-/
namespace Sanctum
open Machine

variable {g : Cfg} {c : Nat} {α β : Type} {H : Nat → Prop}

/-- The lock of region `i` protects the word at `x` of the monitor's memory. -/
def Shields (g : Cfg) (i x : Nat) : Prop := (i ≠ 0 ∧ i < g.regions ∧ RecordWord g i x) ∨ (i = 0 ∧ ∃ j, j < g.regions ∧ x = osWordA g j)

/-- The action accesses the monitor's tables and the DMA window as it may with the locks in `H`. -/
structure Guard (g : Cfg) (H : Nat → Prop) (o : Op) : Prop where
  low : ∀ x, x < g.monitorTop.toNat → o.accesses g x → AtomicLoc g (.word x) ∨ (∃ i, Shields g i x ∧ H i) ∨ ((∀ i, ¬ Shields g i x) ∧ ¬ o.mutates x)
  dma : o.IsDma → H 0

/-- All actions of the program do. -/
def Prog.Grd (g : Cfg) (c : Nat) (Q : α → (Nat → Prop) → Prop) : (Nat → Prop) → Prog α → Prop
  | H, .ret a => Q a H
  | H, .op o k => Guard g H o ∧ ∀ v, RespOk g c H o v → Prog.Grd g c Q (heldStep g o v H) (k v)
  | _, .fault => True
  | _, .diverge => True

theorem Guard.mono {H H' : Nat → Prop} {o : Op} (h : Guard g H o) (hh : ∀ i, H i → H' i) : Guard g H' o :=
  ⟨fun x h1 h2 => (h.low x h1 h2).imp id (Or.imp (fun ⟨i, a, b⟩ => ⟨i, a, hh i b⟩) id), fun h1 => hh 0 (h.dma h1)⟩

theorem Prog.Grd.mono {Q Q' : α → (Nat → Prop) → Prop} {p : Prog α} {H H' : Nat → Prop} (hp : p.Grd g c Q H) (hH : ∀ i, H i → H' i)
    (hQ : ∀ a H1 H2, (∀ i, H1 i → H2 i) → Q a H1 → Q' a H2) : p.Grd g c Q' H' := by
  induction p generalizing H H' with
  | ret a => exact hQ a H H' hH hp
  | op o k ih => exact ⟨hp.1.mono hH, fun v hv => ih v (hp.2 v (hv.mono hH)) (heldStep_mono hH)⟩
  | fault => trivial
  | diverge => trivial

theorem Prog.Grd.bind {Q1 : α → (Nat → Prop) → Prop} {Q : β → (Nat → Prop) → Prop} {p : Prog α} {f : α → Prog β}
    (hp : p.Grd g c Q1 H) (hf : ∀ a H', Q1 a H' → (f a).Grd g c Q H') : (p >>= f).Grd g c Q H := by
  show (p.bind f).Grd g c Q H
  induction p generalizing H with
  | ret a => exact hf a H hp
  | op o k ih => exact ⟨hp.1, fun v hv => ih v (hp.2 v hv)⟩
  | fault => trivial
  | diverge => trivial

/-- The trivial postcondition. -/
def Any : α → (Nat → Prop) → Prop := fun _ _ => True

theorem Prog.Grd.weaken {p : Prog α} {H H' : Nat → Prop} (hp : p.Grd g c Any H) (hH : ∀ i, H i → H' i) : p.Grd g c Any H' :=
  hp.mono hH fun _ _ _ _ _ => trivial

theorem Prog.Grd.ite {Q : α → (Nat → Prop) → Prop} {b : Prop} [Decidable b] {p q : Prog α} (hp : b → p.Grd g c Q H)
    (hq : ¬ b → q.Grd g c Q H) : (if b then p else q).Grd g c Q H := by
  split
  · exact hp ‹_›
  · exact hq ‹_›

theorem grd_done (v : α) : (pure v : Prog α).Grd g c Any H := trivial

/-! ### Programs that change no lock -/

/-- Programs that keep the locks and access the tables as they may with the locks in `H`. -/
def Prog.Steady (g : Cfg) (c : Nat) (H : Nat → Prop) : Prog α → Prop
  | .ret _ => True
  | .op o k => Guard g H o ∧ (∀ i, i < g.regions → ¬ o.mutates (lockA g i)) ∧ ∀ v, RespOk g c (fun _ => False) o v → Prog.Steady g c H (k v)
  | .fault => True
  | .diverge => True

theorem Steady.bind {p : Prog α} {f : α → Prog β} (hp : p.Steady g c H) (hf : ∀ a, (f a).Steady g c H) : (p >>= f).Steady g c H := by
  show (p.bind f).Steady g c H
  induction p with
  | ret a => exact hf a
  | op o k ih => exact ⟨hp.1, hp.2.1, fun v hv => ih v (hp.2.2 v hv)⟩
  | fault => trivial
  | diverge => trivial

theorem Steady.pure (a : α) : (pure a : Prog α).Steady g c H := trivial

theorem Steady.ite {b : Prop} [Decidable b] {p q : Prog α} (hp : b → p.Steady g c H) (hq : ¬ b → q.Steady g c H) : (if b then p else q).Steady g c H := by
  split
  · exact hp ‹_›
  · exact hq ‹_›

theorem steady_held {o : Op} {v : W} (ho : ∀ i, i < g.regions → ¬ o.mutates (lockA g i)) (hH : ∀ i, H i → i < g.regions) {i : Nat} (hi : H i) :
    heldStep g o v H i := by
  have hq := ho i (hH i hi)
  cases o <;> simp only [heldStep]
  case tas a => exact Or.inl hi
  case store a w => exact ⟨hi, hq⟩
  all_goals exact hi

theorem grd_steady_bind {p : Prog α} {f : α → Prog β} (hH : ∀ i, H i → i < g.regions) (hp : p.Steady g c H) (hf : ∀ a, (f a).Grd g c Any H) :
    (p >>= f).Grd g c Any H := by
  show (p.bind f).Grd g c Any H
  induction p with
  | ret a => exact hf a
  | op o k ih =>
      exact ⟨hp.1, fun v hv => (ih v (hp.2.2 v (hv.mono fun _ hh => hh.elim))).weaken fun _ => steady_held hp.2.1 hH⟩
  | fault => trivial
  | diverge => trivial

/-- Code that stays above the monitor's memory. -/
theorem Prog.High.steady (hw : g.WF) {S : Nat → Prop} {p : Prog α} (hp : p.High g S) : p.Steady g c H := by
  induction p with
  | ret a => trivial
  | op o k ih =>
      refine ⟨⟨fun x h1 h2 => ?_, fun hh => absurd hh hp.1.noDma⟩, fun i hi hh => ?_, fun v _ => ih v (hp.2 v)⟩
      · have := (hp.1.acc x h2).1; omega
      · have := (hp.1.acc _ (Op.mutates_accesses hh)).1
        have := lockA_lt hw hi
        omega
  | fault => trivial
  | diverge => trivial

/-- Loads of words that are atomic, protected by a lock in `H`, or never written. -/
theorem steady_load {a : W} (h : AtomicLoc g (.word a.toNat) ∨ (∃ i, Shields g i a.toNat ∧ H i) ∨ ∀ i, ¬ Shields g i a.toNat) :
    (load a).Steady g c H :=
  ⟨⟨fun x _ hx => by
      have hx : a.toNat = x := hx
      exact hx ▸ h.imp id (Or.imp id fun h1 => ⟨h1, fun hh => hh⟩), fun hh => hh.elim⟩, fun _ _ hh => hh, fun _ _ => trivial⟩

theorem steady_store {a v : W} (h : AtomicLoc g (.word a.toNat) ∨ ∃ i, Shields g i a.toNat ∧ H i) (hq : ∀ i, i < g.regions → a.toNat ≠ lockA g i) :
    (store a v).Steady g c H :=
  ⟨⟨fun x _ hx => by
      have hx : a.toNat = x := hx
      exact hx ▸ h.imp id Or.inl, fun hh => hh.elim⟩, fun i hi => hq i hi, fun _ _ => trivial⟩

/-- Actions on the DMA window. -/
theorem steady_dma {o : Op} (h : o.IsDma) (hH : H 0) : (act o).Steady g c H := by
  refine ⟨⟨fun x _ hx => ?_, fun _ => hH⟩, fun i _ hh => ?_, fun _ _ => trivial⟩ <;> cases o <;> simp only [Op.IsDma] at h <;>
    simp only [Op.accesses, Op.mutates] at *

theorem steady_dma_ {o : Op} (h : o.IsDma) (hH : H 0) : (act_ o).Steady g c H := by
  refine ⟨⟨fun x _ hx => ?_, fun _ => hH⟩, fun i _ hh => ?_, fun _ _ => trivial⟩ <;> cases o <;> simp only [Op.IsDma] at h <;>
    simp only [Op.accesses, Op.mutates] at *

/-- Actions on the core's own registers. -/
theorem steady_own {o : Op} (h1 : ∀ x, ¬ o.accesses g x) (h2 : ¬ o.IsDma) : (act_ o).Steady g c H :=
  ⟨⟨fun x _ hx => absurd hx (h1 x), fun hh => absurd hh h2⟩, fun _ _ hh => absurd (Op.mutates_accesses hh) (h1 _), fun _ _ => trivial⟩

/-! ### Locks and owners -/

theorem atomic_lock {i : Nat} (hi : i < g.regions) : AtomicLoc g (.word (lockA g i)) := Or.inl ⟨i, hi, rfl⟩

theorem grd_tasLock (hw : g.WF) {r : W} (hr : r.toNat < g.regions) {f : Bool → Prog β}
    (hbusy : (f true).Grd g c Any H) (hfree : ¬ H r.toNat → (f false).Grd g c Any (addL H r.toNat)) : (tasLock g r >>= f).Grd g c Any H := by
  have ha := lockA_toNat hw hr
  refine ⟨⟨fun x _ hx => Or.inl ?_, fun hh => hh.elim⟩, fun v hv0 => ?_⟩
  · have hx : (regionA g r + offLock).toNat = x := hx
    rw [← hx, ha]; exact atomic_lock hr
  · by_cases hv : v = 0
    · subst hv
      refine Prog.Grd.weaken (H := addL H r.toNat) (hfree (hv0.excl _ _ rfl hr ha rfl)) (fun i hi => ?_)
      exact hi.imp id fun hi => ⟨by rw [hi]; exact hr, rfl, by rw [hi]; exact ha⟩
    · have : (v != 0) = true := bne_iff_ne.2 hv
      show Prog.Grd g c Any _ (f (v != 0))
      rw [this]
      exact hbusy.weaken fun i hi => Or.inl hi

theorem grd_clearLock (hw : g.WF) {r : W} (hr : r.toNat < g.regions) {f : Unit → Prog β}
    (hf : (f ()).Grd g c Any (subL H r.toNat)) : (clearLock g r >>= f).Grd g c Any H := by
  have ha := lockA_toNat hw hr
  refine ⟨⟨fun x _ hx => Or.inl ?_, fun hh => hh.elim⟩, fun v _ => ?_⟩
  · have hx : (regionA g r + offLock).toNat = x := hx
    rw [← hx, ha]; exact atomic_lock hr
  · refine hf.weaken fun i hi => ⟨hi.1, ?_⟩
    rw [ha]; exact fun hh => hi.2 (lockA_inj.1 hh).symm

theorem grd_release (hw : g.WF) {r : W} (hr : r.toNat < g.regions) {f : Unit → Prog β} (hf : (f ()).Grd g c Any noL) :
    (clearLock g r >>= f).Grd g c Any H := grd_clearLock hw hr (hf.weaken fun _ hh => hh.elim)

theorem grd_rel1 (hw : g.WF) {r : W} (hr : r.toNat < g.regions) (v : α) : (clearLock g r >>= fun _ => pure v).Grd g c Any H :=
  grd_release hw hr (grd_done v)

theorem grd_rel2 (hw : g.WF) {r s : W} (hr : r.toNat < g.regions) (hs : s.toNat < g.regions) (v : α) :
    (clearLock g r >>= fun _ => clearLock g s >>= fun _ => pure v).Grd g c Any H := grd_release hw hr (grd_rel1 hw hs v)

theorem shields_record {i x : Nat} (h0 : i ≠ 0) (hi : i < g.regions) (hx : RecordWord g i x) : Shields g i x := Or.inl ⟨h0, hi, hx⟩

/-- Record words of region 0 are protected by no lock (nothing writes them). -/
theorem record0_free (hw : g.WF) {x : Nat} (hx : RecordWord g 0 x) : ∀ i, ¬ Shields g i x := by
  have h0 : 0 < g.regions := by have := hw.regions_ge; omega
  rintro i (⟨h1, h2, h3⟩ | ⟨_, j, hj, rfl⟩)
  · unfold RecordWord ownerA prevA pinnedA blockedA at hx h3
    omega
  · exact osBitmap_not_record hw h0 hx (k := j / 64) rfl

theorem steady_readOwner (hw : g.WF) {r : W} (hr : r.toNat < g.regions) (hH : r.toNat ≠ 0 → H r.toNat) : (readOwner g r).Steady g c H := by
  have ha := ownerA_toNat hw hr
  refine steady_load ?_
  rw [ha]
  by_cases h0 : r.toNat = 0
  · rw [h0]; exact Or.inr (Or.inr (record0_free hw (Or.inl rfl)))
  · exact Or.inr (Or.inl ⟨_, shields_record h0 hr (Or.inl rfl), hH h0⟩)

theorem grd_readOwner (hw : g.WF) {r : W} (hr : r.toNat < g.regions) (hH : r.toNat ≠ 0 → H r.toNat) {f : W → Prog β}
    (hf : ∀ v, OwnerVal v → (r.toNat = 0 → v = nullEnclaveId) → (f v).Grd g c Any H) : (readOwner g r >>= f).Grd g c Any H := by
  have ha := ownerA_toNat hw hr
  refine ⟨(steady_readOwner (c := c) hw hr hH).1, fun v hv => ?_⟩
  have h1 := hv.owner _ _ rfl hr ha
  exact (hf v h1.1 h1.2).weaken fun i hi => hi

/-- Stores to the record of a region whose lock is held. -/
theorem steady_rec (hw : g.WF) {r x : Nat} {a v : W} (h0 : r ≠ 0) (hr : r < g.regions) (hH : H r) (hx : RecordWord g r x) (ha : a.toNat = x) :
    (store a v).Steady g c H := by
  refine steady_store (Or.inr ⟨_, shields_record h0 hr (ha ▸ hx), hH⟩) fun i hi => ?_
  rw [ha]
  unfold RecordWord ownerA prevA pinnedA blockedA at hx
  unfold lockA
  omega

/-- Words of the core records are protected by no lock. -/
theorem core_free (hw : g.WF) (hc : c < g.cores) {off : Nat} (ho : off < 32) : ∀ i, ¬ Shields g i (32 * c + off) := by
  have h1 := hw.regionBase
  have h2 := hw.regionsBase
  have h3 := hw.osBitmap
  rintro i (⟨_, _, h⟩ | ⟨_, j, _, h⟩)
  · unfold RecordWord ownerA prevA pinnedA blockedA at h
    omega
  · unfold osWordA at h
    omega

theorem grd_currentEnclave (hw : g.WF) (hc : c < g.cores) (hH : ∀ i, H i → i < g.regions) {f : W → Prog β}
    (hf : (f nullEnclaveId).Grd g c Any H) : (currentEnclave g >>= f).Grd g c Any H := by
  have hcc : (coreA g (BitVec.ofNat 64 c) + offCoreEnclaveId).toNat = coreEnclaveA c := coreA_toNat hw hc _ (by decide)
  show Prog.Grd g c Any H (.op .curCore fun core => .op (.load (coreA g core + offCoreEnclaveId)) f)
  refine ⟨⟨fun x _ hx => hx.elim, fun hh => hh.elim⟩, fun v hv => ?_⟩
  rw [hv.core rfl]
  refine ⟨⟨fun x _ hx => ?_, fun hh => hh.elim⟩, fun v hv => ?_⟩
  · have hx : (coreA g (BitVec.ofNat 64 c) + offCoreEnclaveId).toNat = x := hx
    rw [hcc] at hx
    refine Or.inr (Or.inr ⟨?_, fun hh => hh⟩)
    subst hx
    exact core_free hw hc (off := 0) (by decide)
  · rw [hv.os _ c rfl hc hcc]
    exact hf

end Sanctum
