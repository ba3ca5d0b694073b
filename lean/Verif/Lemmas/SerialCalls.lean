import Verif.Lemmas.Serial
import Verif.Lemmas.RegionCalls3
import Verif.Lemmas.RaceCalls
/-
The calls in the logic of `Lemmas/Serial.lean`.
-/
namespace Sanctum
open Machine

variable {g : Cfg} {c : Nat} {α β : Type} {H : Nat → Prop} {k : Call} {w : Bool}

/-! ### Protected programs -/

theorem Pro.bind {p : Prog α} {f : α → Prog β} (hp : p.Pro g c H) (hf : ∀ a, (f a).Pro g c H) : (p >>= f).Pro g c H := by
  show (p.bind f).Pro g c H
  induction p with
  | ret a => exact hf a
  | op o q ih => exact ⟨hp.1, fun v => ih v (hp.2 v)⟩
  | fault => exact hp
  | diverge => exact hp

theorem Pro.pure (a : α) : (pure a : Prog α).Pro g c H := trivial

theorem Pro.ite {b : Prop} [Decidable b] {p q : Prog α} (hp : b → p.Pro g c H) (hq : ¬ b → q.Pro g c H) : (if b then p else q).Pro g c H := by
  split
  · exact hp ‹_›
  · exact hq ‹_›

theorem prot_load {a : W} (hok : okAddr g a = true) (h : Owned g H (.word a.toNat) ∨ Fixed g (.word a.toNat)) : Prot g c H (.load a) := by
  refine ⟨fun l hl => ?_, fun m => by simp only [exec, hok, if_true]; rfl, fun _ _ _ hh => hh.elim⟩
  have hl : l = .word a.toNat := hl.elim id fun hh => hh.elim
  subst hl
  exact h.imp id fun hh => ⟨hh, fun h1 => h1⟩

/-- A store that leaves the regions whose pages are owned free, or metadata. -/
def Mild (g : Cfg) (H : Nat → Prop) (a v : W) : Prop := ∀ i, i < g.regions → H (g.regions + i) → a.toNat = ownerA g i → v = freeEnclaveId ∨ v = metadataEnclaveId

/-- No pages are owned. -/
def Cold (g : Cfg) (H : Nat → Prop) : Prop := ∀ i, ¬ H (g.regions + i)

theorem Cold.mild (h : Cold g H) (a v : W) : Mild g H a v := fun i _ hh => absurd hh (h i)

theorem cold_one {r : Nat} (hr : r < g.regions) : Cold g (addL noL r) := fun i hh => hh.elim (fun h => h.elim) fun h => by omega

theorem cold_two {r s : Nat} (hr : r < g.regions) (hs : s < g.regions) : Cold g (addL (addL noL r) s) := fun i hh => hh.elim (fun h => cold_one hr i h) fun h => by omega

theorem mild_ne {a v : W} (h : ∀ i, i < g.regions → a.toNat ≠ ownerA g i) : Mild g H a v := fun i hi _ hh => absurd hh (h i hi)

theorem mild_meta (a : W) : Mild g H a metadataEnclaveId := fun _ _ _ _ => Or.inr rfl

theorem prot_store {a v : W} (hok : okAddr g a = true) (h : Owned g H (.word a.toNat)) (hm : Mild g H a v) : Prot g c H (.store a v) := by
  refine ⟨fun l hl => ?_, fun m => by simp only [exec, hok, if_true]; rfl, fun i hi hH hh => ⟨a, v, rfl, hm i hi hH (Loc.word.inj hh).symm⟩⟩
  have hl : l = .word a.toNat := hl.elim (fun hh => hh.elim) id
  subst hl
  exact Or.inl h

theorem pro_load {a : W} (hok : okAddr g a = true) (h : Owned g H (.word a.toNat) ∨ Fixed g (.word a.toNat)) : (load a).Pro g c H :=
  ⟨prot_load hok h, fun _ => trivial⟩

theorem pro_store {a v : W} (hok : okAddr g a = true) (h : Owned g H (.word a.toNat)) (hm : Mild g H a v) : (store a v).Pro g c H := ⟨prot_store hok h hm, fun _ => trivial⟩

/-- Actions on the DMA window. -/
theorem prot_dma {o : Op} (h : o.IsDma) (hH : H 0) : Prot g c H o := by
  cases o <;> simp only [Op.IsDma] at h <;>
    exact ⟨fun l hl => Or.inl ⟨0, hH, by rcases hl with hl | hl <;> first | (cases hl; done) | (simp only [Op.reads, Op.writes] at hl; subst hl; rfl)⟩, fun m => rfl, fun _ _ _ hh => by cases hh⟩

theorem pro_dma {o : Op} (h : o.IsDma) (hH : H 0) : (act o).Pro g c H := ⟨prot_dma h hH, fun _ => trivial⟩
theorem pro_dma_ {o : Op} (h : o.IsDma) (hH : H 0) : (act_ o).Pro g c H := ⟨prot_dma h hH, fun _ => trivial⟩

theorem prot_curCore : Prot g c H .curCore := ⟨fun _ hl => (hl.elim id id).elim, fun _ => rfl, fun _ _ _ hh => hh.elim⟩

/-- Code above the monitor's memory, on locations that the locks protect. -/
theorem high_pro (hw : g.WF) {D : Prop} {S : Nat → Prop} {p : Prog α} (hf : p.Frame g D g.cores) (hh : p.High g S)
    (hS : ∀ x, g.monitorTop.toNat ≤ x → S x → Owned g H (.word x)) : p.Pro g c H := by
  induction p with
  | ret a => trivial
  | fault => exact hf.elim
  | diverge => exact hf.elim
  | op o q ih =>
      have hnc : o ≠ .curCore := fun he => by subst he; exact absurd hf.1 (Nat.lt_irrefl _)
      have hown : ∀ x, o.accesses g x → Owned g H (.word x) := fun x hx => hS x (hh.1.acc x hx).1 (hh.1.acc x hx).2
      have hnd := hh.1.noDma
      refine ⟨⟨fun l hl => ?_, fun m => ?_, fun i hi _ hx => ?_⟩, fun v => ih v (hf.2 v fun he => absurd he hnc) (hh.2 v)⟩
      · cases o <;> rcases hl with hl | hl <;> first
          | exact hl.elim
          | exact (hnd trivial).elim
          | (simp only [Op.reads, Op.writes] at hl; subst hl; exact Or.inl (hown _ rfl))
      · have h1 := hf.1
        cases o <;> simp only [OpFrame] at h1 <;> simp only [exec, h1, if_true] <;> rfl
      · have h1 := hh.1.acc
        have h2 := ownerA_lt hw hi
        cases o <;> simp only [Op.writes, Loc.word.injEq, reduceCtorEq] at hx <;> (have h3 := (h1 _ rfl).1; omega)

/-! ### Words of the monitor's tables -/

theorem low_ok (hw : g.WF) {x : Nat} {a : W} (h8 : a.toNat = x) (hx : x + 8 ≤ g.monitorTop.toNat) (hm : x % 8 = 0) : okAddr g a = true := by
  have := hw.top_le; have := hw.stripe_le; have := hw.dram_ge
  rw [okAddr_iff, h8]
  exact ⟨hm, by omega⟩

theorem record_ok (hw : g.WF) {i x : Nat} {a : W} (hi : i < g.regions) (hx : RecordWord g i x) (ha : a.toNat = x) : okAddr g a = true := by
  have h1 := ownerA_lt hw hi; have h2 := prevA_lt hw hi; have h3 := pinnedA_lt hw hi; have h4 := blockedA_lt hw hi
  have := hw.regionBase
  rcases hx with hx | hx | hx | hx <;> refine low_ok hw ha (by omega) ?_ <;> rw [hx] <;> simp only [ownerA, prevA, pinnedA, blockedA] <;> omega

theorem record_owned (hw : g.WF) {i x : Nat} (h0 : i ≠ 0) (hi : i < g.regions) (hx : RecordWord g i x) (hH : H i) : Owned g H (.word x) :=
  ⟨i, hH, Or.inl ⟨record_lt hw hi hx, shields_record h0 hi hx⟩⟩

theorem low_fixed {x : Nat} (h : x < g.monitorTop.toNat) (h1 : ¬ AtomicLoc g (.word x)) (h2 : ∀ i, ¬ Shields g i x) : Fixed g (.word x) :=
  ⟨h1, fun i hh => hh.elim (fun hh => h2 i hh.2) fun hh => by omega⟩

theorem record_not_atomic (hw : g.WF) {i x : Nat} (hi : i < g.regions) (hx : RecordWord g i x) : ¬ AtomicLoc g (.word x) := by
  rintro (⟨j, hj, h⟩ | h | ⟨c', hc', h⟩)
  · have h := Loc.word.inj h
    unfold RecordWord ownerA prevA pinnedA blockedA at hx; unfold lockA at h; omega
  · have h := Loc.word.inj h
    rcases hx with hx | hx | hx | hx <;> rw [hx] at h <;> simp [hw, hi] at h
  · have h := Loc.word.inj h
    rcases hx with hx | hx | hx | hx <;> rw [hx] at h <;> simp [hw, hi, hc'] at h

theorem owner_acc (hw : g.WF) {r : W} (hr : r.toNat < g.regions) (hH : r.toNat ≠ 0 → H r.toNat) :
    Owned g H (.word (ownerA g r.toNat)) ∨ Fixed g (.word (ownerA g r.toNat)) := by
  have hx : RecordWord g r.toNat (ownerA g r.toNat) := Or.inl rfl
  by_cases h0 : r.toNat = 0
  · refine Or.inr (low_fixed (record_lt hw hr hx) (record_not_atomic hw hr hx) ?_)
    rw [h0]; exact record0_free hw (Or.inl rfl)
  · exact Or.inl (record_owned hw h0 hr hx (hH h0))

theorem core_fixed (hw : g.WF) (hc : c < g.cores) {off : Nat} (ho : off < 24) : Fixed g (.word (32 * c + off)) := by
  obtain ⟨h1, h2, h3, h4, h5, h6, h7, h8, h9, h10, h11, h12⟩ := hw.layout
  have hf := flushedA_lt hw hc
  refine low_fixed (by unfold flushedA at hf; omega) ?_ (core_free hw hc (by omega))
  have hrb := hw.regionBase; have hrs := hw.regionsBase
  rintro (⟨j, hj, h⟩ | h | ⟨c', hc', h⟩) <;> have h := Loc.word.inj h
  · unfold lockA at h; omega
  · unfold clockA at h; omega
  · unfold flushedA at h; omega

/-! ### The rest of a call -/

theorem pro_tail {p : Prog α} {f : α → Prog W} (hp : p.Pro g c H) (hf : ∀ a, (f a).Tail g c H) : (p >>= f).Tail g c H := by
  show (p.bind f).Tail g c H
  induction p with
  | ret a => exact hf a
  | op o q ih => exact Or.inl ⟨hp.1, fun v => ih v (hp.2 v)⟩
  | fault => exact hp.elim
  | diverge => exact hp.elim

theorem Tail.ite {b : Prop} [Decidable b] {p q : Prog W} (hp : b → p.Tail g c H) (hq : ¬ b → q.Tail g c H) : (if b then p else q).Tail g c H := by
  split
  · exact hp ‹_›
  · exact hq ‹_›

theorem Two.ite {b : Prop} [Decidable b] {p q : Prog W} (hp : b → p.Two g c k w H) (hq : ¬ b → q.Two g c k w H) : (if b then p else q).Two g c k w H := by
  split
  · exact hp ‹_›
  · exact hq ‹_›

theorem Prog.Tail.two {p : Prog W} (hp : p.Tail g c H) : p.Two g c k w H := by
  cases p with
  | ret a => exact hp
  | op o f => exact Or.inl hp
  | fault => exact hp.elim
  | diverge => exact hp.elim

theorem pure_two {a : α} {f : α → Prog W} (h : (f a).Two g c k w H) : (pure a >>= f).Two g c k w H := h

theorem two_clock {f : W → Prog W} (h : ∀ v, (f v).Tail g c H) : (act (.fetchAdd g.regionsBase 1) >>= f).Two g c k w H :=
  Or.inr (Or.inr (Or.inr (Or.inr (Or.inl ⟨_, rfl, rfl, h⟩))))

theorem two_done (v : W) : (pure v : Prog W).Two g c k w noL := fun _ hh => hh

theorem is_release (hw : g.WF) {r : W} (hr : r.toNat < g.regions) : IsRelease g r.toNat (.store (regionA g r + offLock) 0) :=
  ⟨_, rfl, hr, lockA_toNat hw hr⟩

theorem rel_clear (hw : g.WF) {r : W} (hr : r.toNat < g.regions) (hH : H r.toNat) {f : Unit → Prog W} {b : W} (hf : (f ()).Rel g b (dropL g H r.toNat)) :
    (clearLock g r >>= f).Rel g b H := ⟨_, is_release hw hr, hH, hf⟩

theorem rel_done (b : W) : (pure b : Prog W).Rel g b noL := ⟨rfl, fun _ hh => hh⟩

theorem drop_one (r : Nat) : dropL g (addL noL r) r = noL := by
  funext i; exact propext ⟨fun hh => (hh.1.elim id fun h1 => absurd h1 hh.2.1), fun hh => hh.elim⟩

theorem drop_two {r s : Nat} (hr : r < g.regions) (hne : r ≠ s) : dropL g (addL (addL noL r) s) s = addL noL r := by
  funext i
  refine propext ⟨fun hh => (hh.1.elim id fun h1 => absurd h1 hh.2.1), fun hh => ⟨Or.inl hh, ?_, ?_⟩⟩
  · rintro rfl; exact hh.elim id fun h1 => hne h1.symm
  · rintro rfl; exact hh.elim id fun h1 => by omega

/-- The lock of region `r` and its pages. -/
abbrev hotL (g : Cfg) (r : Nat) : Nat → Prop := addL (addL noL r) (g.regions + r)

theorem drop_hot (r : Nat) : dropL g (hotL g r) r = noL := by
  funext i
  exact propext ⟨fun hh => hh.1.elim (fun h1 => h1.elim id fun h2 => absurd h2 hh.2.1) fun h1 => absurd h1 hh.2.2, fun hh => hh.elim⟩

theorem rel_rel1 (hw : g.WF) {r : W} (hr : r.toNat < g.regions) (b : W) : (clearLock g r >>= fun _ => pure b).Rel g b (addL noL r.toNat) :=
  rel_clear hw hr (one_self _) (by rw [drop_one]; exact rel_done b)

theorem rel_hot (hw : g.WF) {r : W} (hr : r.toNat < g.regions) (b : W) : (clearLock g r >>= fun _ => pure b).Rel g b (hotL g r.toNat) :=
  rel_clear hw hr (two_fst _ _) (by rw [drop_hot]; exact rel_done b)

theorem rel_rel2 (hw : g.WF) {r s : W} (hr : r.toNat < g.regions) (hs : s.toNat < g.regions) (hne : r.toNat ≠ s.toNat) (b : W) :
    (clearLock g s >>= fun _ => clearLock g r >>= fun _ => pure b).Rel g b (addL (addL noL r.toNat) s.toNat) :=
  rel_clear hw hs (two_snd _ _) (by rw [drop_two hr hne]; exact rel_rel1 hw hr b)

/-- Reads and writes under the locks. -/
theorem pro_two {p : Prog α} {f : α → Prog W} (hp : p.Pro g c H) (hf : ∀ a w', (f a).Two g c k w' H) : ∀ {w}, (p >>= f).Two g c k w H := by
  show ∀ {w}, (p.bind f).Two g c k w H
  induction p with
  | ret a => exact hf a _
  | op o q ih => exact Or.inr (Or.inl ⟨hp.1, fun v _ => ih v (hp.2 v)⟩)
  | fault => exact hp.elim
  | diverge => exact hp.elim

theorem two_read {o : Op} {f : W → Prog W} (ho : Prot g c H o) (hr : o.isRead = true) (hf : ∀ v, RespOk g c H o v → (f v).Two g c k w H) :
    (Prog.op o f).Two g c k w H := by
  refine Or.inr (Or.inl ⟨ho, fun v hv => ?_⟩)
  rw [hr, show (!true) = false from rfl, Bool.or_false]
  exact hf v hv

section
variable (hw : g.WF)
include hw

theorem two_readOwner {r : W} (hr : r.toNat < g.regions) (hH : r.toNat ≠ 0 → H r.toNat) {f : W → Prog W}
    (hf : ∀ v, OwnerVal v → (r.toNat = 0 → v = nullEnclaveId) → (f v).Two g c k w H) : (readOwner g r >>= f).Two g c k w H := by
  have ha := ownerA_toNat hw hr
  refine two_read (prot_load (record_ok hw hr (Or.inl rfl) ha) (by rw [ha]; exact owner_acc hw hr hH)) rfl fun v hv => ?_
  have h1 := hv.owner _ _ rfl hr ha
  exact hf v h1.1 h1.2

/-- A read of the owner of a region that finds it free, or metadata: its pages can be used. -/
theorem two_readHot {r : W} (hr : r.toNat < g.regions) (h0 : r.toNat ≠ 0) (hH : H r.toNat) {f : W → Prog W} (hf : ∀ v, OwnerVal v →
      (f v).Two g c k w H ∨ ((v = freeEnclaveId ∨ v = metadataEnclaveId) ∧ (f v).Two g c k w (addL H (g.regions + r.toNat)))) : (readOwner g r >>= f).Two g c k w H := by
  have ha := ownerA_toNat hw hr
  exact Or.inr (Or.inr (Or.inr (Or.inr (Or.inr (Or.inr ⟨_, r.toNat, rfl, hr, ha, h0, hH, fun v hv => hf v (hv.owner _ _ rfl hr ha).1⟩)))))

theorem two_currentEnclave (hc : c < g.cores) {f : W → Prog W} (hf : (f nullEnclaveId).Two g c k w H) : (currentEnclave g >>= f).Two g c k w H := by
  have hcc : (coreA g (BitVec.ofNat 64 c) + offCoreEnclaveId).toNat = coreEnclaveA c := coreA_toNat hw hc _ (by decide)
  show Prog.Two g c k w H (.op .curCore fun core => .op (.load (coreA g core + offCoreEnclaveId)) f)
  refine two_read prot_curCore rfl fun v hv => ?_
  rw [hv.core rfl]
  have hf' := flushedA_lt hw hc
  refine two_read (prot_load (low_ok hw hcc (by unfold flushedA at hf'; unfold coreEnclaveA; omega) (by unfold coreEnclaveA; omega)) (Or.inr ?_)) rfl fun v hv => ?_
  · rw [hcc]; exact core_fixed hw hc (off := 0) (by decide)
  · rw [hv.os _ c rfl hc hcc]; exact hf

/-- Taking a lock. -/
theorem two_tasLock {r : W} (hr : r.toNat < g.regions) {f : Bool → Prog W} (hbusy : ¬ H r.toNat → ∃ b, TurnedAway k b ∧ (f true).Rel g b H)
    (hfree : ¬ H r.toNat → (f false).Two g c k false (addL H r.toNat)) (hown : H r.toNat → (f true).Two g c k false H) : (tasLock g r >>= f).Two g c k false H :=
  Or.inr (Or.inr (Or.inl ⟨rfl, _, _, rfl, hr, lockA_toNat hw hr, fun hn => ⟨hfree hn, hbusy hn⟩, hown⟩))

theorem two_tas0 {r : W} (hr : r.toNat < g.regions) {f : Bool → Prog W} {b : W} (hb : TurnedAway k b) (hbusy : f true = pure b)
    (hfree : (f false).Two g c k false (addL noL r.toNat)) : (tasLock g r >>= f).Two g c k false noL :=
  two_tasLock hw hr (fun _ => ⟨b, hb, by rw [hbusy]; exact rel_done b⟩) (fun _ => hfree) fun hh => hh.elim

theorem tail_rel1 {r : W} (hr : r.toNat < g.regions) (v : W) : (clearLock g r >>= fun _ => pure v).Tail g c (addL noL r.toNat) := (rel_rel1 hw hr v).tail

theorem two_rel1 {r : W} (hr : r.toNat < g.regions) (v : W) : (clearLock g r >>= fun _ => pure v).Two g c k w (addL noL r.toNat) := (tail_rel1 hw hr v).two

theorem tail_hot {r : W} (hr : r.toNat < g.regions) (v : W) : (clearLock g r >>= fun _ => pure v).Tail g c (hotL g r.toNat) := (rel_hot hw hr v).tail

theorem tail_rel2 {r s : W} (hr : r.toNat < g.regions) (hs : s.toNat < g.regions) (hne : r.toNat ≠ s.toNat) (v : W) :
    (clearLock g s >>= fun _ => clearLock g r >>= fun _ => pure v).Tail g c (addL (addL noL r.toNat) s.toNat) := (rel_rel2 hw hr hs hne v).tail

/-! ### Protected code -/

theorem os_owned {j : Nat} (hj : j < g.regions) (hH : H 0) : Owned g H (.word (osWordA g j)) :=
  ⟨0, hH, Or.inl ⟨by have := osWordA_lt hw hj; omega, Or.inr ⟨rfl, j, hj, rfl⟩⟩⟩

theorem os_ok {r : W} (hr : r.toNat < g.regions) : okAddr g (bitWordA g.osBitmap r) = true := by
  have h1 := osWordA_lt hw hr
  have h3 := hw.osBitmap
  have := hw.regionsBase
  have := hw.layout
  exact low_ok hw (osWordA_toNat hw hr) (by omega) (by unfold osWordA; omega)

theorem pro_osWord {r : W} (hr : r.toNat < g.regions) (hH : H 0) : (load (bitWordA g.osBitmap r)).Pro g c H :=
  pro_load (os_ok hw hr) (Or.inl (by rw [osWordA_toNat hw hr]; exact os_owned hw hr hH))

theorem pro_setOsBit {r : W} (hr : r.toNat < g.regions) (b : Bool) (hH : H 0) : (setBitmapBit g.osBitmap r b).Pro g c H := by
  have hst : ∀ v, (store (bitWordA g.osBitmap r) v).Pro g c H := fun v => pro_store (os_ok hw hr) (by rw [osWordA_toNat hw hr]; exact os_owned hw hr hH)
    (mild_ne fun i hi hh => by rw [osWordA_toNat hw hr] at hh; simp [hw, hi, hr] at hh)
  unfold setBitmapBit
  exact Pro.bind (pro_osWord hw hr hH) fun w => Pro.ite (fun _ => hst _) fun _ => hst _

theorem pro_snapshotLoop (hH : H 0) (n : Nat) : ∀ (p : W) (j : Nat), p.toNat = g.osBitmap.toNat + 8 * j → j + n ≤ g.bitmapWords.toNat →
    (snapshotLoop n p).Pro g c H := by
  induction n with
  | zero => intro p j _ _; exact Pro.pure _
  | succ n ih =>
      intro p j h1 h2
      obtain ⟨l1, l2, l3, l4, l5, l6, l7, l8, l9, l10, l11, l12⟩ := hw.layout
      have := hw.arrays_le; have := hw.top_le; have := hw.dram_ge; have := g.dramSize.isLt
      have hww := hw.words
      have hreg : 64 * j < g.regions := by
        have := hw.bitmapWords
        have := hw.regionCount
        unfold Cfg.regions
        omega
      have hp : p.toNat = osWordA g (64 * j) := by rw [h1]; unfold osWordA; omega
      have hlt := osWordA_lt hw hreg
      refine Pro.bind (pro_load (low_ok hw hp (by omega) (by rw [← hp, h1]; omega)) (Or.inl (by rw [hp]; exact os_owned hw hreg hH))) fun _ =>
        Pro.bind (ih _ (j + 1) ?_ (by omega)) fun _ => Pro.pure _
      rw [BitVec.toNat_add, show (8 : W).toNat = 8 from rfl]; omega

theorem pro_setDrb (hH : H 0) : (setDrbMap g g.osBitmap).Pro g c H :=
  Pro.bind (pro_snapshotLoop hw hH _ _ 0 rfl (by omega)) fun _ => ⟨⟨fun _ hl => (hl.elim id id).elim, fun _ => rfl, fun _ _ _ hh => hh.elim⟩, fun _ => trivial⟩

omit hw in
theorem pro_dmaTest {o1 o2 : Op} (p q : W → Bool) (hH : H 0) (h1 : o1 = .getDmaStart ∨ o1 = .getDmaEnd) (h2 : o2 = .getDmaStart ∨ o2 = .getDmaEnd) :
    (dmaTest o1 p o2 q).Pro g c H := by
  have ha : ∀ {o : Op}, o = .getDmaStart ∨ o = .getDmaEnd → (act o).Pro g c H := by
    rintro o (rfl | rfl) <;> exact pro_dma trivial hH
  unfold dmaTest
  exact Pro.bind (ha h1) fun _ => Pro.ite (fun _ => Pro.bind (ha h2) fun _ => Pro.pure _) fun _ => Pro.pure _

omit hw in
theorem pro_dmaRangeCrossed (hH : H 0) {r : W} : (dmaRangeCrossed g r).Pro g c H := by
  unfold dmaRangeCrossed
  exact Pro.bind (pro_dmaTest _ _ hH (Or.inl rfl) (Or.inr rfl)) fun _ => Pro.bind (pro_dmaTest _ _ hH (Or.inr rfl) (Or.inr rfl)) fun _ =>
    Pro.bind (pro_dmaTest _ _ hH (Or.inl rfl) (Or.inr rfl)) fun _ => Pro.bind (pro_dmaTest _ _ hH (Or.inl rfl) (Or.inr rfl)) fun _ => Pro.pure _

/-- Words of the record of a region whose lock is held. -/
theorem pro_rec {r x : Nat} {a v : W} (h0 : r ≠ 0) (hr : r < g.regions) (hH : H r) (hx : RecordWord g r x) (ha : a.toNat = x) (hm : Mild g H a v) : (store a v).Pro g c H :=
  pro_store (record_ok hw hr hx ha) (by rw [ha]; exact record_owned hw h0 hr hx hH) hm

theorem pro_recLoad {r x : Nat} {a : W} (h0 : r ≠ 0) (hr : r < g.regions) (hH : H r) (hx : RecordWord g r x) (ha : a.toNat = x) : (load a).Pro g c H :=
  pro_load (record_ok hw hr hx ha) (Or.inl (by rw [ha]; exact record_owned hw h0 hr hx hH))

/-! ### The calls -/

theorem two_block (hc : c < g.cores) (r : W) : (blockDramRegion g r).Two g c (.blockDramRegion r) false noL := by
  unfold blockDramRegion
  refine Two.ite (fun _ => two_done _) fun hd => ?_
  obtain ⟨hr0, hr⟩ := (isDynamicDramRegion_iff r).1 (by simpa using hd)
  refine two_tas0 hw hr (b := monitorConcurrentCall) rfl (if_pos rfl) ?_
  rw [if_neg (by decide)]
  refine two_readOwner hw hr (fun _ => one_self _) fun owner _ _ => ?_
  refine two_currentEnclave hw hc ?_
  refine Two.ite (fun _ => two_rel1 hw hr _) fun ho => ?_
  have ho : owner = nullEnclaveId := by simpa using ho
  rw [ho]
  have hnn : (nullEnclaveId != nullEnclaveId) = false := rfl
  rw [hnn, if_neg (by decide)]
  refine pure_two ?_
  rw [Bool.false_and, if_neg (by decide), show nullEnclaveId = (0 : W) from rfl, dramRegionFor_zero hw]
  have h0 := zero_lt hw
  have hne : r.toNat ≠ (0 : W).toNat := hr0
  refine two_tasLock hw h0 (fun _ => ⟨monitorConcurrentCall, rfl, by rw [if_pos rfl]; exact rel_rel1 hw hr _⟩) (fun _ => ?_) fun hh => absurd (hh.elim (fun h => h.elim) id) (Ne.symm hne)
  rw [if_neg (by decide), if_pos rfl]
  have hHr : addL (addL noL r.toNat) (0 : W).toNat r.toNat := two_fst _ _
  have hH0 : addL (addL noL r.toNat) (0 : W).toNat 0 := two_snd _ _
  have hcold : Cold g (addL (addL noL r.toNat) (0 : W).toNat) := cold_two hr h0
  refine pro_two (pro_dmaRangeCrossed hH0) fun crossed w' => ?_
  refine Two.ite (fun _ => (tail_rel2 hw hr h0 hne _).two) fun _ => ?_
  refine pro_two (pro_rec hw hr0 hr hHr (Or.inr (Or.inl rfl)) (prevA_toNat hw hr) (hcold.mild _ _)) fun _ w' => ?_
  refine pro_two (pro_rec hw hr0 hr hHr (Or.inl rfl) (ownerA_toNat hw hr) (hcold.mild _ _)) fun _ w' => ?_
  refine two_clock fun clk => ?_
  refine pro_tail (pro_rec hw hr0 hr hHr (Or.inr (Or.inr (Or.inr rfl))) (blockedA_toNat hw hr) (hcold.mild _ _)) fun _ => ?_
  unfold setEnclaveRegionBitmapBit
  rw [if_pos rfl]
  refine pro_tail (pro_setOsBit hw hr false hH0) fun _ => ?_
  refine pro_tail (pro_setDrb hw hH0) fun _ => ?_
  exact tail_rel2 hw hr h0 hne _

theorem two_check (hc : c < g.cores) (r : W) : (dramRegionCheckOwnership g r).Two g c (.dramRegionCheckOwnership r) false noL := by
  unfold dramRegionCheckOwnership
  refine Two.ite (fun _ => two_done _) fun hd => ?_
  obtain ⟨hr0, hr⟩ := (isDynamicDramRegion_iff r).1 (by simpa using hd)
  refine two_tas0 hw hr (b := monitorConcurrentCall) rfl (if_pos rfl) ?_
  rw [if_neg (by decide)]
  refine two_readOwner hw hr (fun _ => one_self _) fun owner _ _ => ?_
  refine two_currentEnclave hw hc ?_
  exact two_rel1 hw hr _

theorem two_state (r : W) : (dramRegionState g r).Two g c (.dramRegionState r) false noL := by
  unfold dramRegionState
  refine Two.ite (fun _ => two_done _) fun hd => ?_
  have hr := (isValidDramRegion_iff (g := g) r).1 (by simpa using hd)
  refine two_tas0 hw hr (b := stateLocked) rfl (if_pos rfl) ?_
  rw [if_neg (by decide)]
  exact two_readOwner hw hr (fun _ => one_self _) fun owner _ _ => two_rel1 hw hr _

theorem two_owner (r : W) : (dramRegionOwner g r).Two g c (.dramRegionOwner r) false noL := by
  unfold dramRegionOwner
  refine Two.ite (fun _ => two_done _) fun hd => ?_
  have hr := (isValidDramRegion_iff (g := g) r).1 (by simpa using hd)
  refine two_tas0 hw hr (b := nullEnclaveId) rfl (if_pos rfl) ?_
  rw [if_neg (by decide)]
  exact two_readOwner hw hr (fun _ => one_self _) fun owner _ _ => two_rel1 hw hr _

theorem two_createMeta (r : W) : (createMetadataRegion g r).Two g c (.createMetadataRegion r) false noL := by
  unfold createMetadataRegion
  refine Two.ite (fun _ => two_done _) fun hd => ?_
  have hr := (isValidDramRegion_iff (g := g) r).1 (by simpa using hd)
  refine two_tas0 hw hr (b := monitorConcurrentCall) rfl (if_pos rfl) ?_
  rw [if_neg (by decide)]
  by_cases hr0 : r.toNat = 0
  · refine two_readOwner hw hr (fun _ => one_self _) fun owner _ hz => ?_
    rw [hz hr0]
    exact two_rel1 hw hr _
  refine two_readHot hw hr hr0 (one_self _) fun owner _ => ?_
  by_cases ho : (owner != freeEnclaveId) = true
  · rw [if_pos ho]; exact Or.inl (two_rel1 hw hr _)
  rw [if_neg ho]
  have ho : owner = freeEnclaveId := by simpa using ho
  refine Or.inr ⟨Or.inl ho, Prog.Tail.two ?_⟩
  have hH : hotL g r.toNat r.toNat := two_fst _ _
  unfold initMetadataRegion
  rw [prog_assoc hw]
  refine pro_tail (pro_rec hw hr0 hr hH (Or.inl rfl) (ownerA_toNat hw hr) (mild_meta _)) fun _ => ?_
  rw [prog_assoc hw]
  refine pro_tail (pro_rec hw hr0 hr hH (Or.inr (Or.inr (Or.inl rfl))) (pinnedA_toNat hw hr) (mild_ne fun i hi hh => by
    rw [pinnedA_toNat hw hr] at hh; simp [hw, hi, hr] at hh)) fun _ => ?_
  have hst := region_start_ge g hr0
  obtain ⟨h1, h2, h3', h4, h5, h6, h7, h8, h9, h10, h11, h12⟩ := hw.layout
  have hend := hw.region_end_le hr
  have hmb := mapBytes_le hw
  have hstart := dramRegionStart_toNat hw r (Nat.le_of_lt hr)
  have hbytes := mapBytes_toNat hw
  have hsl := g.dramSize.isLt
  have hsm : (r.toNat + 1) * g.stripeSize.toNat = r.toNat * g.stripeSize.toNat + g.stripeSize.toNat := Nat.succ_mul _ _
  refine pro_tail ?_ fun _ => tail_hot hw hr _
  unfold bzero
  have htop := hw.top_le
  refine high_pro hw (D := False) (S := fun x => regionOf g x = r.toNat) (frame_bzeroWords hw _ _ ?_ ?_ ?_)
    (in_bzeroWords hw (lo := r.toNat * g.stripeSize.toNat) (hi := (r.toNat + 1) * g.stripeSize.toNat) (by omega)
    (fun x x1 x2 => regionOf_span hw hr x1 x2) _ _ (by rw [hstart]; exact Nat.le_refl _) ?_ (by omega)) fun x x1 x2 => ⟨_, two_snd _ _, Or.inr ⟨x1, by rw [x2]⟩⟩
  · rw [hstart, hw.stripeSize, Nat.pow_add, show (2 : Nat) ^ 12 = 8 * 512 from rfl, Nat.mul_assoc, Nat.mul_left_comm]
    exact Nat.mul_mod_right _ _
  · rw [hstart, hbytes]; omega
  · rw [hstart]; omega
  · rw [hstart, hbytes]; omega

theorem two_assign (r e : W) : (assignDramRegion g r e).Two g c (.assignDramRegion r e) false noL := by
  unfold assignDramRegion
  refine Two.ite (fun _ => two_done _) fun hd => ?_
  have hr := (isValidDramRegion_iff (g := g) r).1 (by simpa using hd)
  refine two_tas0 hw hr (b := monitorConcurrentCall) rfl (if_pos rfl) ?_
  rw [if_neg (by decide)]
  refine two_readOwner hw hr (fun _ => one_self _) fun owner _ hz => ?_
  refine Two.ite (fun _ => two_rel1 hw hr _) fun ho => ?_
  have ho : owner = freeEnclaveId := by simpa using ho
  have hr0 : r.toNat ≠ 0 := fun hh => by rw [hz hh] at ho; exact absurd ho (by decide)
  have hs := dramRegionFor_lt hw e
  dsimp only
  refine two_tasLock hw hs (fun _ => ⟨monitorConcurrentCall, rfl, by rw [if_pos rfl]; exact rel_rel1 hw hr _⟩) (fun hn => ?_) fun _ => by
    rw [if_pos rfl]; exact two_rel1 hw hr _
  have hne : r.toNat ≠ (dramRegionFor g e).toNat := fun hh => hn (by rw [← hh]; exact one_self _)
  rw [if_neg (by decide)]
  unfold isValidEnclaveId
  show Prog.Two g c _ _ _ (readOwner g (clampedDramRegionFor g e) >>= fun owner => if (owner == e) = true then _ else _)
  refine two_readOwner hw (clamped_lt hw e) (fun hh => by rw [clamped_held hw e hh]; exact two_snd _ _) fun o ov oz => ?_
  refine Prog.Tail.two (Tail.ite (fun hq => ?_) fun _ => tail_rel2 hw hr hs hne _)
  have hq : o = e := by simpa using hq
  have he0 : e = 0 := Classical.byContradiction fun h0 => owner_ne_id hw ov oz h0 hq
  have hH0 : addL (addL noL r.toNat) (dramRegionFor g e).toNat 0 := by
    have : (dramRegionFor g e).toNat = 0 := by rw [he0, dramRegionFor_zero hw]; rfl
    rw [this]; exact two_snd _ _
  refine pro_tail (pro_rec hw hr0 hr (two_fst _ _) (Or.inl rfl) (ownerA_toNat hw hr) ((cold_two hr hs).mild _ _)) fun _ => ?_
  unfold setEnclaveRegionBitmapBit
  rw [if_pos (show e = nullEnclaveId from he0), if_pos he0]
  refine pro_tail (pro_setOsBit hw hr true hH0) fun _ => ?_
  refine pro_tail (pro_setDrb hw hH0) fun _ => ?_
  exact tail_rel2 hw hr hs hne _

/-- The test of the cores' flush times. -/
theorem two_coresFlushed (b : W) {f : Bool → Prog W} (hf : ∀ x, (f x).Tail g c H) : ∀ (n i : Nat) (w : Bool), i + n ≤ g.cores →
    (coresFlushedLoop g b n (BitVec.ofNat 64 i) >>= f).Two g c k w H := by
  intro n
  induction n with
  | zero => intro i w _; exact (hf true).two
  | succ n ih =>
      intro i w hi
      have hcc : (coreA g (BitVec.ofNat 64 i) + offFlushedAt).toNat = flushedA i := coreA_toNat hw (by omega) _ (by decide)
      have hnext : BitVec.ofNat 64 i + 1 = BitVec.ofNat 64 (i + 1) := by
        rw [W.eq_iff]; simp
      unfold coresFlushedLoop
      rw [prog_assoc hw]
      refine Or.inr (Or.inr (Or.inr (Or.inr (Or.inr (Or.inl ⟨_, i, rfl, by omega, hcc, fun v => ?_⟩)))))
      by_cases hv : v < b
      · refine Or.inl ?_
        show Prog.Tail g c H ((if v < b then pure false else coresFlushedLoop g b n (BitVec.ofNat 64 i + 1)) >>= f)
        rw [if_pos hv]
        exact hf false
      · refine Or.inr ⟨?_, fun v' hvv => ?_⟩
        · show Prog.Two g c k w H ((if v < b then pure false else coresFlushedLoop g b n (BitVec.ofNat 64 i + 1)) >>= f)
          rw [if_neg hv, hnext]
          exact ih (i + 1) w (by omega)
        · have hv' : ¬ v' < b := by rw [W.lt_iff] at hv ⊢; omega
          show ((if v' < b then pure false else coresFlushedLoop g b n (BitVec.ofNat 64 i + 1)) >>= f) =
            ((if v < b then pure false else coresFlushedLoop g b n (BitVec.ofNat 64 i + 1)) >>= f)
          rw [if_neg hv, if_neg hv']

theorem two_free (r : W) : (freeDramRegion g r).Two g c (.freeDramRegion r) false noL := by
  unfold freeDramRegion
  refine Two.ite (fun _ => two_done _) fun hd => ?_
  have hr := (isValidDramRegion_iff (g := g) r).1 (by simpa using hd)
  refine two_tas0 hw hr (b := monitorConcurrentCall) rfl (if_pos rfl) ?_
  rw [if_neg (by decide)]
  refine two_readOwner hw hr (fun _ => one_self _) fun owner _ hz => ?_
  have hfin : r.toNat ≠ 0 → (store (regionA g r + offOwner) freeEnclaveId >>= fun _ => clearLock g r >>= fun _ => pure monitorOk).Tail g c (addL noL r.toNat) :=
    fun hr0 => pro_tail (pro_rec hw hr0 hr (one_self _) (Or.inl rfl) (ownerA_toNat hw hr) ((cold_one hr).mild _ _)) fun _ => tail_rel1 hw hr _
  refine Two.ite (fun ho => ?_) fun _ => Two.ite (fun ho => ?_) fun _ => two_rel1 hw hr _
  · have hr0 : r.toNat ≠ 0 := fun hh => by rw [hz hh] at ho; exact absurd ho (by decide)
    refine pro_two (pro_recLoad hw hr0 hr (one_self _) (Or.inr (Or.inr (Or.inr rfl))) (blockedA_toNat hw hr)) fun b w' => ?_
    refine two_coresFlushed hw b (fun ok => ?_) g.coreCount.toNat 0 w' (by unfold Cfg.cores; omega)
    exact Tail.ite (fun _ => hfin hr0) fun _ => tail_rel1 hw hr _
  · have hr0 : r.toNat ≠ 0 := fun hh => by rw [hz hh] at ho; exact absurd ho (by decide)
    refine Prog.Tail.two (pro_tail (pro_recLoad hw hr0 hr (one_self _) (Or.inr (Or.inr (Or.inl rfl))) (pinnedA_toNat hw hr)) fun b => ?_)
    exact Tail.ite (fun _ => hfin hr0) fun _ => tail_rel1 hw hr _

theorem two_exitEnclave (hc : c < g.cores) : (exitEnclave g).Two g c k w noL := by
  have hf := flushedA_lt hw hc
  unfold flushedA at hf
  have hno : ∀ off : W, off.toNat < 24 → off.toNat % 8 = 0 → (load (coreA g (BitVec.ofNat 64 c) + off)).Pro g c noL := by
    intro off h1 h2
    have ha := coreA_toNat hw hc off (by omega)
    refine pro_load (low_ok hw ha (by omega) (by omega)) (Or.inr ?_)
    rw [ha]
    exact core_fixed hw hc h1
  unfold exitEnclave
  refine two_read prot_curCore rfl fun v hv => ?_
  rw [hv.core rfl]
  show Prog.Two g c _ _ noL (load (coreA g (BitVec.ofNat 64 c) + offCoreEnclaveId) >>= fun _ => load (coreA g (BitVec.ofNat 64 c) + offCoreThreadId) >>= fun _ =>
    load (coreA g (BitVec.ofNat 64 c) + offCoreThread) >>= fun _ => pure monitorOk)
  exact pro_two (hno _ (by decide) (by decide)) fun _ _ => pro_two (hno _ (by decide) (by decide)) fun _ _ => pro_two (hno _ (by decide) (by decide)) fun _ _ => two_done _

theorem two_lockMeta {a : W} {f : W × W → Prog W} (hb : ∃ b, TurnedAway k b ∧ ∀ r, f (monitorConcurrentCall, r) = pure b)
    (herr : ∀ v r, v ≠ monitorOk → ∃ b, f (v, r) = pure b)
    (hok : a.toNat % 4096 = 0 → a.toNat < g.dramSize.toNat → regionOf g a.toNat ≠ 0 →
      (f (monitorOk, dramRegionFor g a)).Two g c k false (addL noL (regionOf g a.toNat))) :
    (lockMetadataRegionFor g a >>= f).Two g c k false noL := by
  obtain ⟨b, hb1, hb2⟩ := hb
  unfold lockMetadataRegionFor
  by_cases hd : (!isPageAligned a || !isDramAddress g a) = true
  · rw [if_pos hd]
    refine pure_two ?_
    obtain ⟨x, hx⟩ := herr monitorInvalidValue 0 (by decide)
    rw [hx]; exact two_done _
  · rw [if_neg hd]
    have hd : isPageAligned a = true ∧ isDramAddress g a = true := by simpa using hd
    have h1 := (isPageAligned_iff a).1 hd.1
    have h2 := (isDramAddress_iff a).1 hd.2
    have hr := dramRegionFor_lt hw a
    have hrr := dramRegionFor_toNat hw a
    dsimp only
    rw [prog_assoc hw]
    refine two_tas0 hw hr hb1 (by rw [if_pos rfl]; exact hb2 _) ?_
    rw [if_neg (by decide), prog_assoc hw]
    refine two_readOwner hw hr (fun _ => one_self _) fun o ov oz => ?_
    by_cases ho : (o != metadataEnclaveId) = true
    · rw [if_pos ho, prog_assoc hw]
      obtain ⟨x, hx⟩ := herr monitorInvalidState (dramRegionFor g a) (by decide)
      show Prog.Two g c k false _ (clearLock g (dramRegionFor g a) >>= fun _ => f (monitorInvalidState, dramRegionFor g a))
      rw [hx]
      exact two_rel1 hw hr _
    · rw [if_neg ho]
      have ho : o = metadataEnclaveId := by simpa using ho
      rw [hrr] at oz ⊢
      exact hok h1 h2 fun hh => by rw [oz hh] at ho; exact absurd ho (by decide)

omit hw in
theorem two_createEnclave (h : g.MetaOk) (e b m n : W) (d : Bool) : (createEnclave g e b m n d).Two g c (.createEnclave e b m n d) false noL := by
  unfold createEnclave
  refine Two.ite (fun _ => two_done _) fun _ => Two.ite (fun _ => two_done _) fun _ => ?_
  refine two_lockMeta h.wf ⟨monitorConcurrentCall, rfl, fun r => by dsimp only; rw [if_pos (by decide)]⟩ (fun v r hv => ?_) fun h1 h2 h3 => ?_
  · exact ⟨v, by dsimp only; rw [if_pos (bne_iff_ne.2 hv)]⟩
  dsimp only
  rw [if_neg (by decide)]
  have hr := dramRegionFor_lt h.wf e
  have hrr := dramRegionFor_toNat h.wf e
  obtain ⟨p1, p2, p3⟩ := page_high h.wf h1 h2 h3
  have hsl := g.dramSize.isLt
  have hS : ∀ x, g.monitorTop.toNat ≤ x → regionOf g x = regionOf g e.toNat → Owned g (hotL g (regionOf g e.toNat)) (.word x) :=
    fun x x1 x2 => ⟨_, two_snd _ _, Or.inr ⟨x1, by rw [x2]⟩⟩
  have hrel : ∀ v, (clearLock g (dramRegionFor g e) >>= fun _ => pure v).Tail g c (hotL g (regionOf g e.toNat)) := fun v => by
    rw [← hrr]; exact tail_hot h.wf hr v
  refine two_readHot h.wf hr (by rw [hrr]; exact h3) (by rw [hrr]; exact one_self _) fun o _ => ?_
  by_cases ho : (o != metadataEnclaveId) = true
  · rw [if_pos ho]
    refine Or.inl (Prog.Tail.two ?_)
    rw [← hrr]; exact tail_rel1 h.wf hr _
  rw [if_neg ho]
  have ho : o = metadataEnclaveId := by simpa using ho
  rw [hrr]
  refine Or.inr ⟨Or.inr ho, Prog.Tail.two ?_⟩
  refine pro_tail (high_pro h.wf (D := False) (high_reserve h h2 h3 (by rw [enclaveInfoPages_toNat]; exact recordPages_lt _) _ _)
    (in_reserve h h2 h3 (by rw [enclaveInfoPages_toNat]; exact recordPages_lt _) _ _) hS) fun res => ?_
  refine Tail.ite (fun _ => hrel _) fun _ => ?_
  refine pro_tail (high_pro h.wf (D := False) (high_initEnclaveInfo h.wf p1 (by omega) p3 _ _ _ _)
    (in_initEnclaveInfo h.wf (S := fun x => regionOf g x = regionOf g e.toNat) (lo := e.toNat) (hi := e.toNat + 4096) p3
    (fun x x1 x2 => page_region h.wf h1 x1 x2) p1 (Nat.le_refl _) (by omega) (by omega) _ _ _ _) hS) fun _ => ?_
  exact hrel _

theorem two_withLocked (hk : TurnedAway k monitorConcurrentCall) (e : W) (q : W → Prog W) : (withLockedEnclave g e q).Two g c k false noL := by
  unfold withLockedEnclave
  dsimp only
  have hr := clamped_lt hw e
  refine two_tas0 hw hr hk (if_pos rfl) ?_
  rw [if_neg (by decide)]
  by_cases he : e = nullEnclaveId
  · rw [if_pos he]
    refine pure_two ?_
    rw [if_pos (by decide)]
    exact two_rel1 hw hr _
  · rw [if_neg he]
    unfold isValidEnclaveId
    show Prog.Two g c _ _ _ (readOwner g (clampedDramRegionFor g e) >>= fun owner => if (!(owner == e)) = true then _ else _)
    refine two_readOwner hw hr (fun _ => one_self _) fun o ov hz => ?_
    have hne := owner_ne_id hw ov hz he
    rw [if_pos (by simpa using hne)]
    exact two_rel1 hw hr _

/-- What is left of `set_dma_range` after its loop. -/
def dmaRest (g : Cfg) (base mask : W) : Option Bool → Prog W
  | none => pure monitorConcurrentCall
  | some _ => do
      act_ (.setDmaStart base)
      act_ (.setDmaEnd ((base ||| mask) + 1))
      act_ (.setDmarBase base)
      act_ (.setDmarMask (~~~ mask))
      clearLock g 0
      pure monitorOk

/-- With the lock of region 0 and no other lock set, the loop of `set_dma_range` finds all stripes free. -/
theorem run_dmaRest {x M : Machine} (hx : Rested g x) (hM : WithLocks g (addL noL 0) x M) (base mask e : W) (he : e.toNat ≤ g.dramSize.toNat) {fuel : Nat} {a : W} (owns : Bool)
    (h1 : e.toNat < a.toNat + fuel) (h2 : 1 ≤ fuel) (h3 : a.toNat ≤ g.dramSize.toNat + g.stripeSize.toNat) :
    run g c (dmaRangeLoop g e fuel a owns >>= dmaRest g base mask) M = run g c (dmaRest g base mask (some true)) M := by
  have h0 := zero_lt hw
  have hl : LockWords g M := by
    intro i hi
    by_cases h : i = 0
    · exact Or.inr (hM.set i hi (Or.inr h))
    · exact Or.inl (hM.clear i hi fun hh => h (hh.elim (fun h => h.elim) id))
  obtain ⟨res, q1, q2⟩ := run_dmaRangeLoop hw c e M hl he fuel a owns h1 h2 h3
  have hnb : ¬ BusyStripe g M a.toNat e.toNat := by
    rintro ⟨j, _, p2, p3⟩
    have := hM.clear _ (regionOf_lt hw _) fun hh => p2 (hh.elim (fun h => h.elim) id)
    rw [(not_locked M).2 this] at p3
    cases p3
  cases res with
  | none => exact absurd (q2.1 rfl) hnb
  | some b =>
      rw [if_neg (by simp)] at q1
      rw [run_bind, q1]
      rfl

theorem run_setDma_start {x M : Machine} (hx : Rested g x) (hM : WithLocks g (addL noL 0) x M) (base mask : W)
    (hv : isValidRange base mask = true) (hd : isDramAddress g (base ||| mask) = true) :
    run g c (setDmaRange g base mask) x = run g c (dmaRest g base mask (some true)) M := by
  have h0 : (0 : W).toNat < g.regions := zero_lt hw
  have h9 := hw.dram_le
  have hd' : (base ||| mask).toNat < g.dramSize.toNat := (isDramAddress_iff _).1 hd
  have hend : ((base ||| mask) + 1).toNat = (base ||| mask).toNat + 1 := by
    rw [BitVec.toNat_add, show (1 : W).toNat = 1 from rfl]; omega
  have hbase : base.toNat ≤ (base ||| mask).toNat := by
    rw [BitVec.toNat_or]; exact Nat.left_le_or
  have hMe : x.st (lockA g 0) 1 = M := by
    refine machine_ext2 (fun l => ?_) fun c' => (hM.regs c').symm
    by_cases hl : LockLoc g l
    · obtain ⟨i, hi, rfl⟩ := hl
      show (x.st (lockA g 0) 1).mem (lockA g i) = M.mem (lockA g i)
      by_cases h : i = 0
      · subst h
        rw [hM.set 0 hi (one_self _)]; simp [mem_st]
      · rw [hM.clear i hi fun hh => h (hh.elim (fun h => h.elim) id)]
        simp [mem_st, h, hx i hi]
    · rw [hM.out l hl]
      cases l with
      | word y =>
          show (x.st (lockA g 0) 1).mem y = x.mem y
          rw [mem_st, if_neg fun hh => hl ⟨0, h0, by rw [hh]⟩]
      | _ => rfl
  unfold setDmaRange
  rw [hv, hd]
  have hlk : x.locked g (0 : W).toNat = false := (not_locked x).2 (hx 0 h0)
  simp only [Bool.not_true, Bool.false_eq_true, if_false, run_bind, run_tasLock hw h0, Option.bind_some, hlk]
  show (run g c (dmaRangeLoop g ((base ||| mask) + 1) (2 ^ 64) base true) (x.st (lockA g 0) 1)).bind _ = _
  rw [hMe]
  have := run_dmaRest (c := c) hw hx hM base mask ((base ||| mask) + 1) (by rw [hend]; omega) (fuel := 2 ^ 64) (a := base) true (by rw [hend]; omega) Nat.one_le_two_pow (by omega)
  rw [← this, run_bind]
  rfl

theorem two_dmaLoop (base mask : W) (hv : isValidRange base mask = true) (hd : isDramAddress g (base ||| mask) = true) (e : W) (he : e.toNat ≤ g.dramSize.toNat) :
    ∀ (fuel : Nat) (a : W) (owns : Bool), e.toNat < a.toNat + fuel → 1 ≤ fuel → a.toNat ≤ g.dramSize.toNat + g.stripeSize.toNat →
    (dmaRangeLoop g e fuel a owns >>= dmaRest g base mask).Two g c (.setDmaRange base mask) false (addL noL 0) := by
  have h0 := zero_lt hw
  have h9 := hw.dram_le
  have h10 := hw.stripe_le
  have h11 := hw.stripe_ge
  have hH : addL noL 0 0 := one_self _
  intro fuel
  induction fuel with
  | zero => intro a owns _ h1; omega
  | succ n ih =>
      intro a owns hf _ ha
      unfold dmaRangeLoop
      by_cases hlt : a < e
      · rw [if_pos hlt]
        rw [W.lt_iff] at hlt
        have hn := dramRegionFor_lt hw a
        have hnext : (a + g.stripeSize).toNat = a.toNat + g.stripeSize.toNat := by
          rw [BitVec.toNat_add]; omega
        have hrec : ∀ owns', (dmaRangeLoop g e n (a + g.stripeSize) owns' >>= dmaRest g base mask).Two g c (.setDmaRange base mask) false (addL noL 0) :=
          fun owns' => ih _ owns' (by omega) (by omega) (by omega)
        dsimp only
        by_cases hz : dramRegionFor g a = 0
        · have hb0 : (dramRegionFor g a != 0) = false := by rw [hz]; rfl
          rw [hb0]
          show Prog.Two g c _ _ _ ((readOwner g (dramRegionFor g a) >>= fun owner => dmaRangeLoop g e n (a + g.stripeSize) (owns && owner == 0)) >>= dmaRest g base mask)
          rw [prog_assoc hw]
          exact two_readOwner hw hn (fun hh => absurd (by rw [hz]; rfl) hh) fun owner _ _ => hrec _
        · have hb0 : (dramRegionFor g a != 0) = true := bne_iff_ne.2 hz
          have hne : (0 : Nat) ≠ (dramRegionFor g a).toNat := fun hh => hz (by rw [W.eq_iff, ← hh]; rfl)
          rw [hb0]
          simp only [if_true]
          rw [prog_assoc hw]
          refine two_tasLock hw hn (fun _ => ⟨monitorConcurrentCall, rfl, ?_⟩) (fun _ => ?_) fun hh => absurd (hh.elim (fun h => h.elim) id) (Ne.symm hne)
          · rw [if_pos rfl, prog_assoc hw]
            exact rel_rel1 hw (r := 0) h0 monitorConcurrentCall
          · rw [if_neg (by decide), prog_assoc hw]
            refine two_readOwner hw hn (fun _ => two_snd _ _) fun owner _ _ => ?_
            rw [prog_assoc hw]
            refine Or.inr (Or.inr (Or.inr (Or.inl ⟨rfl, _, is_release hw hn, two_snd _ _, ?_⟩)))
            rw [drop_two (show 0 < g.regions from h0) hne]
            refine ⟨hrec _, fun x M hx hM => ?_⟩
            rw [show (Call.setDmaRange base mask).prog g = setDmaRange g base mask from rfl, run_setDma_start hw hx hM base mask hv hd]
            exact (run_dmaRest hw hx hM base mask e he _ (by omega) (by omega) (by omega)).symm
      · rw [if_neg hlt]
        refine pure_two (Prog.Tail.two ?_)
        exact pro_tail (pro_dma_ trivial hH) fun _ => pro_tail (pro_dma_ trivial hH) fun _ => pro_tail (pro_dma_ trivial hH) fun _ =>
          pro_tail (pro_dma_ trivial hH) fun _ => tail_rel1 hw (r := 0) h0 _

theorem two_setDmaRange (base mask : W) : (setDmaRange g base mask).Two g c (.setDmaRange base mask) false noL := by
  have h0 := zero_lt hw
  have h9 := hw.dram_le
  unfold setDmaRange
  refine Two.ite (fun _ => two_done _) fun hv => Two.ite (fun _ => two_done _) fun hd => ?_
  have hv : isValidRange base mask = true := by simpa using hv
  have hd : isDramAddress g (base ||| mask) = true := by simpa using hd
  have hd' : (base ||| mask).toNat < g.dramSize.toNat := (isDramAddress_iff _).1 hd
  have hend : ((base ||| mask) + 1).toNat = (base ||| mask).toNat + 1 := by
    rw [BitVec.toNat_add, show (1 : W).toNat = 1 from rfl]; omega
  have hbase : base.toNat ≤ (base ||| mask).toNat := by
    rw [BitVec.toNat_or]; exact Nat.left_le_or
  refine two_tas0 hw (r := 0) h0 (b := monitorConcurrentCall) rfl (if_pos rfl) ?_
  rw [if_neg (by decide)]
  dsimp only
  exact two_dmaLoop hw base mask hv hd _ (by rw [hend]; omega) (2 ^ 64) base true (by rw [hend]; omega) Nat.one_le_two_pow (by omega)

/-- The calls that use what other calls use under its locks. -/
theorem two_call (c : Nat) (k : Call) (hc : c < g.cores) (hk : CoveredC g k) (ho : Lockwise k) (hfl : k ≠ .flushCachedDramRegions) :
    (k.prog g).Two g c k false noL := by
  obtain ⟨hcov, hrec⟩ := hk
  cases k
  case acceptThread => exact hcov.elim
  case blockDramRegion r => exact two_block hw hc r
  case dramRegionCheckOwnership r => exact two_check hw hc r
  case exitEnclave => exact two_exitEnclave hw hc
  case setDmaRange b n => exact two_setDmaRange hw b n
  case dramRegionState r => exact two_state hw r
  case dramRegionOwner r => exact two_owner hw r
  case assignDramRegion r e => exact two_assign hw r e
  case freeDramRegion r => exact two_free hw r
  case flushCachedDramRegions => exact absurd rfl hfl
  case createMetadataRegion r => exact two_createMeta hw r
  case createEnclave e b k n d => exact two_createEnclave ⟨hw, hcov.1, hcov.2⟩ e b k n d
  case loadPageTable e p v l a =>
      show (loadPageTable g e p v l a).Two g c _ false noL
      unfold loadPageTable
      exact Two.ite (fun _ => two_done _) fun _ => Two.ite (fun _ => two_done _) fun _ => Two.ite (fun _ => two_done _) fun _ => two_withLocked hw (by exact rfl) _ _
  case loadPage e p v o a =>
      show (loadPage g e p v o a).Two g c _ false noL
      unfold loadPage
      exact Two.ite (fun _ => two_done _) fun _ => Two.ite (fun _ => two_done _) fun _ => two_withLocked hw (by exact rfl) _ _
  case loadThread e t w x y z => exact ho.elim
  case assignThread e t => exact ho.elim
  case initEnclave e => show (initEnclave g e).Two g c _ false noL; unfold initEnclave; exact two_withLocked hw (by exact rfl) _ _
  case enterEnclave e t => show (enterEnclave g e t).Two g c _ false noL; unfold enterEnclave; exact two_withLocked hw (by exact rfl) _ _
  case createThread t p => exact ho.elim
  case deleteThread t => exact ho.elim
  case deleteEnclave e => show (deleteEnclave g e).Two g c _ false noL; unfold deleteEnclave; exact two_withLocked hw (by exact rfl) _ _
  case copyDebugEnclavePage e a os d => exact ho.elim
  all_goals exact two_done _

end
end Sanctum
