import Verif.Lemmas.Lin
import Verif.Lemmas.ConfineSound
/-
The monitor's basic operations in the logic of instants of effect.
-/
namespace Sanctum
open Machine

variable {g : Cfg} {c : Nat} {k : Call} {α β : Type} {H : Nat → Prop} {L : Phase} {m : Machine} {s : RegionTable}

/-- What core `c` guarantees of a change of the table. -/
structure TGuar (g : Cfg) (c : Nat) (H : Nat → Prop) (s s1 : RegionTable) : Prop where
  record : ∀ i, i < g.regions → ¬ H i → s1.owner i = s.owner i ∧ s1.stamp i = s.stamp i
  dma : ¬ H 0 → s1.dmaStart = s.dmaStart ∧ s1.dmaEnd = s.dmaEnd
  others : ∀ c', c' ≠ c → s1.flushed c' = s.flushed c' ∧ s1.sampled c' = s.sampled c'
  clock : s.clock ≤ s1.clock ∧ s1.clock ≤ s.clock + 1
  flushed : s.flushed c ≤ s1.flushed c
  table : TInv g s1

theorem TGuar.refl (h : TInv g s) : TGuar g c H s s :=
  ⟨fun _ _ _ => ⟨rfl, rfl⟩, fun _ => ⟨rfl, rfl⟩, fun _ _ => ⟨rfl, rfl⟩, ⟨Nat.le_refl _, Nat.le_succ _⟩, Nat.le_refl _, h⟩

theorem TGuar.lguar {H1 : Nat → Prop} {m1 : Machine} {s1 : RegionTable} (h : TGuar g c H s s1) (h1 : ∀ i, i < g.regions → H i → ¬ H1 i → Synced g m1 s1 i)
    (h2 : H 0 → ¬ H1 0 → DmaSynced m1 s1) (h3 : Clocks g m1 s1) : LGuar g c H H1 m1 s s1 :=
  ⟨h.record, h.dma, h1, h2, h3, h.others, h.clock, h.flushed, h.table⟩

theorem TGuar.keep {H1 : Nat → Prop} {m1 : Machine} {s1 : RegionTable} (h : TGuar g c H s s1) (hs : ∀ i, H i → H1 i) (h3 : Clocks g m1 s1) : LGuar g c H H1 m1 s s1 :=
  h.lguar (fun i _ hh hn => absurd (hs i hh) hn) (fun hh hn => absurd (hs 0 hh) hn) h3

/-- The words the table is about, other than locks. -/
def TableWord (g : Cfg) (x : Nat) : Prop :=
  x = clockA g ∨ (∃ c, c < g.cores ∧ x = flushedA c) ∨ ∃ i, i < g.regions ∧ (x = ownerA g i ∨ x = blockedA g i ∨ x = pinnedA g i)

/-- Actions that do not change the table. -/
structure OpTame0 (g : Cfg) (o : Op) : Prop where
  mem : ∀ x, TableWord g x → ¬ o.mutates x
  dma : (∀ v, o ≠ .setDmaStart v) ∧ ∀ v, o ≠ .setDmaEnd v

/-- Actions that write no protection register. -/
def Op.Plain : Op → Prop
  | .setDrb _ => False
  | .setParBase _ => False
  | .setParMask _ => False
  | .setCacheShift _ => False
  | .setDmarBase _ => False
  | .setDmarMask _ => False
  | .setDmaStart _ => False
  | .setDmaEnd _ => False
  | _ => True

theorem Op.Plain.dma {o : Op} (h : o.Plain) : (∀ v, o ≠ .setDmaStart v) ∧ ∀ v, o ≠ .setDmaEnd v :=
  ⟨fun v hh => by subst hh; exact h, fun v hh => by subst hh; exact h⟩

/-- Actions that change neither the table nor the OS bitmap nor a protection register. -/
structure OpTame (g : Cfg) (o : Op) : Prop extends OpTame0 g o where
  plain : o.Plain
  os : ∀ i, i < g.regions → ¬ o.mutates (osWordA g i)

theorem exec_dma {o : Op} {m m' : Machine} {v : W} (he : exec g c o m = some (v, m')) (h : (∀ v, o ≠ .setDmaStart v) ∧ ∀ v, o ≠ .setDmaEnd v) :
    m'.dmaStart = m.dmaStart ∧ m'.dmaEnd = m.dmaEnd := by
  cases o <;> simp only [exec] at he
  case setDmaStart v => exact absurd rfl (h.1 v)
  case setDmaEnd v => exact absurd rfl (h.2 v)
  all_goals first | (split at he <;> cases he; exact ⟨rfl, rfl⟩) | (cases he; exact ⟨rfl, rfl⟩)

/-- All words of the table are the same. -/
structure Still (g : Cfg) (m m1 : Machine) : Prop where
  mem : ∀ x, TableWord g x → m1.mem x = m.mem x
  dma : m1.dmaStart = m.dmaStart ∧ m1.dmaEnd = m.dmaEnd

theorem OpTame0.still {o : Op} {m m' : Machine} {v : W} (ho : OpTame0 g o) (he : exec g c o m = some (v, m')) : Still g m m' :=
  ⟨fun x hx => exec_mutates he (ho.mem x hx), exec_dma he ho.dma⟩

theorem Still.record {m1 : Machine} (h : Still g m m1) {i : Nat} (hi : i < g.regions) :
    m1.owner g i = m.owner g i ∧ m1.blockedAt g i = m.blockedAt g i ∧ m1.pinned g i = m.pinned g i :=
  ⟨h.mem _ (Or.inr (Or.inr ⟨i, hi, Or.inl rfl⟩)), h.mem _ (Or.inr (Or.inr ⟨i, hi, Or.inr (Or.inl rfl)⟩)), h.mem _ (Or.inr (Or.inr ⟨i, hi, Or.inr (Or.inr rfl)⟩))⟩

theorem Still.clocks {m1 : Machine} (h : Still g m m1) (hc : Clocks g m s) : Clocks g m1 s :=
  ⟨(h.mem _ (Or.inl rfl)).trans hc.clock, fun c hlt => (h.mem _ (Or.inr (Or.inl ⟨c, hlt, rfl⟩))).trans (hc.flushed c hlt)⟩

theorem Still.synced {m1 : Machine} (h : Still g m m1) {i : Nat} (hi : i < g.regions) (hs : Synced g m s i) : Synced g m1 s i := by
  obtain ⟨h1, h2, h3⟩ := h.record hi
  exact ⟨by rw [h1]; exact hs.owner, by rw [h2]; exact hs.stamp, by rw [h1, h3]; exact hs.pinned⟩

theorem Still.dmaSynced {m1 : Machine} (h : Still g m m1) (hs : DmaSynced m s) : DmaSynced m1 s :=
  ⟨by rw [h.dma.1]; exact hs.1, by rw [h.dma.2]; exact hs.2⟩

theorem Still.rely {m1 : Machine} (h : Still g m m1) : LRely g c H m s m1 s :=
  ⟨fun _ hi _ => h.record hi, fun _ _ _ => ⟨rfl, rfl⟩, fun _ => h.dma, fun _ => ⟨rfl, rfl⟩, ⟨rfl, rfl⟩, Nat.le_refl _, fun _ _ => Nat.le_refl _⟩

theorem Synced.clear {m1 : Machine} {i : Nat} (h : Synced g m s i) (h1 : m1.owner g i = m.owner g i) (h2 : m1.blockedAt g i = m.blockedAt g i) (h3 : m1.pinned g i = m.pinned g i) :
    Synced g m1 s i := ⟨by rw [h1]; exact h.owner, by rw [h2]; exact h.stamp, by rw [h1, h3]; exact h.pinned⟩

/-! ### Programs that never change the table -/

def Prog.Tame (g : Cfg) (c : Nat) : (Nat → Prop) → Prog α → Prop
  | _, .ret _ => True
  | H, .op o f => OpTame g o ∧ ∀ v, RespOk g c H o v → Prog.Tame g c (heldStep g o v H) (f v)
  | _, .fault => True
  | _, .diverge => True

/-- Everything held is as the table says. -/
structure AllSynced (g : Cfg) (H : Nat → Prop) (m : Machine) (s : RegionTable) : Prop where
  record : ∀ i, i < g.regions → H i → Synced g m s i
  dma : H 0 → DmaSynced m s

theorem tame_lin {Q : α → (Nat → Prop) → Phase → Machine → RegionTable → Prop} (hQ : ∀ a H m s, Q a H L m s) {p : Prog α} (hp : p.Tame g c H)
    (hs : AllSynced g H m s) : Lin g c k Q H L m s p := by
  induction p generalizing H m s with
  | ret a => exact hQ a H m s
  | op o f ih =>
      intro m' s' B hrel hinv hheld _ v m1 he hg
      have hstill := hp.1.still he
      have hsy : AllSynced g H m1 s' := ⟨fun i hi hh => hstill.synced hi (hrel.synced hi hh (hs.record i hi hh)), fun hh => hstill.dmaSynced (hrel.dmaSynced hh (hs.dma hh))⟩
      have hnew : ∀ i, heldStep g o v H i → H i ∨ (i < g.regions ∧ m'.mem (lockA g i) = 0) := by
        intro i hh
        rcases heldStep_cases o v H i hh with h1 | ⟨h1, h2, a, rfl, h3⟩
        · exact Or.inl h1
        · refine Or.inr ⟨h1, ?_⟩
          simp only [exec] at he
          split at he <;> cases he
          rw [h3] at h2
          cases hb : (m'.mem (lockA g i) != 0)
          · simpa using hb
          · rw [hb] at h2; exact absurd h2 (by decide)
      refine ⟨L, s', Pt.none _ _, (TGuar.refl hinv.table).lguar (fun i hi hh _ => hsy.record i hi hh) (fun hh _ => hsy.dma hh) (hstill.clocks hinv.clocks),
        ih v (hp.2 v (exec_respOk hinv.inv hheld he)) ⟨fun i hi hh => ?_, fun hh => ?_⟩⟩
      · rcases hnew i hh with h1 | ⟨h1, h2⟩
        · exact hsy.record i hi h1
        · exact hstill.synced hi (hinv.free i hi h2)
      · rcases hnew 0 hh with h1 | ⟨h1, h2⟩
        · exact hsy.dma h1
        · exact hstill.dmaSynced (hinv.dma h2)
  | fault => trivial
  | diverge => trivial

/-! ### Primitives -/

variable {Q : β → (Nat → Prop) → Phase → Machine → RegionTable → Prop}

/-- An action that changes neither the table nor the locks held. -/
theorem lin_op {o : Op} {f : W → Prog β} (ho : OpTame0 g o) (hh : ∀ v, heldStep g o v H = H)
    (hf : ∀ v m' m1 s1, LRely g c H m s m1 s1 → LInv g m' s1 → Still g m' m1 → HeldOk g H m' → exec g c o m' = some (v, m1) → Lin g c k Q H L m1 s1 (f v)) :
    Lin g c k Q H L m s (.op o f) := by
  intro m' s' B hrel hinv hheld _ v m1 he hg
  have hstill := ho.still he
  rw [hh v]
  exact ⟨L, s', Pt.none _ _, (TGuar.refl hinv.table).keep (fun _ hh => hh) (hstill.clocks hinv.clocks), hf v m' m1 s' (hrel.trans hstill.rely) hinv hstill hheld he⟩

theorem load_tame (a : W) : OpTame g (.load a) := ⟨⟨fun _ _ hh => hh, ⟨fun _ hh => Op.noConfusion hh, fun _ hh => Op.noConfusion hh⟩⟩, trivial, fun _ _ hh => hh⟩

theorem Pt.mono {B B' : Prop} {L1 : Phase} {s1 : RegionTable} (h : Pt g c k B L s L1 s1) (hB : B → B') : Pt g c k B' L s L1 s1 := by
  cases h with
  | none => exact Pt.none _ _
  | effect h => exact Pt.effect h
  | busy h h1 => exact Pt.busy (hB h) h1
  | sample h => exact Pt.sample h
  | flush h => exact Pt.flush h

/-- Loading a word, at which the call may take effect without changing the machine. -/
theorem lin_load_pt {a : W} {f : W → Prog β}
    (hf : ∀ m1 s1, LRely g c H m s m1 s1 → LInv g m1 s1 →
      ∃ L1 s2, Pt g c k False L s1 L1 s2 ∧ TGuar g c H s1 s2 ∧ (s2.clock = s1.clock ∧ s2.flushed = s1.flushed) ∧ Lin g c k Q H L1 m1 s2 (f (m1.mem a.toNat))) :
    Lin g c k Q H L m s (load a >>= f) := by
  intro m' s' B hrel hinv hheld _ v m1 he hg
  have he' := he
  simp only [exec] at he'
  split at he' <;> cases he'
  obtain ⟨L1, s2, q1, q2, q3, q4⟩ := hf m' s' hrel hinv
  exact ⟨L1, s2, q1.mono False.elim, q2.keep (fun _ hh => hh) ⟨by rw [q3.1]; exact hinv.clocks.clock, fun c hc => by rw [q3.2]; exact hinv.clocks.flushed c hc⟩, q4⟩

theorem lin_load {a : W} {f : W → Prog β} (hf : ∀ m1 s1, LRely g c H m s m1 s1 → LInv g m1 s1 → Lin g c k Q H L m1 s1 (f (m1.mem a.toNat))) :
    Lin g c k Q H L m s (load a >>= f) :=
  lin_load_pt fun m1 s1 h1 h2 => ⟨L, s1, Pt.none _ _, TGuar.refl h2.table, ⟨rfl, rfl⟩, hf m1 s1 h1 h2⟩

theorem lin_readOwner (hw : g.WF) {r : W} (hr : r.toNat < g.regions) {f : W → Prog β}
    (hf : ∀ m1 s1, LRely g c H m s m1 s1 → LInv g m1 s1 → Lin g c k Q H L m1 s1 (f (m1.owner g r.toNat))) : Lin g c k Q H L m s (readOwner g r >>= f) := by
  refine lin_load fun m1 s1 h1 h2 => ?_
  rw [ownerA_toNat hw hr]; exact hf m1 s1 h1 h2

/-- The caller is the OS. -/
theorem lin_currentEnclave (hw : g.WF) (hc : c < g.cores) {f : W → Prog β}
    (hf : ∀ m1 s1, LRely g c H m s m1 s1 → LInv g m1 s1 → Lin g c k Q H L m1 s1 (f nullEnclaveId)) : Lin g c k Q H L m s (currentEnclave g >>= f) := by
  have hcc : (coreA g (BitVec.ofNat 64 c) + offCoreEnclaveId).toNat = coreEnclaveA c := coreA_toNat hw hc _ (by decide)
  show Lin g c k Q H L m s (.op .curCore fun core => load (coreA g core + offCoreEnclaveId) >>= f)
  refine lin_op ⟨fun _ _ hh => hh, ⟨fun _ hh => Op.noConfusion hh, fun _ hh => Op.noConfusion hh⟩⟩ (fun _ => rfl) fun v m' m1 s1 h1 h2 h3 _ he => ?_
  cases he
  refine lin_load fun m2 s2 h4 h5 => ?_
  have : m2.mem (coreA g (BitVec.ofNat 64 c) + offCoreEnclaveId).toNat = nullEnclaveId := by rw [hcc]; exact h5.inv.os c hc
  rw [this]
  exact hf m2 s2 (h1.trans h4) h5

theorem lin_tasLock (hw : g.WF) {r : W} (hr : r.toNat < g.regions) {f : Bool → Prog β}
    (hbusy : ∀ m1 s1 B, LRely g c H m s m1 s1 → TInv g s1 → (H r.toNat ∨ B) → ∃ L1, Pt g c k B L s1 L1 s1 ∧ Lin g c k Q H L1 m1 s1 (f true))
    (hfree : ∀ m1 s1, LRely g c H m s m1 s1 → TInv g s1 → ¬ H r.toNat → Synced g m1 s1 r.toNat → (r.toNat = 0 → DmaSynced m1 s1) →
      Lin g c k Q (addL H r.toNat) L m1 s1 (f false)) :
    Lin g c k Q H L m s (tasLock g r >>= f) := by
  intro m' s' B hrel hinv hheld hB v m1 he hg
  have ha := lockA_toNat hw hr
  have htame : OpTame0 g (.tas (regionA g r + offLock)) := by
    refine ⟨fun x hx hh => ?_, ⟨fun _ hh => Op.noConfusion hh, fun _ hh => Op.noConfusion hh⟩⟩
    have hh : (regionA g r + offLock).toNat = x := hh
    rw [ha] at hh
    subst hh
    rcases hx with hx | ⟨c', hc', hx⟩ | ⟨i, hi, hx | hx | hx⟩ <;> simp [hw, hr, *] at hx
  have hstill := htame.still he
  have he' := he
  simp only [exec] at he'
  split at he' <;> cases he'
  rw [ha] at he hg ⊢
  have hcl := hstill.clocks hinv.clocks
  have hrel' : LRely g c H m s _ s' := hrel.trans hstill.rely
  rw [ha] at hrel' hcl
  rcases hinv.inv.locks r.toNat hr with hz | hone
  · have hnH : ¬ H r.toNat := fun hh => by have := hheld _ hr hh; rw [hz] at this; exact absurd this (by decide)
    have hst : heldStep g (.tas (regionA g r + offLock)) (b2w (m'.mem (lockA g r.toNat) != 0)) H = addL H r.toNat := by
      rw [hz]
      funext i
      simp only [heldStep, addL, ha, lockA_inj]
      refine propext ⟨fun hh => hh.imp id (fun hh => hh.2.2.symm), fun hh => hh.imp id (fun hh => ⟨by rw [hh]; exact hr, by decide, hh.symm⟩)⟩
    rw [hst]
    refine ⟨L, s', Pt.none _ _, (TGuar.refl hinv.table).keep (fun _ hh => Or.inl hh) hcl, ?_⟩
    rw [hz]
    have h1 := hstill.synced hr (hinv.free _ hr hz)
    rw [ha] at h1
    have := hfree _ s' hrel' hinv.table hnH h1 (fun h0 => by
      have h2 := hstill.dmaSynced (hinv.dma (by rw [h0] at hz; exact hz))
      rw [ha] at h2; exact h2)
    exact this
  · have hst : heldStep g (.tas (regionA g r + offLock)) (b2w (m'.mem (lockA g r.toNat) != 0)) H = H := by
      rw [hone]
      funext i
      simp only [heldStep]
      exact propext ⟨fun hh => hh.elim id (fun hh => absurd hh.2.1 (by decide)), Or.inl⟩
    rw [hst]
    have hor : H r.toNat ∨ B := by
      rcases Classical.em (H r.toNat) with h | h
      · exact Or.inl h
      · exact Or.inr (hB r.toNat hr h (by rw [hone]; decide))
    obtain ⟨L1, q1, q2⟩ := hbusy _ s' B hrel' hinv.table hor
    refine ⟨L1, s', q1, (TGuar.refl hinv.table).keep (fun _ hh => hh) hcl, ?_⟩
    rw [hone]
    exact q2

/-- Releasing a lock, at which the call may take effect. -/
theorem lin_clearLock_pt (hw : g.WF) {r : W} (hr : r.toNat < g.regions) {f : Unit → Prog β}
    (hf : ∀ m1 s1, LRely g c H m s m1 s1 → TInv g s1 → ∃ L1 s2, Pt g c k False L s1 L1 s2 ∧ TGuar g c H s1 s2 ∧ (s2.clock = s1.clock ∧ s2.flushed = s1.flushed) ∧
      Synced g m1 s2 r.toNat ∧ (r.toNat = 0 → DmaSynced m1 s2) ∧ Lin g c k Q (subL H r.toNat) L1 m1 s2 (f ())) :
    Lin g c k Q H L m s (clearLock g r >>= f) := by
  intro m' s' B hrel hinv hheld hB v m1 he hg
  have ha := lockA_toNat hw hr
  have htame : OpTame0 g (.store (regionA g r + offLock) 0) := by
    refine ⟨fun x hx hh => ?_, ⟨fun _ hh => Op.noConfusion hh, fun _ hh => Op.noConfusion hh⟩⟩
    have hh : (regionA g r + offLock).toNat = x := hh
    rw [ha] at hh
    subst hh
    rcases hx with hx | ⟨c', hc', hx⟩ | ⟨i, hi, hx | hx | hx⟩ <;> simp [hw, hr, *] at hx
  have hstill := htame.still he
  have hst : heldStep g (.store (regionA g r + offLock) 0) v H = subL H r.toNat := by
    funext i
    simp only [heldStep, subL, ha]
    refine propext ⟨fun hh => ⟨hh.1, fun h1 => hh.2 (by rw [h1])⟩, fun hh => ⟨hh.1, fun h1 => hh.2 (lockA_inj.1 h1).symm⟩⟩
  rw [hst]
  obtain ⟨L1, s2, q1, q2, q3, q4, q5, q6⟩ := hf m1 s' (hrel.trans hstill.rely) hinv.table
  have hcl := hstill.clocks hinv.clocks
  refine ⟨L1, s2, q1.mono False.elim, q2.lguar ?_ ?_ ⟨by rw [q3.1]; exact hcl.clock, fun c hc => by rw [q3.2]; exact hcl.flushed c hc⟩, q6⟩
  · intro i hi hh hn
    have : i = r.toNat := Classical.byContradiction fun hne => hn ⟨hh, hne⟩
    rw [this]; exact q4
  · intro hh hn
    have : 0 = r.toNat := Classical.byContradiction fun hne => hn ⟨hh, hne⟩
    exact q5 this.symm

/-- Releasing a lock whose record is as the table says. -/
theorem lin_clearLock (hw : g.WF) {r : W} (hr : r.toNat < g.regions) (hHr : H r.toNat) {f : Unit → Prog β} (hs : Synced g m s r.toNat) (hd : r.toNat = 0 → DmaSynced m s)
    (hf : ∀ m1 s1, LRely g c H m s m1 s1 → Lin g c k Q (subL H r.toNat) L m1 s1 (f ())) : Lin g c k Q H L m s (clearLock g r >>= f) :=
  lin_clearLock_pt hw hr fun m1 s1 h1 h2 => ⟨L, s1, Pt.none _ _, TGuar.refl h2, ⟨rfl, rfl⟩, h1.synced hr hHr hs, fun h0 => h1.dmaSynced (by rw [h0] at hHr; exact hHr) (hd h0),
    hf m1 s1 h1⟩

/-- Releasing a lock, at which the call takes effect without changing the table. -/
theorem lin_clearLock_read (hw : g.WF) {r : W} (hr : r.toNat < g.regions) (hHr : H r.toNat) {f : Unit → Prog β} {v : W} (hL : L = .pending k) (hs : Synced g m s r.toNat)
    (hd : r.toNat = 0 → DmaSynced m s)
    (hf : ∀ m1 s1, LRely g c H m s m1 s1 → TInv g s1 → TakesEffect g k s1 v s1 ∧ Lin g c k Q (subL H r.toNat) (.decided k v) m1 s1 (f ())) :
    Lin g c k Q H L m s (clearLock g r >>= f) := by
  subst hL
  exact lin_clearLock_pt hw hr fun m1 s1 h1 h2 => ⟨.decided k v, s1, Pt.effect (hf m1 s1 h1 h2).1, TGuar.refl h2, ⟨rfl, rfl⟩, h1.synced hr hHr hs,
    fun h0 => h1.dmaSynced (by rw [h0] at hHr; exact hHr) (hd h0), (hf m1 s1 h1 h2).2⟩

/-- Writing a record of a region that is held. -/
theorem lin_storeRec (hw : g.WF) {r : Nat} (hr : r < g.regions) {a v : W} (hx : RecordWord g r a.toNat) {f : Unit → Prog β}
    (hf : ∀ m' s', LRely g c H m s m' s' → Lin g c k Q H L { m' with mem := upd m'.mem a.toNat v } s' (f ())) :
    Lin g c k Q H L m s (store a v >>= f) := by
  intro m' s' B hrel hinv hheld hB w m1 he hg
  have hlk : ∀ j, a.toNat ≠ lockA g j := by
    intro j
    unfold RecordWord ownerA prevA pinnedA blockedA at hx
    unfold lockA; omega
  have hst : heldStep g (.store a v) w H = H := by
    funext i
    simp only [heldStep]
    exact propext ⟨fun hh => hh.1, fun hh => ⟨hh, hlk i⟩⟩
  have he' := he
  simp only [exec] at he'
  split at he' <;> cases he'
  rw [hst]
  refine ⟨L, s', Pt.none _ _, (TGuar.refl hinv.table).keep (fun _ hh => hh) ⟨?_, fun c' hc' => ?_⟩, hf m' s' hrel⟩
  · refine (upd_ne _ _ ?_).trans hinv.clocks.clock
    rcases hx with hx | hx | hx | hx <;> rw [hx] <;> intro hh <;> have := hh.symm <;> simp [hw, hr] at this
  · refine (upd_ne _ _ ?_).trans (hinv.clocks.flushed c' hc')
    rcases hx with hx | hx | hx | hx <;> rw [hx] <;> intro hh <;> have := hh.symm <;> simp [hw, hc'] at this

/-- Counting a block. -/
theorem lin_fetchAdd (hw : g.WF) {f : W → Prog β}
    (hf : ∀ m' s', LRely g c H m s m' s' → LInv g m' s' → ∃ L1 s2, Pt g c k False L s' L1 s2 ∧ TGuar g c H s' s2 ∧ (s2.clock = s'.clock + 1 ∧ s2.flushed = s'.flushed) ∧
      Lin g c k Q H L1 { m' with mem := upd m'.mem (clockA g) (m'.mem (clockA g) + 1) } s2 (f (BitVec.ofNat 64 s'.clock))) :
    Lin g c k Q H L m s (act (.fetchAdd g.regionsBase 1) >>= f) := by
  intro m' s' B hrel hinv hheld hB w m1 he hg
  have he' := he
  simp only [exec] at he'
  split at he' <;> cases he'
  have hst : ∀ v, heldStep g (.fetchAdd g.regionsBase 1) v H = H := fun _ => rfl
  rw [hst]
  obtain ⟨L1, s2, q1, q2, q3, q4⟩ := hf m' s' hrel hinv
  have hck : m'.mem g.regionsBase.toNat = BitVec.ofNat 64 s'.clock := hinv.clocks.clock
  refine ⟨L1, s2, q1.mono False.elim, q2.keep (fun _ hh => hh) ⟨?_, fun c' hc' => ?_⟩, ?_⟩
  · show upd m'.mem (clockA g) _ (clockA g) = _
    rw [upd_same, q3.1, hck]
    rw [W.eq_iff]; simp
  · rw [q3.2]
    refine (upd_ne _ _ ?_).trans (hinv.clocks.flushed c' hc')
    exact flushedA_ne_clockA hw hc'
  · rw [hck]
    have hck' : m'.mem (clockA g) = BitVec.ofNat 64 s'.clock := hck
    rw [hck'] at q4
    exact q4

end Sanctum
