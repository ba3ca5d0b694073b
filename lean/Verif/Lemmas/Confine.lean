import Verif.Spec.Confine
import Verif.Lemmas.SafeCalls2
/-
A logic for the addresses the monitor's programs access, and its soundness for interleavings.
-/
namespace Sanctum
open Machine

variable {g : Cfg} {c : Nat} {α β : Type}

/-- What is known of the response to an action in a state with the global invariant. -/
structure RespOk (g : Cfg) (c : Nat) (H : Nat → Prop) (o : Op) (v : W) : Prop where
  core : o = .curCore → v = BitVec.ofNat 64 c
  os : ∀ a c', o = .load a → c' < g.cores → a.toNat = coreEnclaveA c' → v = nullEnclaveId
  owner : ∀ a i, o = .load a → i < g.regions → a.toNat = ownerA g i → OwnerVal v ∧ (i = 0 → v = nullEnclaveId)
  excl : ∀ a i, o = .tas a → i < g.regions → a.toNat = lockA g i → v = 0 → ¬ H i

theorem RespOk.mono {H H' : Nat → Prop} {o : Op} {v : W} (h : RespOk g c H' o v) (hh : ∀ i, H i → H' i) : RespOk g c H o v :=
  ⟨h.core, h.os, h.owner, fun a i h1 h2 h3 h4 h5 => h.excl a i h1 h2 h3 h4 (hh i h5)⟩

/-- The action writes the word at `x`. -/
def Op.mutates (o : Op) (x : Nat) : Prop :=
  match o with
  | .store a _ => a.toNat = x
  | .store32 a _ => a.toNat / 8 * 8 = x
  | .tas a => a.toNat = x
  | .fetchAdd a _ => a.toNat = x
  | _ => False

/-- The action reads or writes the DMA window. -/
def Op.IsDma (o : Op) : Prop :=
  match o with
  | .getDmaStart => True
  | .getDmaEnd => True
  | .setDmaStart _ => True
  | .setDmaEnd _ => True
  | .setDmarBase _ => True
  | .setDmarMask _ => True
  | _ => False

/-- The regions known to be metadata, and to be held, after an action. -/
def tStep (g : Cfg) (o : Op) (v : W) (H T : Nat → Prop) : Nat → Prop := fun i =>
  (T i ∧ ¬ o.mutates (ownerA g i) ∧ ∀ a w, o = .store a w → a.toNat ≠ lockA g i) ∨
  (i < g.regions ∧ H i ∧ ∃ a, a.toNat = ownerA g i ∧ ((o = .load a ∧ v = metadataEnclaveId) ∨ o = .store a metadataEnclaveId))

/-- All accesses of the program are to the monitor's memory, to words of `A`, or to regions known to be metadata. -/
def Prog.Cfn (g : Cfg) (c : Nat) (A : Nat → Prop) (Q : α → (Nat → Prop) → (Nat → Prop) → Prop) : (Nat → Prop) → (Nat → Prop) → Prog α → Prop
  | H, T, .ret a => Q a H T
  | H, T, .op o k => (∀ x, o.accesses g x → x < g.monitorTop.toNat ∨ A x ∨ T (regionOf g x)) ∧
      ∀ v, RespOk g c H o v → Prog.Cfn g c A Q (heldStep g o v H) (tStep g o v H T) (k v)
  | _, _, .fault => True
  | _, _, .diverge => True

variable {A H T : Nat → Prop}

theorem heldStep_mono {o : Op} {v : W} {H H' : Nat → Prop} (h : ∀ i, H i → H' i) : ∀ i, heldStep g o v H i → heldStep g o v H' i := by
  intro i hi
  cases o <;> simp only [heldStep] at hi ⊢
  case tas a => exact hi.imp (h i) id
  case store a w => exact ⟨h i hi.1, hi.2⟩
  all_goals exact h i hi

theorem tStep_mono {o : Op} {v : W} {H H' T T' : Nat → Prop} (h : ∀ i, H i → H' i) (ht : ∀ i, T i → T' i) :
    ∀ i, tStep g o v H T i → tStep g o v H' T' i :=
  fun i hi => hi.imp (fun h1 => ⟨ht i h1.1, h1.2⟩) fun h1 => ⟨h1.1, h i h1.2.1, h1.2.2⟩

/-- Knowing more does not hurt. -/
theorem Prog.Cfn.mono {Q Q' : α → (Nat → Prop) → (Nat → Prop) → Prop} {p : Prog α} {H H' T T' : Nat → Prop} (hp : p.Cfn g c A Q H T)
    (hH : ∀ i, H i → H' i) (hT : ∀ i, T i → T' i)
    (hQ : ∀ a H1 T1 H2 T2, (∀ i, H1 i → H2 i) → (∀ i, T1 i → T2 i) → Q a H1 T1 → Q' a H2 T2) : p.Cfn g c A Q' H' T' := by
  induction p generalizing H H' T T' with
  | ret a => exact hQ a H T H' T' hH hT hp
  | op o k ih =>
      exact ⟨fun x hx => (hp.1 x hx).imp id (Or.imp id (hT _)), fun v hv => ih v (hp.2 v (hv.mono hH)) (heldStep_mono hH) (tStep_mono hH hT)⟩
  | fault => trivial
  | diverge => trivial

theorem Prog.Cfn.bind {Q1 : α → (Nat → Prop) → (Nat → Prop) → Prop} {Q : β → (Nat → Prop) → (Nat → Prop) → Prop} {p : Prog α} {f : α → Prog β}
    (hp : p.Cfn g c A Q1 H T) (hf : ∀ a H' T', Q1 a H' T' → (f a).Cfn g c A Q H' T') : (p >>= f).Cfn g c A Q H T := by
  show (p.bind f).Cfn g c A Q H T
  induction p generalizing H T with
  | ret a => exact hf a H T hp
  | op o k ih => exact ⟨hp.1, fun v hv => ih v (hp.2 v hv)⟩
  | fault => trivial
  | diverge => trivial

/-- The trivial postcondition. -/
def Top : α → (Nat → Prop) → (Nat → Prop) → Prop := fun _ _ _ => True

theorem Prog.Cfn.pure (a : α) : (pure a : Prog α).Cfn g c A Top H T := trivial

theorem Prog.Cfn.ite {Q : α → (Nat → Prop) → (Nat → Prop) → Prop} {b : Prop} [Decidable b] {p q : Prog α} (hp : b → p.Cfn g c A Q H T)
    (hq : ¬ b → q.Cfn g c A Q H T) : (if b then p else q).Cfn g c A Q H T := by
  split
  · exact hp ‹_›
  · exact hq ‹_›

theorem Prog.Cfn.weaken {p : Prog α} {H H' T T' : Nat → Prop} (hp : p.Cfn g c A Top H T) (hH : ∀ i, H i → H' i) (hT : ∀ i, T i → T' i) :
    p.Cfn g c A Top H' T' := hp.mono hH hT fun _ _ _ _ _ _ _ _ => trivial

/-! ### Actions that change neither locks nor owners -/

/-- The action accesses only the monitor's memory and `S`, and writes no lock and no owner. -/
structure OpQuiet (g : Cfg) (S : Nat → Prop) (o : Op) : Prop where
  acc : ∀ x, o.accesses g x → x < g.monitorTop.toNat ∨ S x
  quiet : ∀ i, i < g.regions → ¬ o.mutates (lockA g i) ∧ ¬ o.mutates (ownerA g i)

/-- Programs of such actions. -/
def Prog.Quiet (g : Cfg) (c : Nat) (S : Nat → Prop) : Prog α → Prop
  | .ret _ => True
  | .op o k => OpQuiet g S o ∧ ∀ v, RespOk g c (fun _ => False) o v → Prog.Quiet g c S (k v)
  | .fault => True
  | .diverge => True

theorem Quiet.bind {S : Nat → Prop} {p : Prog α} {f : α → Prog β} (hp : p.Quiet g c S) (hf : ∀ a, (f a).Quiet g c S) : (p >>= f).Quiet g c S := by
  show (p.bind f).Quiet g c S
  induction p with
  | ret a => exact hf a
  | op o k ih => exact ⟨hp.1, fun v hv => ih v (hp.2 v hv)⟩
  | fault => trivial
  | diverge => trivial

theorem Quiet.pure {S : Nat → Prop} (a : α) : (pure a : Prog α).Quiet g c S := trivial

theorem Quiet.ite {S : Nat → Prop} {b : Prop} [Decidable b] {p q : Prog α} (hp : b → p.Quiet g c S) (hq : ¬ b → q.Quiet g c S) :
    (if b then p else q).Quiet g c S := by
  split
  · exact hp ‹_›
  · exact hq ‹_›

theorem quiet_held {S : Nat → Prop} {o : Op} {v : W} (ho : OpQuiet g S o) (hH : ∀ i, H i → i < g.regions) {i : Nat} (hi : H i) : heldStep g o v H i := by
  have hq := (ho.quiet i (hH i hi)).1
  cases o <;> simp only [heldStep]
  case tas a => exact Or.inl hi
  case store a w => exact ⟨hi, hq⟩
  all_goals exact hi

theorem quiet_t {S : Nat → Prop} {o : Op} {v : W} (ho : OpQuiet g S o) (hT : ∀ i, T i → i < g.regions) {i : Nat} (hi : T i) : tStep g o v H T i := by
  have hq := ho.quiet i (hT i hi)
  refine Or.inl ⟨hi, hq.2, ?_⟩
  rintro a w rfl
  exact hq.1

/-- A quiet action in the logic. -/
theorem conf_op {S : Nat → Prop} {o : Op} {k : W → Prog α} (hH : ∀ i, H i → i < g.regions) (hT : ∀ i, T i → i < g.regions)
    (ho : OpQuiet g S o) (hS : ∀ x, S x → A x ∨ T (regionOf g x)) (hk : ∀ v, RespOk g c (fun _ => False) o v → (k v).Cfn g c A Top H T) :
    (Prog.op o k).Cfn g c A Top H T :=
  ⟨fun x hx => (ho.acc x hx).imp id (hS x), fun v hv => (hk v (hv.mono fun _ hh => hh.elim)).weaken (fun _ => quiet_held ho hH) fun _ => quiet_t ho hT⟩

/-- A quiet program followed by the rest. -/
theorem conf_quiet_bind {S : Nat → Prop} {p : Prog α} {f : α → Prog β} (hH : ∀ i, H i → i < g.regions) (hT : ∀ i, T i → i < g.regions)
    (hp : p.Quiet g c S) (hS : ∀ x, S x → A x ∨ T (regionOf g x)) (hf : ∀ a, (f a).Cfn g c A Top H T) : (p >>= f).Cfn g c A Top H T := by
  show (p.bind f).Cfn g c A Top H T
  induction p with
  | ret a => exact hf a
  | op o k ih => exact conf_op hH hT hp.1 hS fun v hv => ih v (hp.2 v hv)
  | fault => trivial
  | diverge => trivial

theorem conf_quiet {S : Nat → Prop} {p : Prog α} (hH : ∀ i, H i → i < g.regions) (hT : ∀ i, T i → i < g.regions)
    (hp : p.Quiet g c S) (hS : ∀ x, S x → A x ∨ T (regionOf g x)) : p.Cfn g c A Top H T := by
  induction p with
  | ret a => trivial
  | op o k ih => exact conf_op hH hT hp.1 hS fun v hv => ih v (hp.2 v hv)
  | fault => trivial
  | diverge => trivial

/-! ### Locks and owners -/

theorem conf_tasLock (hw : g.WF) (hH : ∀ i, H i → i < g.regions) (hT : ∀ i, T i → i < g.regions) {r : W} (hr : r.toNat < g.regions) {f : Bool → Prog β}
    (hbusy : (f true).Cfn g c A Top H T) (hfree : ¬ H r.toNat → (f false).Cfn g c A Top (addL H r.toNat) T) : (tasLock g r >>= f).Cfn g c A Top H T := by
  have ha := lockA_toNat hw hr
  have hlt := lockA_lt hw hr
  refine ⟨fun x hx => Or.inl ?_, fun v hv0 => ?_⟩
  · have hx : (regionA g r + offLock).toNat = x := hx
    omega
  · have ht : ∀ i, T i → tStep g (.tas (regionA g r + offLock)) v H T i := by
      intro i hi
      refine Or.inl ⟨hi, ?_, fun a w hh => by cases hh⟩
      show ¬ (regionA g r + offLock).toNat = ownerA g i
      rw [ha]; simp
    by_cases hv : v = 0
    · subst hv
      refine Prog.Cfn.weaken (H := addL H r.toNat) (T := T) (hfree (hv0.excl _ _ rfl hr ha rfl)) (fun i hi => ?_) ht
      exact hi.imp id fun hi => ⟨by rw [hi]; exact hr, rfl, by rw [hi]; exact ha⟩
    · have : (v != 0) = true := bne_iff_ne.2 hv
      show Prog.Cfn g c A Top _ _ (f (v != 0))
      rw [this]
      exact hbusy.weaken (fun i hi => Or.inl hi) ht

theorem conf_clearLock (hw : g.WF) {r : W} (hr : r.toNat < g.regions) {f : Unit → Prog β}
    (hf : (f ()).Cfn g c A Top (subL H r.toNat) (subL T r.toNat)) : (clearLock g r >>= f).Cfn g c A Top H T := by
  have ha := lockA_toNat hw hr
  have hlt := lockA_lt hw hr
  refine ⟨fun x hx => Or.inl ?_, fun v _ => ?_⟩
  · have hx : (regionA g r + offLock).toNat = x := hx
    omega
  · refine hf.weaken (fun i hi => ⟨hi.1, ?_⟩) fun i hi => Or.inl ⟨hi.1, ?_, ?_⟩
    · rw [ha]; exact fun hh => hi.2 (lockA_inj.1 hh).symm
    · show ¬ (regionA g r + offLock).toNat = ownerA g i
      rw [ha]; simp
    · intro a w hh
      cases hh
      rw [ha]; exact fun hh => hi.2 (lockA_inj.1 hh).symm

/-- Releasing a lock, forgetting everything. -/
theorem conf_release (hw : g.WF) {r : W} (hr : r.toNat < g.regions) {f : Unit → Prog β} (hf : (f ()).Cfn g c A Top noL noL) :
    (clearLock g r >>= f).Cfn g c A Top H T :=
  conf_clearLock hw hr (hf.weaken (fun _ hh => hh.elim) fun _ hh => hh.elim)

theorem conf_readOwner (hw : g.WF) {r : W} (hr : r.toNat < g.regions) (hT : ∀ i, T i → i < g.regions) {f : W → Prog β}
    (hf : ∀ v, OwnerVal v → (r.toNat = 0 → v = nullEnclaveId) → (f v).Cfn g c A Top H (fun i => T i ∨ (H i ∧ i = r.toNat ∧ v = metadataEnclaveId))) :
    (readOwner g r >>= f).Cfn g c A Top H T := by
  have ha := ownerA_toNat hw hr
  have hlt := ownerA_lt hw hr
  refine ⟨fun x hx => Or.inl ?_, fun v hv => ?_⟩
  · have hx : (regionA g r + offOwner).toNat = x := hx
    omega
  · have h1 := hv.owner _ _ rfl hr ha
    refine (hf v h1.1 h1.2).weaken (fun i hi => hi) fun i hi => ?_
    rcases hi with hi | ⟨h2, rfl, h3⟩
    · exact Or.inl ⟨hi, fun hh => hh, fun a w hh => by cases hh⟩
    · exact Or.inr ⟨hr, h2, _, ha, Or.inl ⟨rfl, h3⟩⟩

/-- Writing the owner of a region. -/
theorem conf_storeOwner (hw : g.WF) {r v : W} (hr : r.toNat < g.regions) {f : Unit → Prog β}
    (hf : (f ()).Cfn g c A Top H (fun i => subL T r.toNat i ∨ (H i ∧ i = r.toNat ∧ v = metadataEnclaveId))) :
    (store (regionA g r + offOwner) v >>= f).Cfn g c A Top H T := by
  have ha := ownerA_toNat hw hr
  have hlt := ownerA_lt hw hr
  refine ⟨fun x hx => Or.inl ?_, fun w _ => ?_⟩
  · have hx : (regionA g r + offOwner).toNat = x := hx
    omega
  · refine hf.weaken (fun i hi => ⟨hi, by rw [ha]; simp⟩) fun i hi => ?_
    rcases hi with hi | ⟨h2, rfl, h3⟩
    · refine Or.inl ⟨hi.1, ?_, ?_⟩
      · show ¬ (regionA g r + offOwner).toNat = ownerA g i
        rw [ha]; exact fun hh => hi.2 (by unfold ownerA at hh; omega)
      · intro a w hh; cases hh; rw [ha]; simp
    · rw [h3]; exact Or.inr ⟨hr, h2, _, ha, Or.inr rfl⟩

/-! ### Quiet actions on the monitor's tables -/

theorem quiet_load {S : Nat → Prop} {a : W} (h : a.toNat < g.monitorTop.toNat ∨ S a.toNat) : (load a).Quiet g c S :=
  ⟨⟨fun x hx => (show a.toNat = x from hx) ▸ h, fun _ _ => ⟨fun hh => hh, fun hh => hh⟩⟩, fun _ _ => trivial⟩

theorem quiet_store {S : Nat → Prop} {a v : W} (h : a.toNat < g.monitorTop.toNat ∨ S a.toNat)
    (hq : ∀ i, i < g.regions → a.toNat ≠ lockA g i ∧ a.toNat ≠ ownerA g i) : (store a v).Quiet g c S :=
  ⟨⟨fun x hx => (show a.toNat = x from hx) ▸ h, fun i hi => hq i hi⟩, fun _ _ => trivial⟩

/-- Actions that access no memory. -/
theorem quiet_act {S : Nat → Prop} {o : Op} (h1 : ∀ x, ¬ o.accesses g x) (h2 : ∀ x, ¬ o.mutates x) : (act_ o).Quiet g c S :=
  ⟨⟨fun x hx => absurd hx (h1 x), fun _ _ => ⟨h2 _, h2 _⟩⟩, fun _ _ => trivial⟩

theorem quiet_act' {S : Nat → Prop} {o : Op} (h1 : ∀ x, ¬ o.accesses g x) (h2 : ∀ x, ¬ o.mutates x) : (act o).Quiet g c S :=
  ⟨⟨fun x hx => absurd hx (h1 x), fun _ _ => ⟨h2 _, h2 _⟩⟩, fun _ _ => trivial⟩

/-- Words above the monitor are neither locks nor owners. -/
theorem high_quiet (hw : g.WF) {x : Nat} (h : g.monitorTop.toNat ≤ x) : ∀ i, i < g.regions → x ≠ lockA g i ∧ x ≠ ownerA g i := by
  intro i hi
  have h1 := lockA_lt hw hi
  have h2 := ownerA_lt hw hi
  omega

/-! ### Code that stays above the monitor's memory -/

/-- The action accesses only words of `S` above the monitor's memory and does not use the DMA window. -/
structure OpHigh (g : Cfg) (S : Nat → Prop) (o : Op) : Prop where
  acc : ∀ x, o.accesses g x → g.monitorTop.toNat ≤ x ∧ S x
  noDma : ¬ o.IsDma

/-- Programs of such actions. -/
def Prog.High (g : Cfg) (S : Nat → Prop) : Prog α → Prop
  | .ret _ => True
  | .op o k => OpHigh g S o ∧ ∀ v, Prog.High g S (k v)
  | .fault => True
  | .diverge => True

theorem High.bind {S : Nat → Prop} {p : Prog α} {f : α → Prog β} (hp : p.High g S) (hf : ∀ a, (f a).High g S) : (p >>= f).High g S := by
  show (p.bind f).High g S
  induction p with
  | ret a => exact hf a
  | op o k ih => exact ⟨hp.1, fun v => ih v (hp.2 v)⟩
  | fault => trivial
  | diverge => trivial

theorem High.pure {S : Nat → Prop} (a : α) : (pure a : Prog α).High g S := trivial

theorem High.ite {S : Nat → Prop} {b : Prop} [Decidable b] {p q : Prog α} (hp : b → p.High g S) (hq : ¬ b → q.High g S) : (if b then p else q).High g S := by
  split
  · exact hp ‹_›
  · exact hq ‹_›

theorem Op.mutates_accesses {o : Op} {x : Nat} (h : o.mutates x) : o.accesses g x := by
  cases o <;> simp only [Op.mutates] at h <;> exact h

/-- Such programs touch neither locks nor owners. -/
theorem Prog.High.quiet {S : Nat → Prop} {p : Prog α} (hp : p.High g S) (hw : g.WF) : p.Quiet g c S := by
  induction p with
  | ret a => trivial
  | op o k ih =>
      refine ⟨⟨fun x hx => Or.inr (hp.1.acc x hx).2, fun i hi => ⟨fun hh => ?_, fun hh => ?_⟩⟩, fun v _ => ih v (hp.2 v)⟩
      · exact (high_quiet hw (hp.1.acc _ (Op.mutates_accesses hh)).1 i hi).1 rfl
      · exact (high_quiet hw (hp.1.acc _ (Op.mutates_accesses hh)).1 i hi).2 rfl
  | fault => trivial
  | diverge => trivial

theorem quiet_recStore (hw : g.WF) {S : Nat → Prop} {r off v : W} (hr : r.toNat < g.regions) (h1 : 16 ≤ off.toNat) (h2 : off.toNat ≤ 32) (h3 : off.toNat % 8 = 0)
    (ho : ∃ x, RecordWord g r.toNat x ∧ (regionA g r + off).toNat = x ∧ x ≠ ownerA g r.toNat) : (store (regionA g r + off) v).Quiet g c S := by
  obtain ⟨x, hx, hxx, hne⟩ := ho
  refine quiet_store (Or.inl (by rw [hxx]; exact record_lt hw hr hx)) fun i hi => ?_
  rw [hxx]
  unfold RecordWord ownerA prevA pinnedA blockedA at hx
  unfold lockA ownerA
  unfold ownerA at hne
  omega

end Sanctum
