import Verif.Lemmas.Mirror
/-
The monitor's basic operations in the logic of protection registers.
-/
namespace Sanctum
open Machine

variable {g : Cfg} {c : Nat} {α β : Type} {H : Nat → Prop} {m : Machine}

/-- Actions that change neither an owner, nor the OS bitmap, nor a protection register. -/
structure OpLevel (g : Cfg) (o : Op) : Prop where
  owner : ∀ i, i < g.regions → ¬ o.mutates (ownerA g i)
  os : ∀ i, i < g.regions → ¬ o.mutates (osWordA g i)
  plain : o.Plain

theorem OpTame.level {o : Op} (h : OpTame g o) : OpLevel g o := ⟨fun i hi => h.mem _ (Or.inr (Or.inr ⟨i, hi, Or.inl rfl⟩)), h.os, h.plain⟩

/-- Actions that change neither the set of regions the OS owns, nor its bitmap, nor a protection register. -/
structure OpMild (g : Cfg) (o : Op) : Prop where
  owner : ∀ i, i < g.regions → o.mutates (ownerA g i) → ∃ a v, o = .store a v ∧ (v = freeEnclaveId ∨ v = metadataEnclaveId)
  os : ∀ i, i < g.regions → ¬ o.mutates (osWordA g i)
  plain : o.Plain

theorem OpLevel.mild {o : Op} (h : OpLevel g o) : OpMild g o := ⟨fun i hi hh => absurd hh (h.owner i hi), h.os, h.plain⟩

theorem exec_plain {o : Op} {m m' : Machine} {v : W} (he : exec g c o m = some (v, m')) (h : o.Plain) :
    (m'.dmarBase = m.dmarBase ∧ m'.dmarMask = m.dmarMask) ∧ m'.drb = m.drb ∧ m'.parBase = m.parBase ∧ m'.parMask = m.parMask ∧ m'.cacheShift = m.cacheShift := by
  cases o <;> simp only [exec] at he
  case setDrb => exact h.elim
  case setParBase => exact h.elim
  case setParMask => exact h.elim
  case setCacheShift => exact h.elim
  case setDmarBase => exact h.elim
  case setDmarMask => exact h.elim
  all_goals first | (split at he <;> cases he; exact ⟨⟨rfl, rfl⟩, rfl, rfl, rfl, rfl⟩) | (cases he; exact ⟨⟨rfl, rfl⟩, rfl, rfl, rfl, rfl⟩)

theorem legal_null {a b : W} (h : LegalEdge a b) (hb : b = freeEnclaveId ∨ b = metadataEnclaveId) (ha : a = nullEnclaveId) : False := by
  subst ha
  cases h with
  | same => rcases hb with hb | hb <;> exact absurd hb (by decide)
  | block => rcases hb with hb | hb <;> exact absurd hb (by decide)

/-- What a mild action does. -/
theorem OpMild.same {o : Op} {m m1 : Machine} {v : W} (ho : OpMild g o) (he : exec g c o m = some (v, m1)) (hl : Legal g m m1) :
    MSame g m m1 ∧ m1.drb = m.drb ∧ m1.parBase = m.parBase ∧ m1.parMask = m.parMask ∧ m1.cacheShift = m.cacheShift := by
  obtain ⟨p1, p2, p3⟩ := exec_plain he ho.plain
  refine ⟨⟨fun i hi => exec_mutates he (ho.os i hi), fun i hi => ?_, exec_dma he ho.plain.dma, p1⟩, p2, p3⟩
  rcases Classical.em (o.mutates (ownerA g i)) with hm | hm
  · obtain ⟨a, w, rfl, hv⟩ := ho.owner i hi hm
    have hm : a.toNat = ownerA g i := hm
    have he' := he
    simp only [exec] at he'
    split at he' <;> cases he'
    have hv1 : Machine.owner { m with mem := upd m.mem a.toNat w } g i = w := by
      show upd m.mem a.toNat w (ownerA g i) = w
      rw [hm]; exact upd_same _ _ _
    have hl := hl i hi
    rw [hv1] at hl ⊢
    refine ⟨fun hh => ?_, fun hh => (legal_null hl hv hh).elim⟩
    rw [hh] at hv; rcases hv with hv | hv <;> exact absurd hv (by decide)
  · have : m1.owner g i = m.owner g i := exec_mutates he hm
    rw [this]

/-- Programs of mild actions. -/
def Prog.Mild (g : Cfg) (c : Nat) : (Nat → Prop) → Prog α → Prop
  | _, .ret _ => True
  | H, .op o f => OpMild g o ∧ ∀ v, RespOk g c H o v → Prog.Mild g c (heldStep g o v H) (f v)
  | _, .fault => True
  | _, .diverge => True

theorem tame_mild {p : Prog α} (hp : p.Tame g c H) : p.Mild g c H := by
  induction p generalizing H with
  | ret a => trivial
  | op o f ih => exact ⟨hp.1.level.mild, fun v hv => ih v (hp.2 v hv)⟩
  | fault => trivial
  | diverge => trivial

/-- Programs of mild actions, whatever they hold. -/
def Prog.Mild0 (g : Cfg) (c : Nat) : Prog α → Prop
  | .ret _ => True
  | .op o f => OpMild g o ∧ ∀ v, RespOk g c noL o v → Prog.Mild0 g c (f v)
  | .fault => True
  | .diverge => True

theorem mild0_mild {p : Prog α} (hp : p.Mild0 g c) : p.Mild g c H := by
  induction p generalizing H with
  | ret a => trivial
  | op o f ih => exact ⟨hp.1, fun v hv => ih v (hp.2 v (hv.mono fun _ hh => hh.elim))⟩
  | fault => trivial
  | diverge => trivial

theorem Mild0.bind {p : Prog α} {f : α → Prog β} (hp : p.Mild0 g c) (hf : ∀ a, (f a).Mild0 g c) : (p >>= f).Mild0 g c := by
  show (p.bind f).Mild0 g c
  induction p with
  | ret a => exact hf a
  | op o k ih => exact ⟨hp.1, fun v hv => ih v (hp.2 v hv)⟩
  | fault => trivial
  | diverge => trivial

theorem Mild0.ite {b : Prop} [Decidable b] {p q : Prog α} (hp : b → p.Mild0 g c) (hq : ¬ b → q.Mild0 g c) : (if b then p else q).Mild0 g c := by
  split
  · exact hp ‹_›
  · exact hq ‹_›

theorem Mild0.pure (a : α) : (pure a : Prog α).Mild0 g c := trivial

theorem Mild0.op {o : Op} {f : W → Prog α} (ho : OpMild g o) (hf : ∀ v, (f v).Mild0 g c) : (Prog.op o f).Mild0 g c := ⟨ho, fun v _ => hf v⟩

theorem calm_mild0 {p : Prog α} (hp : p.Calm g c) : p.Mild0 g c := by
  induction p with
  | ret a => trivial
  | op o k ih => exact ⟨hp.1.toOpTame.level.mild, fun v hv => ih v (hp.2 v hv)⟩
  | fault => trivial
  | diverge => trivial

/-- A lock that is taken was free. -/
theorem newly_held {o : Op} {m m1 : Machine} {v : W} (he : exec g c o m = some (v, m1)) {i : Nat} (hh : heldStep g o v H i) : H i ∨ m.mem (lockA g i) = 0 := by
  rcases heldStep_cases o v H i hh with h1 | ⟨h1, h2, a, rfl, h3⟩
  · exact Or.inl h1
  · refine Or.inr ?_
    simp only [exec] at he
    split at he <;> cases he
    rw [h3] at h2
    cases hb : (m.mem (lockA g i) != 0)
    · simpa using hb
    · rw [hb] at h2; exact absurd h2 (by decide)

theorem mild_mir {Q : α → (Nat → Prop) → Machine → Prop} (hQ : ∀ a H m, Q a H m) {p : Prog α} (hp : p.Mild g c H)
    (hs : H 0 → MapOk g m ∧ DmaExact m) : Mir g c Q H m p := by
  induction p generalizing H m with
  | ret a => exact hQ a H m
  | op o f ih =>
      intro m' hrel hinv hmi hheld v m1 he hg
      obtain ⟨s1, s2, s3, s4, s5⟩ := hp.1.same he hg.legal
      have hok : H 0 → MapOk g m1 ∧ DmaExact m1 := fun hh =>
        ⟨((hrel.map hh).trans s1).map (hs hh).1, ((hrel.map hh).trans s1).dmaExact (hs hh).2⟩
      refine ⟨⟨fun _ => s1.null, fun _ => s1.regs, fun hh _ => hok hh, fun c' => Or.inl (by rw [s2]), s3, s4, s5⟩, ih v (hp.2 v (exec_respOk hinv hheld he)) fun hh => ?_⟩
      rcases newly_held he hh with h1 | h1
      · exact hok h1
      · exact ⟨s1.map (hmi h1).1, s1.dmaExact (hmi h1).2⟩
  | fault => trivial
  | diverge => trivial

/-! ### Primitives -/

variable {Q : β → (Nat → Prop) → Machine → Prop}

/-- What a level action does. -/
theorem OpLevel.rely {o : Op} {m m1 : Machine} {v : W} (ho : OpLevel g o) (he : exec g c o m = some (v, m1)) (hl : Legal g m m1) :
    MRely g c H m m1 ∧ MSame g m m1 ∧ m1.drb = m.drb ∧ m1.parBase = m.parBase ∧ m1.parMask = m.parMask ∧ m1.cacheShift = m.cacheShift := by
  obtain ⟨s1, s2, s3⟩ := ho.mild.same he hl
  exact ⟨⟨fun i hi _ => exec_mutates he (ho.owner i hi), fun _ => s1, by rw [s2]⟩, s1, s2, s3⟩

/-- A level action that keeps all locks. -/
theorem mir_level {o : Op} {f : W → Prog β} (ho : OpLevel g o) (hh : ∀ v, heldStep g o v H = H)
    (hf : ∀ v m' m1, MRely g c H m m1 → MRely g c H m m' → CInv g m' → HeldOk g H m' → exec g c o m' = some (v, m1) → Mir g c Q H m1 (f v)) :
    Mir g c Q H m (.op o f) := by
  intro m' hrel hinv hmi hheld v m1 he hg
  obtain ⟨s0, s1, s2, s3, s4, s5⟩ := ho.rely (H := H) he hg.legal
  rw [hh v] at hg ⊢
  exact ⟨⟨fun _ => s1.null, fun _ => s1.regs, fun h1 h2 => absurd h1 h2, fun c' => Or.inl (by rw [s2]), s3, s4, s5⟩, hf v m' m1 (hrel.trans s0) hrel hinv hheld he⟩

/-- Actions that are level and do not touch a lock. -/
structure OpFlat (g : Cfg) (o : Op) : Prop extends OpLevel g o where
  lock : ∀ i, i < g.regions → ¬ o.mutates (lockA g i)

theorem OpFlat.held {o : Op} (ho : OpFlat g o) (hH : ∀ i, H i → i < g.regions) (v : W) : heldStep g o v H = H := by
  refine heldStep_frame ?_ hH v
  rintro i hi a w (rfl | rfl) hh
  · exact ho.lock i hi hh
  · exact ho.lock i hi hh

def Prog.Flat (g : Cfg) (c : Nat) : Prog α → Prop
  | .ret _ => True
  | .op o f => OpFlat g o ∧ ∀ v, RespOk g c noL o v → Prog.Flat g c (f v)
  | .fault => True
  | .diverge => True

theorem calm_flat {p : Prog α} (hp : p.Calm g c) : p.Flat g c := by
  induction p with
  | ret a => trivial
  | op o k ih => exact ⟨⟨hp.1.toOpTame.level, hp.1.lock⟩, fun v hv => ih v (hp.2 v hv)⟩
  | fault => trivial
  | diverge => trivial

theorem mir_flat (hH : ∀ i, H i → i < g.regions) {p : Prog α} {f : α → Prog β} (hp : p.Flat g c)
    (hf : ∀ a m1, MRely g c H m m1 → Mir g c Q H m1 (f a)) : Mir g c Q H m (p >>= f) := by
  show Mir g c Q H m (p.bind f)
  induction p generalizing m with
  | ret a => exact hf a m (MRely.refl _ _)
  | op o f ih =>
      refine mir_level hp.1.toOpLevel (fun v => hp.1.held hH v) fun v m' m1 h1 _ h2 h4 h3 => ?_
      refine ih v (hp.2 v ?_) fun a m2 h5 => hf a m2 (h1.trans h5)
      exact (exec_respOk h2 h4 h3).mono fun _ hh => hh.elim
  | fault => trivial
  | diverge => trivial

theorem mir_load {a : W} {f : W → Prog β} (hf : ∀ m1, MRely g c H m m1 → CInv g m1 → Mir g c Q H m1 (f (m1.mem a.toNat))) :
    Mir g c Q H m (load a >>= f) := by
  refine mir_level (load_tame a).level (fun _ => rfl) fun v m' m1 h1 _ h2 _ he => ?_
  simp only [exec] at he
  split at he <;> cases he
  exact hf _ h1 h2

theorem mir_readOwner (hw : g.WF) {r : W} (hr : r.toNat < g.regions) {f : W → Prog β}
    (hf : ∀ m1, MRely g c H m m1 → CInv g m1 → Mir g c Q H m1 (f (m1.owner g r.toNat))) : Mir g c Q H m (readOwner g r >>= f) := by
  refine mir_load fun m1 h1 h2 => ?_
  rw [ownerA_toNat hw hr]; exact hf m1 h1 h2

theorem mir_currentEnclave (hw : g.WF) (hc : c < g.cores) {f : W → Prog β}
    (hf : ∀ m1, MRely g c H m m1 → Mir g c Q H m1 (f nullEnclaveId)) : Mir g c Q H m (currentEnclave g >>= f) := by
  have hcc : (coreA g (BitVec.ofNat 64 c) + offCoreEnclaveId).toNat = coreEnclaveA c := coreA_toNat hw hc _ (by decide)
  show Mir g c Q H m (.op .curCore fun core => load (coreA g core + offCoreEnclaveId) >>= f)
  refine mir_level ⟨fun _ _ hh => hh, fun _ _ hh => hh, trivial⟩ (fun _ => rfl) fun v m' m1 h1 _ h2 _ he => ?_
  cases he
  refine mir_load fun m2 h4 h5 => ?_
  have : m2.mem (coreA g (BitVec.ofNat 64 c) + offCoreEnclaveId).toNat = nullEnclaveId := by rw [hcc]; exact h5.os c hc
  rw [this]
  exact hf m2 (h1.trans h4)

theorem tas_level (hw : g.WF) {r : W} (hr : r.toNat < g.regions) : OpLevel g (.tas (regionA g r + offLock)) :=
  (lock_tame (o := .tas (regionA g r + offLock)) hw hr (fun x hx => by
    have hx : (regionA g r + offLock).toNat = x := hx
    rw [← hx, lockA_toNat hw hr]) trivial).level

theorem clear_level (hw : g.WF) {r v : W} (hr : r.toNat < g.regions) : OpLevel g (.store (regionA g r + offLock) v) :=
  (lock_tame (o := .store (regionA g r + offLock) v) hw hr (fun x hx => by
    have hx : (regionA g r + offLock).toNat = x := hx
    rw [← hx, lockA_toNat hw hr]) trivial).level

theorem mir_tasLock (hw : g.WF) {r : W} (hr : r.toNat < g.regions) {f : Bool → Prog β}
    (hbusy : ∀ m1, MRely g c H m m1 → Mir g c Q H m1 (f true))
    (hfree : ∀ m1, MRely g c H m m1 → ¬ H r.toNat → (r.toNat = 0 → MapOk g m1 ∧ DmaExact m1) → Mir g c Q (addL H r.toNat) m1 (f false)) :
    Mir g c Q H m (tasLock g r >>= f) := by
  intro m' hrel hinv hmi hheld v m1 he hg
  have ha := lockA_toNat hw hr
  obtain ⟨s0, s1, s2, s3, s4, s5⟩ := (tas_level hw hr).rely (H := H) he hg.legal
  have hup : ∀ i, H i → heldStep g (.tas (regionA g r + offLock)) v H i := fun i hh => Or.inl hh
  refine ⟨⟨fun _ => s1.null, fun _ => s1.regs, fun h1 h2 => absurd (hup 0 h1) h2, fun c' => Or.inl (by rw [s2]), s3, s4, s5⟩, ?_⟩
  by_cases hz : v = 0
  · have hst : heldStep g (.tas (regionA g r + offLock)) v H = addL H r.toNat := by
      funext i
      simp only [heldStep, addL, ha, lockA_inj]
      refine propext ⟨fun hh => hh.imp id (fun hh => hh.2.2.symm), fun hh => hh.imp id (fun hh => ⟨by rw [hh]; exact hr, hz, hh.symm⟩)⟩
    have hnH := (exec_respOk hinv hheld he).excl _ _ rfl hr ha hz
    rw [hst]
    have hb : (v != 0) = false := by rw [hz]; rfl
    show Mir g c Q _ m1 (f (v != 0))
    rw [hb]
    refine hfree m1 (hrel.trans s0) hnH fun h0 => ?_
    have hnew := newly_held (H := H) (i := r.toNat) he (by rw [hst]; exact Or.inr rfl)
    have := hmi (by rw [← h0]; exact hnew.resolve_left hnH)
    exact ⟨s1.map this.1, s1.dmaExact this.2⟩
  · have hst : heldStep g (.tas (regionA g r + offLock)) v H = H := by
      funext i
      simp only [heldStep]
      exact propext ⟨fun hh => hh.elim id (fun hh => absurd hh.2.1 hz), Or.inl⟩
    rw [hst]
    have hb : (v != 0) = true := bne_iff_ne.2 hz
    show Mir g c Q _ m1 (f (v != 0))
    rw [hb]; exact hbusy m1 (hrel.trans s0)

theorem mir_clearLock (hw : g.WF) {r : W} (hr : r.toNat < g.regions) (hHr : H r.toNat) {f : Unit → Prog β} (h0 : r.toNat = 0 → MapOk g m ∧ DmaExact m)
    (hf : ∀ m1, MRely g c H m m1 → Mir g c Q (subL H r.toNat) m1 (f ())) : Mir g c Q H m (clearLock g r >>= f) := by
  intro m' hrel hinv hmi hheld v m1 he hg
  have ha := lockA_toNat hw hr
  obtain ⟨s0, s1, s2, s3, s4, s5⟩ := (clear_level hw hr).rely (H := H) he hg.legal
  have hst : heldStep g (.store (regionA g r + offLock) 0) v H = subL H r.toNat := by
    funext i
    simp only [heldStep, subL, ha]
    refine propext ⟨fun hh => ⟨hh.1, fun h1 => hh.2 (by rw [h1])⟩, fun hh => ⟨hh.1, fun h1 => hh.2 (lockA_inj.1 h1).symm⟩⟩
  rw [hst]
  refine ⟨⟨fun _ => s1.null, fun _ => s1.regs, fun h1 h2 => ?_, fun c' => Or.inl (by rw [s2]), s3, s4, s5⟩, hf m1 (hrel.trans s0)⟩
  have hr0 : r.toNat = 0 := Classical.byContradiction fun hne => h2 ⟨h1, fun hh => hne hh.symm⟩
  have hsm := (hrel.map h1).trans s1
  exact ⟨hsm.map (h0 hr0).1, hsm.dmaExact (h0 hr0).2⟩

/-- Everything but region `r` is in order. -/
structure ButOne (g : Cfg) (r : Nat) (m : Machine) : Prop where
  map : ∀ i, i < g.regions → i ≠ r → (m.osBit g i = true ↔ m.owner g i = nullEnclaveId)
  dma : DmaExact m

theorem MSame.bit {m m1 : Machine} (h : MSame g m m1) {i : Nat} (hi : i < g.regions) : m1.osBit g i = m.osBit g i := by
  show (m1.mem (osWordA g i)).getLsbD _ = (m.mem (osWordA g i)).getLsbD _
  rw [h.words i hi]

theorem MSame.butOne {m m1 : Machine} {r : Nat} (h : MSame g m m1) (hm : ButOne g r m) : ButOne g r m1 :=
  ⟨fun i hi hne => by rw [h.null i hi, ← hm.map i hi hne, h.bit hi], h.dmaExact hm.dma⟩

/-- Writing the owner of a region, holding its lock and that of region 0. -/
theorem mir_storeOwner (hw : g.WF) {r : W} (hr : r.toNat < g.regions) (hB : H 0) {v : W} {f : Unit → Prog β} (hm : MapOk g m ∧ DmaExact m)
    (hf : ∀ m1, ButOne g r.toNat m1 → m1.owner g r.toNat = v → Mir g c Q H m1 (f ())) :
    Mir g c Q H m (store (regionA g r + offOwner) v >>= f) := by
  intro m' hrel hinv hmi hheld w m1 he hg
  have ha := ownerA_toNat hw hr
  have hlk : ∀ j, ownerA g r.toNat ≠ lockA g j := by intro j; unfold ownerA lockA; omega
  have hst : heldStep g (.store (regionA g r + offOwner) v) w H = H := by
    funext i
    simp only [heldStep, ha]
    exact propext ⟨fun hh => hh.1, fun hh => ⟨hh, hlk i⟩⟩
  have he' := he
  simp only [exec] at he'
  split at he' <;> cases he'
  rw [hst, ha]
  refine ⟨⟨fun hh => absurd hB hh, fun hh => absurd hB hh, fun h1 h2 => absurd h1 h2, fun c' => Or.inl rfl, rfl, rfl, rfl⟩, hf _ ⟨fun i hi hne => ?_, ?_⟩ (upd_same _ _ _)⟩
  · have h1 : Machine.owner { m' with mem := upd m'.mem (ownerA g r.toNat) v } g i = m'.owner g i := upd_ne _ _ (by unfold ownerA; omega)
    have h2 : Machine.osBit { m' with mem := upd m'.mem (ownerA g r.toNat) v } g i = m'.osBit g i := by
      show (upd m'.mem (ownerA g r.toNat) v (osWordA g i)).getLsbD _ = _
      rw [upd_ne _ _ (osWordA_ne_ownerA hw hr)]; rfl
    rw [h1, h2]; exact (hrel.map hB).map hm.1 i hi
  · exact (hrel.map hB).dmaExact hm.2

theorem mir_setOsBit (hw : g.WF) {r : W} (hr : r.toNat < g.regions) (hH : ∀ i, H i → i < g.regions) (hB : H 0) (hA : H r.toNat) {b : Bool} {f : Unit → Prog β} (hm : ButOne g r.toNat m)
    (hb : b = true ↔ m.owner g r.toNat = nullEnclaveId)
    (hf : ∀ m1, MapOk g m1 ∧ DmaExact m1 → m1.owner g r.toNat = m.owner g r.toNat → Mir g c Q H m1 (f ())) :
    Mir g c Q H m (setBitmapBit g.osBitmap r b >>= f) := by
  have ha := osWordA_toNat hw hr
  unfold setBitmapBit
  dsimp only
  rw [bind_assoc]
  refine mir_load fun m1 h1 _ => ?_
  have hval : (if b = true then store (bitWordA g.osBitmap r) (m1.mem (bitWordA g.osBitmap r).toNat ||| bitmapMask r)
      else store (bitWordA g.osBitmap r) (m1.mem (bitWordA g.osBitmap r).toNat &&& ~~~ bitmapMask r)) =
      store (bitWordA g.osBitmap r) (setBit (m1.mem (osWordA g r.toNat)) (r.toNat % 64) b) := by
    have hmask : bitmapMask r = (1 : W) <<< (r.toNat % 64) := by
      unfold bitmapMask
      simp [mod64_toNat]
    rw [ha, hmask]
    unfold setBit
    cases b <;> rfl
  show Mir g c Q H m1 ((if b = true then store (bitWordA g.osBitmap r) (m1.mem (bitWordA g.osBitmap r).toNat ||| bitmapMask r)
      else store (bitWordA g.osBitmap r) (m1.mem (bitWordA g.osBitmap r).toNat &&& ~~~ bitmapMask r)) >>= f)
  rw [hval]
  intro m' hrel hinv hmi hheld w m2 he hg
  have hst : heldStep g (.store (bitWordA g.osBitmap r) (setBit (m1.mem (osWordA g r.toNat)) (r.toNat % 64) b)) w H = H :=
    (osWord_calm hw hr).held hH w
  have he' := he
  simp only [exec] at he'
  split at he' <;> cases he'
  have hwd : m1.mem (osWordA g r.toNat) = m'.mem (osWordA g r.toNat) := ((hrel.map hB).words _ hr).symm
  have hms : MSame g m m' := (h1.map hB).trans (hrel.map hB)
  have ho : m'.owner g r.toNat = m.owner g r.toNat := (hrel.owner _ hr hA).trans (h1.owner _ hr hA)
  rw [hst, ha, hwd]
  have hown : ∀ i, i < g.regions → (m'.setOsBit g r.toNat b).owner g i = m'.owner g i := fun i hi => by
    show upd m'.mem _ _ (ownerA g i) = _
    exact upd_ne _ _ (fun hh => osBitmap_not_record hw hi (Or.inl rfl) hh)
  refine ⟨⟨fun hh => absurd hB hh, fun hh => absurd hB hh, fun h1 h2 => absurd h1 h2, fun c' => Or.inl rfl, rfl, rfl, rfl⟩, hf (m'.setOsBit g r.toNat b) ⟨fun i hi => ?_, ?_⟩ ?_⟩
  · rw [osBit_setOsBit, hown i hi]
    by_cases hir : i = r.toNat
    · rw [if_pos hir, hir, ho]; exact hb
    · rw [if_neg hir]; exact (hms.butOne hm).map i hi hir
  · exact (hms.butOne hm).dma
  · rw [hown _ hr, ho]

/-- The words that are read stay what they are. -/
theorem mir_snapshot (hw : g.WF) (hB : H 0) {f : List W → Prog β} : ∀ (n j : Nat) (p : W) (m : Machine), p.toNat = g.osBitmap.toNat + 8 * j → j + n ≤ g.bitmapWords.toNat →
    (∀ m1, MRely g c H m m1 → Mir g c Q H m1 (f (snapshot m1 p.toNat n))) → Mir g c Q H m (snapshotLoop n p >>= f) := by
  have hl := hw.layout
  have hwords := hw.words
  intro n
  induction n generalizing f with
  | zero => intro j p m _ _ hf; exact hf m (MRely.refl _ _)
  | succ n ih =>
      intro j p m hp hj hf
      obtain ⟨l1, l2, l3, l4, l5, l6, l7, l8, l9, l10, l11, l12⟩ := hl
      have hlt := g.monitorTop.isLt
      have h8 : (p + 8).toNat = p.toNat + 8 := by rw [BitVec.toNat_add, show (8 : W).toNat = 8 from rfl]; omega
      rw [snapshotLoop, bind_assoc]
      refine mir_load fun m1 h1 _ => ?_
      rw [bind_assoc]
      refine ih (j + 1) (p + 8) m1 (by omega) (by omega) fun m2 h2 => ?_
      have := hf m2 (h1.trans h2)
      have hword : m1.mem p.toNat = m2.mem p.toNat := by
        have h64 : 64 * j < g.regions := by omega
        have := (h2.map hB).words (64 * j) h64
        unfold osWordA at this
        rw [show 64 * j / 64 = j by omega, ← hp] at this
        exact this.symm
      have hsn : snapshot m2 p.toNat (n + 1) = m1.mem p.toNat :: snapshot m2 (p + 8).toNat n := by
        unfold snapshot
        rw [List.range_succ_eq_map, List.map_cons, List.map_map, hword, h8]
        congr 1
        refine List.map_congr_left fun i _ => ?_
        show m2.mem (p.toNat + 8 * (i + 1)) = _
        congr 1
        omega
      rw [hsn] at this
      exact this

theorem drbBit_snapshot (hw : g.WF) {i : Nat} (hi : i < g.regions) : ((snapshot m g.osBitmap.toNat g.bitmapWords.toNat).getD (i / 64) 0).getLsbD (i % 64) = m.osBit g i := by
  have hwords := hw.words
  unfold snapshot Machine.osBit osWordA
  rw [List.getD_eq_getElem?_getD, List.getElem?_map, List.getElem?_range (by omega)]
  rfl

theorem mir_setDrb (hw : g.WF) (hB : H 0) {f : Unit → Prog β} (hm : MapOk g m ∧ DmaExact m)
    (hf : ∀ m1, MRely g c (fun i => H i) { m with drb := m1.drb } m1 → MapOk g m1 ∧ DmaExact m1 → MapExact g m1 c → Mir g c Q H m1 (f ())) :
    Mir g c Q H m (setDrbMap g g.osBitmap >>= f) := by
  unfold setDrbMap
  rw [bind_assoc]
  refine mir_snapshot hw hB _ 0 _ m (by omega) (by omega) fun m1 h1 => ?_
  intro m' hrel hinv hmi hheld v m2 he hg
  cases he
  have hms : MSame g m m' := (h1.map hB).trans (hrel.map hB)
  have hmo : MapOk g m' := hms.map hm.1
  have hsnap : ∀ i, i < g.regions → Machine.drbBit { m' with drb := upd m'.drb c (snapshot m1 g.osBitmap.toNat g.bitmapWords.toNat) } c i = m'.osBit g i := by
    intro i hi
    unfold Machine.drbBit
    show ((upd m'.drb c _ c).getD _ _).getLsbD _ = _
    rw [upd_same, drbBit_snapshot hw hi, (hrel.map hB).bit hi]
  have hex : MapExact g { m' with drb := upd m'.drb c (snapshot m1 g.osBitmap.toNat g.bitmapWords.toNat) } c := by
    intro i hi
    rw [hsnap i hi]; exact hmo i hi
  refine ⟨⟨fun hh => absurd hB hh, fun hh => absurd hB hh, fun h1 h2 => absurd h1 h2, fun c' => ?_, rfl, rfl, rfl⟩, hf _ ?_ ⟨hmo, hms.dmaExact hm.2⟩ hex⟩
  · by_cases hcc : c' = c
    · exact Or.inr ⟨hcc, hex⟩
    · exact Or.inl (upd_ne _ _ hcc)
  · exact ⟨fun i hi hh => (hrel.owner i hi hh).trans (h1.owner i hi hh), fun _ => ⟨hms.words, hms.null, hms.dma, hms.regs⟩, rfl⟩

end Sanctum
