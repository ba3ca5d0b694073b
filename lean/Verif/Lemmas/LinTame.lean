import Verif.Lemmas.LinPrim
import Verif.Lemmas.ConfineCalls2
/-
The calls on enclaves and threads do not change the table of regions.
-/
namespace Sanctum
open Machine

variable {g : Cfg} {c : Nat} {k : Call} {α β : Type} {H : Nat → Prop} {L : Phase} {m : Machine} {s : RegionTable}

/-- Actions that change neither the table nor a lock. -/
structure OpCalm0 (g : Cfg) (o : Op) : Prop extends OpTame0 g o where
  lock : ∀ i, i < g.regions → ¬ o.mutates (lockA g i)

/-- Actions that change neither the table, nor the OS bitmap, nor a lock. -/
structure OpCalm (g : Cfg) (o : Op) : Prop extends OpTame g o where
  lock : ∀ i, i < g.regions → ¬ o.mutates (lockA g i)

theorem OpCalm.weak {o : Op} (ho : OpCalm g o) : OpCalm0 g o := ⟨ho.toOpTame0, ho.lock⟩

theorem OpCalm0.held {o : Op} (ho : OpCalm0 g o) (hH : ∀ i, H i → i < g.regions) (v : W) : heldStep g o v H = H := by
  refine heldStep_frame ?_ hH v
  rintro i hi a w (rfl | rfl) hh
  · exact ho.lock i hi hh
  · exact ho.lock i hi hh

def Prog.Calm (g : Cfg) (c : Nat) : Prog α → Prop
  | .ret _ => True
  | .op o f => OpCalm g o ∧ ∀ v, RespOk g c (fun _ => False) o v → Prog.Calm g c (f v)
  | .fault => True
  | .diverge => True

theorem Calm.bind {p : Prog α} {f : α → Prog β} (hp : p.Calm g c) (hf : ∀ a, (f a).Calm g c) : (p >>= f).Calm g c := by
  show (p.bind f).Calm g c
  induction p with
  | ret a => exact hf a
  | op o k ih => exact ⟨hp.1, fun v hv => ih v (hp.2 v hv)⟩
  | fault => trivial
  | diverge => trivial

/-- Programs of actions that change neither the table nor a lock. -/
def Prog.Calm0 (g : Cfg) (c : Nat) : Prog α → Prop
  | .ret _ => True
  | .op o f => OpCalm0 g o ∧ ∀ v, RespOk g c (fun _ => False) o v → Prog.Calm0 g c (f v)
  | .fault => True
  | .diverge => True

theorem Calm.weak {p : Prog α} (hp : p.Calm g c) : p.Calm0 g c := by
  induction p with
  | ret a => trivial
  | op o k ih => exact ⟨hp.1.weak, fun v hv => ih v (hp.2 v hv)⟩
  | fault => trivial
  | diverge => trivial

theorem Calm0.bind {p : Prog α} {f : α → Prog β} (hp : p.Calm0 g c) (hf : ∀ a, (f a).Calm0 g c) : (p >>= f).Calm0 g c := by
  show (p.bind f).Calm0 g c
  induction p with
  | ret a => exact hf a
  | op o k ih => exact ⟨hp.1, fun v hv => ih v (hp.2 v hv)⟩
  | fault => trivial
  | diverge => trivial

theorem Calm0.ite {b : Prop} [Decidable b] {p q : Prog α} (hp : b → p.Calm0 g c) (hq : ¬ b → q.Calm0 g c) : (if b then p else q).Calm0 g c := by
  split
  · exact hp ‹_›
  · exact hq ‹_›

theorem Calm.pure (a : α) : (pure a : Prog α).Calm g c := trivial

theorem Calm.ite {b : Prop} [Decidable b] {p q : Prog α} (hp : b → p.Calm g c) (hq : ¬ b → q.Calm g c) : (if b then p else q).Calm g c := by
  split
  · exact hp ‹_›
  · exact hq ‹_›

theorem tableWord_lt (hw : g.WF) {x : Nat} (hx : TableWord g x) : x < g.monitorTop.toNat := by
  rcases hx with rfl | ⟨c, hc, rfl⟩ | ⟨i, hi, rfl | rfl | rfl⟩
  · have := clockA_lt hw; omega
  · have := flushedA_lt hw hc; omega
  · have := ownerA_lt hw hi; omega
  · have := blockedA_lt hw hi; omega
  · have := pinnedA_lt hw hi; omega

/-- Actions that write only above the monitor's memory. -/
theorem calm_high (hw : g.WF) {o : Op} (h1 : ∀ x, o.mutates x → g.monitorTop.toNat ≤ x) (h2 : o.Plain) : OpCalm g o :=
  ⟨⟨⟨fun x hx hh => by have := h1 x hh; have := tableWord_lt hw hx; omega, h2.dma⟩, h2, fun i hi hh => by have := h1 _ hh; have := osWordA_lt hw hi; omega⟩, fun i hi hh => by have := h1 _ hh; have := lockA_lt hw hi; omega⟩

theorem freeWord_high {x : Nat} (h : FreeWord g g.cores x) : g.monitorTop.toNat ≤ x := by
  rcases h with h | ⟨h, -⟩ | ⟨h, -⟩
  · exact h
  · exact absurd h (Nat.lt_irrefl _)
  · exact absurd h (Nat.lt_irrefl _)

theorem frame_op_calm (hw : g.WF) {D : Prop} {o : Op} (ho : OpFrame g D g.cores o) : OpCalm g o := by
  cases o
  case setEdrb => exact ho.elim
  case setDmaStart => exact ho.elim
  case setDmaEnd => exact ho.elim
  case setParBase => exact ho.elim
  case setParMask => exact ho.elim
  case setCacheShift => exact ho.elim
  case setDrb => exact absurd ho (Nat.lt_irrefl _)
  case setDmarBase => exact absurd ho (Nat.lt_irrefl _)
  case setDmarMask => exact absurd ho (Nat.lt_irrefl _)
  all_goals refine calm_high hw (fun x hx => ?_) trivial
  case store a v => have hx : a.toNat = x := hx; rw [← hx]; exact freeWord_high ho.2
  case store32 a v => have hx : a.toNat / 8 * 8 = x := hx; rw [← hx]; exact ho.2
  case tas a => have hx : a.toNat = x := hx; rw [← hx]; exact ho.2
  case fetchAdd a v => have hx : a.toNat = x := hx; rw [← hx]; exact freeWord_high ho.2
  all_goals exact hx.elim

/-- Programs that stay above the monitor's memory. -/
theorem frame_calm (hw : g.WF) {D : Prop} {p : Prog α} (hp : p.Frame g D g.cores) : p.Calm g c := by
  induction p with
  | ret a => trivial
  | op o f ih =>
      refine ⟨frame_op_calm hw hp.1, fun v _ => ih v (hp.2 v ?_)⟩
      rintro rfl
      exact absurd (show g.cores < g.cores from hp.1) (Nat.lt_irrefl _)
  | fault => trivial
  | diverge => trivial

theorem calm_load (a : W) : (load a).Calm g c := ⟨⟨load_tame a, fun _ _ hh => hh⟩, fun _ _ => trivial⟩

theorem calm_act_ {o : Op} (h1 : ∀ x, ¬ o.mutates x) (h2 : o.Plain) : (act_ o).Calm g c :=
  ⟨⟨⟨⟨fun _ _ => h1 _, h2.dma⟩, h2, fun _ _ => h1 _⟩, fun _ _ => h1 _⟩, fun _ _ => trivial⟩

theorem calm0_act_ {o : Op} (h1 : ∀ x, ¬ o.mutates x) (h2 : (∀ v, o ≠ .setDmaStart v) ∧ ∀ v, o ≠ .setDmaEnd v) : (act_ o).Calm0 g c :=
  ⟨⟨⟨fun _ _ => h1 _, h2⟩, fun _ _ => h1 _⟩, fun _ _ => trivial⟩

theorem osWord_calm (hw : g.WF) {r w : W} (hr : r.toNat < g.regions) : OpCalm0 g (.store (bitWordA g.osBitmap r) w) := by
  have ha := osWordA_toNat hw hr
  refine ⟨⟨fun x hx hh => ?_, ⟨fun _ hh => Op.noConfusion hh, fun _ hh => Op.noConfusion hh⟩⟩, fun i hi hh => ?_⟩
  · have hh : (bitWordA g.osBitmap r).toNat = x := hh
    rw [ha] at hh
    rcases hx with hx | ⟨c, hc, hx⟩ | ⟨i, hi, hx⟩
    · rw [hx] at hh; simp [hw] at hh
    · rw [hx] at hh; simp [hw, hc] at hh
    · have hx' : RecordWord g i x := by
        rcases hx with hx | hx | hx
        · exact Or.inl hx
        · exact Or.inr (Or.inr (Or.inr hx))
        · exact Or.inr (Or.inr (Or.inl hx))
      exact osBitmap_not_record hw hi hx' hh.symm
  · have hh : (bitWordA g.osBitmap r).toNat = lockA g i := hh
    rw [ha] at hh; exact osWordA_ne_lockA hw hi hh

theorem calm_setOsBit (hw : g.WF) {r : W} (hr : r.toNat < g.regions) (b : Bool) : (setBitmapBit g.osBitmap r b).Calm0 g c := by
  unfold setBitmapBit
  exact Calm0.bind (Calm.weak (calm_load _)) fun w => Calm0.ite (fun _ => ⟨osWord_calm hw hr, fun _ _ => trivial⟩) fun _ => ⟨osWord_calm hw hr, fun _ _ => trivial⟩

theorem calm_snapshotLoop (n : Nat) : ∀ p, (snapshotLoop n p).Calm g c := by
  induction n with
  | zero => intro p; exact trivial
  | succ n ih => intro p; exact Calm.bind (calm_load _) fun _ => Calm.bind (ih _) fun _ => trivial

theorem calm_setDrb : (setDrbMap g g.osBitmap).Calm0 g c :=
  Calm0.bind (Calm.weak (calm_snapshotLoop _ _)) fun _ => calm0_act_ (fun _ hh => hh) ⟨fun _ hh => Op.noConfusion hh, fun _ hh => Op.noConfusion hh⟩

/-- A calm program followed by the rest. -/
theorem lin_calm {Q : β → (Nat → Prop) → Phase → Machine → RegionTable → Prop} (hH : ∀ i, H i → i < g.regions) {p : Prog α} {f : α → Prog β} (hp : p.Calm0 g c)
    (hf : ∀ a m1 s1, LRely g c H m s m1 s1 → Lin g c k Q H L m1 s1 (f a)) : Lin g c k Q H L m s (p >>= f) := by
  show Lin g c k Q H L m s (p.bind f)
  induction p generalizing m s with
  | ret a => exact hf a m s (LRely.refl _ _ _)
  | op o f ih =>
      refine lin_op hp.1.toOpTame0 (fun v => hp.1.held hH v) fun v m' m1 s1 h1 h2 _ h4 h3 => ?_
      refine ih v (hp.2 v ?_) fun a m2 s2 h5 => hf a m2 s2 (h1.trans h5)
      exact (exec_respOk h2.inv h4 h3).mono fun _ hh => hh.elim
  | fault => trivial
  | diverge => trivial

/-! ### The calls -/

theorem tame_calm (hH : ∀ i, H i → i < g.regions) {p : Prog α} {f : α → Prog β} (hp : p.Calm g c) (hf : ∀ a, (f a).Tame g c H) : (p >>= f).Tame g c H := by
  show (p.bind f).Tame g c H
  induction p with
  | ret a => exact hf a
  | op o f ih =>
      refine ⟨hp.1.toOpTame, fun v hv => ?_⟩
      rw [hp.1.weak.held hH v]
      exact ih v (hp.2 v (hv.mono fun _ hh => hh.elim))
  | fault => trivial
  | diverge => trivial

theorem tame_pure (a : α) : (pure a : Prog α).Tame g c H := trivial

theorem tame_ite {b : Prop} [Decidable b] {p q : Prog α} (hp : b → p.Tame g c H) (hq : ¬ b → q.Tame g c H) : (if b then p else q).Tame g c H := by
  split
  · exact hp ‹_›
  · exact hq ‹_›

theorem lock_tame (hw : g.WF) {r : Nat} (hr : r < g.regions) {o : Op} (h1 : ∀ x, o.mutates x → x = lockA g r)
    (h2 : o.Plain) : OpTame g o := by
  refine ⟨⟨fun x hx hh => ?_, h2.dma⟩, h2, fun i hi hh => osWordA_ne_lockA hw hr (h1 _ hh)⟩
  have hh := h1 x hh
  subst hh
  rcases hx with hx | ⟨c', hc', hx⟩ | ⟨i, hi, hx | hx | hx⟩ <;> simp [hw, hr, *] at hx

theorem tame_tasLock (hw : g.WF) {r : W} (hr : r.toNat < g.regions) {f : Bool → Prog β} (hb : (f true).Tame g c H)
    (hf : ¬ H r.toNat → (f false).Tame g c (addL H r.toNat)) : (tasLock g r >>= f).Tame g c H := by
  have ha := lockA_toNat hw hr
  refine ⟨lock_tame hw hr (fun x hx => ?_) trivial, fun v hv => ?_⟩
  · have hx : (regionA g r + offLock).toNat = x := hx
    rw [← hx, ha]
  · by_cases hz : v = 0
    · have hst : heldStep g (.tas (regionA g r + offLock)) v H = addL H r.toNat := by
        funext i
        simp only [heldStep, addL, ha, lockA_inj]
        refine propext ⟨fun hh => hh.imp id (fun hh => hh.2.2.symm), fun hh => hh.imp id (fun hh => ⟨by rw [hh]; exact hr, hz, hh.symm⟩)⟩
      rw [hst]
      have := hf (hv.excl _ _ rfl hr ha hz)
      show Prog.Tame g c _ (f (v != 0))
      have hb : (v != 0) = false := by rw [hz]; rfl
      rw [hb]; exact this
    · have hst : heldStep g (.tas (regionA g r + offLock)) v H = H := by
        funext i
        simp only [heldStep]
        exact propext ⟨fun hh => hh.elim id (fun hh => absurd hh.2.1 hz), Or.inl⟩
      rw [hst]
      show Prog.Tame g c _ (f (v != 0))
      have hb' : (v != 0) = true := bne_iff_ne.2 hz
      rw [hb']; exact hb

theorem tame_clearLock (hw : g.WF) {r : W} (hr : r.toNat < g.regions) {f : Unit → Prog β} (hf : (f ()).Tame g c (subL H r.toNat)) : (clearLock g r >>= f).Tame g c H := by
  have ha := lockA_toNat hw hr
  refine ⟨lock_tame hw hr (fun x hx => ?_) trivial, fun v hv => ?_⟩
  · have hx : (regionA g r + offLock).toNat = x := hx
    rw [← hx, ha]
  · have hst : heldStep g (.store (regionA g r + offLock) 0) v H = subL H r.toNat := by
      funext i
      simp only [heldStep, subL, ha]
      refine propext ⟨fun hh => ⟨hh.1, fun h1 => hh.2 (by rw [h1])⟩, fun hh => ⟨hh.1, fun h1 => hh.2 (lockA_inj.1 h1).symm⟩⟩
    rw [hst]; exact hf

theorem tame_rel1 (hw : g.WF) {r : W} (hr : r.toNat < g.regions) (v : α) : (clearLock g r >>= fun _ => pure v).Tame g c H := tame_clearLock hw hr (tame_pure v)

theorem tame_rel2 (hw : g.WF) {r s : W} (hr : r.toNat < g.regions) (hs : s.toNat < g.regions) (v : α) :
    (clearLock g r >>= fun _ => clearLock g s >>= fun _ => pure v).Tame g c H := tame_clearLock hw hr (tame_rel1 hw hs v)

theorem tame_readOwner (hw : g.WF) {r : W} (hr : r.toNat < g.regions) {f : W → Prog β}
    (hf : ∀ v, OwnerVal v → (r.toNat = 0 → v = nullEnclaveId) → (f v).Tame g c H) : (readOwner g r >>= f).Tame g c H := by
  refine ⟨load_tame _, fun v hv => ?_⟩
  obtain ⟨h1, h2⟩ := hv.owner _ _ rfl hr (ownerA_toNat hw hr)
  exact hf v h1 h2

theorem tame_currentEnclave (hw : g.WF) (hc : c < g.cores) {f : W → Prog β} (hf : (f nullEnclaveId).Tame g c H) : (currentEnclave g >>= f).Tame g c H := by
  have hcc : (coreA g (BitVec.ofNat 64 c) + offCoreEnclaveId).toNat = coreEnclaveA c := coreA_toNat hw hc _ (by decide)
  show Prog.Tame g c H (.op .curCore fun core => .op (.load (coreA g core + offCoreEnclaveId)) f)
  refine ⟨⟨⟨fun _ _ hh => hh, ⟨fun _ hh => Op.noConfusion hh, fun _ hh => Op.noConfusion hh⟩⟩, trivial, fun _ _ hh => hh⟩, fun v hv => ?_⟩
  rw [hv.core rfl]
  refine ⟨load_tame _, fun v hv => ?_⟩
  rw [hv.os _ c rfl hc hcc]
  exact hf

section
variable (hw : g.WF)
include hw

theorem tame_lockMeta (hH : ∀ i, H i → i < g.regions) {a : W} {f : W × W → Prog β} (herr : ∀ v r, v ≠ monitorOk → (f (v, r)).Tame g c H)
    (hok : a.toNat % 4096 = 0 → a.toNat < g.dramSize.toNat → regionOf g a.toNat ≠ 0 → ¬ H (regionOf g a.toNat) →
      (f (monitorOk, dramRegionFor g a)).Tame g c (addL H (regionOf g a.toNat))) :
    (lockMetadataRegionFor g a >>= f).Tame g c H := by
  unfold lockMetadataRegionFor
  by_cases hd : (!isPageAligned a || !isDramAddress g a) = true
  · rw [if_pos hd]; exact herr _ _ (by decide)
  · rw [if_neg hd]
    have hd : isPageAligned a = true ∧ isDramAddress g a = true := by simpa using hd
    have h1 := (isPageAligned_iff a).1 hd.1
    have h2 := (isDramAddress_iff a).1 hd.2
    have hr := dramRegionFor_lt hw a
    have hrr := dramRegionFor_toNat hw a
    dsimp only
    rw [prog_assoc hw]
    refine tame_tasLock hw hr ?_ fun hn => ?_
    · rw [if_pos rfl]; exact herr _ _ (by decide)
    · rw [if_neg (by decide), prog_assoc hw]
      refine tame_readOwner hw hr fun o ov oz => ?_
      by_cases ho : (o != metadataEnclaveId) = true
      · rw [if_pos ho, prog_assoc hw]
        refine tame_clearLock hw hr ?_
        rw [sub_add hn]
        exact herr _ _ (by decide)
      · rw [if_neg ho]
        have ho : o = metadataEnclaveId := by simpa using ho
        rw [hrr] at oz hn ⊢
        exact hok h1 h2 (fun hh => by rw [oz hh] at ho; exact absurd ho (by decide)) hn

theorem tame_lockEnclave (h : g.MetaOk) {e : W} {f : W → Prog β} (herr : ∀ v, v ≠ monitorOk → (f v).Tame g c noL)
    (hok : e.toNat % 4096 = 0 → e.toNat < g.dramSize.toNat → regionOf g e.toNat ≠ 0 → (f monitorOk).Tame g c noL) :
    (lockEnclave g e >>= f).Tame g c noL := by
  unfold lockEnclave
  by_cases hd : (!isDramAddress g e || !isPageAligned e) = true
  · rw [if_pos hd]; exact herr _ (by decide)
  rw [if_neg hd, prog_assoc hw]
  refine tame_lockMeta hw noL_lt (fun v r hv => ?_) fun h1 h2 h3 _ => ?_
  · dsimp only
    rw [if_pos (bne_iff_ne.2 hv)]
    exact herr v hv
  · dsimp only
    rw [if_neg (by decide)]
    have hr := dramRegionFor_lt h.wf e
    have hrr := dramRegionFor_toNat h.wf e
    obtain ⟨p1, p2, p3⟩ := page_high h.wf h1 h2 h3
    have hoff : (e + offEnclaveLock).toNat = e.toNat := by rw [add_off (by show _ + 0 < _; exact e.isLt)]; rfl
    rw [← hrr] at h3 ⊢
    rw [prog_assoc hw]
    refine tame_calm (one_lt hr) (calm_load _) fun v => ?_
    by_cases hv : (v != metadataPageInfo e enclavePageType) = true
    · rw [if_pos hv, prog_assoc hw]
      refine tame_clearLock hw hr ?_
      rw [sub_one]
      exact herr _ (by decide)
    · rw [if_neg hv, prog_assoc hw]
      refine tame_calm (one_lt hr) (p := tas (e + offEnclaveLock)) (frame_calm (D := True) hw
        (p := tas _) ⟨⟨by rw [okAddr_iff, hoff]; omega, by rw [hoff]; exact p3⟩, fun _ _ => trivial⟩) fun busy => ?_
      rw [prog_assoc hw]
      refine tame_clearLock hw hr ?_
      rw [sub_one]
      cases busy
      · exact hok h1 h2 (by rw [← hrr]; exact h3)
      · exact herr _ (by decide)

theorem tame_createEnclave (h : g.MetaOk) (e b k n : W) (d : Bool) : (createEnclave g e b k n d).Tame g c noL := by
  unfold createEnclave
  refine tame_ite (fun _ => tame_pure _) fun _ => tame_ite (fun _ => tame_pure _) fun _ => ?_
  refine tame_lockMeta h.wf noL_lt (fun v r hv => ?_) fun h1 h2 h3 _ => ?_
  · dsimp only; rw [if_pos (bne_iff_ne.2 hv)]; exact tame_pure _
  dsimp only
  rw [if_neg (by decide)]
  have hr := dramRegionFor_lt h.wf e
  have hrr := dramRegionFor_toNat h.wf e
  obtain ⟨p1, p2, p3⟩ := page_high h.wf h1 h2 h3
  rw [← hrr]
  refine tame_readOwner h.wf hr fun o _ _ => ?_
  refine tame_ite (fun _ => tame_rel1 h.wf hr _) fun _ => ?_
  refine tame_calm (one_lt hr) (frame_calm (D := True) h.wf (high_reserve h h2 h3 (by rw [enclaveInfoPages_toNat]; exact recordPages_lt _) _ _)) fun res => ?_
  refine tame_ite (fun _ => tame_rel1 h.wf hr _) fun _ => ?_
  refine tame_calm (one_lt hr) (frame_calm (D := True) h.wf (high_initEnclaveInfo h.wf p1 (by omega) p3 _ _ _ _)) fun _ => ?_
  exact tame_rel1 h.wf hr _

theorem tame_releaseBoth {r e : W} (hr : r.toNat < g.regions) (h8 : e.toNat % 8 = 0) (hd : e.toNat + 4096 ≤ g.dramSize.toNat)
    (ht : g.monitorTop.toNat ≤ e.toNat) (v : W) :
    (clearLock g r >>= fun _ => unlockEnclave e >>= fun _ => pure v).Tame g c (addL noL r.toNat) := by
  refine tame_clearLock hw hr ?_
  rw [sub_one]
  refine tame_calm noL_lt ?_ fun _ => tame_pure _
  exact frame_calm (D := True) hw (high_storeOff hw h8 (by decide) (by show e.toNat + 0 + 8 ≤ _; omega) ht)

theorem tame_assignThread (h : g.MetaOk) (e t : W) : (assignThread g e t).Tame g c noL := by
  unfold assignThread
  refine tame_lockEnclave hw h (fun v hv => ?_) fun e1 e2 e3 => ?_
  · rw [if_pos (bne_iff_ne.2 hv)]; exact tame_pure _
  rw [if_neg (by decide)]
  obtain ⟨p1, p2, p3⟩ := page_high h.wf e1 e2 e3
  refine tame_lockMeta h.wf noL_lt (fun v r hv => ?_) fun t1 t2 t3 _ => ?_
  · dsimp only
    rw [if_pos (bne_iff_ne.2 hv)]
    refine tame_calm noL_lt ?_ fun _ => tame_pure _
    exact frame_calm (D := True) hw (high_storeOff h.wf p1 (by decide) (by show e.toNat + 0 + 8 ≤ _; omega) p3)
  dsimp only
  rw [if_neg (by decide)]
  have hr := dramRegionFor_lt h.wf t
  rw [← dramRegionFor_toNat h.wf t]
  refine tame_calm (one_lt hr) (calm_load _) fun init => ?_
  refine tame_calm (one_lt hr) (frame_calm (D := True) hw (Frame.ite (fun _ => high_reserve h e2 e3 (by rw [threadPages_toNat]; decide) _ _) fun _ => Frame.pure _)) fun res => ?_
  refine tame_ite (fun _ => tame_releaseBoth hw hr p1 p2 p3 _) fun _ => ?_
  refine tame_calm (one_lt hr) (calm_load _) fun n => ?_
  refine tame_calm (one_lt hr) (frame_calm (D := True) hw (high_storeOff h.wf p1 (by decide) (by show e.toNat + 32 + 8 ≤ _; omega) p3)) fun _ => ?_
  exact tame_releaseBoth hw hr p1 p2 p3 _

theorem tame_loadThread (h : g.MetaOk) (e t w x y z : W) : (loadThread g e t w x y z).Tame g c noL := by
  unfold loadThread
  refine tame_lockEnclave hw h (fun v hv => ?_) fun e1 e2 e3 => ?_
  · rw [if_pos (bne_iff_ne.2 hv)]; exact tame_pure _
  rw [if_neg (by decide)]
  obtain ⟨p1, p2, p3⟩ := page_high h.wf e1 e2 e3
  refine tame_lockMeta h.wf noL_lt (fun v r hv => ?_) fun t1 t2 t3 _ => ?_
  · dsimp only
    rw [if_pos (bne_iff_ne.2 hv)]
    refine tame_calm noL_lt ?_ fun _ => tame_pure _
    exact frame_calm (D := True) hw (high_storeOff h.wf p1 (by decide) (by show e.toNat + 0 + 8 ≤ _; omega) p3)
  dsimp only
  rw [if_neg (by decide)]
  have hr := dramRegionFor_lt h.wf t
  obtain ⟨q1, q2, q3⟩ := page_high h.wf t1 t2 t3
  rw [← dramRegionFor_toNat h.wf t]
  have hse : ∀ {off v : W}, off.toNat % 8 = 0 → off.toNat ≤ 296 → (store (e + off) v).Calm g c := fun ho hl => frame_calm (D := True) hw (high_storeOff h.wf p1 ho (by omega) p3)
  have hstt : ∀ {off v : W}, off.toNat % 8 = 0 → off.toNat ≤ 544 → (store (t + off) v).Calm g c := fun ho hl => frame_calm (D := True) hw (high_storeOff h.wf q1 ho (by omega) q3)
  refine tame_calm (one_lt hr) (calm_load _) fun init => ?_
  refine tame_calm (one_lt hr) (Calm.ite (fun _ => Calm.pure _) fun _ => calm_load _) fun ep => ?_
  refine tame_calm (one_lt hr) (frame_calm (D := True) hw (Frame.ite (fun _ => Frame.pure _) fun _ => high_reserve h e2 e3 (by rw [threadPages_toNat]; decide) _ _)) fun res => ?_
  refine tame_ite (fun _ => tame_releaseBoth hw hr p1 p2 p3 _) fun _ => ?_
  refine tame_calm (one_lt hr) (calm_load _) fun n => ?_
  refine tame_calm (one_lt hr) (hse (by decide) (by decide)) fun _ => ?_
  refine tame_calm (one_lt hr) (hstt (by decide) (by decide)) fun _ => ?_
  refine tame_calm (one_lt hr) (hstt (by decide) (by decide)) fun _ => ?_
  refine tame_calm (one_lt hr) (hstt (by decide) (by decide)) fun _ => ?_
  refine tame_calm (one_lt hr) (hstt (by decide) (by decide)) fun _ => ?_
  refine tame_calm (one_lt hr) (hstt (by decide) (by decide)) fun _ => ?_
  refine tame_calm (one_lt hr) (calm_load _) fun _ => ?_
  refine tame_calm (one_lt hr) (hstt (by decide) (by decide)) fun _ => ?_
  refine tame_calm (one_lt hr) (frame_calm (D := True) hw (high_extendHashWithThread h.wf p1 (by omega) p3 _ _ _ _)) fun _ => ?_
  exact tame_releaseBoth hw hr p1 p2 p3 _

theorem tame_withLocked (e : W) (k : W → Prog W) : (withLockedEnclave g e k).Tame g c noL := by
  unfold withLockedEnclave
  dsimp only
  have hr := clamped_lt hw e
  refine tame_tasLock hw hr (by rw [if_pos rfl]; exact tame_pure _) fun _ => ?_
  rw [if_neg (by decide)]
  by_cases he : e = nullEnclaveId
  · rw [if_pos he]
    refine tame_rel1 hw hr _
  · rw [if_neg he]
    unfold isValidEnclaveId
    show Prog.Tame g c _ (readOwner g (clampedDramRegionFor g e) >>= fun owner => if (!(owner == e)) = true then _ else _)
    refine tame_readOwner hw hr fun o ov hz => ?_
    have hne := owner_ne_id hw ov hz he
    rw [if_pos (by simpa using hne)]
    exact tame_rel1 hw hr _

theorem tame_loadPageTable (e p v l a : W) : (loadPageTable g e p v l a).Tame g c noL := by
  unfold loadPageTable
  exact tame_ite (fun _ => tame_pure _) fun _ => tame_ite (fun _ => tame_pure _) fun _ => tame_ite (fun _ => tame_pure _) fun _ => tame_withLocked hw _ _

theorem tame_loadPage (e p v o a : W) : (loadPage g e p v o a).Tame g c noL := by
  unfold loadPage
  exact tame_ite (fun _ => tame_pure _) fun _ => tame_ite (fun _ => tame_pure _) fun _ => tame_withLocked hw _ _

theorem tame_initEnclave (e : W) : (initEnclave g e).Tame g c noL := tame_withLocked hw _ _
theorem tame_deleteEnclave (e : W) : (deleteEnclave g e).Tame g c noL := tame_withLocked hw _ _
theorem tame_enterEnclave (e t : W) : (enterEnclave g e t).Tame g c noL := tame_withLocked hw _ _

theorem tame_copyDebug (e a os : W) (dir : Bool) (ha : e ≠ 0 ∨ g.monitorTop.toNat ≤ a.toNat) :
    (copyDebugEnclavePage g e a os dir).Tame g c noL := by
  unfold copyDebugEnclavePage
  refine tame_ite (fun _ => tame_pure _) fun hal => tame_ite (fun _ => tame_pure _) fun hdr => ?_
  have hal : isPageAligned a = true ∧ isPageAligned os = true := by simpa using hal
  have hdr : isDramAddress g a = true ∧ isDramAddress g os = true := by simpa using hdr
  have a1 := (isPageAligned_iff a).1 hal.1
  have a2 := (isDramAddress_iff a).1 hdr.1
  have o1 := (isPageAligned_iff os).1 hal.2
  have o2 := (isDramAddress_iff os).1 hdr.2
  have hr := clamped_lt hw e
  have hs := dramRegionFor_lt hw os
  dsimp only
  refine tame_tasLock hw hr (by rw [if_pos rfl]; exact tame_pure _) fun _ => ?_
  rw [if_neg (by decide)]
  refine tame_tasLock hw hs (by rw [if_pos rfl]; exact tame_rel1 hw hr _) fun hn2 => ?_
  rw [if_neg (by decide)]
  have hne : (clampedDramRegionFor g e).toNat ≠ (dramRegionFor g os).toNat := fun hh => hn2 (Or.inr hh.symm)
  have hH2 := two_lt (g := g) hr hs
  refine tame_readOwner hw hr fun oe ov3 hz3 => ?_
  refine tame_readOwner hw hs fun oo _ _ => ?_
  refine tame_calm hH2 (p := readEnclaveRegionBitmapBit g e (dramRegionFor g a)) ?_ fun bit => ?_
  · unfold readEnclaveRegionBitmapBit
    exact Calm.ite (fun _ => Calm.bind (calm_load _) fun _ => Calm.pure _) fun _ => Calm.bind (calm_load _) fun _ => Calm.pure _
  refine tame_calm hH2 (calm_load _) fun dbg => ?_
  generalize hres : (if dbg = 0 then monitorInvalidState else if (!bit) = true then monitorInvalidValue else if oo ≠ nullEnclaveId then monitorInvalidValue
    else if oe ≠ e then monitorInvalidValue else monitorOk) = res
  refine tame_calm hH2 (Calm.ite (fun hok => ?_) fun _ => Calm.pure _) fun _ => tame_rel2 hw hs hr _
  have hoe : oe = e := by
    rw [hok] at hres
    refine Classical.byContradiction fun hne => ?_
    revert hres
    repeat' split
    all_goals first | (intro hh; exact absurd hh (by decide)) | (intro _; contradiction)
  have he0 : e = 0 := Classical.byContradiction fun h0 => owner_ne_id hw ov3 hz3 h0 hoe
  have ha := ha.resolve_left (fun hh => hh he0)
  have hcl : (clampedDramRegionFor g e).toNat = 0 := by
    rw [clamped_eq hw, he0]; unfold idRegion; split
    · unfold regionOf; simp
    · rfl
  have hreg : regionOf g os.toNat ≠ 0 := fun hh => hne (by rw [hcl, dramRegionFor_toNat hw, hh])
  obtain ⟨p1, p2, p3⟩ := page_high hw o1 o2 hreg
  have hdm := dram_mod hw
  refine frame_calm (D := True) hw (Frame.ite (fun _ => ?_) fun _ => ?_)
  · exact high_copyWords hw _ _ _ p1 (by omega) (by omega) (by omega) p3 ha
  · exact high_copyWords hw _ _ _ (by omega) p1 (by omega) (by omega) ha p3

theorem tame_exitEnclave : (exitEnclave g).Tame g c noL := by
  unfold exitEnclave
  refine ⟨⟨⟨fun _ _ hh => hh, ⟨fun _ hh => Op.noConfusion hh, fun _ hh => Op.noConfusion hh⟩⟩, trivial, fun _ _ hh => hh⟩, fun v _ => ?_⟩
  show Prog.Tame g c noL (load (coreA g v + offCoreEnclaveId) >>= fun _ => load (coreA g v + offCoreThreadId) >>= fun _ =>
    load (coreA g v + offCoreThread) >>= fun _ => pure monitorOk)
  exact tame_calm noL_lt (calm_load _) fun _ => tame_calm noL_lt (calm_load _) fun _ => tame_calm noL_lt (calm_load _) fun _ => tame_pure _

end
end Sanctum
