import Verif.Lemmas.Late
import Verif.Lemmas.ConfineCalls2
import Verif.Spec.Footprint
/-
The calls write, outside the monitor's memory, only what their arguments name.
-/
namespace Sanctum
open Machine

variable {g : Cfg} {c : Nat} {α β : Type} {P : Nat → Prop}

/-- The program writes only the monitor's memory and `P`. -/
def Prog.Puts (g : Cfg) (c : Nat) (P : Nat → Prop) : Prog α → Prop
  | .ret _ => True
  | .op o f => (∀ x, o.mutates x → x < g.monitorTop.toNat ∨ P x) ∧ ∀ v, RespOk g c (fun _ => False) o v → Prog.Puts g c P (f v)
  | .fault => True
  | .diverge => True

theorem Prog.Low.puts {p : Prog α} (hp : p.Low g c) : p.Puts g c P := by
  induction p with
  | ret a => trivial
  | op o k ih => exact ⟨fun x hx => Or.inl (hp.1 x hx), fun v hv => ih v (hp.2 v hv)⟩
  | fault => trivial
  | diverge => trivial

theorem Prog.Within.puts {S : Nat → Prop} {p : Prog α} (hp : p.Within g S) (h : ∀ x, S x → P x) : p.Puts g c P := by
  induction p with
  | ret a => trivial
  | op o k ih =>
      refine ⟨fun x hx => Or.inr (h x ?_), fun v _ => ih v (hp.2 v)⟩
      have h1 := hp.1
      cases o <;> simp only [OpIn, Op.mutates] at h1 hx <;> first | exact hx.elim | exact h1.elim | (rw [← hx]; exact h1.2)
  | fault => exact hp.elim
  | diverge => exact hp.elim

theorem Puts.bind {p : Prog α} {f : α → Prog β} (hp : p.Puts g c P) (hf : ∀ a, (f a).Puts g c P) : (p >>= f).Puts g c P := by
  show (p.bind f).Puts g c P
  induction p with
  | ret a => exact hf a
  | op o k ih => exact ⟨hp.1, fun v hv => ih v (hp.2 v hv)⟩
  | fault => trivial
  | diverge => trivial

theorem Puts.pure (a : α) : (pure a : Prog α).Puts g c P := trivial

theorem Puts.ite {b : Prop} [Decidable b] {p q : Prog α} (hp : b → p.Puts g c P) (hq : ¬ b → q.Puts g c P) : (if b then p else q).Puts g c P := by
  split
  · exact hp ‹_›
  · exact hq ‹_›

theorem puts_load (a : W) : (load a).Puts g c P := (low_load a).puts

theorem puts_store {a v : W} (h : P a.toNat) : (store a v).Puts g c P := ⟨fun _ hx => Or.inr ((show a.toNat = _ from hx) ▸ h), fun _ _ => trivial⟩

theorem puts_tas {a : W} (h : P a.toNat) : (tas a).Puts g c P := ⟨fun _ hx => Or.inr ((show a.toNat = _ from hx) ▸ h), fun _ _ => trivial⟩

theorem puts_tasLock (hw : g.WF) {r : W} (hr : r.toNat < g.regions) {f : Bool → Prog β} (hf : ∀ b, (f b).Puts g c P) : (tasLock g r >>= f).Puts g c P := by
  refine ⟨fun x hx => Or.inl ?_, fun v _ => hf _⟩
  have hx : (regionA g r + offLock).toNat = x := hx
  have := lockA_toNat hw hr
  have := lockA_lt hw hr
  omega

theorem puts_clearLock (hw : g.WF) {r : W} (hr : r.toNat < g.regions) {f : Unit → Prog β} (hf : (f ()).Puts g c P) : (clearLock g r >>= f).Puts g c P := by
  refine ⟨fun x hx => Or.inl ?_, fun v _ => hf⟩
  have hx : (regionA g r + offLock).toNat = x := hx
  have := lockA_toNat hw hr
  have := lockA_lt hw hr
  omega

theorem puts_readOwner (hw : g.WF) {r : W} (hr : r.toNat < g.regions) {f : W → Prog β}
    (hf : ∀ v, OwnerVal v → (r.toNat = 0 → v = nullEnclaveId) → (f v).Puts g c P) : (readOwner g r >>= f).Puts g c P := by
  refine ⟨fun _ hx => hx.elim, fun v hv => ?_⟩
  have h1 := hv.owner _ _ rfl hr (ownerA_toNat hw hr)
  exact hf v h1.1 h1.2

theorem puts_innerPagesLoop {lo hi : Nat} (hP : ∀ x, lo ≤ x → x < hi → P x) : ∀ (n : Nat) (p : W), lo ≤ p.toNat → p.toNat + 8 * n ≤ hi → hi < 2 ^ 64 →
    (innerPagesLoop n p).Puts g c P := by
  intro n
  induction n with
  | zero => intros; exact Puts.pure _
  | succ n ih =>
      intro p h1 h2 h3
      unfold innerPagesLoop
      refine Puts.bind (puts_store (hP _ h1 (by omega))) fun v => ?_
      have e1 : (p + 8).toNat = p.toNat + 8 := add_off (by show p.toNat + 8 < _; omega)
      exact ih _ (by omega) (by omega) h3

theorem puts_pagesEmptyLoop : ∀ (n : Nat) (p : W), (pagesEmptyLoop n p).Puts g c P := by
  intro n
  induction n with
  | zero => intros; exact Puts.pure _
  | succ n ih =>
      intro p
      unfold pagesEmptyLoop
      exact Puts.bind (puts_load _) fun v => Puts.ite (fun _ => Puts.pure _) fun _ => ih _

theorem puts_copyWords : ∀ (n : Nat) (d s : W), d.toNat + 8 * n < 2 ^ 64 → (∀ x, d.toNat ≤ x → x < d.toNat + 8 * n → P x) →
    (copyWords n d s).Puts g c P := by
  intro n
  induction n with
  | zero => intros; exact Puts.pure _
  | succ n ih =>
      intro d s h1 h3
      unfold copyWords
      refine Puts.bind (puts_load _) fun v => Puts.bind (puts_store (h3 _ (Nat.le_refl _) (by omega))) fun _ => ?_
      have e1 : (d + 8).toNat = d.toNat + 8 := add_off (by show d.toNat + 8 < _; omega)
      exact ih _ _ (by omega) fun x a1 a2 => h3 x (by omega) (by omega)

theorem puts_storeOff {e off v : W} (hd : e.toNat + off.toNat < 2 ^ 64) (h : P (e.toNat + off.toNat)) : (store (e + off) v).Puts g c P :=
  puts_store (by rw [add_off hd]; exact h)

theorem puts_reserve (h : g.MetaOk) {a n : W} (ha : a.toNat < g.dramSize.toNat) (hn : n.toNat < 2 ^ 52) (o t : W)
    (hP : ∀ x, InEntries g a.toNat (max 1 n.toNat) x → P x) : (reserveMetadataPages g a n o t).Puts g c P := by
  obtain ⟨b1, b2, b3, b4, b5, b6⟩ := entry_bounds h ha
  have hidx : (dramStripePageFor g a).toNat = pageIndex g a.toNat := by
    rw [dramStripePageFor_toNat h.wf]; rfl
  have hsp := h.wf.stripe_le
  have hgt : (dramStripePageFor g a + n > g.stripePages) ↔ 2 ^ g.sp < pageIndex g a.toNat + n.toNat := by
    show g.stripePages < _ ↔ _
    rw [W.lt_iff, h.wf.stripePages, add_off (by rw [hidx]; omega), hidx]
  have hp := entry_toNat h ha
  have hsl := g.dramSize.isLt
  have hsm : (regionOf g a.toNat + 1) * g.stripeSize.toNat = regionOf g a.toNat * g.stripeSize.toNat + g.stripeSize.toNat := Nat.succ_mul _ _
  unfold reserveMetadataPages assignMetadataPages
  refine Puts.ite (fun _ => Puts.pure _) fun hfit => ?_
  rw [hgt] at hfit
  dsimp only
  refine Puts.bind (puts_pagesEmptyLoop _ _) fun ok => Puts.ite (fun _ => ?_) fun _ => Puts.pure _
  refine Puts.bind (puts_store ?_) fun _ => Puts.bind ?_ fun _ => Puts.pure _
  · refine hP _ ?_
    unfold InEntries
    rw [hp]
    omega
  · refine puts_innerPagesLoop (lo := entryA g a.toNat) (hi := entryA g a.toNat + 8 * max 1 n.toNat) (fun x x1 x2 => hP x ⟨x1, x2⟩) _ _ ?_ ?_ ?_
    · omega
    · omega
    · omega

variable (hw : g.WF)
include hw

theorem puts_rel1 {r : W} (hr : r.toNat < g.regions) (v : α) : (clearLock g r >>= fun _ => pure v).Puts g c P := (low_rel1 hw hr v).puts

theorem puts_lockMeta {a : W} {f : W × W → Prog β} (herr : ∀ v r, v ≠ monitorOk → (f (v, r)).Puts g c P)
    (hok : a.toNat % 4096 = 0 → a.toNat < g.dramSize.toNat → (f (monitorOk, dramRegionFor g a)).Puts g c P) :
    (lockMetadataRegionFor g a >>= f).Puts g c P := by
  unfold lockMetadataRegionFor
  by_cases hd : (!isPageAligned a || !isDramAddress g a) = true
  · rw [if_pos hd]; exact herr _ _ (by decide)
  · rw [if_neg hd]
    have hd : isPageAligned a = true ∧ isDramAddress g a = true := by simpa using hd
    have h1 := (isPageAligned_iff a).1 hd.1
    have h2 := (isDramAddress_iff a).1 hd.2
    have hr := dramRegionFor_lt hw a
    dsimp only
    rw [prog_assoc hw]
    refine puts_tasLock hw hr fun b => ?_
    cases b
    · rw [if_neg (by decide), prog_assoc hw]
      refine puts_readOwner hw hr fun o ov oz => ?_
      by_cases ho : (o != metadataEnclaveId) = true
      · rw [if_pos ho, prog_assoc hw]
        exact puts_clearLock hw hr (herr _ _ (by decide))
      · rw [if_neg ho]
        exact hok h1 h2
    · rw [if_pos rfl]; exact herr _ _ (by decide)

theorem puts_lockEnclave {e : W} {f : W → Prog β} (hP : P e.toNat) (herr : ∀ v, v ≠ monitorOk → (f v).Puts g c P)
    (hok : e.toNat % 4096 = 0 → e.toNat < g.dramSize.toNat → (f monitorOk).Puts g c P) : (lockEnclave g e >>= f).Puts g c P := by
  unfold lockEnclave
  by_cases hd : (!isDramAddress g e || !isPageAligned e) = true
  · rw [if_pos hd]; exact herr _ (by decide)
  rw [if_neg hd, prog_assoc hw]
  refine puts_lockMeta hw (fun v r hv => ?_) fun h1 h2 => ?_
  · dsimp only
    rw [if_pos (bne_iff_ne.2 hv)]
    exact herr v hv
  · dsimp only
    rw [if_neg (by decide)]
    have hr := dramRegionFor_lt hw e
    have hoff : (e + offEnclaveLock).toNat = e.toNat := by rw [add_off (by show _ + 0 < _; exact e.isLt)]; rfl
    rw [prog_assoc hw]
    refine Puts.bind (puts_load _) fun v => ?_
    by_cases hv : (v != metadataPageInfo e enclavePageType) = true
    · rw [if_pos hv, prog_assoc hw]
      exact puts_clearLock hw hr (herr _ (by decide))
    · rw [if_neg hv, prog_assoc hw]
      refine Puts.bind (puts_tas (by rw [hoff]; exact hP)) fun busy => ?_
      rw [prog_assoc hw]
      refine puts_clearLock hw hr ?_
      cases busy
      · exact hok h1 h2
      · exact herr _ (by decide)

theorem puts_unlockEnclave {e : W} (hP : P e.toNat) : (unlockEnclave e).Puts g c P := by
  have hoff : (e + offEnclaveLock).toNat = e.toNat := by rw [add_off (by show _ + 0 < _; exact e.isLt)]; rfl
  exact puts_store (by rw [hoff]; exact hP)

theorem puts_createMeta (r : W) : (createMetadataRegion g r).Puts g c (Names g (.createMetadataRegion r)) := by
  unfold createMetadataRegion
  refine Puts.ite (fun _ => Puts.pure _) fun hd => ?_
  have hr := (isValidDramRegion_iff (g := g) r).1 (by simpa using hd)
  refine puts_tasLock hw hr fun b => Puts.ite (fun _ => Puts.pure _) fun _ => ?_
  refine puts_readOwner hw hr fun o _ _ => Puts.ite (fun _ => puts_rel1 hw hr _) fun _ => ?_
  unfold initMetadataRegion
  have hend := hw.region_end_le hr
  have hmb := mapBytes_le hw
  have hstart := dramRegionStart_toNat hw r (Nat.le_of_lt hr)
  have hbytes := mapBytes_toNat hw
  refine Puts.bind (Puts.bind (low_ownerStore hw hr).puts fun _ => Puts.bind
    (low_store (by rw [pinnedA_toNat hw hr]; exact record_lt hw hr (Or.inr (Or.inr (Or.inl rfl))))).puts fun _ => ?_) fun _ => puts_rel1 hw hr _
  refine Prog.Within.puts (within_bzero ?_ ?_) fun x hx => ?_
  · rw [hstart, hw.stripeSize, Nat.pow_add, show (2 : Nat) ^ 12 = 8 * 512 from rfl, Nat.mul_assoc, ← Nat.mul_assoc, Nat.mul_comm _ 8, Nat.mul_assoc]
    exact Nat.mul_mod_right _ _
  · rw [hstart, hbytes]
    have : (r.toNat + 1) * g.stripeSize.toNat = r.toNat * g.stripeSize.toNat + g.stripeSize.toNat := Nat.succ_mul _ _
    omega
  · rw [hstart, hbytes] at hx
    exact hx

theorem puts_withLocked (e : W) (k : W → Prog W) : (withLockedEnclave g e k).Puts g c P := by
  unfold withLockedEnclave
  dsimp only
  have hr := clamped_lt hw e
  refine puts_tasLock hw hr fun _ => Puts.ite (fun _ => Puts.pure _) fun _ => ?_
  by_cases he : e = nullEnclaveId
  · rw [if_pos he]
    exact puts_rel1 hw hr _
  · rw [if_neg he]
    unfold isValidEnclaveId
    show Prog.Puts g c _ (readOwner g (clampedDramRegionFor g e) >>= fun owner => if (!(owner == e)) = true then _ else _)
    refine puts_readOwner hw hr fun o ov hz => ?_
    have hne := owner_ne_id hw ov hz he
    rw [if_pos (by simpa using hne)]
    exact puts_rel1 hw hr _

theorem puts_loadPageTable (e p v l a : W) : (loadPageTable g e p v l a).Puts g c P := by
  unfold loadPageTable
  exact Puts.ite (fun _ => Puts.pure _) fun _ => Puts.ite (fun _ => Puts.pure _) fun _ => Puts.ite (fun _ => Puts.pure _) fun _ => puts_withLocked hw _ _

theorem puts_loadPage (e p v o a : W) : (loadPage g e p v o a).Puts g c P := by
  unfold loadPage
  exact Puts.ite (fun _ => Puts.pure _) fun _ => Puts.ite (fun _ => Puts.pure _) fun _ => puts_withLocked hw _ _

theorem puts_exitEnclave : (exitEnclave g).Puts g c P := by
  unfold exitEnclave
  exact Puts.bind (p := act .curCore) ⟨fun _ hh => hh.elim, fun _ _ => trivial⟩ fun v => Puts.bind (puts_load _) fun _ => Puts.bind (puts_load _) fun _ =>
    Puts.bind (puts_load _) fun _ => Puts.pure _

theorem puts_createThread (hc : c < g.cores) (t p : W) : (createThread g t p).Puts g c P := by
  unfold createThread
  refine Puts.ite (fun _ => Puts.pure _) fun hp => Puts.ite (fun _ => Puts.pure _) fun hd => Puts.ite (fun _ => Puts.pure _) fun _ => ?_
  dsimp only
  rw [threadPagesLoop_ok hw (by simpa using hp) (by simpa using hd)]
  refine Prog.Low.puts (low_currentEnclave hw hc ?_)
  rw [show nullEnclaveId = (0 : W) from rfl, dramRegionFor_zero hw]
  refine low_tasLock hw (zero_lt hw) fun _ => Low.ite (fun _ => Low.pure _) fun _ => ?_
  refine Low.bind (Low.bind (low_load _) fun _ => Low.pure _) fun _ => ?_
  exact Low.ite (fun _ => Low.pure _) fun _ => low_rel1 hw (zero_lt hw) _

theorem puts_copyDebug (e a os : W) (d : Bool) : (copyDebugEnclavePage g e a os d).Puts g c (Names g (.copyDebugEnclavePage e a os d)) := by
  unfold copyDebugEnclavePage
  refine Puts.ite (fun _ => Puts.pure _) fun hal => Puts.ite (fun _ => Puts.pure _) fun hdr => ?_
  have hal : isPageAligned a = true ∧ isPageAligned os = true := by simpa using hal
  have hdr : isDramAddress g a = true ∧ isDramAddress g os = true := by simpa using hdr
  have a1 := (isPageAligned_iff a).1 hal.1
  have a2 := (isDramAddress_iff a).1 hdr.1
  have o1 := (isPageAligned_iff os).1 hal.2
  have o2 := (isDramAddress_iff os).1 hdr.2
  have hr := clamped_lt hw e
  have hs := dramRegionFor_lt hw os
  have hdm := dram_mod hw
  have hsl := g.dramSize.isLt
  dsimp only
  refine puts_tasLock hw hr fun _ => Puts.ite (fun _ => Puts.pure _) fun _ => ?_
  refine puts_tasLock hw hs fun _ => Puts.ite (fun _ => puts_rel1 hw hr _) fun _ => ?_
  refine puts_readOwner hw hr fun oe ov3 hz3 => ?_
  refine puts_readOwner hw hs fun oo _ _ => ?_
  refine Puts.bind (p := readEnclaveRegionBitmapBit g e (dramRegionFor g a)) ?_ fun bit => ?_
  · unfold readEnclaveRegionBitmapBit
    exact Puts.ite (fun _ => Puts.bind (puts_load _) fun _ => Puts.pure _) fun _ => Puts.bind (puts_load _) fun _ => Puts.pure _
  refine Puts.bind (puts_load _) fun dbg => ?_
  generalize hres : (if dbg = 0 then monitorInvalidState else if (!bit) = true then monitorInvalidValue else if oo ≠ nullEnclaveId then monitorInvalidValue
    else if oe ≠ e then monitorInvalidValue else monitorOk) = res
  refine Puts.bind (Puts.ite (fun hok => ?_) fun _ => Puts.pure _) fun _ => (low_rel2 hw hs hr _).puts
  have hoe : oe = e := by
    rw [hok] at hres
    refine Classical.byContradiction fun hne => ?_
    revert hres
    repeat' split
    all_goals first | (intro hh; exact absurd hh (by decide)) | (intro _; contradiction)
  have he0 : e = 0 := Classical.byContradiction fun h0 => owner_ne_id hw ov3 hz3 h0 hoe
  refine Puts.ite (fun hd => ?_) fun hd => ?_
  · refine puts_copyWords _ _ _ (by omega) fun x x1 x2 => ⟨he0, ?_⟩
    rw [if_pos hd]
    exact ⟨x1, by omega⟩
  · refine puts_copyWords _ _ _ (by omega) fun x x1 x2 => ⟨he0, ?_⟩
    rw [if_neg hd]
    exact ⟨x1, by omega⟩
omit hw

theorem puts_createEnclave (h : g.MetaOk) (e b k n : W) (d : Bool) : (createEnclave g e b k n d).Puts g c (Names g (.createEnclave e b k n d)) := by
  have hw := h.wf
  unfold createEnclave
  refine Puts.ite (fun _ => Puts.pure _) fun _ => Puts.ite (fun _ => Puts.pure _) fun _ => ?_
  refine puts_lockMeta hw (fun v r hv => ?_) fun h1 h2 => ?_
  · dsimp only; rw [if_pos (bne_iff_ne.2 hv)]; exact Puts.pure _
  dsimp only
  rw [if_neg (by decide)]
  have hr := dramRegionFor_lt hw e
  have hdm := dram_mod hw
  have hsl := g.dramSize.isLt
  refine puts_readOwner hw hr fun o _ _ => Puts.ite (fun _ => puts_rel1 hw hr _) fun _ => ?_
  refine Puts.bind (puts_reserve h h2 (by rw [enclaveInfoPages_toNat]; exact recordPages_lt _) _ _ fun x hx => Or.inl ?_) fun res => ?_
  · rwa [enclaveInfoPages_toNat] at hx
  refine Puts.ite (fun _ => puts_rel1 hw hr _) fun _ => Puts.bind ?_ fun _ => puts_rel1 hw hr _
  have hst : ∀ {off v : W}, off.toNat < 304 → (store (e + off) v).Puts g c (Names g (.createEnclave e b k n d)) :=
    fun ho => puts_storeOff (by omega) (Or.inr ⟨by omega, by omega⟩)
  unfold initEnclaveInfo
  refine Puts.bind (hst (by decide)) fun _ => Puts.bind (hst (by decide)) fun _ => Puts.bind (hst (by decide)) fun _ => Puts.bind (hst (by decide)) fun _ =>
    Puts.bind (hst (by decide)) fun _ => Puts.bind (hst (by decide)) fun _ => Puts.bind (hst (by decide)) fun _ => Puts.bind (hst (by decide)) fun _ =>
    Puts.bind (hst (by decide)) fun _ => Puts.bind (hst (by decide)) fun _ => ?_
  exact (within_initEnclaveHash (by omega) (by omega) b k n d).puts fun x hx => Or.inr ⟨by have := hx.1; omega, by have := hx.2; omega⟩

theorem puts_assignThread (h : g.MetaOk) (e t : W) : (assignThread g e t).Puts g c (Names g (.assignThread e t)) := by
  have hw := h.wf
  have he : Names g (.assignThread e t) e.toNat := Or.inr ⟨by omega, by omega⟩
  have hun := puts_unlockEnclave (c := c) hw he
  unfold assignThread
  refine puts_lockEnclave hw he (fun v hv => ?_) fun e1 e2 => ?_
  · rw [if_pos (bne_iff_ne.2 hv)]; exact Puts.pure _
  rw [if_neg (by decide)]
  have hdm := dram_mod hw
  have hsl := g.dramSize.isLt
  refine puts_lockMeta hw (fun v r hv => ?_) fun t1 t2 => ?_
  · dsimp only
    rw [if_pos (bne_iff_ne.2 hv)]
    exact Puts.bind hun fun _ => Puts.pure _
  dsimp only
  rw [if_neg (by decide)]
  have hr := dramRegionFor_lt hw t
  refine Puts.bind (puts_load _) fun init => ?_
  refine Puts.bind (Puts.ite (fun _ => puts_reserve h e2 (by rw [threadPages_toNat]; decide) _ _ fun x hx => Or.inl ?_) fun _ => Puts.pure _) fun res => ?_
  · rwa [threadPages_toNat] at hx
  refine Puts.ite (fun _ => puts_clearLock hw hr (Puts.bind hun fun _ => Puts.pure _)) fun _ => ?_
  refine Puts.bind (puts_load _) fun n => Puts.bind (puts_storeOff (off := offThreadCount) (by show _ + 32 < _; omega) ?_) fun _ =>
    puts_clearLock hw hr (Puts.bind hun fun _ => Puts.pure _)
  exact Or.inr ⟨by show _ ≤ _ + 32; omega, by show _ + 32 < _; omega⟩

theorem puts_loadThread (h : g.MetaOk) (e t w x y z : W) : (loadThread g e t w x y z).Puts g c (Names g (.loadThread e t w x y z)) := by
  have hw := h.wf
  have he : Names g (.loadThread e t w x y z) e.toNat := Or.inr (Or.inl ⟨by omega, by omega⟩)
  have hun := puts_unlockEnclave (c := c) hw he
  unfold loadThread
  refine puts_lockEnclave hw he (fun v hv => ?_) fun e1 e2 => ?_
  · rw [if_pos (bne_iff_ne.2 hv)]; exact Puts.pure _
  rw [if_neg (by decide)]
  have hdm := dram_mod hw
  have hsl := g.dramSize.isLt
  refine puts_lockMeta hw (fun v r hv => ?_) fun t1 t2 => ?_
  · dsimp only
    rw [if_pos (bne_iff_ne.2 hv)]
    exact Puts.bind hun fun _ => Puts.pure _
  dsimp only
  rw [if_neg (by decide)]
  have hr := dramRegionFor_lt hw t
  have hstt : ∀ {off v : W}, off.toNat < 48 → (store (t + off) v).Puts g c (Names g (.loadThread e t w x y z)) :=
    fun ho => puts_storeOff (by omega) (Or.inr (Or.inr ⟨by omega, by omega⟩))
  refine Puts.bind (puts_load _) fun init => ?_
  refine Puts.bind (Puts.ite (fun _ => Puts.pure _) fun _ => puts_load _) fun ep => ?_
  refine Puts.bind (Puts.ite (fun _ => Puts.pure _) fun _ => puts_reserve h e2 (by rw [threadPages_toNat]; decide) _ _ fun x hx => Or.inl ?_) fun res => ?_
  · rwa [threadPages_toNat] at hx
  refine Puts.ite (fun _ => puts_clearLock hw hr (Puts.bind hun fun _ => Puts.pure _)) fun _ => ?_
  refine Puts.bind (puts_load _) fun n => Puts.bind (puts_storeOff (off := offThreadCount) (by show _ + 32 < _; omega) ?_) fun _ => ?_
  · exact Or.inr (Or.inl ⟨by show _ ≤ _ + 32; omega, by show _ + 32 < _; omega⟩)
  refine Puts.bind (hstt (by decide)) fun _ => Puts.bind (hstt (by decide)) fun _ => Puts.bind (hstt (by decide)) fun _ => Puts.bind (hstt (by decide)) fun _ =>
    Puts.bind (hstt (by decide)) fun _ => Puts.bind (puts_load _) fun _ => Puts.bind (hstt (by decide)) fun _ => Puts.bind ?_ fun _ =>
    puts_clearLock hw hr (Puts.bind hun fun _ => Puts.pure _)
  exact (within_extendHashWithThread (by omega) (by omega) _ _ _ _).puts fun x hx => Or.inr (Or.inl ⟨by have := hx.1; omega, by have := hx.2; omega⟩)

/-- All calls of the theorem. -/
theorem puts_call (hw : g.WF) (k : Call) (hc : c < g.cores) (hk : CoveredC g k) : (k.prog g).Puts g c (Names g k) := by
  obtain ⟨hcov, hrec⟩ := hk
  cases k
  case acceptThread => exact hcov.elim
  case createThread t p => exact puts_createThread hw hc t p
  case assignThread e t => exact puts_assignThread ⟨hw, hcov.1, hcov.2⟩ e t
  case loadThread e t w x y z => exact puts_loadThread ⟨hw, hcov.1, hcov.2⟩ e t w x y z
  case deleteThread t => exact (low_deleteThread hw hc t).puts
  case blockDramRegion r => exact (low_block hw hc r).puts
  case dramRegionCheckOwnership r => exact (low_check hw hc r).puts
  case setDmaRange b n => exact (low_setDmaRange hw b n).puts
  case dramRegionState r => exact (low_state hw r).puts
  case dramRegionOwner r => exact (low_owner hw r).puts
  case assignDramRegion r e => exact (low_assign hw r e).puts
  case freeDramRegion r => exact (low_free hw r).puts
  case flushCachedDramRegions => exact (low_flush hw hc).puts
  case createMetadataRegion r => exact puts_createMeta hw r
  case exitEnclave => exact puts_exitEnclave hw
  case createEnclave e b k n d => exact puts_createEnclave ⟨hw, hcov.1, hcov.2⟩ e b k n d
  case loadPageTable e p v l a => exact puts_loadPageTable hw e p v l a
  case loadPage e p v o a => exact puts_loadPage hw e p v o a
  case initEnclave e => exact show (initEnclave g e).Puts g c _ from puts_withLocked hw _ _
  case enterEnclave e t => exact show (enterEnclave g e t).Puts g c _ from puts_withLocked hw _ _
  case deleteEnclave e => exact show (deleteEnclave g e).Puts g c _ from puts_withLocked hw _ _
  case copyDebugEnclavePage e a os d => exact puts_copyDebug hw e a os d
  all_goals trivial

end Sanctum
