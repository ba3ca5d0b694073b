import Verif.Spec.Lent
import Verif.Lemmas.ConfineCalls2
import Verif.Lemmas.LinTame
import Verif.Lemmas.Late
/-
The addresses that the thread calls access: before they know that the region of the enclave is a metadata region, and after.
-/
namespace Sanctum
open Machine

variable {g : Cfg} {c : Nat} {α β : Type} {A H T : Nat → Prop}

theorem Prog.Cfn.args {A' : Nat → Prop} (h : ∀ x, A x → A' x) {Q : α → (Nat → Prop) → (Nat → Prop) → Prop} {p : Prog α} {H T : Nat → Prop}
    (hp : p.Cfn g c A Q H T) : p.Cfn g c A' Q H T := by
  induction p generalizing H T with
  | ret a => exact hp
  | op o k ih => exact ⟨fun x hx => (hp.1 x hx).imp id (Or.imp (h x) id), fun v hv => ih v (hp.2 v hv)⟩
  | fault => trivial
  | diverge => trivial

/-- The words of region `i`. -/
def InRegion (g : Cfg) (i : Nat) (x : Nat) : Prop := regionOf g x = i

/-- The program accesses the monitor's memory and regions known to be metadata and held; from some moment on, at which region `i` is one of these,
also region `i`. -/
def Prog.Lent (g : Cfg) (c i : Nat) : (Nat → Prop) → (Nat → Prop) → Prog α → Prop
  | _, _, .ret _ => True
  | H, T, .op o k => (∀ x, o.accesses g x → x < g.monitorTop.toNat ∨ T (regionOf g x)) ∧
      ∀ v, RespOk g c H o v → (tStep g o v H T i ∧ (k v).Cfn g c (InRegion g i) Top (heldStep g o v H) (tStep g o v H T)) ∨
        Prog.Lent g c i (heldStep g o v H) (tStep g o v H T) (k v)
  | _, _, .fault => True
  | _, _, .diverge => True

theorem Prog.Cfn.lent {i : Nat} {p : Prog α} {H T : Nat → Prop} (hp : p.Cfn g c noL Top H T) : p.Lent g c i H T := by
  induction p generalizing H T with
  | ret a => trivial
  | op o k ih => exact ⟨fun x hx => (hp.1 x hx).imp id (fun hh => hh.resolve_left fun hn => hn), fun v hv => Or.inr (ih v (hp.2 v hv))⟩
  | fault => trivial
  | diverge => trivial

/-- A program that begins with `lock_enclave`. -/
theorem lent_lockEnclave (h : g.MetaOk) {e : W} {f : W → Prog β} (herr : ∀ A v, v ≠ monitorOk → (f v).Cfn g c A Top noL noL)
    (hok : e.toNat % 4096 = 0 → e.toNat < g.dramSize.toNat → regionOf g e.toNat ≠ 0 →
      (f monitorOk).Cfn g c (InRegion g (regionOf g e.toNat)) Top noL noL) :
    (lockEnclave g e >>= f).Lent g c (regionOf g e.toNat) noL noL := by
  have hw := h.wf
  unfold lockEnclave
  by_cases hd : (!isDramAddress g e || !isPageAligned e) = true
  · rw [if_pos hd]; exact (herr _ _ (by decide)).lent
  rw [if_neg hd, prog_assoc hw]
  have hd : isDramAddress g e = true ∧ isPageAligned e = true := by simpa using hd
  have h1 := (isPageAligned_iff e).1 hd.2
  have h2 := (isDramAddress_iff e).1 hd.1
  have hr := dramRegionFor_lt hw e
  have hrr := dramRegionFor_toNat hw e
  unfold lockMetadataRegionFor
  rw [if_neg (by simp [hd.1, hd.2])]
  dsimp only
  rw [prog_assoc hw]
  have la := lockA_toNat hw hr
  have ll := lockA_lt hw hr
  have oa := ownerA_toNat hw hr
  have ol := ownerA_lt hw hr
  refine ⟨fun x hx => Or.inl ?_, fun v hv => Or.inr ?_⟩
  · have hx : (regionA g (dramRegionFor g e) + offLock).toNat = x := hx
    omega
  show Prog.Lent g c _ _ _ ((if (v != 0) = true then pure (monitorConcurrentCall, dramRegionFor g e) else _) >>= _)
  by_cases hv0 : (v != 0) = true
  · rw [if_pos hv0]
    exact Prog.Cfn.lent ((herr _ _ (by decide : monitorConcurrentCall ≠ monitorOk)).weaken (fun _ hh => hh.elim) fun _ hh => hh.elim)
  rw [if_neg hv0, prog_assoc hw]
  obtain rfl : v = 0 := by simpa using hv0
  refine ⟨fun x hx => Or.inl ?_, fun o ho => ?_⟩
  · have hx : (regionA g (dramRegionFor g e) + offOwner).toNat = x := hx
    omega
  have hz := (ho.owner _ _ rfl hr oa).2
  show (_ ∧ Prog.Cfn g c _ _ _ _ ((if (o != metadataEnclaveId) = true then _ else _) >>= _)) ∨
    Prog.Lent g c _ _ _ ((if (o != metadataEnclaveId) = true then _ else _) >>= _)
  by_cases hom : (o != metadataEnclaveId) = true
  · rw [if_pos hom, prog_assoc hw]
    exact Or.inr (Prog.Cfn.lent (conf_release hw hr (herr _ _ (by decide : monitorInvalidState ≠ monitorOk))))
  rw [if_neg hom]
  have hom : o = metadataEnclaveId := by simpa using hom
  rw [hrr] at la oa
  have h3 : regionOf g e.toNat ≠ 0 := fun hh => by rw [hz (by rw [hrr]; exact hh)] at hom; exact absurd hom (by decide)
  have hrl := regionOf_lt hw e.toNat
  refine Or.inl ⟨Or.inr ⟨hrl, Or.inr ⟨hrl, rfl, la⟩, _, oa, Or.inl ⟨rfl, hom⟩⟩, ?_⟩
  show Prog.Cfn g c _ Top _ _ ((do
      let info ← load (metadataPageInfoFor g e)
      if info != metadataPageInfo e enclavePageType then do
        clearLock g (dramRegionFor g e)
        pure monitorInvalidValue
      else do
        let busy ← tas (e + offEnclaveLock)
        clearLock g (dramRegionFor g e)
        pure (if busy then monitorConcurrentCall else monitorOk)) >>= f)
  obtain ⟨p1, p2, p3⟩ := page_high hw h1 h2 h3
  have hsl := g.dramSize.isLt
  refine Prog.Cfn.weaken (H := addL noL (regionOf g e.toNat)) (T := noL) ?_ (fun i hi => ?_) fun _ hh => hh.elim
  · obtain ⟨b1, b2, b3, b4, b5, b6⟩ := entry_bounds h h2
    have hen := entry_toNat h h2
    have hst := region_start_ge g h3
    have hen2 : InRegion g (regionOf g e.toNat) (metadataPageInfoFor g e).toNat := by
      rw [hen]
      refine regionOf_span hw hrl b2 ?_
      have : (regionOf g e.toNat + 1) * g.stripeSize.toNat = regionOf g e.toNat * g.stripeSize.toNat + g.stripeSize.toNat := Nat.succ_mul _ _
      omega
    rw [prog_assoc hw]
    refine conf_quiet_bind (S := InRegion g (regionOf g e.toNat)) (one_lt hrl) noL_lt (quiet_load (Or.inr hen2)) (fun _ hx => Or.inl hx) fun info => ?_
    by_cases hi : (info != metadataPageInfo e enclavePageType) = true
    · rw [if_pos hi, prog_assoc hw]
      exact conf_release hw hr (herr _ _ (by decide))
    rw [if_neg hi, prog_assoc hw]
    have hoff : (e + offEnclaveLock).toNat = e.toNat := by rw [add_off (by show _ + 0 < _; exact e.isLt)]; rfl
    refine conf_quiet_bind (S := InRegion g (regionOf g e.toNat)) (one_lt hrl) noL_lt (p := tas (e + offEnclaveLock)) ?_ (fun _ hx => Or.inl hx) fun busy => ?_
    · refine ⟨⟨fun x hx => Or.inr ?_, fun i hi => ?_⟩, fun _ _ => trivial⟩
      · have hx : (e + offEnclaveLock).toNat = x := hx
        rw [← hx, hoff]; rfl
      · have := high_quiet hw p3 i hi
        exact ⟨fun hh => this.1 (hoff ▸ hh), fun hh => this.2 (hoff ▸ hh)⟩
    rw [prog_assoc hw]
    refine conf_release hw hr ?_
    cases busy
    · exact hok h1 h2 h3
    · exact herr _ _ (by decide)
  · exact hi.elim (fun hh => hh.elim) fun hh => by subst hh; exact Or.inr ⟨hrl, rfl, la⟩

section
variable (hw : g.WF)
include hw

/-- Loads and stores in the page of a region. -/
theorem span_load {e off : W} {S : Nat → Prop} (h4 : e.toNat % 4096 = 0) (hd : e.toNat + 4096 ≤ g.dramSize.toNat) (hl : off.toNat ≤ 544)
    (hS : ∀ x, InRegion g (regionOf g e.toNat) x → S x) : (load (e + off)).Quiet g c S := by
  have hsl := g.dramSize.isLt
  have : (e + off).toNat = e.toNat + off.toNat := add_off (by omega)
  exact quiet_load (Or.inr (hS _ (by rw [this]; exact page_region hw h4 (by omega) (by omega))))

theorem span_store {e off v : W} {S : Nat → Prop} (h4 : e.toNat % 4096 = 0) (hd : e.toNat + 4096 ≤ g.dramSize.toNat) (ht : g.monitorTop.toNat ≤ e.toNat)
    (hl : off.toNat ≤ 544) (hS : ∀ x, InRegion g (regionOf g e.toNat) x → S x) : (store (e + off) v).Quiet g c S := by
  have hsl := g.dramSize.isLt
  have : (e + off).toNat = e.toNat + off.toNat := add_off (by omega)
  exact quiet_store (Or.inr (hS _ (by rw [this]; exact page_region hw h4 (by omega) (by omega)))) (high_quiet hw (by omega))

theorem lent_releaseBoth {r e : W} (hr : r.toNat < g.regions) (h4 : e.toNat % 4096 = 0) (hd : e.toNat + 4096 ≤ g.dramSize.toNat)
    (ht : g.monitorTop.toNat ≤ e.toNat) (v : W) :
    (clearLock g r >>= fun _ => unlockEnclave e >>= fun _ => pure v).Cfn g c (InRegion g (regionOf g e.toNat)) Top H T := by
  refine conf_release hw hr ?_
  exact conf_quiet_bind (S := InRegion g (regionOf g e.toNat)) noL_lt noL_lt (span_store hw h4 hd ht (by decide) fun _ hx => hx) (fun _ hx => Or.inl hx) fun _ => conf_done _
end

theorem lent_assignThread (h : g.MetaOk) (e t : W) : (assignThread g e t).Lent g c (regionOf g e.toNat) noL noL := by
  have hw := h.wf
  unfold assignThread
  refine lent_lockEnclave h (fun A v hv => ?_) fun e1 e2 e3 => ?_
  · rw [if_pos (bne_iff_ne.2 hv)]; exact conf_done _
  rw [if_neg (by decide)]
  obtain ⟨p1, p2, p3⟩ := page_high hw e1 e2 e3
  refine conf_lockMeta hw (fun v r hv => ?_) fun t1 t2 t3 => ?_
  · dsimp only
    rw [if_pos (bne_iff_ne.2 hv)]
    exact conf_quiet_bind (S := InRegion g (regionOf g e.toNat)) noL_lt noL_lt (span_store hw e1 p2 p3 (by decide) fun _ hx => hx) (fun _ hx => Or.inl hx) fun _ => conf_done _
  dsimp only
  rw [if_neg (by decide)]
  have hr := dramRegionFor_lt hw t
  have hrl := regionOf_lt hw t.toNat
  have hS : ∀ x, InRegion g (regionOf g e.toNat) x → InRegion g (regionOf g e.toNat) x ∨ addL noL (regionOf g t.toNat) (regionOf g x) := fun _ hx => Or.inl hx
  refine conf_quiet_bind (one_lt hrl) (one_lt hrl) (span_load hw e1 p2 (by decide) fun _ hx => hx) hS fun init => ?_
  refine conf_quiet_bind (one_lt hrl) (one_lt hrl) (S := InRegion g (regionOf g e.toNat)) (Quiet.ite (fun _ => ?_) fun _ => Quiet.pure _) hS fun res => ?_
  · exact (in_reserve h e2 e3 (by rw [threadPages_toNat]; decide) _ _).quiet hw
  refine Prog.Cfn.ite (fun _ => lent_releaseBoth hw hr e1 p2 p3 _) fun _ => ?_
  refine conf_quiet_bind (one_lt hrl) (one_lt hrl) (span_load hw e1 p2 (by decide) fun _ hx => hx) hS fun n => ?_
  refine conf_quiet_bind (one_lt hrl) (one_lt hrl) (span_store hw e1 p2 p3 (by decide) fun _ hx => hx) hS fun n => ?_
  exact lent_releaseBoth hw hr e1 p2 p3 _

theorem lent_loadThread (h : g.MetaOk) (e t w x y z : W) : (loadThread g e t w x y z).Lent g c (regionOf g e.toNat) noL noL := by
  have hw := h.wf
  unfold loadThread
  refine lent_lockEnclave h (fun A v hv => ?_) fun e1 e2 e3 => ?_
  · rw [if_pos (bne_iff_ne.2 hv)]; exact conf_done _
  rw [if_neg (by decide)]
  obtain ⟨p1, p2, p3⟩ := page_high hw e1 e2 e3
  refine conf_lockMeta hw (fun v r hv => ?_) fun t1 t2 t3 => ?_
  · dsimp only
    rw [if_pos (bne_iff_ne.2 hv)]
    exact conf_quiet_bind (S := InRegion g (regionOf g e.toNat)) noL_lt noL_lt (span_store hw e1 p2 p3 (by decide) fun _ hx => hx) (fun _ hx => Or.inl hx) fun _ => conf_done _
  dsimp only
  rw [if_neg (by decide)]
  have hr := dramRegionFor_lt hw t
  have hrl := regionOf_lt hw t.toNat
  have hsl := g.dramSize.isLt
  obtain ⟨q1, q2, q3⟩ := page_high hw t1 t2 t3
  have hS : ∀ x, InRegion g (regionOf g e.toNat) x → InRegion g (regionOf g e.toNat) x ∨ addL noL (regionOf g t.toNat) (regionOf g x) := fun _ hx => Or.inl hx
  have hSt : ∀ x, InRegion g (regionOf g t.toNat) x → InRegion g (regionOf g e.toNat) x ∨ addL noL (regionOf g t.toNat) (regionOf g x) :=
    fun _ hx => Or.inr (Or.inr hx)
  have he : ∀ {β : Type} {p : Prog W} {f : W → Prog β}, p.Quiet g c (InRegion g (regionOf g e.toNat)) →
      (∀ a, (f a).Cfn g c (InRegion g (regionOf g e.toNat)) Top (addL noL (regionOf g t.toNat)) (addL noL (regionOf g t.toNat))) →
      (p >>= f).Cfn g c (InRegion g (regionOf g e.toNat)) Top (addL noL (regionOf g t.toNat)) (addL noL (regionOf g t.toNat)) :=
    fun hp hf => conf_quiet_bind (one_lt hrl) (one_lt hrl) hp hS hf
  have het : ∀ {β : Type} {off v : W} {f : Unit → Prog β}, off.toNat ≤ 544 →
      (f ()).Cfn g c (InRegion g (regionOf g e.toNat)) Top (addL noL (regionOf g t.toNat)) (addL noL (regionOf g t.toNat)) →
      (store (t + off) v >>= f).Cfn g c (InRegion g (regionOf g e.toNat)) Top (addL noL (regionOf g t.toNat)) (addL noL (regionOf g t.toNat)) :=
    fun hl hf => conf_quiet_bind (one_lt hrl) (one_lt hrl) (span_store hw t1 q2 q3 hl fun _ hx => hx) hSt fun _ => hf
  have hle : ∀ {off : W}, off.toNat ≤ 544 → (load (e + off)).Quiet g c (InRegion g (regionOf g e.toNat)) := fun hl => span_load hw e1 p2 hl fun _ hx => hx
  refine he (hle (by decide)) fun init => ?_
  refine he (Quiet.ite (fun _ => Quiet.pure _) fun _ => hle (by decide)) fun ep => ?_
  refine he (Quiet.ite (fun _ => Quiet.pure _) fun _ => ?_) fun res => ?_
  · exact (in_reserve h e2 e3 (by rw [threadPages_toNat]; decide) _ _).quiet hw
  refine Prog.Cfn.ite (fun _ => lent_releaseBoth hw hr e1 p2 p3 _) fun _ => ?_
  refine he (hle (by decide)) fun n => ?_
  refine conf_quiet_bind (one_lt hrl) (one_lt hrl) (span_store hw e1 p2 p3 (by decide) fun _ hx => hx) hS fun n => ?_
  refine het (by decide) (het (by decide) (het (by decide) (het (by decide) (het (by decide) ?_))))
  refine he (hle (by decide)) fun ptbr => het (by decide) ?_
  refine conf_quiet_bind (one_lt hrl) (one_lt hrl) (S := InRegion g (regionOf g e.toNat)) ?_ hS fun _ => lent_releaseBoth hw hr e1 p2 p3 _
  refine Prog.High.quiet ?_ hw
  have hSp : ∀ x, e.toNat ≤ x → x < e.toNat + 4096 → InRegion g (regionOf g e.toNat) x := fun x x1 x2 => page_region hw e1 x1 x2
  have hst : ∀ {off v : W}, off.toNat < 64 → (store (e + offHashBlock + off) v).High g (InRegion g (regionOf g e.toNat)) :=
    fun hl => in_block hw p3 hSp p1 (Nat.le_refl _) (by omega) (by omega) hl
  unfold extendHashWithThread
  exact High.bind (hst (by decide)) fun _ => High.bind (hst (by decide)) fun _ => High.bind (hst (by decide)) fun _ => High.bind (hst (by decide)) fun _ =>
    High.bind (hst (by decide)) fun _ => High.bind (in_extend_own hw p3 hSp p1 (Nat.le_refl _) (by omega) (by omega)) fun _ =>
    High.bind (hst (by decide)) fun _ => High.bind (hst (by decide)) fun _ => High.bind (hst (by decide)) fun _ => hst (by decide)

/-- Debug copies with an ID: they read the record, and copy nothing. -/
theorem conf_copyDebugId (hw : g.WF) (e a os : W) (dir : Bool) (he : e ≠ 0) (hrec : RecordOk g e) :
    (copyDebugEnclavePage g e a os dir).Cfn g c (NamedWord g (.copyDebugEnclavePage e a os dir)) Top noL noL := by
  obtain ⟨e8, e1, e2⟩ := hrec he
  have hsl := g.dramSize.isLt
  unfold copyDebugEnclavePage
  refine Prog.Cfn.ite (fun _ => conf_done _) fun hal => Prog.Cfn.ite (fun _ => conf_done _) fun hdr => ?_
  have hr := clamped_lt hw e
  have hs := dramRegionFor_lt hw os
  dsimp only
  refine conf_tasLock hw noL_lt noL_lt hr (by rw [if_pos rfl]; exact conf_done _) fun _ => ?_
  rw [if_neg (by decide)]
  refine conf_tasLock hw (one_lt hr) noL_lt hs (by rw [if_pos rfl]; exact conf_rel1 hw hr _) fun hn => ?_
  rw [if_neg (by decide)]
  have hH2 := two_lt (g := g) hr hs
  refine conf_readOwner' hw hr noL_lt fun oe ov oz => conf_readOwner' hw hs noL_lt fun oo _ _ => ?_
  have hne := owner_ne_id hw ov oz he
  have hin : ∀ x, e.toNat ≤ x → x < e.toNat + 304 + 8 * g.bitmapWords.toNat → NamedWord g (.copyDebugEnclavePage e a os dir) x :=
    fun x x1 x2 => Or.inr ⟨he, x1, x2⟩
  refine conf_quiet_bind hH2 noL_lt (S := NamedWord g (.copyDebugEnclavePage e a os dir)) ?_ (fun _ hx => Or.inl hx) fun bit => ?_
  · unfold readEnclaveRegionBitmapBit
    rw [if_neg (show e ≠ nullEnclaveId from he)]
    refine Quiet.bind (quiet_load (Or.inr ?_)) fun _ => Quiet.pure _
    have hpr := regionOf_lt hw a.toNat
    have hww := hw.words
    have hwa : (bitWordA (enclaveRegionBitmap e) (dramRegionFor g a)).toNat = e.toNat + 304 + 8 * (regionOf g a.toNat / 64) := by
      have hbl := hw.layout
      simp only [bitWordA, bitmapOffset, enclaveRegionBitmap, enclaveInfoSize, BitVec.toNat_add, BitVec.toNat_mul, div64_toNat,
        show (8 : W).toNat = 8 from rfl, show (304 : W).toNat = 304 from rfl, dramRegionFor_toNat hw]
      omega
    refine hin _ ?_ ?_
    · show _ ≤ (bitWordA (enclaveRegionBitmap e) (dramRegionFor g a)).toNat
      rw [hwa]; omega
    · show (bitWordA (enclaveRegionBitmap e) (dramRegionFor g a)).toNat < _
      rw [hwa]; omega
  have hoff : (e + offIsDebug).toNat = e.toNat + 24 := add_off (by show e.toNat + 24 < _; omega)
  refine conf_quiet_bind hH2 noL_lt (S := NamedWord g (.copyDebugEnclavePage e a os dir)) (quiet_load (Or.inr (hin _ (by omega) (by omega)))) (fun _ hx => Or.inl hx) fun dbg => ?_
  rw [if_neg ?_]
  · exact conf_quiet_bind hH2 noL_lt (S := noL) (Quiet.pure _) no_S fun _ => conf_rel2 hw hs hr _
  · rw [if_pos hne]
    intro hh
    split at hh
    · exact absurd hh (by decide)
    split at hh
    · exact absurd hh (by decide)
    split at hh <;> exact absurd hh (by decide)

/-- The calls that are no thread calls. -/
theorem conf_named (hw : g.WF) (c : Nat) (k : Call) (hc : c < g.cores) (hk : CoveredC g k) (hr : Roomy g k) (hb : k.borrows = none) :
    (k.prog g).Cfn g c (NamedWord g k) Top noL noL := by
  rcases Classical.em (Confined g k) with hcf | hcf
  · exact (conf_call hw c k hc hk hcf).args fun x hx => Or.inl hx
  cases k
  case assignThread => cases hb
  case loadThread => cases hb
  case createThread => exact (hcf hr).elim
  case copyDebugEnclavePage e a os d => exact conf_copyDebugId hw e a os d hcf (hk.2 e a os d rfl)
  all_goals exact (hcf trivial).elim

/-- The thread calls. -/
theorem lent_call (hw : g.WF) (c : Nat) (k : Call) (hk : CoveredC g k) {e : W} (hb : k.borrows = some e) :
    (k.prog g).Lent g c (regionOf g e.toNat) noL noL ∧ (k.prog g).NoOwner g c noL := by
  cases k
  case assignThread e' t =>
    cases hb
    have h : g.MetaOk := ⟨hw, hk.1.1, hk.1.2⟩
    exact ⟨lent_assignThread h e t, (tame_assignThread hw h e t).noOwner⟩
  case loadThread e' t w x y z =>
    cases hb
    have h : g.MetaOk := ⟨hw, hk.1.1, hk.1.2⟩
    exact ⟨lent_loadThread h e t w x y z, (tame_loadThread hw h e t w x y z).noOwner⟩
  all_goals cases hb

end Sanctum
