import Verif.Lemmas.SafeCalls
import Verif.Lemmas.EnclaveCalls
import Verif.Lemmas.DeleteCalls
/-
The calls on enclaves and threads in the rely-guarantee logic.
-/
namespace Sanctum
open Machine

variable {g : Cfg} {c : Nat} {α β : Type} {D : Prop} {H : Nat → Prop} {m : Machine}

/-! ### Code that stays above the monitor's memory -/

section
variable (hw : g.WF)
include hw

theorem high_load {a : W} (hok : okAddr g a = true) (h : g.monitorTop.toNat ≤ a.toNat) : (load a).Frame g D c :=
  frame_load hok fun _ => high_not_record hw h

theorem high_store {a v : W} (hok : okAddr g a = true) (h : g.monitorTop.toNat ≤ a.toNat) : (store a v).Frame g D c := frame_store hok (Or.inl h)

theorem high_storeOff {e off v : W} (h8 : e.toNat % 8 = 0) (ho : off.toNat % 8 = 0) (hd : e.toNat + off.toNat + 8 ≤ g.dramSize.toNat)
    (h : g.monitorTop.toNat ≤ e.toNat) : (store (e + off) v).Frame g D c := by
  obtain ⟨h1, h2⟩ := off_ok h8 ho hd
  exact high_store hw h1 (by omega)

theorem high_loadOff {e off : W} (h8 : e.toNat % 8 = 0) (ho : off.toNat % 8 = 0) (hd : e.toNat + off.toNat + 8 ≤ g.dramSize.toNat)
    (h : g.monitorTop.toNat ≤ e.toNat) : (load (e + off)).Frame g D c := by
  obtain ⟨h1, h2⟩ := off_ok h8 ho hd
  exact high_load hw h1 (by omega)
omit hw

theorem high_load32 {a : W} (hok : okAddr32 g a = true) (h : g.monitorTop.toNat ≤ a.toNat / 8 * 8) : (load32 a).Frame g D c :=
  ⟨⟨hok, h⟩, fun _ _ => trivial⟩
theorem high_store32 {a : W} {v : W32} (hok : okAddr32 g a = true) (h : g.monitorTop.toNat ≤ a.toNat / 8 * 8) : (store32 a v).Frame g D c :=
  ⟨⟨hok, h⟩, fun _ _ => trivial⟩

theorem high_load32_at {b : W} {i : Nat} (h8 : b.toNat % 8 = 0) (hd : b.toNat + 4 * i + 4 ≤ g.dramSize.toNat) (h : g.monitorTop.toNat ≤ b.toNat) :
    (load32 (at32 b i)).Frame g D c := by
  have := g.dramSize.isLt
  refine high_load32 ?_ ?_
  · rw [okAddr32_iff, at32_toNat (by omega)]; omega
  · rw [at32_toNat (by omega)]; omega

theorem high_store32_at {b : W} {i : Nat} {v : W32} (h8 : b.toNat % 8 = 0) (hd : b.toNat + 4 * i + 4 ≤ g.dramSize.toNat) (h : g.monitorTop.toNat ≤ b.toNat) :
    (store32 (at32 b i) v).Frame g D c := by
  have := g.dramSize.isLt
  refine high_store32 ?_ ?_
  · rw [okAddr32_iff, at32_toNat (by omega)]; omega
  · rw [at32_toNat (by omega)]; omega

theorem high_hashRounds {s b : W} (hs : s.toNat % 8 = 0) (hb : b.toNat % 8 = 0) (h1 : s.toNat + 160 ≤ g.dramSize.toNat)
    (h2 : b.toNat + 64 ≤ g.dramSize.toNat) (h3 : g.monitorTop.toNat ≤ s.toNat) (h4 : g.monitorTop.toNat ≤ b.toNat) :
    ∀ (n i : Nat) (r : HashRegs), i + n ≤ 64 → (hashRounds (s + offWorkArea) b n i r).Frame g D c := by
  have hlt := g.dramSize.isLt
  have hw : (s + offWorkArea).toNat = s.toNat + 32 := add_off (by show s.toNat + 32 < _; omega)
  have hld : ∀ j, j < 16 → (load32 (at32 (s + offWorkArea) j)).Frame g D c := by
    intro j hj; exact high_load32_at (by omega) (by omega) (by omega)
  have hst : ∀ j v, j < 16 → (store32 (at32 (s + offWorkArea) j) v).Frame g D c := by
    intro j v hj; exact high_store32_at (by omega) (by omega) (by omega)
  intro n
  induction n with
  | zero => intro i r _; exact Frame.pure _
  | succ n ih =>
      intro i r hi
      rw [hashRounds]
      refine Frame.bind ?_ (fun _ => ih _ _ (by omega))
      unfold hashSchedule
      refine Frame.ite (fun h16 => ?_) (fun h16 => ?_)
      · exact Frame.bind (high_load32_at (by omega) (by omega) (by omega)) fun _ => Frame.bind (hst _ _ (by omega)) fun _ => hld _ (by omega)
      · refine Frame.bind (hld _ (by omega)) fun _ => Frame.bind (hld _ (by omega)) fun _ => Frame.bind (hld _ (by omega)) fun _ =>
          Frame.bind (hld _ (by omega)) fun _ => Frame.bind (hst _ _ (by omega)) fun _ => hld _ (by omega)

theorem high_extendHash {s b : W} (hs : s.toNat % 8 = 0) (hb : b.toNat % 8 = 0) (h1 : s.toNat + 160 ≤ g.dramSize.toNat)
    (h2 : b.toNat + 64 ≤ g.dramSize.toNat) (h3 : g.monitorTop.toNat ≤ s.toNat) (h4 : g.monitorTop.toNat ≤ b.toNat) :
    (extendHash s b).Frame g D c := by
  have hlt := g.dramSize.isLt
  have hld : ∀ j, j < 8 → (load32 (at32 s j)).Frame g D c := by
    intro j hj; exact high_load32_at (by omega) (by omega) (by omega)
  have hst : ∀ j v, j < 8 → (store32 (at32 s j) v).Frame g D c := by
    intro j v hj; exact high_store32_at (by omega) (by omega) (by omega)
  have hadd : ∀ j x, j < 8 → (hashAdd s j x).Frame g D c := by
    intro j x hj; exact Frame.bind (hld j hj) fun _ => hst j _ hj
  have hpad : (s + offPadding + 60).toNat = s.toNat + 156 := by
    have : (s + offPadding).toNat = s.toNat + 96 := add_off (by show s.toNat + 96 < _; omega)
    rw [add_off (by rw [this]; show s.toNat + 96 + 60 < _; omega), this]; rfl
  unfold extendHash
  refine Frame.bind (hld _ (by omega)) fun _ => Frame.bind (hld _ (by omega)) fun _ => Frame.bind (hld _ (by omega)) fun _ =>
    Frame.bind (hld _ (by omega)) fun _ => Frame.bind (hld _ (by omega)) fun _ => Frame.bind (hld _ (by omega)) fun _ =>
    Frame.bind (hld _ (by omega)) fun _ => Frame.bind (hld _ (by omega)) fun _ =>
    Frame.bind (high_hashRounds hs hb h1 h2 h3 h4 _ _ _ (by omega)) fun _ =>
    Frame.bind (hadd _ _ (by omega)) fun _ => Frame.bind (hadd _ _ (by omega)) fun _ => Frame.bind (hadd _ _ (by omega)) fun _ =>
    Frame.bind (hadd _ _ (by omega)) fun _ => Frame.bind (hadd _ _ (by omega)) fun _ => Frame.bind (hadd _ _ (by omega)) fun _ =>
    Frame.bind (hadd _ _ (by omega)) fun _ => Frame.bind (hadd _ _ (by omega)) fun _ =>
    Frame.bind (high_load32 (by rw [okAddr32_iff, hpad]; omega) (by rw [hpad]; omega)) fun _ =>
    high_store32 (by rw [okAddr32_iff, hpad]; omega) (by rw [hpad]; omega)

include hw
theorem high_initHash {s : W} (hs : s.toNat % 8 = 0) (h1 : s.toNat + 160 ≤ g.dramSize.toNat) (h3 : g.monitorTop.toNat ≤ s.toNat) :
    (initHash s).Frame g D c := by
  have hlt := g.dramSize.isLt
  have hst : ∀ j v, j < 8 → (store32 (at32 s j) v).Frame g D c := by
    intro j v hj; exact high_store32_at (by omega) (by omega) (by omega)
  have hpad : (s + offPadding).toNat = s.toNat + 96 := add_off (by show s.toNat + 96 < _; omega)
  unfold initHash
  refine Frame.bind (hst _ _ (by omega)) fun _ => Frame.bind (hst _ _ (by omega)) fun _ => Frame.bind (hst _ _ (by omega)) fun _ =>
    Frame.bind (hst _ _ (by omega)) fun _ => Frame.bind (hst _ _ (by omega)) fun _ => Frame.bind (hst _ _ (by omega)) fun _ =>
    Frame.bind (hst _ _ (by omega)) fun _ => Frame.bind (hst _ _ (by omega)) fun _ =>
    Frame.bind (frame_bzeroWords hw _ _ (by omega) ?_ (by omega)) fun _ =>
    high_store32 (by rw [okAddr32_iff, hpad]; omega) (by rw [hpad]; omega)
  rw [hpad, show (64 : W).toNat = 64 from rfl]; omega

section
variable {e : W} (h8 : e.toNat % 8 = 0) (hd : e.toNat + 304 ≤ g.dramSize.toNat) (ht : g.monitorTop.toNat ≤ e.toNat)
include h8 hd ht

theorem high_block {off v : W} (ho : off.toNat % 8 = 0) (hl : off.toNat < 64) : (store (e + offHashBlock + off) v).Frame g D c := by
  obtain ⟨h1, h2⟩ := hash_addrs h8 hd
  exact high_storeOff hw (by omega) ho (by omega) (by omega)

omit hw in
theorem high_extend_own : (extendHash (e + offHash) (e + offHashBlock)).Frame g D c := by
  obtain ⟨h1, h2⟩ := hash_addrs h8 hd
  exact high_extendHash (by omega) (by omega) (by omega) (by omega) (by omega) (by omega)

theorem high_initEnclaveHash (b k n : W) (d : Bool) : (initEnclaveHash e b k n d).Frame g D c := by
  obtain ⟨h1, h2⟩ := hash_addrs h8 hd
  have hst : ∀ {off v : W}, off.toNat % 8 = 0 → off.toNat < 64 → (store (e + offHashBlock + off) v).Frame g D c :=
    fun ho hl => high_block hw h8 hd ht ho hl
  unfold initEnclaveHash
  refine Frame.bind (frame_bzeroWords hw _ _ (by omega) ?_ (by omega)) fun _ =>
    Frame.bind (high_initHash hw (by omega) (by omega) (by omega)) fun _ =>
    Frame.bind (hst (by decide) (by decide)) fun _ => Frame.bind (hst (by decide) (by decide)) fun _ =>
    Frame.bind (hst (by decide) (by decide)) fun _ => Frame.bind (hst (by decide) (by decide)) fun _ =>
    Frame.bind (hst (by decide) (by decide)) fun _ => Frame.bind (high_extend_own h8 hd ht) fun _ =>
    Frame.bind (hst (by decide) (by decide)) fun _ => Frame.bind (hst (by decide) (by decide)) fun _ =>
    Frame.bind (hst (by decide) (by decide)) fun _ => hst (by decide) (by decide)
  rw [h2, show (64 : W).toNat = 64 from rfl]; omega

theorem high_extendHashWithThread (x y z w : W) : (extendHashWithThread e x y z w).Frame g D c := by
  have hst : ∀ {off v : W}, off.toNat % 8 = 0 → off.toNat < 64 → (store (e + offHashBlock + off) v).Frame g D c :=
    fun ho hl => high_block hw h8 hd ht ho hl
  unfold extendHashWithThread
  refine Frame.bind (hst (by decide) (by decide)) fun _ => Frame.bind (hst (by decide) (by decide)) fun _ =>
    Frame.bind (hst (by decide) (by decide)) fun _ => Frame.bind (hst (by decide) (by decide)) fun _ =>
    Frame.bind (hst (by decide) (by decide)) fun _ => Frame.bind (high_extend_own h8 hd ht) fun _ =>
    Frame.bind (hst (by decide) (by decide)) fun _ => Frame.bind (hst (by decide) (by decide)) fun _ =>
    Frame.bind (hst (by decide) (by decide)) fun _ => hst (by decide) (by decide)

theorem high_initEnclaveInfo (b k n : W) (d : Bool) : (initEnclaveInfo e b k n d).Frame g D c := by
  have hst : ∀ {off v : W}, off.toNat % 8 = 0 → off.toNat ≤ 296 → (store (e + off) v).Frame g D c :=
    fun ho hl => high_storeOff hw h8 ho (by omega) ht
  unfold initEnclaveInfo
  exact Frame.bind (hst (by decide) (by decide)) fun _ => Frame.bind (hst (by decide) (by decide)) fun _ =>
    Frame.bind (hst (by decide) (by decide)) fun _ => Frame.bind (hst (by decide) (by decide)) fun _ =>
    Frame.bind (hst (by decide) (by decide)) fun _ => Frame.bind (hst (by decide) (by decide)) fun _ =>
    Frame.bind (hst (by decide) (by decide)) fun _ => Frame.bind (hst (by decide) (by decide)) fun _ =>
    Frame.bind (hst (by decide) (by decide)) fun _ => Frame.bind (hst (by decide) (by decide)) fun _ =>
    high_initEnclaveHash hw h8 hd ht b k n d
end

theorem high_pagesEmptyLoop : ∀ (n : Nat) (p : W), p.toNat % 8 = 0 → p.toNat + 8 * n ≤ g.dramSize.toNat → g.monitorTop.toNat ≤ p.toNat →
    (pagesEmptyLoop n p).Frame g D c := by
  have hlt := g.dramSize.isLt
  intro n
  induction n with
  | zero => intro p _ _ _; exact Frame.pure _
  | succ n ih =>
      intro p h8 hd ht
      unfold pagesEmptyLoop
      refine Frame.bind (high_load hw (by rw [okAddr_iff]; omega) ht) fun v => Frame.ite (fun _ => Frame.pure _) fun _ => ?_
      by_cases hn : n = 0
      · subst hn; exact Frame.pure _
      · have h1 : (p + 8).toNat = p.toNat + 8 := add_off (by show p.toNat + 8 < _; omega)
        exact ih _ (by omega) (by omega) (by omega)

theorem high_innerPagesLoop : ∀ (n : Nat) (p : W), p.toNat % 8 = 0 → p.toNat + 8 * n ≤ g.dramSize.toNat → g.monitorTop.toNat ≤ p.toNat →
    (innerPagesLoop n p).Frame g D c := by
  have hlt := g.dramSize.isLt
  intro n
  induction n with
  | zero => intro p _ _ _; exact Frame.pure _
  | succ n ih =>
      intro p h8 hd ht
      unfold innerPagesLoop
      refine Frame.bind (high_store hw (by rw [okAddr_iff]; omega) ht) fun v => ?_
      by_cases hn : n = 0
      · subst hn; exact Frame.pure _
      · have h1 : (p + 8).toNat = p.toNat + 8 := add_off (by show p.toNat + 8 < _; omega)
        exact ih _ (by omega) (by omega) (by omega)

theorem high_copyWords : ∀ (n : Nat) (d s : W), d.toNat % 8 = 0 → s.toNat % 8 = 0 → d.toNat + 8 * n ≤ g.dramSize.toNat →
    s.toNat + 8 * n ≤ g.dramSize.toNat → g.monitorTop.toNat ≤ d.toNat → g.monitorTop.toNat ≤ s.toNat → (copyWords n d s).Frame g D c := by
  have hlt := g.dramSize.isLt
  intro n
  induction n with
  | zero => intros; exact Frame.pure _
  | succ n ih =>
      intro d s h1 h2 h3 h4 h5 h6
      unfold copyWords
      refine Frame.bind (high_load hw (by rw [okAddr_iff]; omega) h6) fun v =>
        Frame.bind (high_store hw (by rw [okAddr_iff]; omega) h5) fun _ => ?_
      by_cases hn : n = 0
      · subst hn; exact Frame.pure _
      · have e1 : (d + 8).toNat = d.toNat + 8 := add_off (by show d.toNat + 8 < _; omega)
        have e2 : (s + 8).toNat = s.toNat + 8 := add_off (by show s.toNat + 8 < _; omega)
        exact ih _ _ (by omega) (by omega) (by omega) (by omega) (by omega) (by omega)
end

theorem high_reserve (h : g.MetaOk) {a n : W} (ha : a.toNat < g.dramSize.toNat) (hr : regionOf g a.toNat ≠ 0) (hn : n.toNat < 2 ^ 52) (o t : W) :
    (reserveMetadataPages g a n o t).Frame g D c := by
  obtain ⟨b1, b2, b3, b4, b5, b6⟩ := entry_bounds h ha
  have hst := region_start_ge g hr
  have htop := h.wf.top_le
  rw [Nat.succ_mul] at b6
  have hidx : (dramStripePageFor g a).toNat = pageIndex g a.toNat := by
    rw [dramStripePageFor_toNat h.wf]; rfl
  have hsp := h.wf.stripe_le
  have hgt : (dramStripePageFor g a + n > g.stripePages) ↔ 2 ^ g.sp < pageIndex g a.toNat + n.toNat := by
    show g.stripePages < _ ↔ _
    rw [W.lt_iff, h.wf.stripePages, add_off (by rw [hidx]; omega), hidx]
  have hp := entry_toNat h ha
  unfold reserveMetadataPages assignMetadataPages
  refine Frame.ite (fun _ => Frame.pure _) fun hfit => ?_
  rw [hgt] at hfit
  dsimp only
  refine Frame.bind (high_pagesEmptyLoop h.wf _ _ (by omega) (by omega) (by omega)) fun ok => Frame.ite (fun _ => ?_) fun _ => Frame.pure _
  exact Frame.bind (high_store h.wf (by rw [okAddr_iff]; omega) (by omega)) fun _ =>
    Frame.bind (high_innerPagesLoop h.wf _ _ (by omega) (by omega) (by omega)) fun _ => Frame.pure _

/-! ### lock_metadata_region_for, lock_enclave -/

theorem sub_add {r : Nat} (hr : ¬ H r) : subL (addL H r) r = H := by
  funext i
  refine propext ⟨fun hh => (hh.1.elim id fun h1 => absurd h1 hh.2), fun hh => ⟨Or.inl hh, ?_⟩⟩
  rintro rfl; exact hr hh

theorem safe_lockMeta (hw : g.WF) (hH : ∀ i, H i → i < g.regions) {a : W} {f : W × W → Prog β} {Q : β → (Nat → Prop) → Machine → Prop}
    (herr : ∀ v r m', v ≠ monitorOk → Same g H m m' → Safe g D c Q H m' (f (v, r)))
    (hok : ∀ m', Same g H m m' → a.toNat % 4096 = 0 → a.toNat < g.dramSize.toNat → regionOf g a.toNat ≠ 0 → ¬ H (regionOf g a.toNat) →
      Bit g m' (regionOf g a.toNat) → Safe g D c Q (addL H (regionOf g a.toNat)) m' (f (monitorOk, dramRegionFor g a))) :
    Safe g D c Q H m (lockMetadataRegionFor g a >>= f) := by
  unfold lockMetadataRegionFor
  by_cases hd : (!isPageAligned a || !isDramAddress g a) = true
  · rw [if_pos hd]; exact herr _ _ m (by decide) fun _ _ _ => ⟨rfl, rfl⟩
  · rw [if_neg hd]
    have hd : isPageAligned a = true ∧ isDramAddress g a = true := by simpa using hd
    have h1 := (isPageAligned_iff a).1 hd.1
    have h2 := (isDramAddress_iff a).1 hd.2
    have hr := dramRegionFor_lt hw a
    have hrr := dramRegionFor_toNat hw a
    dsimp only
    refine Safe.bind (Q1 := fun x H' m' => (x.1 ≠ monitorOk ∧ H' = H ∧ Same g H m m') ∨ (x = (monitorOk, dramRegionFor g a) ∧ H' = addL H (regionOf g a.toNat) ∧
      Same g H m m' ∧ regionOf g a.toNat ≠ 0 ∧ ¬ H (regionOf g a.toNat) ∧ Bit g m' (regionOf g a.toNat))) ?_ ?_
    · refine safe_tasLock hw hH hr (fun m1 s1 => ?_) fun m1 s1 n1 b1 => ?_
      · rw [if_pos rfl]; exact Or.inl ⟨show monitorConcurrentCall ≠ monitorOk by decide, rfl, s1⟩
      · rw [if_neg (by decide)]
        refine safe_readOwner hw hr (Or.inr rfl) fun m2 s2 ov hz => ?_
        have s2' : Same g H m m2 := s1.trans (s2.mono fun i hi => Or.inl hi)
        have b2 := s2.bit hr (Or.inr rfl) b1
        refine Safe.ite (fun _ => ?_) fun ho => ?_
        · refine safe_clearLock hw hr (Or.inr rfl) b2 fun m3 s3 => ?_
          rw [sub_add n1]
          exact Or.inl ⟨show monitorInvalidState ≠ monitorOk by decide, rfl, s2'.trans (s3.mono fun i hi => Or.inl hi)⟩
        · have ho : m1.owner g (dramRegionFor g a).toNat = metadataEnclaveId := by simpa using ho
          rw [hrr] at *
          exact Or.inr ⟨rfl, rfl, s2', fun hh => by rw [hz hh] at ho; exact absurd ho (by decide), n1, b2⟩
    · rintro ⟨v, r⟩ H' m' (⟨q1, rfl, q3⟩ | ⟨q1, rfl, q3, q4, q5, q6⟩)
      · exact herr v r m' q1 q3
      · rw [q1]; exact hok m' q3 h1 h2 q4 q5 q6

/-- A page of a region other than region 0 is above the monitor and inside DRAM. -/
theorem page_high (hw : g.WF) {a : Nat} (h4 : a % 4096 = 0) (hd : a < g.dramSize.toNat) (hr : regionOf g a ≠ 0) :
    a % 8 = 0 ∧ a + 4096 ≤ g.dramSize.toNat ∧ g.monitorTop.toNat ≤ a := by
  have h1 := dram_mod hw
  have h2 := hw.top_le
  refine ⟨by omega, by omega, Nat.le_trans h2 ?_⟩
  refine Nat.le_of_not_lt fun hh => hr ?_
  unfold regionOf
  rw [← hw.stripeSize, Nat.div_eq_of_lt hh]; rfl

theorem safe_lockEnclave (h : g.MetaOk) {e : W} {f : W → Prog β} {Q : β → (Nat → Prop) → Machine → Prop}
    (herr : ∀ v m', v ≠ monitorOk → Safe g D c Q noL m' (f v))
    (hok : ∀ m', e.toNat % 4096 = 0 → e.toNat < g.dramSize.toNat → regionOf g e.toNat ≠ 0 → Safe g D c Q noL m' (f monitorOk)) :
    Safe g D c Q noL m (lockEnclave g e >>= f) := by
  unfold lockEnclave
  by_cases hd : (!isDramAddress g e || !isPageAligned e) = true
  · rw [if_pos hd]; exact herr _ m (by decide)
  rw [if_neg hd]
  refine Safe.bind (Q1 := fun v H' m' => H' = noL ∧ (v = monitorOk → e.toNat % 4096 = 0 ∧ e.toNat < g.dramSize.toNat ∧ regionOf g e.toNat ≠ 0)) ?_ ?_
  · refine safe_lockMeta h.wf noL_lt (fun v r m' hv _ => ?_) fun m1 _ h1 h2 h3 _ b1 => ?_
    · dsimp only
      rw [if_pos (bne_iff_ne.2 hv)]
      exact ⟨rfl, fun hh => absurd hh hv⟩
    · dsimp only
      rw [if_neg (by decide)]
      have hr := dramRegionFor_lt h.wf e
      have hrr := dramRegionFor_toNat h.wf e
      obtain ⟨c1, c2, c3, c4, c5, c6⟩ := entry_bounds h h2
      have hst := region_start_ge g h3
      have htop := h.wf.top_le
      rw [Nat.succ_mul] at c6
      have hp := entry_toNat h h2
      obtain ⟨p1, p2, p3⟩ := page_high h.wf h1 h2 h3
      have hoff : (e + offEnclaveLock).toNat = e.toNat := by rw [add_off (by show _ + 0 < _; exact e.isLt)]; rfl
      have hh3 : (dramRegionFor g e).toNat ≠ 0 := by rw [hrr]; exact h3
      rw [← hrr] at b1 ⊢
      refine safe_frame_bind h.wf (one_lt hr) (high_load h.wf (by rw [okAddr_iff]; omega) (by omega)) fun v m2 s2 => ?_
      have b2 := s2.bit hr (one_self _) b1
      refine Safe.ite (fun _ => ?_) fun _ => ?_
      · refine safe_clearLock h.wf hr (one_self _) b2 fun m3 _ => ?_
        rw [sub_one]
        exact ⟨rfl, fun hh => absurd hh (by decide)⟩
      · refine safe_frame_bind h.wf (one_lt hr) (p := tas _) ⟨⟨by rw [okAddr_iff, hoff]; omega, by rw [hoff]; exact p3⟩, fun _ _ => trivial⟩ fun busy m3 s3 => ?_
        refine safe_clearLock h.wf hr (one_self _) (s3.bit hr (one_self _) b2) fun m4 _ => ?_
        rw [sub_one]
        exact ⟨rfl, fun _ => ⟨h1, h2, hh3⟩⟩
  · rintro v H' m' ⟨rfl, q⟩
    by_cases hv : v = monitorOk
    · obtain ⟨q1, q2, q3⟩ := q hv
      rw [hv]; exact hok m' q1 q2 q3
    · exact herr v m' hv

/-! ### create_enclave, assign_thread, load_thread -/

theorem safe_createEnclave (h : g.MetaOk) (e b k n : W) (d : Bool) : Safe g D c (Done g) noL m (createEnclave g e b k n d) := by
  unfold createEnclave
  refine Safe.ite (fun _ => done_pure _) fun _ => Safe.ite (fun _ => done_pure _) fun _ => ?_
  refine safe_lockMeta h.wf noL_lt (fun v r m' hv _ => ?_) fun m1 _ h1 h2 h3 _ b1 => ?_
  · dsimp only; rw [if_pos (bne_iff_ne.2 hv)]; exact done_pure _
  dsimp only
  rw [if_neg (by decide)]
  have hr := dramRegionFor_lt h.wf e
  have hrr := dramRegionFor_toNat h.wf e
  obtain ⟨p1, p2, p3⟩ := page_high h.wf h1 h2 h3
  rw [← hrr] at b1 ⊢
  refine safe_readOwner h.wf hr (one_self _) fun m2 s2 _ _ => ?_
  have b2 := s2.bit hr (one_self _) b1
  refine Safe.ite (fun _ => release1 h.wf hr b2 _) fun _ => ?_
  refine safe_frame_bind h.wf (one_lt hr) (high_reserve h h2 h3 (by rw [enclaveInfoPages_toNat]; exact recordPages_lt _) _ _) fun res m3 s3 => ?_
  have b3 := s3.bit hr (one_self _) b2
  refine Safe.ite (fun _ => release1 h.wf hr b3 _) fun _ => ?_
  refine safe_frame_bind h.wf (one_lt hr) (high_initEnclaveInfo h.wf p1 (by omega) p3 _ _ _ _) fun _ m4 s4 => ?_
  exact release1 h.wf hr (s4.bit hr (one_self _) b3) _

theorem threadPages_toNat : (threadMetadataPages).toNat = 1 := by decide

/-- Releasing the region lock and the enclave lock and returning. -/
theorem releaseBoth (h : g.WF) {r e : W} (hr : r.toNat < g.regions) (hb : Bit g m r.toNat) (h8 : e.toNat % 8 = 0) (hd : e.toNat + 4096 ≤ g.dramSize.toNat)
    (ht : g.monitorTop.toNat ≤ e.toNat) (v : W) :
    Safe g D c (Done g) (addL noL r.toNat) m (clearLock g r >>= fun _ => unlockEnclave e >>= fun _ => pure v) := by
  refine safe_clearLock h hr (one_self _) hb fun m' _ => ?_
  rw [sub_one]
  refine safe_frame_bind h noL_lt ?_ fun _ _ _ => done_pure _
  exact high_storeOff h h8 (by decide) (by show e.toNat + 0 + 8 ≤ _; omega) ht

theorem safe_assignThread (h : g.MetaOk) (e t : W) : Safe g D c (Done g) noL m (assignThread g e t) := by
  unfold assignThread
  refine safe_lockEnclave h (fun v m' hv => ?_) fun m1 e1 e2 e3 => ?_
  · rw [if_pos (bne_iff_ne.2 hv)]; exact done_pure _
  rw [if_neg (by decide)]
  obtain ⟨p1, p2, p3⟩ := page_high h.wf e1 e2 e3
  refine safe_lockMeta h.wf noL_lt (fun v r m' hv _ => ?_) fun m2 _ t1 t2 t3 _ b2 => ?_
  · dsimp only
    rw [if_pos (bne_iff_ne.2 hv)]
    refine safe_frame_bind h.wf noL_lt ?_ fun _ _ _ => done_pure _
    exact high_storeOff h.wf p1 (by decide) (by show e.toNat + 0 + 8 ≤ _; omega) p3
  dsimp only
  rw [if_neg (by decide)]
  have hr := dramRegionFor_lt h.wf t
  rw [← dramRegionFor_toNat h.wf t] at b2 ⊢
  refine safe_frame_bind h.wf (one_lt hr) (high_loadOff h.wf p1 (by decide) (by show e.toNat + 16 + 8 ≤ _; omega) p3) fun init m3 s3 => ?_
  have b3 := s3.bit hr (one_self _) b2
  refine safe_frame_bind h.wf (one_lt hr) (Frame.ite (fun _ => high_reserve h e2 e3 (by rw [threadPages_toNat]; decide) _ _) fun _ => Frame.pure _) fun res m4 s4 => ?_
  have b4 := s4.bit hr (one_self _) b3
  refine Safe.ite (fun _ => releaseBoth h.wf hr b4 p1 p2 p3 _) fun _ => ?_
  refine safe_frame_bind h.wf (one_lt hr) (high_loadOff h.wf p1 (by decide) (by show e.toNat + 32 + 8 ≤ _; omega) p3) fun n m5 s5 => ?_
  have b5 := s5.bit hr (one_self _) b4
  refine safe_frame_bind h.wf (one_lt hr) (high_storeOff h.wf p1 (by decide) (by show e.toNat + 32 + 8 ≤ _; omega) p3) fun _ m6 s6 => ?_
  exact releaseBoth h.wf hr (s6.bit hr (one_self _) b5) p1 p2 p3 _

theorem safe_loadThread (h : g.MetaOk) (e t w x y z : W) : Safe g D c (Done g) noL m (loadThread g e t w x y z) := by
  unfold loadThread
  refine safe_lockEnclave h (fun v m' hv => ?_) fun m1 e1 e2 e3 => ?_
  · rw [if_pos (bne_iff_ne.2 hv)]; exact done_pure _
  rw [if_neg (by decide)]
  obtain ⟨p1, p2, p3⟩ := page_high h.wf e1 e2 e3
  refine safe_lockMeta h.wf noL_lt (fun v r m' hv _ => ?_) fun m2 _ t1 t2 t3 _ b2 => ?_
  · dsimp only
    rw [if_pos (bne_iff_ne.2 hv)]
    refine safe_frame_bind h.wf noL_lt ?_ fun _ _ _ => done_pure _
    exact high_storeOff h.wf p1 (by decide) (by show e.toNat + 0 + 8 ≤ _; omega) p3
  dsimp only
  rw [if_neg (by decide)]
  have hr := dramRegionFor_lt h.wf t
  obtain ⟨q1, q2, q3⟩ := page_high h.wf t1 t2 t3
  rw [← dramRegionFor_toNat h.wf t] at b2 ⊢
  have hld : ∀ {off : W}, off.toNat % 8 = 0 → off.toNat ≤ 296 → (load (e + off)).Frame g D c := fun ho hl => high_loadOff h.wf p1 ho (by omega) p3
  have hse : ∀ {off v : W}, off.toNat % 8 = 0 → off.toNat ≤ 296 → (store (e + off) v).Frame g D c := fun ho hl => high_storeOff h.wf p1 ho (by omega) p3
  have hstt : ∀ {off v : W}, off.toNat % 8 = 0 → off.toNat ≤ 544 → (store (t + off) v).Frame g D c := fun ho hl => high_storeOff h.wf q1 ho (by omega) q3
  refine safe_frame_bind h.wf (one_lt hr) (hld (by decide) (by decide)) fun init m3 s3 => ?_
  have b3 := s3.bit hr (one_self _) b2
  refine safe_frame_bind h.wf (one_lt hr) (Frame.ite (fun _ => Frame.pure _) fun _ => hld (by decide) (by decide)) fun ep m4 s4 => ?_
  have b4 := s4.bit hr (one_self _) b3
  refine safe_frame_bind h.wf (one_lt hr) (Frame.ite (fun _ => Frame.pure _) fun _ => high_reserve h e2 e3 (by rw [threadPages_toNat]; decide) _ _) fun res m5 s5 => ?_
  have b5 := s5.bit hr (one_self _) b4
  refine Safe.ite (fun _ => releaseBoth h.wf hr b5 p1 p2 p3 _) fun _ => ?_
  refine safe_frame_bind h.wf (one_lt hr) (hld (by decide) (by decide)) fun n m6 s6 => ?_
  have b6 := s6.bit hr (one_self _) b5
  refine safe_frame_bind h.wf (one_lt hr) (hse (by decide) (by decide)) fun _ m7 s7 => ?_
  have b7 := s7.bit hr (one_self _) b6
  refine safe_frame_bind h.wf (one_lt hr) (hstt (by decide) (by decide)) fun _ m8 s8 => ?_
  have b8 := s8.bit hr (one_self _) b7
  refine safe_frame_bind h.wf (one_lt hr) (hstt (by decide) (by decide)) fun _ m9 s9 => ?_
  have b9 := s9.bit hr (one_self _) b8
  refine safe_frame_bind h.wf (one_lt hr) (hstt (by decide) (by decide)) fun _ m10 s10 => ?_
  have b10 := s10.bit hr (one_self _) b9
  refine safe_frame_bind h.wf (one_lt hr) (hstt (by decide) (by decide)) fun _ m11 s11 => ?_
  have b11 := s11.bit hr (one_self _) b10
  refine safe_frame_bind h.wf (one_lt hr) (hstt (by decide) (by decide)) fun _ m12 s12 => ?_
  have b12 := s12.bit hr (one_self _) b11
  refine safe_frame_bind h.wf (one_lt hr) (hld (by decide) (by decide)) fun _ m13 s13 => ?_
  have b13 := s13.bit hr (one_self _) b12
  refine safe_frame_bind h.wf (one_lt hr) (hstt (by decide) (by decide)) fun _ m14 s14 => ?_
  have b14 := s14.bit hr (one_self _) b13
  refine safe_frame_bind h.wf (one_lt hr) (high_extendHashWithThread h.wf p1 (by omega) p3 _ _ _ _) fun _ m15 s15 => ?_
  exact releaseBoth h.wf hr (s15.bit hr (one_self _) b14) p1 p2 p3 _

/-! ### Calls that validate an enclave ID -/

theorem owner_ne_id (hw : g.WF) {e o : W} (ho : OwnerVal o) (hz : (clampedDramRegionFor g e).toNat = 0 → o = nullEnclaveId) (he : e ≠ 0) : o ≠ e := by
  intro hh
  have hsmall : e.toNat ≤ 3 → False := by
    intro hle
    have h11 := hw.stripe_ge
    have : (clampedDramRegionFor g e).toNat = 0 := by
      rw [clamped_eq hw]; unfold idRegion
      split
      · unfold regionOf
        rw [← hw.stripeSize, Nat.div_eq_of_lt (by omega)]; rfl
      · rfl
    exact he (hh.symm.trans (hz this))
  rw [hh] at ho
  rcases ho with hv | hv | hv | hv
  · exact he hv
  · exact hsmall (by rw [hv]; decide)
  · exact hsmall (by rw [hv]; decide)
  · exact hsmall (by rw [hv]; decide)

theorem safe_withLocked (hw : g.WF) (e : W) (k : W → Prog W) : Safe g D c (Done g) noL m (withLockedEnclave g e k) := by
  unfold withLockedEnclave
  dsimp only
  have hr := clamped_lt hw e
  refine safe_tasLock hw noL_lt hr (fun _ _ => by rw [if_pos rfl]; exact done_pure _) fun m1 _ _ hb1 => ?_
  rw [if_neg (by decide)]
  by_cases he : e = nullEnclaveId
  · rw [if_pos he]
    refine Safe.bind (Q1 := fun a H' m' => a = false ∧ H' = addL noL (clampedDramRegionFor g e).toNat ∧ m' = m1) (Safe.pure ⟨rfl, rfl, rfl⟩) ?_
    rintro _ _ _ ⟨rfl, rfl, rfl⟩
    rw [if_pos (by decide)]
    exact release1 hw hr hb1 _
  · rw [if_neg he]
    unfold isValidEnclaveId
    show Safe g D c (Done g) _ m1 (readOwner g (clampedDramRegionFor g e) >>= fun owner => if (!(owner == e)) = true then _ else _)
    refine safe_readOwner hw hr (one_self _) fun m2 h2 ov hz => ?_
    have hne := owner_ne_id hw ov hz he
    rw [if_pos (by simpa using hne)]
    exact release1 hw hr (h2.bit hr (one_self _) hb1) _

theorem safe_loadPageTable (hw : g.WF) (e p v l a : W) : Safe g D c (Done g) noL m (loadPageTable g e p v l a) := by
  unfold loadPageTable
  exact Safe.ite (fun _ => done_pure _) fun _ => Safe.ite (fun _ => done_pure _) fun _ => Safe.ite (fun _ => done_pure _) fun _ => safe_withLocked hw _ _

theorem safe_loadPage (hw : g.WF) (e p v o a : W) : Safe g D c (Done g) noL m (loadPage g e p v o a) := by
  unfold loadPage
  exact Safe.ite (fun _ => done_pure _) fun _ => Safe.ite (fun _ => done_pure _) fun _ => safe_withLocked hw _ _

theorem safe_initEnclave (hw : g.WF) (e : W) : Safe g D c (Done g) noL m (initEnclave g e) := safe_withLocked hw _ _
theorem safe_deleteEnclave (hw : g.WF) (e : W) : Safe g D c (Done g) noL m (deleteEnclave g e) := safe_withLocked hw _ _
theorem safe_enterEnclave (hw : g.WF) (e t : W) : Safe g D c (Done g) noL m (enterEnclave g e t) := safe_withLocked hw _ _

/-! ### copy_debug_enclave_page -/

theorem safe_copyDebug (hw : g.WF) (hc : c < g.cores) (e a os : W) (dir : Bool) (he : RecordOk g e) (ha : e ≠ 0 ∨ g.monitorTop.toNat ≤ a.toNat) :
    Safe g D c (Done g) noL m (copyDebugEnclavePage g e a os dir) := by
  unfold copyDebugEnclavePage
  refine Safe.ite (fun _ => done_pure _) fun hal => Safe.ite (fun _ => done_pure _) fun hdr => ?_
  have hal : isPageAligned a = true ∧ isPageAligned os = true := by simpa using hal
  have hdr : isDramAddress g a = true ∧ isDramAddress g os = true := by simpa using hdr
  have a1 := (isPageAligned_iff a).1 hal.1
  have a2 := (isDramAddress_iff a).1 hdr.1
  have o1 := (isPageAligned_iff os).1 hal.2
  have o2 := (isDramAddress_iff os).1 hdr.2
  have hr := clamped_lt hw e
  have hs := dramRegionFor_lt hw os
  dsimp only
  refine safe_tasLock hw noL_lt hr (fun _ _ => by rw [if_pos rfl]; exact done_pure _) fun m1 _ _ hb1 => ?_
  rw [if_neg (by decide)]
  refine safe_tasLock hw (one_lt hr) hs (fun m3 h3 => by rw [if_pos rfl]; exact release1 hw hr (h3.bit hr (one_self _) hb1) _) fun m2 h2 hn2 hs2 => ?_
  rw [if_neg (by decide)]
  have hne : (clampedDramRegionFor g e).toNat ≠ (dramRegionFor g os).toNat := fun hh => hn2 (Or.inr hh.symm)
  have hH2 := two_lt (g := g) hr hs
  have hr2 := h2.bit hr (one_self _) hb1
  refine safe_readOwner hw hr (two_fst _ _) fun m3 h3 ov3 hz3 => ?_
  have hr3 := h3.bit hr (two_fst _ _) hr2
  have hs3 := h3.bit hs (two_snd _ _) hs2
  generalize hoe : m2.owner g (clampedDramRegionFor g e).toNat = oe at ov3 hz3 ⊢
  refine safe_readOwner hw hs (two_snd _ _) fun m4 h4 _ _ => ?_
  have hr4 := h4.bit hr (two_fst _ _) hr3
  have hs4 := h4.bit hs (two_snd _ _) hs3
  generalize m3.owner g (dramRegionFor g os).toNat = oo
  have hra := dramRegionFor_lt hw a
  have hbm : (readEnclaveRegionBitmapBit g e (dramRegionFor g a)).Frame g D c := by
    unfold readEnclaveRegionBitmapBit
    refine Frame.ite (fun h0 => Frame.bind (frame_load (osWord_ok hw hra) ?_) fun _ => Frame.pure _) fun h0 => ?_
    · intro _ i hi hx
      have hx : RecordWord g i (bitWordA g.osBitmap (dramRegionFor g a)).toNat := hx
      rw [osWordA_toNat hw hra] at hx
      exact osBitmap_not_record hw hi hx (k := (dramRegionFor g a).toNat / 64) rfl
    · obtain ⟨b1, b2⟩ := bmWord_addr hw he h0 hra
      obtain ⟨r1, r2, r3⟩ := he h0
      refine Frame.bind (high_load hw b2 ?_) fun _ => Frame.pure _
      show _ ≤ (bitWordA _ _).toNat
      rw [b1]; unfold bmWordA; rw [if_neg (show ¬ e = 0 from h0)]; omega
  refine safe_frame_bind hw hH2 hbm fun bit m5 h5 => ?_
  have hr5 := h5.bit hr (two_fst _ _) hr4
  have hs5 := h5.bit hs (two_snd _ _) hs4
  have hdb : (load (e + offIsDebug)).Frame g D c := by
    by_cases h0 : e = 0
    · have hc0 : 0 < g.cores := by omega
      obtain ⟨l1, l2, l3, l4, l5, l6, l7, l8, l9, l10, l11, l12⟩ := hw.layout
      have := hw.arrays_le; have := hw.top_le; have := hw.dram_ge
      have h24 : (e + offIsDebug).toNat = 24 := by rw [h0]; rfl
      refine frame_load (by rw [okAddr_iff, h24]; omega) ?_
      intro _ i hi hx
      rw [h24] at hx
      have hx : RecordWord g i (flushedA 0) := hx
      rcases hx with hx | hx | hx | hx <;> simp [hw, hc0] at hx
    · obtain ⟨r1, r2, r3⟩ := he h0
      exact high_loadOff hw r1 (by decide) (by show e.toNat + 24 + 8 ≤ _; omega) r2
  refine safe_frame_bind hw hH2 hdb fun dbg m6 h6 => ?_
  have hr6 := h6.bit hr (two_fst _ _) hr5
  have hs6 := h6.bit hs (two_snd _ _) hs5
  generalize hres : (if dbg = 0 then monitorInvalidState else if (!bit) = true then monitorInvalidValue else if oo ≠ nullEnclaveId then monitorInvalidValue
    else if oe ≠ e then monitorInvalidValue else monitorOk) = res
  refine safe_frame_bind hw hH2 (Frame.ite (fun hok => ?_) fun _ => Frame.pure _) fun _ m7 h7 =>
    release2 hw hr hs hne (h7.bit hr (two_fst _ _) hr6) (h7.bit hs (two_snd _ _) hs6) _
  have hoe : oe = e := by
    rw [hok] at hres
    refine Classical.byContradiction fun hne => ?_
    revert hres
    repeat' split
    all_goals first | (intro hh; exact absurd hh (by decide)) | (intro _; contradiction)
  have he0 : e = 0 := Classical.byContradiction fun h0 => owner_ne_id hw ov3 hz3 h0 hoe
  have ha := ha.resolve_left (fun hh => hh he0)
  have hcl : (clampedDramRegionFor g e).toNat = 0 := by
    rw [clamped_eq hw, he0]; unfold idRegion; split
    · unfold regionOf; simp
    · rfl
  have hreg : regionOf g os.toNat ≠ 0 := fun hh => hne (by rw [hcl, dramRegionFor_toNat hw, hh])
  obtain ⟨p1, p2, p3⟩ := page_high hw o1 o2 hreg
  have hdm := dram_mod hw
  refine Frame.ite (fun _ => ?_) fun _ => ?_
  · exact high_copyWords hw _ _ _ p1 (by omega) (by omega) (by omega) p3 ha
  · exact high_copyWords hw _ _ _ (by omega) p1 (by omega) (by omega) ha p3

/-! ### Threads of the OS, constants -/

theorem safe_createThread (hw : g.WF) (hc : c < g.cores) (t p : W) (hD : ¬ D) : Safe g D c (fun _ _ _ => True) noL m (createThread g t p) := by
  unfold createThread
  refine Safe.ite (fun _ => trivial) fun hp => Safe.ite (fun _ => trivial) fun hd => Safe.ite (fun _ => trivial) fun _ => ?_
  dsimp only
  rw [threadPagesLoop_ok hw (by simpa using hp) (by simpa using hd)]
  refine safe_currentEnclave hw hc noL_lt fun m1 _ => ?_
  rw [show nullEnclaveId = (0 : W) from rfl, dramRegionFor_zero hw]
  refine safe_tasLock hw noL_lt (zero_lt hw) (fun _ _ => by rw [if_pos rfl]; trivial) fun m2 _ _ b2 => ?_
  rw [if_neg (by decide)]
  have hpr := regionOf_lt hw p.toNat
  have hwa : (bitWordA (enclaveRegionBitmap 0) (dramRegionFor g p)).toNat = 304 + 8 * (regionOf g p.toNat / 64) := by
    have := hw.words
    have hbl := hw.layout
    simp only [bitWordA, bitmapOffset, enclaveRegionBitmap, enclaveInfoSize, BitVec.toNat_add, BitVec.toNat_mul, div64_toNat,
      show (8 : W).toNat = 8 from rfl, show (304 : W).toNat = 304 from rfl, dramRegionFor_toNat hw, show (0 : W).toNat = 0 from rfl]
    omega
  refine safe_frame_bind hw (one_lt (zero_lt hw)) (Frame.bind (frame_load ?_ fun hd => absurd hd hD) fun _ => Frame.pure _) fun bit m3 s3 => ?_
  · show okAddr g (bitWordA _ _) = true
    obtain ⟨l1, l2, l3, l4, l5, l6, l7, l8, l9, l10, l11, l12⟩ := hw.layout
    have := hw.arrays_le; have := hw.top_le; have := hw.dram_ge; have := hw.words; have := hw.stripe_ge
    rw [okAddr_iff, hwa]; omega
  · have b3 := s3.bit (zero_lt hw) (one_self _) b2
    refine Safe.ite (fun _ => trivial) fun _ => ?_
    exact (release1 hw (zero_lt hw) b3 _).mono fun _ _ _ _ => trivial

theorem safe_deleteThread (hw : g.WF) (hc : c < g.cores) (t : W) : Safe g D c (fun _ _ _ => True) noL m (deleteThread g t) := by
  unfold deleteThread
  refine safe_currentEnclave hw hc noL_lt fun m1 _ => ?_
  dsimp only
  rw [show nullEnclaveId = (0 : W) from rfl, dramRegionFor_zero hw]
  refine safe_tasLock hw noL_lt (zero_lt hw) (fun _ _ => by rw [if_pos rfl]; trivial) fun m2 _ _ b2 => ?_
  rw [if_neg (by decide)]; trivial

theorem safe_exitEnclave (hw : g.WF) (hc : c < g.cores) : Safe g D c (Done g) noL m (exitEnclave g) := by
  have hno : ∀ off : W, off.toNat ≤ 24 → off.toNat % 8 = 0 → (load (coreA g (BitVec.ofNat 64 c) + off)).Frame g D c := by
    intro off h1 h2
    refine frame_load (core_ok hw hc _ h1 h2) ?_
    intro _ i hi hx
    rw [coreA_toNat hw hc _ h1] at hx
    obtain ⟨l1, l2, l3, l4, l5, l6, l7, l8, l9, l10, l11, l12⟩ := hw.layout
    unfold RecordWord ownerA prevA pinnedA blockedA at hx
    omega
  unfold exitEnclave
  refine (safe_frame hw noL_lt ?_).mono fun _ H' _ hk => by obtain ⟨rfl, _⟩ := hk; exact fun _ hh => hh
  refine ⟨hc, fun v hv => ?_⟩
  rw [hv rfl]
  show Prog.Frame g D c (load (coreA g (BitVec.ofNat 64 c) + offCoreEnclaveId) >>= fun _ => load (coreA g (BitVec.ofNat 64 c) + offCoreThreadId) >>= fun _ =>
    load (coreA g (BitVec.ofNat 64 c) + offCoreThread) >>= fun _ => pure monitorOk)
  exact Frame.bind (hno _ (by decide) (by decide)) fun _ => Frame.bind (hno _ (by decide) (by decide)) fun _ =>
    Frame.bind (hno _ (by decide) (by decide)) fun _ => Frame.pure _

/-- All covered calls are verified. -/
theorem safe_call (hw : g.WF) (c : Nat) (k : Call) (m : Machine) (hc : c < g.cores) (hk : CoveredC g k) :
    Safe g (Disciplined g k) c (Post g k) (fun _ => False) m (k.prog g) := by
  have hdone : Safe g (Disciplined g k) c (Done g) noL m (k.prog g) → Safe g (Disciplined g k) c (Post g k) (fun _ => False) m (k.prog g) :=
    fun hh => hh.mono fun _ _ _ h1 _ i _ => h1 i
  obtain ⟨hcov, hrec⟩ := hk
  cases k
  case acceptThread => exact hcov.elim
  case blockDramRegion r => exact hdone (safe_block hw hc r)
  case dramRegionCheckOwnership r => exact hdone (safe_check hw hc r)
  case exitEnclave => exact hdone (safe_exitEnclave hw hc)
  case setDmaRange b n => exact hdone (safe_setDmaRange hw hc b n)
  case dramRegionState r => exact hdone (safe_state hw r)
  case dramRegionOwner r => exact hdone (safe_owner hw r)
  case assignDramRegion r e => exact hdone (safe_assign hw hc r e id)
  case freeDramRegion r => exact hdone (safe_free hw r)
  case flushCachedDramRegions => exact hdone (safe_flush hw hc)
  case createMetadataRegion r => exact hdone (safe_createMeta hw r)
  case createEnclave e b k n d => exact hdone (safe_createEnclave ⟨hw, hcov.1, hcov.2⟩ e b k n d)
  case loadPageTable e p v l a => exact hdone (safe_loadPageTable hw e p v l a)
  case loadPage e p v o a => exact hdone (safe_loadPage hw e p v o a)
  case loadThread e t w x y z => exact hdone (safe_loadThread ⟨hw, hcov.1, hcov.2⟩ e t w x y z)
  case assignThread e t => exact hdone (safe_assignThread ⟨hw, hcov.1, hcov.2⟩ e t)
  case initEnclave e => exact hdone (safe_initEnclave hw e)
  case enterEnclave e t => exact hdone (safe_enterEnclave hw e t)
  case createThread t p => exact (safe_createThread hw hc t p id).mono fun _ _ _ _ hh => hh.elim
  case deleteThread t => exact (safe_deleteThread hw hc t).mono fun _ _ _ _ hh => hh.elim
  case deleteEnclave e => exact hdone (safe_deleteEnclave hw e)
  case copyDebugEnclavePage e a os d => exact hdone (safe_copyDebug hw hc e a os d (hrec e a os d rfl) hcov)
  all_goals exact hdone (done_pure _)

end Sanctum
