import Verif.Lemmas.RaceCalls
import Verif.Props.Mirror
import Verif.Props.Confine
/-
Debug copies only copy memory of the OS, and the soundness of the logic of protecting locks for interleavings.
-/
namespace Sanctum
open Machine

variable {g : Cfg} {c : Nat} {α β : Type} {H : Nat → Prop} {m : Machine}

/-! ### Debug copies -/

/-- The program accesses memory above the monitor's only while it holds the lock of region 0, and only in regions of the OS. -/
def Prog.Dbg (g : Cfg) (c : Nat) : (Nat → Prop) → Machine → Prog α → Prop
  | _, _, .ret _ => True
  | H, m, .op o f => ∀ m', MRely g c H m m' → MInv g m' → HeldOk g H m' →
      (∀ x, g.monitorTop.toNat ≤ x → o.accesses g x → H 0 ∧ m'.owner g (regionOf g x) = nullEnclaveId) ∧
      ∀ v m1, exec g c o m' = some (v, m1) → Prog.Dbg g c (heldStep g o v H) m1 (f v)
  | _, _, .fault => True
  | _, _, .diverge => True

/-- Actions that do not access memory above the monitor's. -/
theorem dbg_low {o : Op} {f : W → Prog α} (hlow : ∀ x, o.accesses g x → x < g.monitorTop.toNat)
    (hf : ∀ m' v m1, MRely g c H m m' → MInv g m' → HeldOk g H m' → exec g c o m' = some (v, m1) → (f v).Dbg g c (heldStep g o v H) m1) : (Prog.op o f).Dbg g c H m :=
  fun m' h1 h2 h3 => ⟨fun x hx hh => absurd (hlow x hh) (by omega), fun v m1 he => hf m' v m1 h1 h2 h3 he⟩

theorem dbg_tasLock (hw : g.WF) {r : W} (hr : r.toNat < g.regions) {f : Bool → Prog α} (hbusy : ∀ H m1, (f true).Dbg g c H m1)
    (hfree : ∀ m' m1, MRely g c H m m' → MInv g m' → HeldOk g H m' → m'.mem (lockA g r.toNat) = 0 → MSame g m' m1 →
      (f false).Dbg g c (heldStep g (.tas (regionA g r + offLock)) 0 H) m1) :
    (tasLock g r >>= f).Dbg g c H m := by
  have ha := lockA_toNat hw hr
  have hlt := lockA_lt hw hr
  refine dbg_low (fun x hx => ?_) fun m' v m1 h1 h2 h3 he => ?_
  · have hx : (regionA g r + offLock).toNat = x := hx
    omega
  · simp only [exec] at he
    split at he
    · cases he
      by_cases hz : m'.mem (regionA g r + offLock).toNat = 0
      · have hb : b2w (m'.mem (regionA g r + offLock).toNat != 0) = 0 := by rw [hz]; rfl
        rw [hb]
        refine hfree m' _ h1 h2 h3 (by rw [← ha]; exact hz) ⟨fun i hi => ?_, fun i hi => ?_, ⟨rfl, rfl⟩, ⟨rfl, rfl⟩⟩
        · exact upd_ne _ _ (by rw [ha]; simp [hw, hr])
        · show upd m'.mem _ _ (ownerA g i) = _ ↔ _
          rw [upd_ne _ _ (by rw [ha]; simp)]; exact Iff.rfl
      · have hb : b2w (m'.mem (regionA g r + offLock).toNat != 0) = 1 := by rw [bne_iff_ne.2 hz]; rfl
        rw [hb]
        exact hbusy _ _
    · cases he

/-- A load from the monitor's tables by a core that holds the lock of region 0. -/
theorem dbg_load {a : W} {f : W → Prog α} (h0 : H 0) (ha : a.toNat < g.monitorTop.toNat) (hf : ∀ m1, MSame g m m1 → (f (m1.mem a.toNat)).Dbg g c H m1) :
    (load a >>= f).Dbg g c H m := by
  refine dbg_low (fun x hx => (show a.toNat = x from hx) ▸ ha) fun m' v m1 h1 _ _ he => ?_
  simp only [exec] at he
  split at he
  · cases he; exact hf m' (h1.map h0)
  · cases he

/-- Releasing locks and returning. -/
theorem dbg_rel1 (hw : g.WF) {r : W} (hr : r.toNat < g.regions) (v : α) : (clearLock g r >>= fun _ => pure v).Dbg g c H m := by
  have ha := lockA_toNat hw hr
  have hlt := lockA_lt hw hr
  refine dbg_low (fun x hx => ?_) fun _ _ _ _ _ _ _ => trivial
  have hx : (regionA g r + offLock).toNat = x := hx
  omega

theorem dbg_rel2 (hw : g.WF) {r s : W} (hr : r.toNat < g.regions) (hs : s.toNat < g.regions) (v : α) :
    (clearLock g r >>= fun _ => clearLock g s >>= fun _ => pure v).Dbg g c H m := by
  have ha := lockA_toNat hw hr
  have hlt := lockA_lt hw hr
  refine dbg_low (fun x hx => ?_) fun _ _ _ _ _ _ _ => dbg_rel1 hw hs v
  have hx : (regionA g r + offLock).toNat = x := hx
  omega

/-- Copying inside memory of the OS. -/
theorem dbg_copyWords (hw : g.WF) {f : Unit → Prog α} (hf : ∀ H m1, (f ()).Dbg g c H m1) : ∀ (n : Nat) (d s : W) (m : Machine) (H : Nat → Prop), H 0 →
    d.toNat + 8 * n < 2 ^ 64 → s.toNat + 8 * n < 2 ^ 64 →
    (∀ x, d.toNat ≤ x → x < d.toNat + 8 * n → g.monitorTop.toNat ≤ x ∧ m.owner g (regionOf g x) = nullEnclaveId) →
    (∀ x, s.toNat ≤ x → x < s.toNat + 8 * n → g.monitorTop.toNat ≤ x ∧ m.owner g (regionOf g x) = nullEnclaveId) →
    (copyWords n d s >>= f).Dbg g c H m := by
  intro n
  induction n with
  | zero => intro d s m H _ _ _ _ _; exact hf H m
  | succ n ih =>
      intro d s m H h0 h1 h2 h3 h4
      unfold copyWords
      have hd := h3 d.toNat (by omega) (by omega)
      have hs := h4 s.toNat (by omega) (by omega)
      have e1 : (d + 8).toNat = d.toNat + 8 := add_off (by show d.toNat + 8 < _; omega)
      have e2 : (s + 8).toNat = s.toNat + 8 := add_off (by show s.toNat + 8 < _; omega)
      have hz : 0 < g.regions := by have := hw.regions_ge; omega
      intro m' r1 _ _
      have s1 := r1.map h0
      refine ⟨fun x hx hh => ?_, fun v m1 he => ?_⟩
      · have hh : s.toNat = x := hh
        subst hh
        exact ⟨h0, (s1.null _ (regionOf_lt hw _)).2 hs.2⟩
      · simp only [exec] at he
        split at he
        · cases he
          intro m'' r2 _ _
          have s2 := s1.trans (r2.map h0)
          refine ⟨fun x hx hh => ?_, fun v m1 he => ?_⟩
          · have hh : d.toNat = x := hh
            subst hh
            exact ⟨h0, (s2.null _ (regionOf_lt hw _)).2 hd.2⟩
          · simp only [exec] at he
            split at he
            · cases he
              have hown : ∀ i, i < g.regions → (m.owner g i = nullEnclaveId → Machine.owner { m'' with mem := upd m''.mem d.toNat (m'.mem s.toNat) } g i = nullEnclaveId) := by
                intro i hi hh
                have := ownerA_lt hw hi
                show upd m''.mem _ _ (ownerA g i) = _
                rw [upd_ne _ _ (by omega)]
                exact (s2.null i hi).2 hh
              refine ih (d + 8) (s + 8) _ _ ⟨h0, ?_⟩ (by omega) (by omega) (fun x x1 x2 => ?_) fun x x1 x2 => ?_
              · have := lockA_lt hw hz; omega
              · have := h3 x (by omega) (by omega)
                exact ⟨this.1, hown _ (regionOf_lt hw _) this.2⟩
              · have := h4 x (by omega) (by omega)
                exact ⟨this.1, hown _ (regionOf_lt hw _) this.2⟩
            · cases he
        · cases he

theorem dbg_copyDebug (hw : g.WF) (a os : W) (dir : Bool) (ha : g.monitorTop.toNat ≤ a.toNat) : (copyDebugEnclavePage g 0 a os dir).Dbg g c H m := by
  unfold copyDebugEnclavePage
  split
  · trivial
  rename_i hal
  split
  · trivial
  rename_i hdr
  have hal : isPageAligned a = true ∧ isPageAligned os = true := by simpa using hal
  have hdr : isDramAddress g a = true ∧ isDramAddress g os = true := by simpa using hdr
  have a1 := (isPageAligned_iff a).1 hal.1
  have a2 := (isDramAddress_iff a).1 hdr.1
  have o1 := (isPageAligned_iff os).1 hal.2
  have o2 := (isDramAddress_iff os).1 hdr.2
  have hr := clamped_lt hw (0 : W)
  have hs := dramRegionFor_lt hw os
  have hcl : (clampedDramRegionFor g 0).toNat = 0 := by
    rw [clamped_eq hw]; unfold idRegion; split
    · unfold regionOf; simp
    · rfl
  have hsl := g.dramSize.isLt
  have hdm := dram_mod hw
  dsimp only
  refine dbg_tasLock hw hr (fun _ _ => by rw [if_pos rfl]; trivial) fun m1 m2 _ i1 _ l1 s1 => ?_
  rw [if_neg (by decide)]
  rw [hcl] at l1
  have hm2 : MapOk g m2 := s1.map (i1 l1).1
  have hH : heldStep g (.tas (regionA g (clampedDramRegionFor g 0) + offLock)) 0 H 0 :=
    Or.inr ⟨by rw [← hcl]; exact hr, rfl, by rw [lockA_toNat hw hr, hcl]⟩
  generalize heldStep g (.tas (regionA g (clampedDramRegionFor g 0) + offLock)) 0 H = H1 at hH ⊢
  refine dbg_tasLock hw hs (fun _ _ => by rw [if_pos rfl]; exact dbg_rel1 hw hr _) fun m3 m4 r3 _ d3 l3 s3 => ?_
  rw [if_neg (by decide)]
  have hm4 : MapOk g m4 := s3.map ((r3.map hH).map hm2)
  have hH2 : heldStep g (.tas (regionA g (dramRegionFor g os) + offLock)) 0 H1 0 := Or.inl hH
  generalize heldStep g (.tas (regionA g (dramRegionFor g os) + offLock)) 0 H1 = H2 at hH2 ⊢
  refine dbg_load hH2 (by rw [ownerA_toNat hw hr]; have := ownerA_lt hw hr; omega) fun m5 s5 => ?_
  refine dbg_load hH2 (by rw [ownerA_toNat hw hs]; have := ownerA_lt hw hs; omega) fun m6 s6 => ?_
  have hra := dramRegionFor_lt hw a
  unfold readEnclaveRegionBitmapBit
  rw [if_pos (show (0 : W) = nullEnclaveId from rfl)]
  unfold readBitmapBit
  rw [prog_assoc hw]
  refine dbg_load hH2 (osWord_quiet hw hra).1 fun m7 s7 => ?_
  show Prog.Dbg g c _ _ (load (0 + offIsDebug) >>= _)
  refine dbg_load hH2 ?_ fun m8 s8 => ?_
  · obtain ⟨l1, l2, l3, l4, l5, l6, l7, l8, l9, l10, l11, l12⟩ := hw.layout
    have := hw.arrays_le
    show 24 < _
    omega
  have hz : 0 < g.regions := by rw [← hcl]; exact hr
  have hreg : regionOf g os.toNat ≠ 0 := fun hh => by
    rw [dramRegionFor_toNat hw, hh, d3 0 hz hH] at l3
    exact absurd l3 (by decide)
  obtain ⟨p1, p2, p3⟩ := page_high hw o1 o2 hreg
  have hos : (dramRegionFor g os).toNat = regionOf g os.toNat := dramRegionFor_toNat hw os
  generalize hres : (if m8.mem ((0 : W) + offIsDebug).toNat = 0 then monitorInvalidState
    else if !(m7.mem (g.osBitmap + bitmapOffset (dramRegionFor g a) * 8).toNat &&& bitmapMask (dramRegionFor g a) != 0) then monitorInvalidValue
    else if m6.mem (regionA g (dramRegionFor g os) + offOwner).toNat ≠ nullEnclaveId then monitorInvalidValue
    else if m5.mem (regionA g (clampedDramRegionFor g 0) + offOwner).toNat ≠ 0 then monitorInvalidValue else monitorOk) = res
  by_cases hok : res = monitorOk
  · have e1 : ¬ m8.mem ((0 : W) + offIsDebug).toNat = 0 := fun hh => by
      rw [if_pos hh] at hres; subst hres; exact absurd hok (by decide)
    rw [if_neg e1] at hres
    have e2 : ¬ (!(m7.mem (g.osBitmap + bitmapOffset (dramRegionFor g a) * 8).toNat &&& bitmapMask (dramRegionFor g a) != 0)) = true := fun hh => by
      rw [if_pos hh] at hres; subst hres; exact absurd hok (by decide)
    rw [if_neg e2] at hres
    have e3 : ¬ m6.mem (regionA g (dramRegionFor g os) + offOwner).toNat ≠ nullEnclaveId := fun hh => by
      rw [if_pos hh] at hres; subst hres; exact absurd hok (by decide)
    have e3 : m6.mem (regionA g (dramRegionFor g os) + offOwner).toNat = nullEnclaveId := Classical.not_not.1 e3
    rw [ownerA_toNat hw hs, hos] at e3
    have e3 : m8.owner g (regionOf g os.toNat) = nullEnclaveId := (s8.null _ (regionOf_lt hw _)).2 ((s7.null _ (regionOf_lt hw _)).2 e3)
    have e2 : (m7.mem (bitWordA g.osBitmap (dramRegionFor g a)).toNat &&& bitmapMask (dramRegionFor g a) != 0) = true := by
      have e4 : ∀ {b : Bool}, ¬ (!b) = true → b = true := by decide
      exact e4 e2
    rw [and_bitmapMask, osWordA_toNat hw hra, dramRegionFor_toNat hw] at e2
    have hm7 : MapOk g m7 := s7.map (s6.map (s5.map hm4))
    have e4 : m8.owner g (regionOf g a.toNat) = nullEnclaveId := (s8.null _ (regionOf_lt hw _)).2 ((hm7 _ (regionOf_lt hw _)).1 e2)
    have k1 : ∀ x, a.toNat ≤ x → x < a.toNat + 8 * 512 → g.monitorTop.toNat ≤ x ∧ m8.owner g (regionOf g x) = nullEnclaveId := fun x x1 x2 =>
      ⟨by omega, by rw [page_region hw a1 x1 x2]; exact e4⟩
    have k2 : ∀ x, os.toNat ≤ x → x < os.toNat + 8 * 512 → g.monitorTop.toNat ≤ x ∧ m8.owner g (regionOf g x) = nullEnclaveId := fun x x1 x2 =>
      ⟨by omega, by rw [page_region hw o1 x1 x2]; exact e3⟩
    rw [if_pos hok]
    cases dir
    · exact dbg_copyWords hw (fun _ _ => dbg_rel2 hw hs hr _) 512 a os m8 H2 hH2 (by omega) (by omega) k1 k2
    · exact dbg_copyWords hw (fun _ _ => dbg_rel2 hw hs hr _) 512 os a m8 H2 hH2 (by omega) (by omega) k2 k1
  · rw [if_neg hok]
    exact dbg_rel2 hw hs hr _

/-! ### Soundness -/

/-- Steps of other cores and of software, seen by core `c`. -/
theorem step_rely (hw : g.WF) {t : List Label} {s s' : Conf} {l : Label} (hg : Good g t s) (h : GoodM g t s) (hl : Step g s l s')
    (hc : ∀ o v, l ≠ .act c o v) : MRely g c (holds g t c) s.m s'.m := by
  have h0 : 0 < g.regions := by have := hw.regions_ge; omega
  cases hl with
  | start _ _ => exact MRely.refl _ _
  | done _ => exact MRely.refl _ _
  | @act c' k o f v m' hrun hex =>
      obtain ⟨v2, m2, w1, w2, w3, w4⟩ := hg.act hrun
      rw [hex] at w1
      obtain ⟨rfl, rfl⟩ := Prod.mk.inj (Option.some.inj w1)
      obtain ⟨m, hrel, hmir⟩ := h.running c' k _ hrun
      obtain ⟨q1, q2⟩ := hmir s.m hrel hg.inv h.inv (hg.held c') v m' hex w3
      have hcc : c ≠ c' := fun hh => hc o v (by rw [hh])
      have hsafe : ∀ i, i < g.regions → holds g t c i → ¬ holds g t c' i := fun i hi hh hh2 => hcc (hg.mutex c c' i hi hh hh2)
      have hms : ¬ holds g t c' 0 → MSame g s.m m' := fun hn => ⟨(w3.map hn).1, q1.null hn, (w3.map hn).2, q1.regs hn⟩
      exact ⟨fun i hi hh => (w3.record i hi (hsafe i hi hh)).1 _ (Or.inl rfl), fun hh => hms (hsafe 0 h0 hh),
        (q1.drb c).resolve_right fun hh => hcc hh.1⟩
  | @soft m' hsoft =>
      obtain ⟨x, w, hx, rfl⟩ := hsoft
      have hmem : ∀ y, y < g.monitorTop.toNat → upd s.m.mem x w y = s.m.mem y := fun y hy => upd_ne _ _ (by omega)
      have hown : ∀ i, i < g.regions → Machine.owner { s.m with mem := upd s.m.mem x w } g i = s.m.owner g i := fun i hi =>
        hmem _ (by have := ownerA_lt hw hi; omega)
      exact ⟨fun i hi _ => hown i hi, fun _ => ⟨fun i hi => hmem _ (by have := osWordA_lt hw hi; omega), fun i hi => by rw [hown i hi], ⟨rfl, rfl⟩, ⟨rfl, rfl⟩⟩, rfl⟩

/-- What the two logics say of a configuration. -/
structure GoodR (g : Cfg) (t : List Label) (s : Conf) : Prop where
  grd : ∀ c k p, s.cores c = .running k p → p.Grd g c Any (holds g t c)
  dbg : ∀ c e a os d p, s.cores c = .running (.copyDebugEnclavePage e a os d) p → ∃ m, MRely g c (holds g t c) m s.m ∧ p.Dbg g c (holds g t c) m

/-- The calls the theorem on races is about. -/
def NoRacing (g : Cfg) (k : Call) : Prop := CoveredC g k ∧ Orderly k

theorem GoodR.step (hw : g.WF) {t : List Label} {s s' : Conf} {l : Label} (hg : Good g t s) (hm : GoodM g t s) (h : GoodR g t s)
    (hcov : OnlyCalls (NoRacing g) (t ++ [l])) (hl : Step g s l s') : GoodR g (t ++ [l]) s' := by
  have hrely : ∀ c, (∀ o v, l ≠ .act c o v) → MRely g c (holds g t c) s.m s'.m := fun c => step_rely hw hg hm hl
  cases hl with
  | @start c' k' hlt hidle =>
      have hsame : ∀ c, holds g (t ++ [Label.start c' k']) c = holds g t c := fun c => by rw [holds_snoc]; rfl
      have hck := hcov c' k' (List.mem_append_right _ (List.mem_singleton.2 rfl))
      refine ⟨fun c k p hc => ?_, fun c e a os d p hc => ?_⟩
      · rw [hsame]
        have hc' : upd s.cores c' (.running k' (k'.prog g)) c = CoreState.running k p := hc
        by_cases hcc : c = c'
        · subst hcc
          rw [upd_same] at hc'
          obtain ⟨rfl, rfl⟩ := CoreState.running.inj hc'
          exact (grd_call hw c k' hlt hck.1 hck.2).weaken fun _ hh => hh.elim
        · rw [upd_ne _ _ hcc] at hc'
          exact h.grd c k p hc'
      · rw [hsame]
        have hc' : upd s.cores c' (.running k' (k'.prog g)) c = CoreState.running (.copyDebugEnclavePage e a os d) p := hc
        by_cases hcc : c = c'
        · subst hcc
          rw [upd_same] at hc'
          obtain ⟨rfl, rfl⟩ := CoreState.running.inj hc'
          have he : e = nullEnclaveId := hck.2
          subst he
          have ha : (nullEnclaveId : W) ≠ 0 ∨ g.monitorTop.toNat ≤ a.toNat := hck.1.1
          exact ⟨s.m, MRely.refl _ _, dbg_copyDebug hw a os d (ha.resolve_left fun hh => hh rfl)⟩
        · rw [upd_ne _ _ hcc] at hc'
          exact h.dbg c e a os d p hc'
  | @act c' k' o f v m' hrun hex =>
      refine ⟨fun c k p hc => ?_, fun c e a os d p hc => ?_⟩
      · have hc' : upd s.cores c' (.running k' (f v)) c = CoreState.running k p := hc
        by_cases hcc : c = c'
        · subst hcc
          rw [upd_same] at hc'
          obtain ⟨rfl, rfl⟩ := CoreState.running.inj hc'
          rw [holds_snoc, heldLabel_act_self]
          exact (h.grd c k' _ hrun).2 v (exec_respOk hg.inv (hg.held c) hex)
        · rw [upd_ne _ _ hcc] at hc'
          rw [holds_snoc, heldLabel_act_other (Ne.symm hcc)]
          exact h.grd c k p hc'
      · have hc' : upd s.cores c' (.running k' (f v)) c = CoreState.running (.copyDebugEnclavePage e a os d) p := hc
        by_cases hcc : c = c'
        · subst hcc
          rw [upd_same] at hc'
          obtain ⟨rfl, rfl⟩ := CoreState.running.inj hc'
          rw [holds_snoc, heldLabel_act_self]
          obtain ⟨m, z1, z2⟩ := h.dbg c e a os d _ hrun
          exact ⟨m', MRely.refl _ _, (z2 s.m z1 hm.inv (hg.held c)).2 v m' hex⟩
        · rw [upd_ne _ _ hcc] at hc'
          rw [holds_snoc, heldLabel_act_other (Ne.symm hcc)]
          obtain ⟨m, z1, z2⟩ := h.dbg c e a os d p hc'
          exact ⟨m, z1.trans (hrely c fun o v hh => hcc (by cases hh; rfl)), z2⟩
  | @done c' k' v hrun =>
      refine ⟨fun c k p hc => ?_, fun c e a os d p hc => ?_⟩
      · have hc' : upd s.cores c' .idle c = CoreState.running k p := hc
        by_cases hcc : c = c'
        · subst hcc; rw [upd_same] at hc'; exact absurd hc' (by simp)
        · rw [upd_ne _ _ hcc] at hc'
          rw [holds_snoc, heldLabel_done_other (Ne.symm hcc)]
          exact h.grd c k p hc'
      · have hc' : upd s.cores c' .idle c = CoreState.running (.copyDebugEnclavePage e a os d) p := hc
        by_cases hcc : c = c'
        · subst hcc; rw [upd_same] at hc'; exact absurd hc' (by simp)
        · rw [upd_ne _ _ hcc] at hc'
          rw [holds_snoc, heldLabel_done_other (Ne.symm hcc)]
          exact h.dbg c e a os d p hc'
  | @soft m' hsoft =>
      have hsame : ∀ c, holds g (t ++ [Label.soft]) c = holds g t c := fun c => by rw [holds_snoc]; rfl
      refine ⟨fun c k p hc => ?_, fun c e a os d p hc => ?_⟩
      · rw [hsame]; exact h.grd c k p hc
      · rw [hsame]
        obtain ⟨m, z1, z2⟩ := h.dbg c e a os d p hc
        exact ⟨m, z1.trans (hrely c fun o v hh => by cases hh), z2⟩

theorem goodR_steps {s s' : Conf} {t : List Label} (h : Fresh g s) (hs : Steps g s t s') (hk : OnlyCalls (NoRacing g) t) : GoodR g t s' := by
  have hw := h.1.wf
  have hcov : ∀ {t}, OnlyCalls (NoRacing g) t → OnlyCalls (CoveredC g) t := fun hh c k hm => (hh c k hm).1
  induction hs with
  | refl => exact ⟨fun c k p hc => (by rw [h.2 c] at hc; cases hc), fun c e a os d p hc => (by rw [h.2 c] at hc; cases hc)⟩
  | @tail s1 s2 t l hs hl ih =>
      exact GoodR.step hw (good_steps h hs (hcov hk.prefix)) (goodM_steps h hs (hcov hk.prefix)) (ih hk.prefix) hk hl

end Sanctum
