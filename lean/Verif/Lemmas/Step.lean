import Verif.Lemmas.DeleteCalls
import Verif.Spec.System
import Verif.Props.RegionCalls
/-
Every covered call preserves the invariant, moves regions along legal edges, and is a no-op if it fails.
-/
namespace Sanctum
open Machine

variable {g : Cfg}

/-! ### States that agree on the monitor's own words -/

/-- `m'` agrees with `m` on the monitor's memory and on the DMA window. -/
def SameTop (g : Cfg) (m m' : Machine) : Prop :=
  (∀ x, x < g.monitorTop.toNat → m'.mem x = m.mem x) ∧ m'.dmaStart = m.dmaStart ∧ m'.dmaEnd = m.dmaEnd

theorem SameTop.inv (h : g.WF) {m m' : Machine} (hs : SameTop g m m') (hi : Inv g m) : Inv g m' ∧ Legal g m m' := by
  obtain ⟨h1, h2, h3⟩ := hs
  have ho : ∀ i, i < g.regions → m'.owner g i = m.owner g i := fun i hi => h1 _ (by have := ownerA_lt h hi; omega)
  refine ⟨⟨?_, ?_, ?_, ?_, ?_, ?_⟩, ?_⟩
  · intro i hh; rw [h1 _ (by have := lockA_lt h hh; omega)]; exact hi.locks i hh
  · intro i hh; rw [ho i hh]; exact hi.owners i hh
  · rw [ho 0 (by have := h.regions_ge; omega)]; exact hi.region0
  · intro c hc
    show m'.mem _ = _
    rw [h1 _ (by have := coreEnclaveA_lt h hc; omega)]; exact hi.os c hc
  · intro i hh
    rw [ho i hh, ← hi.bitmap i hh]
    unfold Machine.osBit
    rw [h1 _ (by have := osWordA_lt h hh; omega)]
  · rw [h2, h3]; exact hi.dma
  · intro i hh; rw [ho i hh]; exact .same _

/-! ### No ID is valid in a state with the invariant -/

theorem Inv.noId (h : g.WF) {m : Machine} (hi : Inv g m) {e : W} (ho : m.owner g (idRegion g e) = e) : e = 0 := by
  have h1 := hi.owners _ (idRegion_lt h e)
  rw [ho] at h1
  have h2 := h.dram_ge
  have h3 := h.stripe_ge
  have hsmall : e.toNat ≤ 3 → e = 0 := by
    intro hle
    have : idRegion g e = 0 := by
      unfold idRegion
      rw [if_pos (by omega)]
      unfold regionOf
      rw [← h.stripeSize, Nat.div_eq_of_lt (by omega)]; rfl
    rw [this, hi.region0] at ho
    exact ho.symm
  rcases h1 with h1 | h1 | h1 | h1
  · exact h1
  · exact hsmall (by rw [h1]; decide)
  · exact hsmall (by rw [h1]; decide)
  · exact hsmall (by rw [h1]; decide)

theorem Inv.not_valid (h : g.WF) {m : Machine} (hi : Inv g m) (e : W) : ¬ ValidId g m e := fun hv => hv.1 (hi.noId h hv.2)

theorem recordOk_zero : RecordOk g 0 := fun hh => absurd rfl hh

theorem Inv.recordOk {m : Machine} (hi : Inv g m) {c : Nat} (hc : c < g.cores) : RecordOk g (m.running c) := by
  rw [hi.os c hc]; exact recordOk_zero

/-- What a completed call did. -/
structure StepOk (g : Cfg) (m : Machine) (v : W) (m' : Machine) : Prop where
  inv : Inv g m'
  legal : Legal g m m'

theorem StepOk.refl {m : Machine} (hi : Inv g m) (v : W) : StepOk g m v m := ⟨hi, fun _ _ => .same _⟩

theorem step_of_top (h : g.WF) {m m' : Machine} (hi : Inv g m) (v : W) (hs : SameTop g m m') : StepOk g m v m' :=
  ⟨(hs.inv h hi).1, (hs.inv h hi).2⟩

/-! ### The region calls -/

theorem step_block (h : g.WF) {c : Nat} (hc : c < g.cores) (r : W) {m : Machine} (hi : Inv g m) :
    ∃ v m', call g c (.blockDramRegion r) m = some (v, m') ∧ StepOk g m v m' := by
  obtain ⟨v, m', h1, h2, h3, h4⟩ := C15_block_exact h hc r hi.locks (hi.recordOk hc) hi.dma
  refine ⟨v, m', h1, ?_⟩
  by_cases hv : v = monitorOk
  · have hok := h2.1 hv
    have he := h3 hv
    have hrun := hi.os c hc
    have hr := hok.2.1
    have hmem := he.mem
    rw [hrun] at hmem
    have hb := he.bitmap
    rw [hrun] at hb
    simp only [show nullEnclaveId = (0 : W) from rfl] at hmem hb
    have hkeep : ∀ a, a ≠ ownerA g r.toNat → a ≠ prevA g r.toNat → a ≠ blockedA g r.toNat → a ≠ clockA g → a ≠ osWordA g r.toNat →
        m'.mem a = m.mem a := by
      intro a n1 n2 n3 n4 n5
      exact hmem a (fun hh => hh.elim n1 (fun hh => hh.elim n2 (fun hh => hh.elim n3 (fun hh => hh.elim n4 n5))))
    have hown : ∀ i, i < g.regions → i ≠ r.toNat → m'.owner g i = m.owner g i := fun i hh hne =>
      hkeep _ (by simpa using hne) (by simp) (by simp) (ownerA_ne_clockA h hh) (ownerA_ne_osWordA h hh)
    have hro : m.owner g r.toNat = nullEnclaveId := by rw [hok.2.2.2.1, hrun]
    refine ⟨⟨?_, ?_, ?_, ?_, ?_, ?_⟩, ?_⟩
    · intro i hh
      rw [hkeep _ (by simp) (by simp) (by simp) (lockA_ne_clockA h hh) (lockA_ne_osWordA h hh)]
      exact hi.locks i hh
    · intro i hh
      by_cases hne : i = r.toNat
      · rw [hne, he.blocked]; exact Or.inr (Or.inl rfl)
      · rw [hown i hh hne]; exact hi.owners i hh
    · rw [hown 0 (by have := h.regions_ge; omega) (Ne.symm hok.1)]; exact hi.region0
    · intro c' hc'
      show m'.mem (coreEnclaveA c') = _
      rw [hkeep _ (coreEnclaveA_ne_ownerA h hc') (coreEnclaveA_ne_prevA h hc') (coreEnclaveA_ne_blockedA h hc') (coreEnclaveA_ne_clockA h hc')
        (coreEnclaveA_ne_osWordA h hc')]
      exact hi.os c' hc'
    · intro i hh
      have h5 := hb i
      rw [bmBit_zero, bmBit_zero] at h5
      rw [h5, Bool.and_eq_true, decide_eq_true_eq, hi.bitmap i hh]
      by_cases hne : i = r.toNat
      · rw [hne, he.blocked]; exact iff_of_false (fun x => x.2 rfl) (by decide)
      · rw [hown i hh hne]; exact ⟨fun x => x.1, fun x => ⟨x, hne⟩⟩
    · rw [he.dma.1, he.dma.2.1]; exact hi.dma
    · intro i hh
      by_cases hne : i = r.toNat
      · rw [hne, he.blocked, hro]; exact .block _ (by decide) (by decide) (by decide)
      · rw [hown i hh hne]; exact .same _
  · rw [h4 hv]; exact StepOk.refl hi v

theorem step_assign (h : g.WF) (c : Nat) (r e : W) {m : Machine} (hi : Inv g m) :
    ∃ v m', call g c (.assignDramRegion r e) m = some (v, m') ∧ StepOk g m v m' := by
  obtain ⟨v, m', h1, h2, h3, h4⟩ := C16_assign_exact h c r e hi.locks (fun hh => by rw [hi.noId h hh]; exact recordOk_zero)
  refine ⟨v, m', h1, ?_⟩
  by_cases hv : v = monitorOk
  · have hok := h2.1 hv
    have he := h3 hv
    have h0 := hi.noId h hok.2.2.2.2.2
    subst h0
    have hr := hok.1
    have hmem := he.mem
    have hb := he.bitmap
    have hkeep : ∀ a, a ≠ ownerA g r.toNat → a ≠ osWordA g r.toNat → m'.mem a = m.mem a := by
      intro a n1 n2
      exact hmem a (fun hh => hh.elim n1 n2)
    have hown : ∀ i, i < g.regions → i ≠ r.toNat → m'.owner g i = m.owner g i := fun i hh hne =>
      hkeep _ (by simpa using hne) (ownerA_ne_osWordA h hh)
    have hro := hok.2.2.1
    have hr0 : r.toNat ≠ 0 := by intro hh; rw [hh, hi.region0] at hro; exact absurd hro (by decide)
    refine ⟨⟨?_, ?_, ?_, ?_, ?_, ?_⟩, ?_⟩
    · intro i hh
      rw [hkeep _ (by simp) (lockA_ne_osWordA h hh)]
      exact hi.locks i hh
    · intro i hh
      by_cases hne : i = r.toNat
      · rw [hne, he.owned]; exact Or.inl rfl
      · rw [hown i hh hne]; exact hi.owners i hh
    · rw [hown 0 (by have := h.regions_ge; omega) (Ne.symm hr0)]; exact hi.region0
    · intro c' hc'
      show m'.mem (coreEnclaveA c') = _
      rw [hkeep _ (coreEnclaveA_ne_ownerA h hc') (coreEnclaveA_ne_osWordA h hc')]
      exact hi.os c' hc'
    · intro i hh
      have h5 := hb i
      rw [bmBit_zero, bmBit_zero] at h5
      rw [h5, Bool.or_eq_true, decide_eq_true_eq, hi.bitmap i hh]
      by_cases hne : i = r.toNat
      · rw [hne, he.owned]; exact iff_of_true (Or.inr rfl) rfl
      · rw [hown i hh hne]; exact ⟨fun x => x.resolve_right hne, Or.inl⟩
    · rw [he.dma.1, he.dma.2.1]; exact hi.dma
    · intro i hh
      by_cases hne : i = r.toNat
      · rw [hne, he.owned, hro]; exact .assign _ (by decide) (by decide) (by decide)
      · rw [hown i hh hne]; exact .same _
  · rw [h4 hv]; exact StepOk.refl hi v

theorem step_free (h : g.WF) (c : Nat) (r : W) {m : Machine} (hi : Inv g m) :
    ∃ v m', call g c (.freeDramRegion r) m = some (v, m') ∧ StepOk g m v m' := by
  obtain ⟨v, m', h1, h2, h3, h4⟩ := C17_free_exact h c r hi.locks
  refine ⟨v, m', h1, ?_⟩
  by_cases hv : v = monitorOk
  · have hok := h2.1 hv
    have he := h3 hv
    have hr := hok.1
    have hkeep : ∀ a, a ≠ ownerA g r.toNat → m'.mem a = m.mem a := fun a n1 => he.mem a n1
    have hown : ∀ i, i ≠ r.toNat → m'.owner g i = m.owner g i := fun i hne => hkeep _ (by simpa using hne)
    have hro : m.owner g r.toNat = blockedEnclaveId ∨ m.owner g r.toNat = metadataEnclaveId := by
      rcases hok.2.2 with x | x
      · exact Or.inl x.1
      · exact Or.inr x.1
    have hr0 : r.toNat ≠ 0 := by
      intro hh; rw [hh, hi.region0] at hro; exact absurd hro (by decide)
    have hrn : m.owner g r.toNat ≠ nullEnclaveId := by rcases hro with x | x <;> rw [x] <;> decide
    refine ⟨⟨?_, ?_, ?_, ?_, ?_, ?_⟩, ?_⟩
    · intro i hh; rw [hkeep _ (by simp)]; exact hi.locks i hh
    · intro i hh
      by_cases hne : i = r.toNat
      · rw [hne, he.free]; exact Or.inr (Or.inr (Or.inr rfl))
      · rw [hown i hne]; exact hi.owners i hh
    · rw [hown 0 (Ne.symm hr0)]; exact hi.region0
    · intro c' hc'
      show m'.mem (coreEnclaveA c') = _
      rw [hkeep _ (coreEnclaveA_ne_ownerA h hc')]
      exact hi.os c' hc'
    · intro i hh
      have : m'.osBit g i = m.osBit g i := by
        unfold Machine.osBit; rw [hkeep _ (osWordA_ne_ownerA h hr)]
      rw [this, hi.bitmap i hh]
      by_cases hne : i = r.toNat
      · rw [hne, he.free]; exact iff_of_false hrn (by decide)
      · rw [hown i hne]
    · rw [he.dma.1, he.dma.2.1]; exact hi.dma
    · intro i hh
      by_cases hne : i = r.toNat
      · rw [hne, he.free]
        rcases hro with x | x <;> rw [x]
        · exact .unblock
        · exact .reclaim
      · rw [hown i hne]; exact .same _
  · rw [h4 hv]; exact StepOk.refl hi v

theorem step_createMetadata (h : g.WF) (c : Nat) (r : W) {m : Machine} (hi : Inv g m) :
    ∃ v m', call g c (.createMetadataRegion r) m = some (v, m') ∧ StepOk g m v m' := by
  obtain ⟨v, m', h1, h2, h3, h4⟩ := C18_create_metadata_exact h c r hi.locks (by rw [hi.region0]; decide)
  refine ⟨v, m', h1, ?_⟩
  by_cases hv : v = monitorOk
  · obtain ⟨hr, hlk, hro⟩ := h2.1 hv
    have he := h3 hv
    have hr0 : r.toNat ≠ 0 := by intro hh; rw [hh, hi.region0] at hro; exact absurd hro (by decide)
    have hst := region_start_ge g hr0
    have htop := h.top_le
    have hkeep : ∀ a, a < g.monitorTop.toNat → a ≠ ownerA g r.toNat → a ≠ pinnedA g r.toNat → m'.mem a = m.mem a := by
      intro a hlt n1 n2
      exact he.mem a (fun hh => hh.elim n1 (fun hh => hh.elim n2 (fun x => by omega)))
    have hown : ∀ i, i < g.regions → i ≠ r.toNat → m'.owner g i = m.owner g i := fun i hh hne =>
      hkeep _ (by have := ownerA_lt h hh; omega) (by simpa using hne) (by simp)
    refine ⟨⟨?_, ?_, ?_, ?_, ?_, ?_⟩, ?_⟩
    · intro i hh; rw [hkeep _ (by have := lockA_lt h hh; omega) (by simp) (by simp)]; exact hi.locks i hh
    · intro i hh
      by_cases hne : i = r.toNat
      · rw [hne, he.metadata]; exact Or.inr (Or.inr (Or.inl rfl))
      · rw [hown i hh hne]; exact hi.owners i hh
    · rw [hown 0 (by have := h.regions_ge; omega) (Ne.symm hr0)]; exact hi.region0
    · intro c' hc'
      show m'.mem (coreEnclaveA c') = _
      rw [hkeep _ (by have := coreEnclaveA_lt h hc'; omega) (coreEnclaveA_ne_ownerA h hc') (coreEnclaveA_ne_pinnedA h hc')]
      exact hi.os c' hc'
    · intro i hh
      have : m'.osBit g i = m.osBit g i := by
        unfold Machine.osBit
        rw [hkeep _ (by have := osWordA_lt h hh; omega) (osWordA_ne_ownerA h hr) (osWordA_ne_pinnedA h hr)]
      rw [this, hi.bitmap i hh]
      by_cases hne : i = r.toNat
      · rw [hne, he.metadata, hro]; exact iff_of_false (by decide) (by decide)
      · rw [hown i hh hne]
    · rw [he.dma.1, he.dma.2.1]; exact hi.dma
    · intro i hh
      by_cases hne : i = r.toNat
      · rw [hne, he.metadata, hro]; exact .metadata
      · rw [hown i hh hne]; exact .same _
  · rw [h4 hv]; exact StepOk.refl hi v

theorem step_setDma (h : g.WF) (c : Nat) (base mask : W) {m : Machine} (hi : Inv g m) :
    ∃ v m', call g c (.setDmaRange base mask) m = some (v, m') ∧ StepOk g m v m' := by
  obtain ⟨v, m', h1, h2, h3, h4⟩ := C49_set_dma_exact h c base mask hi.locks
  refine ⟨v, m', h1, ?_⟩
  by_cases hv : v = monitorOk
  · have he := h3 hv
    have hok := h2.1 hv
    have hm := he.mem
    have ho : ∀ i, m'.owner g i = m.owner g i := fun i => by unfold Machine.owner; rw [hm]
    refine ⟨⟨?_, ?_, ?_, ?_, ?_, ?_⟩, ?_⟩
    · intro i hh; rw [hm]; exact hi.locks i hh
    · intro i hh; rw [ho]; exact hi.owners i hh
    · rw [ho]; exact hi.region0
    · intro c' hc'; show m'.mem _ = _; rw [hm]; exact hi.os c' hc'
    · intro i hh; unfold Machine.osBit; rw [ho, hm]; exact hi.bitmap i hh
    · rw [he.window.1, he.window.2]
      have h5 := (dmaOk_iff h m base mask).2 hok
      have h6 := h5.2.1
      have h7 := h.dram_le
      have h8 : (base ||| mask).toNat < 2 ^ 64 - 1 := by omega
      rw [W.le_iff, BitVec.toNat_add, show (1 : W).toNat = 1 from rfl, Nat.mod_eq_of_lt (by omega)]
      have h9 : base.toNat ≤ (base ||| mask).toNat := by rw [BitVec.toNat_or]; exact Nat.left_le_or
      omega
    · intro i hh; rw [ho]; exact .same _
  · rw [h4 hv]; exact StepOk.refl hi v

theorem step_flush (h : g.WF) {c : Nat} (hc : c < g.cores) {m : Machine} (hi : Inv g m) :
    ∃ v m', call g c .flushCachedDramRegions m = some (v, m') ∧ StepOk g m v m' := by
  obtain ⟨m', h1, he⟩ := C50_flush_exact h hc m
  refine ⟨_, m', h1, ?_⟩
  have hkeep : ∀ a, a ≠ flushedA c → m'.mem a = m.mem a := fun a n1 => he.mem a n1
  have ho : ∀ i, i < g.regions → m'.owner g i = m.owner g i := fun i hh => hkeep _ (ownerA_ne_flushedA h hc)
  refine ⟨⟨?_, ?_, ?_, ?_, ?_, ?_⟩, ?_⟩
  · intro i hh; rw [hkeep _ (lockA_ne_flushedA h hc)]; exact hi.locks i hh
  · intro i hh; rw [ho i hh]; exact hi.owners i hh
  · rw [ho 0 (by have := h.regions_ge; omega)]; exact hi.region0
  · intro c' hc'
    show m'.mem (coreEnclaveA c') = _
    rw [hkeep _ (by unfold coreEnclaveA flushedA; omega)]; exact hi.os c' hc'
  · intro i hh
    unfold Machine.osBit; rw [ho i hh, hkeep _ (osWordA_ne_flushedA h hc)]; exact hi.bitmap i hh
  · rw [he.dma.1, he.dma.2.1]; exact hi.dma
  · intro i hh; rw [ho i hh]; exact .same _

end Sanctum
