import Verif.Lemmas.Bitmap
/-
Disjointness of the monitor's words, and how views change under stores.
-/
namespace Sanctum
open Machine

variable {g : Cfg} {i j c c' : Nat}

@[simp] theorem lockA_inj : (lockA g i = lockA g j) ↔ i = j := by unfold lockA; omega
@[simp] theorem lockA_ne_ownerA : lockA g i ≠ ownerA g j := by unfold lockA ownerA; omega
@[simp] theorem lockA_ne_prevA : lockA g i ≠ prevA g j := by unfold lockA prevA; omega
@[simp] theorem lockA_ne_pinnedA : lockA g i ≠ pinnedA g j := by unfold lockA pinnedA; omega
@[simp] theorem lockA_ne_blockedA : lockA g i ≠ blockedA g j := by unfold lockA blockedA; omega
@[simp] theorem ownerA_ne_lockA : ownerA g i ≠ lockA g j := by unfold ownerA lockA; omega
@[simp] theorem ownerA_inj : (ownerA g i = ownerA g j) ↔ i = j := by unfold ownerA; omega
@[simp] theorem ownerA_ne_prevA : ownerA g i ≠ prevA g j := by unfold ownerA prevA; omega
@[simp] theorem ownerA_ne_pinnedA : ownerA g i ≠ pinnedA g j := by unfold ownerA pinnedA; omega
@[simp] theorem ownerA_ne_blockedA : ownerA g i ≠ blockedA g j := by unfold ownerA blockedA; omega
@[simp] theorem prevA_ne_lockA : prevA g i ≠ lockA g j := by unfold prevA lockA; omega
@[simp] theorem prevA_ne_ownerA : prevA g i ≠ ownerA g j := by unfold prevA ownerA; omega
@[simp] theorem prevA_inj : (prevA g i = prevA g j) ↔ i = j := by unfold prevA; omega
@[simp] theorem prevA_ne_pinnedA : prevA g i ≠ pinnedA g j := by unfold prevA pinnedA; omega
@[simp] theorem prevA_ne_blockedA : prevA g i ≠ blockedA g j := by unfold prevA blockedA; omega
@[simp] theorem pinnedA_ne_lockA : pinnedA g i ≠ lockA g j := by unfold pinnedA lockA; omega
@[simp] theorem pinnedA_ne_ownerA : pinnedA g i ≠ ownerA g j := by unfold pinnedA ownerA; omega
@[simp] theorem pinnedA_ne_prevA : pinnedA g i ≠ prevA g j := by unfold pinnedA prevA; omega
@[simp] theorem pinnedA_inj : (pinnedA g i = pinnedA g j) ↔ i = j := by unfold pinnedA; omega
@[simp] theorem pinnedA_ne_blockedA : pinnedA g i ≠ blockedA g j := by unfold pinnedA blockedA; omega
@[simp] theorem blockedA_ne_lockA : blockedA g i ≠ lockA g j := by unfold blockedA lockA; omega
@[simp] theorem blockedA_ne_ownerA : blockedA g i ≠ ownerA g j := by unfold blockedA ownerA; omega
@[simp] theorem blockedA_ne_prevA : blockedA g i ≠ prevA g j := by unfold blockedA prevA; omega
@[simp] theorem blockedA_ne_pinnedA : blockedA g i ≠ pinnedA g j := by unfold blockedA pinnedA; omega
@[simp] theorem blockedA_inj : (blockedA g i = blockedA g j) ↔ i = j := by unfold blockedA; omega
@[simp] theorem lockA_ne_clockA (h : g.WF) (hi : i < g.regions) : lockA g i ≠ clockA g := by
  obtain ⟨h1, h2, h3, h4, h5, h6, h7, h8, h9, h10, h11, h12⟩ := h.layout
  unfold lockA clockA; omega
@[simp] theorem clockA_ne_lockA (h : g.WF) (hi : i < g.regions) : clockA g ≠ lockA g i := by
  obtain ⟨h1, h2, h3, h4, h5, h6, h7, h8, h9, h10, h11, h12⟩ := h.layout
  unfold lockA clockA; omega
@[simp] theorem lockA_ne_osWordA (h : g.WF) (hi : i < g.regions) : lockA g i ≠ osWordA g j := by
  obtain ⟨h1, h2, h3, h4, h5, h6, h7, h8, h9, h10, h11, h12⟩ := h.layout
  unfold lockA osWordA; omega
@[simp] theorem osWordA_ne_lockA (h : g.WF) (hi : i < g.regions) : osWordA g j ≠ lockA g i := by
  obtain ⟨h1, h2, h3, h4, h5, h6, h7, h8, h9, h10, h11, h12⟩ := h.layout
  unfold lockA osWordA; omega
@[simp] theorem lockA_ne_coreEnclaveA (h : g.WF) (hc : c < g.cores) : lockA g i ≠ coreEnclaveA c := by
  obtain ⟨h1, h2, h3, h4, h5, h6, h7, h8, h9, h10, h11, h12⟩ := h.layout
  unfold lockA coreEnclaveA; omega
@[simp] theorem coreEnclaveA_ne_lockA (h : g.WF) (hc : c < g.cores) : coreEnclaveA c ≠ lockA g i := by
  obtain ⟨h1, h2, h3, h4, h5, h6, h7, h8, h9, h10, h11, h12⟩ := h.layout
  unfold lockA coreEnclaveA; omega
@[simp] theorem lockA_ne_flushedA (h : g.WF) (hc : c < g.cores) : lockA g i ≠ flushedA c := by
  obtain ⟨h1, h2, h3, h4, h5, h6, h7, h8, h9, h10, h11, h12⟩ := h.layout
  unfold lockA flushedA; omega
@[simp] theorem flushedA_ne_lockA (h : g.WF) (hc : c < g.cores) : flushedA c ≠ lockA g i := by
  obtain ⟨h1, h2, h3, h4, h5, h6, h7, h8, h9, h10, h11, h12⟩ := h.layout
  unfold lockA flushedA; omega
@[simp] theorem ownerA_ne_clockA (h : g.WF) (hi : i < g.regions) : ownerA g i ≠ clockA g := by
  obtain ⟨h1, h2, h3, h4, h5, h6, h7, h8, h9, h10, h11, h12⟩ := h.layout
  unfold ownerA clockA; omega
@[simp] theorem clockA_ne_ownerA (h : g.WF) (hi : i < g.regions) : clockA g ≠ ownerA g i := by
  obtain ⟨h1, h2, h3, h4, h5, h6, h7, h8, h9, h10, h11, h12⟩ := h.layout
  unfold ownerA clockA; omega
@[simp] theorem ownerA_ne_osWordA (h : g.WF) (hi : i < g.regions) : ownerA g i ≠ osWordA g j := by
  obtain ⟨h1, h2, h3, h4, h5, h6, h7, h8, h9, h10, h11, h12⟩ := h.layout
  unfold ownerA osWordA; omega
@[simp] theorem osWordA_ne_ownerA (h : g.WF) (hi : i < g.regions) : osWordA g j ≠ ownerA g i := by
  obtain ⟨h1, h2, h3, h4, h5, h6, h7, h8, h9, h10, h11, h12⟩ := h.layout
  unfold ownerA osWordA; omega
@[simp] theorem ownerA_ne_coreEnclaveA (h : g.WF) (hc : c < g.cores) : ownerA g i ≠ coreEnclaveA c := by
  obtain ⟨h1, h2, h3, h4, h5, h6, h7, h8, h9, h10, h11, h12⟩ := h.layout
  unfold ownerA coreEnclaveA; omega
@[simp] theorem coreEnclaveA_ne_ownerA (h : g.WF) (hc : c < g.cores) : coreEnclaveA c ≠ ownerA g i := by
  obtain ⟨h1, h2, h3, h4, h5, h6, h7, h8, h9, h10, h11, h12⟩ := h.layout
  unfold ownerA coreEnclaveA; omega
@[simp] theorem ownerA_ne_flushedA (h : g.WF) (hc : c < g.cores) : ownerA g i ≠ flushedA c := by
  obtain ⟨h1, h2, h3, h4, h5, h6, h7, h8, h9, h10, h11, h12⟩ := h.layout
  unfold ownerA flushedA; omega
@[simp] theorem flushedA_ne_ownerA (h : g.WF) (hc : c < g.cores) : flushedA c ≠ ownerA g i := by
  obtain ⟨h1, h2, h3, h4, h5, h6, h7, h8, h9, h10, h11, h12⟩ := h.layout
  unfold ownerA flushedA; omega
@[simp] theorem prevA_ne_clockA (h : g.WF) (hi : i < g.regions) : prevA g i ≠ clockA g := by
  obtain ⟨h1, h2, h3, h4, h5, h6, h7, h8, h9, h10, h11, h12⟩ := h.layout
  unfold prevA clockA; omega
@[simp] theorem clockA_ne_prevA (h : g.WF) (hi : i < g.regions) : clockA g ≠ prevA g i := by
  obtain ⟨h1, h2, h3, h4, h5, h6, h7, h8, h9, h10, h11, h12⟩ := h.layout
  unfold prevA clockA; omega
@[simp] theorem prevA_ne_osWordA (h : g.WF) (hi : i < g.regions) : prevA g i ≠ osWordA g j := by
  obtain ⟨h1, h2, h3, h4, h5, h6, h7, h8, h9, h10, h11, h12⟩ := h.layout
  unfold prevA osWordA; omega
@[simp] theorem osWordA_ne_prevA (h : g.WF) (hi : i < g.regions) : osWordA g j ≠ prevA g i := by
  obtain ⟨h1, h2, h3, h4, h5, h6, h7, h8, h9, h10, h11, h12⟩ := h.layout
  unfold prevA osWordA; omega
@[simp] theorem prevA_ne_coreEnclaveA (h : g.WF) (hc : c < g.cores) : prevA g i ≠ coreEnclaveA c := by
  obtain ⟨h1, h2, h3, h4, h5, h6, h7, h8, h9, h10, h11, h12⟩ := h.layout
  unfold prevA coreEnclaveA; omega
@[simp] theorem coreEnclaveA_ne_prevA (h : g.WF) (hc : c < g.cores) : coreEnclaveA c ≠ prevA g i := by
  obtain ⟨h1, h2, h3, h4, h5, h6, h7, h8, h9, h10, h11, h12⟩ := h.layout
  unfold prevA coreEnclaveA; omega
@[simp] theorem prevA_ne_flushedA (h : g.WF) (hc : c < g.cores) : prevA g i ≠ flushedA c := by
  obtain ⟨h1, h2, h3, h4, h5, h6, h7, h8, h9, h10, h11, h12⟩ := h.layout
  unfold prevA flushedA; omega
@[simp] theorem flushedA_ne_prevA (h : g.WF) (hc : c < g.cores) : flushedA c ≠ prevA g i := by
  obtain ⟨h1, h2, h3, h4, h5, h6, h7, h8, h9, h10, h11, h12⟩ := h.layout
  unfold prevA flushedA; omega
@[simp] theorem pinnedA_ne_clockA (h : g.WF) (hi : i < g.regions) : pinnedA g i ≠ clockA g := by
  obtain ⟨h1, h2, h3, h4, h5, h6, h7, h8, h9, h10, h11, h12⟩ := h.layout
  unfold pinnedA clockA; omega
@[simp] theorem clockA_ne_pinnedA (h : g.WF) (hi : i < g.regions) : clockA g ≠ pinnedA g i := by
  obtain ⟨h1, h2, h3, h4, h5, h6, h7, h8, h9, h10, h11, h12⟩ := h.layout
  unfold pinnedA clockA; omega
@[simp] theorem pinnedA_ne_osWordA (h : g.WF) (hi : i < g.regions) : pinnedA g i ≠ osWordA g j := by
  obtain ⟨h1, h2, h3, h4, h5, h6, h7, h8, h9, h10, h11, h12⟩ := h.layout
  unfold pinnedA osWordA; omega
@[simp] theorem osWordA_ne_pinnedA (h : g.WF) (hi : i < g.regions) : osWordA g j ≠ pinnedA g i := by
  obtain ⟨h1, h2, h3, h4, h5, h6, h7, h8, h9, h10, h11, h12⟩ := h.layout
  unfold pinnedA osWordA; omega
@[simp] theorem pinnedA_ne_coreEnclaveA (h : g.WF) (hc : c < g.cores) : pinnedA g i ≠ coreEnclaveA c := by
  obtain ⟨h1, h2, h3, h4, h5, h6, h7, h8, h9, h10, h11, h12⟩ := h.layout
  unfold pinnedA coreEnclaveA; omega
@[simp] theorem coreEnclaveA_ne_pinnedA (h : g.WF) (hc : c < g.cores) : coreEnclaveA c ≠ pinnedA g i := by
  obtain ⟨h1, h2, h3, h4, h5, h6, h7, h8, h9, h10, h11, h12⟩ := h.layout
  unfold pinnedA coreEnclaveA; omega
@[simp] theorem pinnedA_ne_flushedA (h : g.WF) (hc : c < g.cores) : pinnedA g i ≠ flushedA c := by
  obtain ⟨h1, h2, h3, h4, h5, h6, h7, h8, h9, h10, h11, h12⟩ := h.layout
  unfold pinnedA flushedA; omega
@[simp] theorem flushedA_ne_pinnedA (h : g.WF) (hc : c < g.cores) : flushedA c ≠ pinnedA g i := by
  obtain ⟨h1, h2, h3, h4, h5, h6, h7, h8, h9, h10, h11, h12⟩ := h.layout
  unfold pinnedA flushedA; omega
@[simp] theorem blockedA_ne_clockA (h : g.WF) (hi : i < g.regions) : blockedA g i ≠ clockA g := by
  obtain ⟨h1, h2, h3, h4, h5, h6, h7, h8, h9, h10, h11, h12⟩ := h.layout
  unfold blockedA clockA; omega
@[simp] theorem clockA_ne_blockedA (h : g.WF) (hi : i < g.regions) : clockA g ≠ blockedA g i := by
  obtain ⟨h1, h2, h3, h4, h5, h6, h7, h8, h9, h10, h11, h12⟩ := h.layout
  unfold blockedA clockA; omega
@[simp] theorem blockedA_ne_osWordA (h : g.WF) (hi : i < g.regions) : blockedA g i ≠ osWordA g j := by
  obtain ⟨h1, h2, h3, h4, h5, h6, h7, h8, h9, h10, h11, h12⟩ := h.layout
  unfold blockedA osWordA; omega
@[simp] theorem osWordA_ne_blockedA (h : g.WF) (hi : i < g.regions) : osWordA g j ≠ blockedA g i := by
  obtain ⟨h1, h2, h3, h4, h5, h6, h7, h8, h9, h10, h11, h12⟩ := h.layout
  unfold blockedA osWordA; omega
@[simp] theorem blockedA_ne_coreEnclaveA (h : g.WF) (hc : c < g.cores) : blockedA g i ≠ coreEnclaveA c := by
  obtain ⟨h1, h2, h3, h4, h5, h6, h7, h8, h9, h10, h11, h12⟩ := h.layout
  unfold blockedA coreEnclaveA; omega
@[simp] theorem coreEnclaveA_ne_blockedA (h : g.WF) (hc : c < g.cores) : coreEnclaveA c ≠ blockedA g i := by
  obtain ⟨h1, h2, h3, h4, h5, h6, h7, h8, h9, h10, h11, h12⟩ := h.layout
  unfold blockedA coreEnclaveA; omega
@[simp] theorem blockedA_ne_flushedA (h : g.WF) (hc : c < g.cores) : blockedA g i ≠ flushedA c := by
  obtain ⟨h1, h2, h3, h4, h5, h6, h7, h8, h9, h10, h11, h12⟩ := h.layout
  unfold blockedA flushedA; omega
@[simp] theorem flushedA_ne_blockedA (h : g.WF) (hc : c < g.cores) : flushedA c ≠ blockedA g i := by
  obtain ⟨h1, h2, h3, h4, h5, h6, h7, h8, h9, h10, h11, h12⟩ := h.layout
  unfold blockedA flushedA; omega
@[simp] theorem clockA_ne_osWordA (h : g.WF) : clockA g ≠ osWordA g j := by
  obtain ⟨h1, h2, h3, h4, h5, h6, h7, h8, h9, h10, h11, h12⟩ := h.layout
  unfold clockA osWordA; omega
@[simp] theorem osWordA_ne_clockA (h : g.WF) : osWordA g j ≠ clockA g := by
  obtain ⟨h1, h2, h3, h4, h5, h6, h7, h8, h9, h10, h11, h12⟩ := h.layout
  unfold clockA osWordA; omega
@[simp] theorem coreEnclaveA_ne_clockA (h : g.WF) (hc : c < g.cores) : coreEnclaveA c ≠ clockA g := by
  obtain ⟨h1, h2, h3, h4, h5, h6, h7, h8, h9, h10, h11, h12⟩ := h.layout
  unfold coreEnclaveA clockA; omega
@[simp] theorem clockA_ne_coreEnclaveA (h : g.WF) (hc : c < g.cores) : clockA g ≠ coreEnclaveA c := by
  obtain ⟨h1, h2, h3, h4, h5, h6, h7, h8, h9, h10, h11, h12⟩ := h.layout
  unfold coreEnclaveA clockA; omega
@[simp] theorem coreEnclaveA_ne_osWordA (h : g.WF) (hc : c < g.cores) : coreEnclaveA c ≠ osWordA g j := by
  obtain ⟨h1, h2, h3, h4, h5, h6, h7, h8, h9, h10, h11, h12⟩ := h.layout
  unfold coreEnclaveA osWordA; omega
@[simp] theorem osWordA_ne_coreEnclaveA (h : g.WF) (hc : c < g.cores) : osWordA g j ≠ coreEnclaveA c := by
  obtain ⟨h1, h2, h3, h4, h5, h6, h7, h8, h9, h10, h11, h12⟩ := h.layout
  unfold coreEnclaveA osWordA; omega
@[simp] theorem flushedA_ne_clockA (h : g.WF) (hc : c < g.cores) : flushedA c ≠ clockA g := by
  obtain ⟨h1, h2, h3, h4, h5, h6, h7, h8, h9, h10, h11, h12⟩ := h.layout
  unfold flushedA clockA; omega
@[simp] theorem clockA_ne_flushedA (h : g.WF) (hc : c < g.cores) : clockA g ≠ flushedA c := by
  obtain ⟨h1, h2, h3, h4, h5, h6, h7, h8, h9, h10, h11, h12⟩ := h.layout
  unfold flushedA clockA; omega
@[simp] theorem flushedA_ne_osWordA (h : g.WF) (hc : c < g.cores) : flushedA c ≠ osWordA g j := by
  obtain ⟨h1, h2, h3, h4, h5, h6, h7, h8, h9, h10, h11, h12⟩ := h.layout
  unfold flushedA osWordA; omega
@[simp] theorem osWordA_ne_flushedA (h : g.WF) (hc : c < g.cores) : osWordA g j ≠ flushedA c := by
  obtain ⟨h1, h2, h3, h4, h5, h6, h7, h8, h9, h10, h11, h12⟩ := h.layout
  unfold flushedA osWordA; omega
@[simp] theorem coreEnclaveA_inj : (coreEnclaveA c = coreEnclaveA c') ↔ c = c' := by unfold coreEnclaveA; omega
@[simp] theorem flushedA_inj : (flushedA c = flushedA c') ↔ c = c' := by unfold flushedA; omega
@[simp] theorem coreEnclaveA_ne_flushedA : coreEnclaveA c ≠ flushedA c' := by unfold coreEnclaveA flushedA; omega
@[simp] theorem flushedA_ne_coreEnclaveA : flushedA c ≠ coreEnclaveA c' := by unfold coreEnclaveA flushedA; omega

/-! The monitor's words are below the top of its memory. -/

theorem lockA_lt (h : g.WF) (hi : i < g.regions) : lockA g i + 8 ≤ g.monitorTop.toNat := by
  obtain ⟨h1, h2, h3, h4, h5, h6, h7, h8, h9, h10, h11, h12⟩ := h.layout
  unfold lockA; omega
theorem ownerA_lt (h : g.WF) (hi : i < g.regions) : ownerA g i + 8 ≤ g.monitorTop.toNat := by
  obtain ⟨h1, h2, h3, h4, h5, h6, h7, h8, h9, h10, h11, h12⟩ := h.layout
  unfold ownerA; omega
theorem prevA_lt (h : g.WF) (hi : i < g.regions) : prevA g i + 8 ≤ g.monitorTop.toNat := by
  obtain ⟨h1, h2, h3, h4, h5, h6, h7, h8, h9, h10, h11, h12⟩ := h.layout
  unfold prevA; omega
theorem pinnedA_lt (h : g.WF) (hi : i < g.regions) : pinnedA g i + 8 ≤ g.monitorTop.toNat := by
  obtain ⟨h1, h2, h3, h4, h5, h6, h7, h8, h9, h10, h11, h12⟩ := h.layout
  unfold pinnedA; omega
theorem blockedA_lt (h : g.WF) (hi : i < g.regions) : blockedA g i + 8 ≤ g.monitorTop.toNat := by
  obtain ⟨h1, h2, h3, h4, h5, h6, h7, h8, h9, h10, h11, h12⟩ := h.layout
  unfold blockedA; omega
theorem clockA_lt (h : g.WF) : clockA g + 8 ≤ g.monitorTop.toNat := by
  obtain ⟨h1, h2, h3, h4, h5, h6, h7, h8, h9, h10, h11, h12⟩ := h.layout
  unfold clockA; omega
theorem osWordA_lt (h : g.WF) (hi : i < g.regions) : osWordA g i + 8 ≤ g.monitorTop.toNat := by
  obtain ⟨h1, h2, h3, h4, h5, h6, h7, h8, h9, h10, h11, h12⟩ := h.layout
  unfold osWordA; omega
theorem coreEnclaveA_lt (h : g.WF) (hc : c < g.cores) : coreEnclaveA c + 8 ≤ g.monitorTop.toNat := by
  obtain ⟨h1, h2, h3, h4, h5, h6, h7, h8, h9, h10, h11, h12⟩ := h.layout
  unfold coreEnclaveA; omega
theorem flushedA_lt (h : g.WF) (hc : c < g.cores) : flushedA c + 8 ≤ g.monitorTop.toNat := by
  obtain ⟨h1, h2, h3, h4, h5, h6, h7, h8, h9, h10, h11, h12⟩ := h.layout
  unfold flushedA; omega

/-! Views after stores. -/

theorem mem_st (m : Machine) (a b : Nat) (v : W) : (m.st a v).mem b = if b = a then v else m.mem b := rfl

/-- Pushes a lock store outwards. -/
theorem lock_comm (m : Machine) (u v : W) {a : Nat} (h : lockA g i ≠ a) :
    (m.st (lockA g i) u).st a v = (m.st a v).st (lockA g i) u := st_comm m u v h

/-- Taking and releasing a free lock changes nothing. -/
theorem lock_restore (m : Machine) (h : m.mem (lockA g i) = 0) : (m.st (lockA g i) 1).st (lockA g i) 0 = m := by
  rw [st_st, st_self _ _ _ h]

theorem not_locked (m : Machine) : m.locked g i = false ↔ m.mem (lockA g i) = 0 := by
  unfold Machine.locked
  rw [bne_eq_false_iff_eq]

end Sanctum
