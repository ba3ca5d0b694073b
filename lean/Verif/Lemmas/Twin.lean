import Verif.Spec.Twin
import Verif.Lemmas.Mirror
/-
Which code does not depend on the core that runs it.
-/
namespace Sanctum
open Machine

variable {g : Cfg} {α β : Type}

/-- The action neither asks for the core nor concerns registers that no call but the flush writes. -/
def OpFree : Op → Prop
  | .curCore => False
  | .flushTlbs => False
  | .setParBase _ => False
  | .setParMask _ => False
  | .setCacheShift _ => False
  | _ => True

/-- All actions of the program are such. -/
def Prog.CoreFree : Prog α → Prop
  | .ret _ => True
  | .op o k => OpFree o ∧ ∀ v, Prog.CoreFree (k v)
  | .fault => True
  | .diverge => True

theorem free_bind {p : Prog α} {f : α → Prog β} (hp : p.CoreFree) (hf : ∀ a, (f a).CoreFree) : (p >>= f).CoreFree := by
  show (p.bind f).CoreFree
  induction p with
  | ret a => exact hf a
  | op o k ih => exact ⟨hp.1, fun v => ih v (hp.2 v)⟩
  | fault => trivial
  | diverge => trivial

theorem free_ite {b : Prop} [Decidable b] {p q : Prog α} (hp : p.CoreFree) (hq : q.CoreFree) : (if b then p else q).CoreFree := by
  split
  · exact hp
  · exact hq

theorem free_pure (a : α) : (pure a : Prog α).CoreFree := trivial
theorem free_load (a : W) : (load a).CoreFree := ⟨trivial, fun _ => trivial⟩
theorem free_store (a v : W) : (store a v).CoreFree := ⟨trivial, fun _ => trivial⟩
theorem free_load32 (a : W) : (load32 a).CoreFree := ⟨trivial, fun _ => trivial⟩
theorem free_store32 (a : W) (v : W32) : (store32 a v).CoreFree := ⟨trivial, fun _ => trivial⟩
theorem free_tas (a : W) : (tas a).CoreFree := ⟨trivial, fun _ => trivial⟩
theorem free_tasLock (r : W) : (tasLock g r).CoreFree := ⟨trivial, fun _ => trivial⟩
theorem free_clearLock (r : W) : (clearLock g r).CoreFree := ⟨trivial, fun _ => trivial⟩
theorem free_readOwner (r : W) : (readOwner g r).CoreFree := ⟨trivial, fun _ => trivial⟩
theorem free_act {o : Op} (h : OpFree o) : (act o).CoreFree := ⟨h, fun _ => trivial⟩
theorem free_act_ {o : Op} (h : OpFree o) : (act_ o).CoreFree := ⟨h, fun _ => trivial⟩

/-- An action allowed outright or by a hypothesis. -/
macro "free_op" : tactic =>
  `(tactic| (first | with_reducible refine free_act ?_ | with_reducible refine free_act_ ?_) <;> first | exact trivial | assumption)

/-- One step through a program; `ls` closes the calls of named functions. -/
macro "free_walk" "[" ls:term,* "]" : tactic => do
  let alts ← ls.getElems.mapM fun l => `(tactic| with_reducible exact $l)
  let mut t ← `(tactic| first
    | with_reducible exact free_pure _ | with_reducible exact free_load _ | with_reducible exact free_store _ _
    | with_reducible exact free_load32 _ | with_reducible exact free_store32 _ _ | with_reducible exact free_tas _
    | with_reducible exact free_tasLock _ | with_reducible exact free_clearLock _ | with_reducible exact free_readOwner _)
  for a in alts do
    t ← `(tactic| first | $t:tactic | $a:tactic)
  `(tactic| repeat' (first | ($t:tactic; done) | free_op | with_reducible refine free_ite ?_ ?_ | (with_reducible refine free_bind ?_ fun _ => ?_) | (intro; dsimp only)))

theorem free_setBitmapBit (a r : W) (b : Bool) : (setBitmapBit a r b).CoreFree := by
  unfold setBitmapBit
  dsimp only
  free_walk []

theorem free_readBitmapBit (a r : W) : (readBitmapBit a r).CoreFree := by
  unfold readBitmapBit
  free_walk []

theorem free_setEnclaveBit (e r : W) (b : Bool) : (setEnclaveRegionBitmapBit g e r b).CoreFree := by
  unfold setEnclaveRegionBitmapBit
  free_walk [free_setBitmapBit _ _ _]

theorem free_readEnclaveBit (e r : W) : (readEnclaveRegionBitmapBit g e r).CoreFree := by
  unfold readEnclaveRegionBitmapBit
  free_walk [free_readBitmapBit _ _]

theorem free_isValid (e : W) : (isValidEnclaveId g e).CoreFree := by
  unfold isValidEnclaveId
  free_walk []

theorem free_snapshot : ∀ (n : Nat) (p : W), (snapshotLoop n p).CoreFree
  | 0, _ => trivial
  | n + 1, p => by
      unfold snapshotLoop
      free_walk [free_snapshot n _]

theorem free_setDrbMap (a : W) : (setDrbMap g a).CoreFree := by
  unfold setDrbMap
  free_walk [free_snapshot _ _]

theorem free_setEdrbMap (a : W) : (setEdrbMap g a).CoreFree := by
  unfold setEdrbMap
  free_walk [free_snapshot _ _]

theorem free_bzeroWords : ∀ (n : Nat) (p : W), (bzeroWords p n).CoreFree
  | 0, _ => trivial
  | n + 1, p => by
      unfold bzeroWords
      free_walk [free_bzeroWords n _]

theorem free_bzero (a b : W) : (bzero a b).CoreFree := free_bzeroWords _ _

theorem free_bzeroRegionLoop (s t : W) : ∀ (n : Nat) (p : W), (bzeroRegionLoop g s t n p).CoreFree
  | 0, _ => trivial
  | n + 1, p => by
      unfold bzeroRegionLoop
      free_walk [free_bzero _ _, free_bzeroRegionLoop s t n _]

theorem free_bzeroDramRegion (r : W) : (bzeroDramRegion g r).CoreFree := by
  unfold bzeroDramRegion
  with_reducible exact free_bzeroRegionLoop _ _ _ _

/-! ### Measurement -/

theorem free_hashSchedule (w b : W) (i : Nat) : (hashSchedule w b i).CoreFree := by
  unfold hashSchedule
  free_walk []

theorem free_hashRounds (w b : W) : ∀ (n i : Nat) (s : HashRegs), (hashRounds w b n i s).CoreFree
  | 0, _, _ => trivial
  | n + 1, i, s => by
      unfold hashRounds
      free_walk [free_hashSchedule _ _ _, free_hashRounds w b n _ _]

theorem free_hashAdd (h : W) (i : Nat) (x : W32) : (hashAdd h i x).CoreFree := by
  unfold hashAdd
  free_walk []

theorem free_extendHash (s b : W) : (extendHash s b).CoreFree := by
  unfold extendHash
  free_walk [free_hashRounds _ _ _ _ _, free_hashAdd _ _ _]

theorem free_initHash (s : W) : (initHash s).CoreFree := by
  unfold initHash
  free_walk [free_bzero _ _]

theorem free_initEnclaveHash (e a b c : W) (d : Bool) : (initEnclaveHash e a b c d).CoreFree := by
  unfold initEnclaveHash
  free_walk [free_bzero _ _, free_initHash _, free_extendHash _ _]

theorem free_extendThread (e a b c d : W) : (extendHashWithThread e a b c d).CoreFree := by
  unfold extendHashWithThread
  free_walk [free_extendHash _ _]

theorem free_finalizeHash (e : W) : (finalizeEnclaveHash e).CoreFree := by
  unfold finalizeEnclaveHash finalizeHash
  free_walk [free_extendHash _ _]

/-! ### Metadata -/

theorem free_initMeta (r : W) : (initMetadataRegion g r).CoreFree := by
  unfold initMetadataRegion
  free_walk [free_bzero _ _]

theorem free_lockMeta (a : W) : (lockMetadataRegionFor g a).CoreFree := by
  unfold lockMetadataRegionFor
  dsimp only
  free_walk []

theorem free_pagesEmpty : ∀ (n : Nat) (p : W), (pagesEmptyLoop n p).CoreFree
  | 0, _ => trivial
  | n + 1, p => by
      unfold pagesEmptyLoop
      free_walk [free_pagesEmpty n _]

theorem free_innerPages : ∀ (n : Nat) (p : W), (innerPagesLoop n p).CoreFree
  | 0, _ => trivial
  | n + 1, p => by
      unfold innerPagesLoop
      free_walk [free_innerPages n _]

theorem free_assignPages (a b c d e : W) : (assignMetadataPages g a b c d e).CoreFree := by
  unfold assignMetadataPages
  dsimp only
  free_walk [free_pagesEmpty _ _, free_innerPages _ _]

theorem free_reservePages (a b c d : W) : (reserveMetadataPages g a b c d).CoreFree := free_assignPages _ _ _ _ _
theorem free_acceptPages (a b c d : W) : (acceptMetadataPages g a b c d).CoreFree := free_assignPages _ _ _ _ _

theorem free_lockEnclave (e : W) : (lockEnclave g e).CoreFree := by
  unfold lockEnclave
  dsimp only
  free_walk [free_lockMeta _]

theorem free_unlockEnclave (e : W) : (unlockEnclave e).CoreFree := free_store _ _

theorem free_initInfo (e a b c : W) (d : Bool) : (initEnclaveInfo e a b c d).CoreFree := by
  unfold initEnclaveInfo
  free_walk [free_initEnclaveHash _ _ _ _ _]

theorem free_isEnclaveVirtual (v e : W) : (isEnclaveVirtualAddress v e).CoreFree := by
  unfold isEnclaveVirtualAddress
  free_walk []

/-! ### The calls -/

theorem free_dmaTest {o1 o2 : Op} (p q : W → Bool) (h1 : OpFree o1) (h2 : OpFree o2) : (dmaTest o1 p o2 q).CoreFree := by
  unfold dmaTest
  free_walk []

theorem free_dmaCrossed (r : W) : (dmaRangeCrossed g r).CoreFree := by
  unfold dmaRangeCrossed
  dsimp only
  repeat' first | exact free_dmaTest _ _ trivial trivial | exact free_pure _ | refine free_ite ?_ ?_ | refine free_bind ?_ fun _ => ?_

theorem free_state (r : W) : (dramRegionState g r).CoreFree := by
  unfold dramRegionState
  free_walk []

theorem free_owner (r : W) : (dramRegionOwner g r).CoreFree := by
  unfold dramRegionOwner
  free_walk []

theorem free_dmaLoop (e : W) : ∀ (n : Nat) (a : W) (b : Bool), (dmaRangeLoop g e n a b).CoreFree
  | 0, _, _ => trivial
  | n + 1, a, b => by
      unfold dmaRangeLoop
      dsimp only
      free_walk [free_dmaLoop e n _ _]

theorem free_setDma (b n : W) : (setDmaRange g b n).CoreFree := by
  unfold setDmaRange
  refine free_ite (free_pure _) (free_ite (free_pure _) (free_bind (free_tasLock _) fun busy => free_ite (free_pure _) ?_))
  dsimp only
  with_reducible refine free_bind (free_dmaLoop _ _ _ _) fun res => ?_
  cases res with
  | none => exact free_pure _
  | some v =>
    dsimp only
    free_walk []

theorem free_createMeta (r : W) : (createMetadataRegion g r).CoreFree := by
  unfold createMetadataRegion
  free_walk [free_initMeta _]

theorem free_assign (r e : W) : (assignDramRegion g r e).CoreFree := by
  unfold assignDramRegion
  dsimp only
  free_walk [free_isValid _, free_setEnclaveBit _ _ _, free_setDrbMap _]

theorem free_coresFlushed (b : W) : ∀ (n : Nat) (i : W), (coresFlushedLoop g b n i).CoreFree
  | 0, _ => trivial
  | n + 1, i => by
      unfold coresFlushedLoop
      free_walk [free_coresFlushed b n _]

theorem free_free (r : W) : (freeDramRegion g r).CoreFree := by
  unfold freeDramRegion
  free_walk [free_coresFlushed _ _ _]

theorem free_createEnclave (e b k n : W) (d : Bool) : (createEnclave g e b k n d).CoreFree := by
  unfold createEnclave
  free_walk [free_lockMeta _, free_reservePages _ _ _ _, free_initInfo _ _ _ _ _]

theorem free_assignThread (e t : W) : (assignThread g e t).CoreFree := by
  unfold assignThread
  free_walk [free_lockEnclave _, free_lockMeta _, free_unlockEnclave _, free_reservePages _ _ _ _]

theorem free_loadThread (e t a b c d : W) : (loadThread g e t a b c d).CoreFree := by
  unfold loadThread
  free_walk [free_lockEnclave _, free_lockMeta _, free_unlockEnclave _, free_reservePages _ _ _ _, free_extendThread _ _ _ _ _]

theorem free_withLocked (e : W) {k : W → Prog W} (hk : ∀ r, (k r).CoreFree) : (withLockedEnclave g e k).CoreFree := by
  unfold withLockedEnclave
  dsimp only
  free_walk [free_isValid _, hk _]

theorem free_loadPageTable (e p v l a : W) : (loadPageTable g e p v l a).CoreFree := by
  unfold loadPageTable
  refine free_ite (free_pure _) (free_ite (free_pure _) (free_ite (free_pure _) (free_withLocked e fun r => ?_)))
  free_walk [free_isEnclaveVirtual _ _]

theorem free_loadPage (e p v o a : W) : (loadPage g e p v o a).CoreFree := by
  unfold loadPage
  refine free_ite (free_pure _) (free_ite (free_pure _) (free_withLocked e fun r => ?_))
  free_walk [free_isEnclaveVirtual _ _]

theorem free_initEnclave (e : W) : (initEnclave g e).CoreFree := by
  unfold initEnclave
  refine free_withLocked e fun r => ?_
  free_walk [free_finalizeHash _]

theorem free_enterEnclave (e t : W) : (enterEnclave g e t).CoreFree := by
  unfold enterEnclave
  refine free_withLocked e fun r => ?_
  free_walk []

theorem free_deleteLock (a b : W) : ∀ (n : Nat) (i : W), (deleteLockLoop g a b n i).CoreFree
  | 0, _ => trivial
  | n + 1, i => by
      unfold deleteLockLoop
      free_walk [free_readBitmapBit _ _, free_deleteLock a b n _]

theorem free_deleteUnlock (a b : W) : ∀ (n : Nat) (i : W), (deleteUnlockLoop g a b n i).CoreFree
  | 0, _ => trivial
  | n + 1, i => by
      unfold deleteUnlockLoop
      free_walk [free_readBitmapBit _ _, free_deleteUnlock a b n _]

theorem free_deleteFree (a b : W) : ∀ (n : Nat) (i : W), (deleteFreeLoop g a b n i).CoreFree
  | 0, _ => trivial
  | n + 1, i => by
      unfold deleteFreeLoop
      free_walk [free_readBitmapBit _ _, free_bzeroDramRegion _, free_deleteFree a b n _]

theorem free_deleteEnclave (e : W) : (deleteEnclave g e).CoreFree := by
  unfold deleteEnclave
  refine free_withLocked e fun r => ?_
  dsimp only
  free_walk [free_deleteLock _ _ _ _, free_deleteUnlock _ _ _ _, free_deleteFree _ _ _ _]

theorem free_copyWords : ∀ (n : Nat) (a b : W), (copyWords n a b).CoreFree
  | 0, _, _ => trivial
  | n + 1, a, b => by
      unfold copyWords
      free_walk [free_copyWords n _ _]

theorem free_copyDebug (e a o : W) (d : Bool) : (copyDebugEnclavePage g e a o d).CoreFree := by
  unfold copyDebugEnclavePage
  dsimp only
  free_walk [free_readEnclaveBit _ _, free_copyWords _ _ _]

theorem free_threadPages (a b : W) : ∀ (n : Nat) (p : W), (threadPagesLoop g a b n p).CoreFree
  | 0, _ => trivial
  | n + 1, p => by
      unfold threadPagesLoop
      free_walk [free_threadPages a b n _]

/-! ### Two runs -/

variable {c c' : Nat} {a0 b0 a b : Machine}

theorem SameOutcome.withMem (h : SameOutcome c c' a0 b0 a b) {f f' : Nat → W} (hf : f = f') :
    SameOutcome c c' a0 b0 { a with mem := f } { b with mem := f' } :=
  ⟨hf, h.dmaStart, h.dmaEnd, h.dmarBase, h.dmarMask, h.drb, h.edrb, h.othersA, h.othersB, h.keptA, h.keptB⟩

theorem SameOutcome.refl (h : SameMemory a0 b0) : SameOutcome c c' a0 b0 a0 b0 :=
  ⟨h.mem, h.dmaStart, h.dmaEnd, h.dmarBase, h.dmarMask, Or.inl ⟨rfl, rfl⟩, Or.inl ⟨rfl, rfl⟩, fun _ _ => ⟨rfl, rfl⟩, fun _ _ => ⟨rfl, rfl⟩,
    ⟨rfl, rfl, rfl, rfl⟩, ⟨rfl, rfl, rfl, rfl⟩⟩

theorem SameOutcome.memory (h : SameOutcome c c' a0 b0 a b) : SameMemory a b := ⟨h.mem, h.dmaStart, h.dmaEnd, h.dmarBase, h.dmarMask⟩

theorem same_exec (h : SameOutcome c c' a0 b0 a b) {o : Op} (ho : OpFree o) : SameEnd c c' a0 b0 (exec g c o a) (exec g c' o b) := by
  have hm := h.mem
  cases o with
  | load x =>
      simp only [exec]
      split
      · exact ⟨by rw [hm], h⟩
      · trivial
  | store x v =>
      simp only [exec]
      split
      · exact ⟨rfl, h.withMem (by rw [hm])⟩
      · trivial
  | load32 x =>
      simp only [exec]
      split
      · exact ⟨by rw [hm], h⟩
      · trivial
  | store32 x v =>
      simp only [exec]
      split
      · exact ⟨rfl, h.withMem (by rw [hm])⟩
      · trivial
  | tas x =>
      simp only [exec]
      split
      · exact ⟨by rw [hm], h.withMem (by rw [hm])⟩
      · trivial
  | fetchAdd x v =>
      simp only [exec]
      split
      · exact ⟨by rw [hm], h.withMem (by rw [hm])⟩
      · trivial
  | setDrb ws =>
      refine ⟨rfl, ⟨hm, h.dmaStart, h.dmaEnd, h.dmarBase, h.dmarMask, Or.inr ?_, h.edrb, fun i hi => ⟨?_, (h.othersA i hi).2⟩,
        fun i hi => ⟨?_, (h.othersB i hi).2⟩, h.keptA, h.keptB⟩⟩
      · show upd a.drb c ws c = upd b.drb c' ws c'
        rw [upd_same, upd_same]
      · show upd a.drb c ws i = _
        rw [upd_ne _ _ hi]; exact (h.othersA i hi).1
      · show upd b.drb c' ws i = _
        rw [upd_ne _ _ hi]; exact (h.othersB i hi).1
  | setEdrb ws =>
      refine ⟨rfl, ⟨hm, h.dmaStart, h.dmaEnd, h.dmarBase, h.dmarMask, h.drb, Or.inr ?_, fun i hi => ⟨(h.othersA i hi).1, ?_⟩,
        fun i hi => ⟨(h.othersB i hi).1, ?_⟩, h.keptA, h.keptB⟩⟩
      · show upd a.edrb c ws c = upd b.edrb c' ws c'
        rw [upd_same, upd_same]
      · show upd a.edrb c ws i = _
        rw [upd_ne _ _ hi]; exact (h.othersA i hi).2
      · show upd b.edrb c' ws i = _
        rw [upd_ne _ _ hi]; exact (h.othersB i hi).2
  | setDmarBase v => exact ⟨rfl, ⟨hm, h.dmaStart, h.dmaEnd, rfl, h.dmarMask, h.drb, h.edrb, h.othersA, h.othersB, h.keptA, h.keptB⟩⟩
  | setDmarMask v => exact ⟨rfl, ⟨hm, h.dmaStart, h.dmaEnd, h.dmarBase, rfl, h.drb, h.edrb, h.othersA, h.othersB, h.keptA, h.keptB⟩⟩
  | getDmaStart => exact ⟨h.dmaStart, h⟩
  | getDmaEnd => exact ⟨h.dmaEnd, h⟩
  | setDmaStart v => exact ⟨rfl, ⟨hm, rfl, h.dmaEnd, h.dmarBase, h.dmarMask, h.drb, h.edrb, h.othersA, h.othersB, h.keptA, h.keptB⟩⟩
  | setDmaEnd v => exact ⟨rfl, ⟨hm, h.dmaStart, rfl, h.dmarBase, h.dmarMask, h.drb, h.edrb, h.othersA, h.othersB, h.keptA, h.keptB⟩⟩
  | curCore => exact ho.elim
  | flushTlbs => exact ho.elim
  | setParBase v => exact ho.elim
  | setParMask v => exact ho.elim
  | setCacheShift v => exact ho.elim

theorem same_run {p : Prog α} (hp : p.CoreFree) (h : SameOutcome c c' a0 b0 a b) : SameEnd c c' a0 b0 (run g c p a) (run g c' p b) := by
  induction p generalizing a b with
  | ret x => exact ⟨rfl, h⟩
  | op o k ih =>
      have he := same_exec (g := g) h hp.1
      simp only [run]
      cases h1 : exec g c o a with
      | none =>
          rw [h1] at he
          cases h2 : exec g c' o b with
          | none => trivial
          | some y => rw [h2] at he; exact he.elim
      | some x =>
          rw [h1] at he
          cases h2 : exec g c' o b with
          | none => rw [h2] at he; exact he.elim
          | some y =>
              rw [h2] at he
              obtain ⟨e1, e2⟩ := he
              dsimp only
              rw [← e1]
              exact ih x.1 (hp.2 x.1) e2
  | fault => trivial
  | diverge => trivial

theorem same_bind {p q : Prog α} {f f' : α → Prog β} (h1 : SameEnd c c' a0 b0 (run g c p a) (run g c' q b))
    (h2 : ∀ v x y, SameOutcome c c' a0 b0 x y → SameEnd c c' a0 b0 (run g c (f v) x) (run g c' (f' v) y)) :
    SameEnd c c' a0 b0 (run g c (p >>= f) a) (run g c' (q >>= f') b) := by
  rw [run_bind, run_bind]
  cases h3 : run g c p a with
  | none =>
      rw [h3] at h1
      cases h4 : run g c' q b with
      | none => trivial
      | some y => rw [h4] at h1; exact h1.elim
  | some x =>
      rw [h3] at h1
      cases h4 : run g c' q b with
      | none => rw [h4] at h1; exact h1.elim
      | some y =>
          rw [h4] at h1
          obtain ⟨e1, e2⟩ := h1
          rw [Option.bind_some, Option.bind_some, ← e1]
          exact h2 _ _ _ e2

variable (hw : g.WF) (hc : c < g.cores) (hc' : c' < g.cores)
include hw hc hc'

/-- After asking which enclave runs. -/
theorem same_current {f : W → Prog β} (h : SameOutcome c c' a0 b0 a b) (hr : a.running c = b.running c') (hf : ∀ v, (f v).CoreFree) :
    SameEnd c c' a0 b0 (run g c (currentEnclave g >>= f) a) (run g c' (currentEnclave g >>= f) b) := by
  rw [run_bind, run_bind, run_currentEnclave hw hc, run_currentEnclave hw hc', Option.bind_some, Option.bind_some, hr]
  exact same_run (hf _) h

/-- The same after taking a region lock and reading the owner. -/
theorem same_locked {r : W} (hd : r.toNat < g.regions) {p : Prog β} {f : W → W → Prog β} (h : SameOutcome c c' a0 b0 a b) (hr : a.running c = b.running c')
    (hp : p.CoreFree) (hf : ∀ u v, (f u v).CoreFree) :
    SameEnd c c' a0 b0 (run g c (tasLock g r >>= fun x => if x then p else readOwner g r >>= fun u => currentEnclave g >>= f u) a)
      (run g c' (tasLock g r >>= fun x => if x then p else readOwner g r >>= fun u => currentEnclave g >>= f u) b) := by
  have key : ∀ {i : Nat} {m : Machine}, i < g.cores → (m.st (lockA g r.toNat) 1).running i = m.running i := fun {i m} hi => by
    show upd m.mem (lockA g r.toNat) 1 (coreEnclaveA i) = m.mem (coreEnclaveA i)
    exact upd_ne _ _ (Ne.symm (lockA_ne_coreEnclaveA hw hi))
  have hs : SameOutcome c c' a0 b0 (a.st (lockA g r.toNat) 1) (b.st (lockA g r.toNat) 1) := h.withMem (by rw [h.mem])
  have hl : a.locked g r.toNat = b.locked g r.toNat := by unfold locked; rw [h.mem]
  have ho : (a.st (lockA g r.toNat) 1).owner g r.toNat = (b.st (lockA g r.toNat) 1).owner g r.toNat := by unfold owner; rw [hs.mem]
  rw [run_bind, run_bind, run_tasLock hw hd, run_tasLock hw hd, Option.bind_some, Option.bind_some, hl]
  dsimp only
  split
  · exact same_run hp hs
  · rw [run_bind, run_bind, run_readOwner hw hd, run_readOwner hw hd, Option.bind_some, Option.bind_some, ho]
    exact same_current hw hc hc' hs (by rw [key hc, key hc', hr]) (hf _)

theorem same_block (h : SameOutcome c c' a0 b0 a b) (hr : a.running c = b.running c') (r : W) :
    SameEnd c c' a0 b0 (run g c (blockDramRegion g r) a) (run g c' (blockDramRegion g r) b) := by
  unfold blockDramRegion
  split
  · exact same_run trivial h
  · rename_i hd
    refine same_locked hw hc hc' ?_ h hr (free_pure _) fun u v => ?_
    · simp only [isDynamicDramRegion, isValidDramRegion, Bool.not_eq_true', Bool.not_eq_false, Bool.and_eq_true, decide_eq_true_eq] at hd
      exact hd.2
    · dsimp only
      free_walk [free_dmaCrossed _, free_setEnclaveBit _ _ _, free_setDrbMap _, free_setEdrbMap _]

theorem same_check (h : SameOutcome c c' a0 b0 a b) (hr : a.running c = b.running c') (r : W) :
    SameEnd c c' a0 b0 (run g c (dramRegionCheckOwnership g r) a) (run g c' (dramRegionCheckOwnership g r) b) := by
  unfold dramRegionCheckOwnership
  split
  · exact same_run trivial h
  · rename_i hd
    refine same_locked hw hc hc' ?_ h hr (free_pure _) fun u v => ?_
    · simp only [isDynamicDramRegion, isValidDramRegion, Bool.not_eq_true', Bool.not_eq_false, Bool.and_eq_true, decide_eq_true_eq] at hd
      exact hd.2
    · free_walk []

theorem same_accept (h : SameOutcome c c' a0 b0 a b) (hr : a.running c = b.running c') (t i : W) :
    SameEnd c c' a0 b0 (run g c (acceptThread g t i) a) (run g c' (acceptThread g t i) b) := by
  unfold acceptThread
  split
  · exact same_run trivial h
  · refine same_current hw hc hc' h hr fun v => ?_
    dsimp only
    free_walk [free_acceptPages _ _ _ _]

theorem same_createThread (h : SameOutcome c c' a0 b0 a b) (hr : a.running c = b.running c') (t p : W) :
    SameEnd c c' a0 b0 (run g c (createThread g t p) a) (run g c' (createThread g t p) b) := by
  unfold createThread
  split
  · exact same_run trivial h
  split
  · exact same_run trivial h
  split
  · exact same_run trivial h
  refine same_current hw hc hc' h hr fun v => ?_
  dsimp only
  refine free_bind (free_tasLock _) fun _ => free_ite (free_pure _) (free_bind (free_readBitmapBit _ _) fun _ => free_ite ?_ ?_)
  · with_reducible refine free_bind (free_threadPages _ _ _ _) fun _ => ?_
    free_walk []
  · free_walk []

theorem same_deleteThread (h : SameOutcome c c' a0 b0 a b) (hr : a.running c = b.running c') (t : W) :
    SameEnd c c' a0 b0 (run g c (deleteThread g t) a) (run g c' (deleteThread g t) b) := by
  unfold deleteThread
  refine same_current hw hc hc' h hr fun v => ?_
  dsimp only
  free_walk []

/-- Every call but the flush, on two cores on which the same software runs. -/
theorem same_call (k : Call) (hk : k ≠ .flushCachedDramRegions) (h : SameMemory a b) (hr : a.running c = b.running c') :
    SameEnd c c' a b (call g c k a) (call g c' k b) := by
  have h := SameOutcome.refl (c := c) (c' := c') h
  unfold call
  cases k
  case blockDramRegion r => exact same_block hw hc hc' h hr r
  case dramRegionCheckOwnership r => exact same_check hw hc hc' h hr r
  case acceptThread t i => exact same_accept hw hc hc' h hr t i
  case exitEnclave =>
      have e1 : run g c (exitEnclave g) a = some (monitorOk, a) := run_exitEnclave hw hc a
      have e2 : run g c' (exitEnclave g) b = some (monitorOk, b) := run_exitEnclave hw hc' b
      show SameEnd c c' a b (run g c (exitEnclave g) a) (run g c' (exitEnclave g) b)
      rw [e1, e2]
      exact ⟨rfl, h⟩
  case setDmaRange b n => exact same_run (free_setDma b n) h
  case dramRegionState r => exact same_run (free_state r) h
  case dramRegionOwner r => exact same_run (free_owner r) h
  case assignDramRegion r e => exact same_run (free_assign r e) h
  case freeDramRegion r => exact same_run (free_free r) h
  case flushCachedDramRegions => exact absurd rfl hk
  case createMetadataRegion r => exact same_run (free_createMeta r) h
  case createEnclave e b k n d => exact same_run (free_createEnclave e b k n d) h
  case loadPageTable e p v l a => exact same_run (free_loadPageTable e p v l a) h
  case loadPage e p v o a => exact same_run (free_loadPage e p v o a) h
  case loadThread e t a b c d => exact same_run (free_loadThread e t a b c d) h
  case assignThread e t => exact same_run (free_assignThread e t) h
  case initEnclave e => exact same_run (free_initEnclave e) h
  case enterEnclave e t => exact same_run (free_enterEnclave e t) h
  case createThread t p => exact same_createThread hw hc hc' h hr t p
  case deleteThread t => exact same_deleteThread hw hc hc' h hr t
  case deleteEnclave e => exact same_run (free_deleteEnclave e) h
  case copyDebugEnclavePage e a o d => exact same_run (free_copyDebug e a o d) h
  all_goals exact same_run (free_pure _) h

end Sanctum
