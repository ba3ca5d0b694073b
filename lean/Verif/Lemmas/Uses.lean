import Verif.Spec.Registers
import Verif.Lemmas.Mirror
/-
Which registers the code of a call can write, whatever its loads return.
-/
namespace Sanctum
open Machine

variable {g : Cfg} {α β : Type}

/-- The groups of registers. -/
inductive Reg where
  | shield
  | drb
  | edrb
  | dma
  | tlb

/-- The action writes only registers in `R`. -/
def OpUses (R : Reg → Prop) : Op → Prop
  | .setParBase _ => R .shield
  | .setParMask _ => R .shield
  | .setCacheShift _ => R .shield
  | .setDrb _ => R .drb
  | .setEdrb _ => R .edrb
  | .setDmarBase _ => R .dma
  | .setDmarMask _ => R .dma
  | .setDmaStart _ => R .dma
  | .setDmaEnd _ => R .dma
  | .flushTlbs => R .tlb
  | _ => True

/-- All actions of the program write only registers in `R`. -/
def Prog.Uses (R : Reg → Prop) : Prog α → Prop
  | .ret _ => True
  | .op o k => OpUses R o ∧ ∀ v, Prog.Uses R (k v)
  | .fault => True
  | .diverge => True

variable {R : Reg → Prop}

theorem uses_bind {p : Prog α} {f : α → Prog β} (hp : p.Uses R) (hf : ∀ a, (f a).Uses R) : (p >>= f).Uses R := by
  show (p.bind f).Uses R
  induction p with
  | ret a => exact hf a
  | op o k ih => exact ⟨hp.1, fun v => ih v (hp.2 v)⟩
  | fault => trivial
  | diverge => trivial

theorem uses_ite {b : Prop} [Decidable b] {p q : Prog α} (hp : p.Uses R) (hq : q.Uses R) : (if b then p else q).Uses R := by
  split
  · exact hp
  · exact hq

theorem uses_pure (a : α) : (pure a : Prog α).Uses R := trivial
theorem uses_load (a : W) : (load a).Uses R := ⟨trivial, fun _ => trivial⟩
theorem uses_store (a v : W) : (store a v).Uses R := ⟨trivial, fun _ => trivial⟩
theorem uses_load32 (a : W) : (load32 a).Uses R := ⟨trivial, fun _ => trivial⟩
theorem uses_store32 (a : W) (v : W32) : (store32 a v).Uses R := ⟨trivial, fun _ => trivial⟩
theorem uses_tas (a : W) : (tas a).Uses R := ⟨trivial, fun _ => trivial⟩
theorem uses_tasLock (r : W) : (tasLock g r).Uses R := ⟨trivial, fun _ => trivial⟩
theorem uses_clearLock (r : W) : (clearLock g r).Uses R := ⟨trivial, fun _ => trivial⟩
theorem uses_readOwner (r : W) : (readOwner g r).Uses R := ⟨trivial, fun _ => trivial⟩
theorem uses_act {o : Op} (h : OpUses R o) : (act o).Uses R := ⟨h, fun _ => trivial⟩
theorem uses_act_ {o : Op} (h : OpUses R o) : (act_ o).Uses R := ⟨h, fun _ => trivial⟩

/-- An action allowed outright or by a hypothesis. -/
macro "uses_op" : tactic =>
  `(tactic| (first | with_reducible refine uses_act ?_ | with_reducible refine uses_act_ ?_) <;> first | exact trivial | assumption)

/-- One step through a program; `ls` closes the calls of named functions. -/
macro "uses_walk" "[" ls:term,* "]" : tactic => do
  let alts ← ls.getElems.mapM fun l => `(tactic| with_reducible exact $l)
  let mut t ← `(tactic| first
    | with_reducible exact uses_pure _ | with_reducible exact uses_load _ | with_reducible exact uses_store _ _
    | with_reducible exact uses_load32 _ | with_reducible exact uses_store32 _ _ | with_reducible exact uses_tas _
    | with_reducible exact uses_tasLock _ | with_reducible exact uses_clearLock _ | with_reducible exact uses_readOwner _)
  for a in alts do
    t ← `(tactic| first | $t:tactic | $a:tactic)
  `(tactic| repeat' (first | ($t:tactic; done) | uses_op | with_reducible refine uses_ite ?_ ?_ | (with_reducible refine uses_bind ?_ fun _ => ?_) | (intro; dsimp only)))

theorem uses_currentEnclave : (currentEnclave g).Uses R := by
  unfold currentEnclave
  uses_walk []

theorem uses_setBitmapBit (a r : W) (b : Bool) : (setBitmapBit a r b).Uses R := by
  unfold setBitmapBit
  dsimp only
  uses_walk []

theorem uses_readBitmapBit (a r : W) : (readBitmapBit a r).Uses R := by
  unfold readBitmapBit
  uses_walk []

theorem uses_setEnclaveBit (e r : W) (b : Bool) : (setEnclaveRegionBitmapBit g e r b).Uses R := by
  unfold setEnclaveRegionBitmapBit
  uses_walk [uses_setBitmapBit _ _ _]

theorem uses_readEnclaveBit (e r : W) : (readEnclaveRegionBitmapBit g e r).Uses R := by
  unfold readEnclaveRegionBitmapBit
  uses_walk [uses_readBitmapBit _ _]

theorem uses_isValid (e : W) : (isValidEnclaveId g e).Uses R := by
  unfold isValidEnclaveId
  uses_walk []

theorem uses_snapshot : ∀ (n : Nat) (p : W), (snapshotLoop n p).Uses R
  | 0, _ => trivial
  | n + 1, p => by
      unfold snapshotLoop
      uses_walk [uses_snapshot n _]

theorem uses_setDrbMap (h : R .drb) (a : W) : (setDrbMap g a).Uses R := by
  unfold setDrbMap
  uses_walk [uses_snapshot _ _]

theorem uses_setEdrbMap (h : R .edrb) (a : W) : (setEdrbMap g a).Uses R := by
  unfold setEdrbMap
  uses_walk [uses_snapshot _ _]

theorem uses_bzeroWords : ∀ (n : Nat) (p : W), (bzeroWords p n).Uses R
  | 0, _ => trivial
  | n + 1, p => by
      unfold bzeroWords
      uses_walk [uses_bzeroWords n _]

theorem uses_bzero (a b : W) : (bzero a b).Uses R := uses_bzeroWords _ _

theorem uses_bzeroRegionLoop (s t : W) : ∀ (n : Nat) (p : W), (bzeroRegionLoop g s t n p).Uses R
  | 0, _ => trivial
  | n + 1, p => by
      unfold bzeroRegionLoop
      uses_walk [uses_bzero _ _, uses_bzeroRegionLoop s t n _]

theorem uses_bzeroDramRegion (r : W) : (bzeroDramRegion g r).Uses R := by
  unfold bzeroDramRegion
  with_reducible exact uses_bzeroRegionLoop _ _ _ _

/-! ### Measurement -/

theorem uses_hashSchedule (w b : W) (i : Nat) : (hashSchedule w b i).Uses R := by
  unfold hashSchedule
  uses_walk []

theorem uses_hashRounds (w b : W) : ∀ (n i : Nat) (s : HashRegs), (hashRounds w b n i s).Uses R
  | 0, _, _ => trivial
  | n + 1, i, s => by
      unfold hashRounds
      uses_walk [uses_hashSchedule _ _ _, uses_hashRounds w b n _ _]

theorem uses_hashAdd (h : W) (i : Nat) (x : W32) : (hashAdd h i x).Uses R := by
  unfold hashAdd
  uses_walk []

theorem uses_extendHash (s b : W) : (extendHash s b).Uses R := by
  unfold extendHash
  uses_walk [uses_hashRounds _ _ _ _ _, uses_hashAdd _ _ _]

theorem uses_initHash (s : W) : (initHash s).Uses R := by
  unfold initHash
  uses_walk [uses_bzero _ _]

theorem uses_initEnclaveHash (e a b c : W) (d : Bool) : (initEnclaveHash e a b c d).Uses R := by
  unfold initEnclaveHash
  uses_walk [uses_bzero _ _, uses_initHash _, uses_extendHash _ _]

theorem uses_extendThread (e a b c d : W) : (extendHashWithThread e a b c d).Uses R := by
  unfold extendHashWithThread
  uses_walk [uses_extendHash _ _]

theorem uses_finalizeHash (e : W) : (finalizeEnclaveHash e).Uses R := by
  unfold finalizeEnclaveHash finalizeHash
  uses_walk [uses_extendHash _ _]

/-! ### Metadata -/

theorem uses_initMeta (r : W) : (initMetadataRegion g r).Uses R := by
  unfold initMetadataRegion
  uses_walk [uses_bzero _ _]

theorem uses_lockMeta (a : W) : (lockMetadataRegionFor g a).Uses R := by
  unfold lockMetadataRegionFor
  dsimp only
  uses_walk []

theorem uses_pagesEmpty : ∀ (n : Nat) (p : W), (pagesEmptyLoop n p).Uses R
  | 0, _ => trivial
  | n + 1, p => by
      unfold pagesEmptyLoop
      uses_walk [uses_pagesEmpty n _]

theorem uses_innerPages : ∀ (n : Nat) (p : W), (innerPagesLoop n p).Uses R
  | 0, _ => trivial
  | n + 1, p => by
      unfold innerPagesLoop
      uses_walk [uses_innerPages n _]

theorem uses_assignPages (a b c d e : W) : (assignMetadataPages g a b c d e).Uses R := by
  unfold assignMetadataPages
  dsimp only
  uses_walk [uses_pagesEmpty _ _, uses_innerPages _ _]

theorem uses_reservePages (a b c d : W) : (reserveMetadataPages g a b c d).Uses R := uses_assignPages _ _ _ _ _
theorem uses_acceptPages (a b c d : W) : (acceptMetadataPages g a b c d).Uses R := uses_assignPages _ _ _ _ _

theorem uses_lockEnclave (e : W) : (lockEnclave g e).Uses R := by
  unfold lockEnclave
  dsimp only
  uses_walk [uses_lockMeta _]

theorem uses_unlockEnclave (e : W) : (unlockEnclave e).Uses R := uses_store _ _

theorem uses_initInfo (e a b c : W) (d : Bool) : (initEnclaveInfo e a b c d).Uses R := by
  unfold initEnclaveInfo
  uses_walk [uses_initEnclaveHash _ _ _ _ _]

theorem uses_isEnclaveVirtual (v e : W) : (isEnclaveVirtualAddress v e).Uses R := by
  unfold isEnclaveVirtualAddress
  uses_walk []

/-! ### The calls -/

theorem uses_dmaTest {o1 o2 : Op} (p q : W → Bool) (h1 : OpUses R o1) (h2 : OpUses R o2) : (dmaTest o1 p o2 q).Uses R := by
  unfold dmaTest
  uses_walk []

theorem uses_dmaCrossed (r : W) : (dmaRangeCrossed g r).Uses R := by
  unfold dmaRangeCrossed
  dsimp only
  repeat' first | exact uses_dmaTest _ _ trivial trivial | exact uses_pure _ | refine uses_ite ?_ ?_ | refine uses_bind ?_ fun _ => ?_

theorem uses_block (h1 : R .drb) (h2 : R .edrb) (r : W) : (blockDramRegion g r).Uses R := by
  unfold blockDramRegion
  dsimp only
  uses_walk [uses_currentEnclave, uses_dmaCrossed _, uses_setEnclaveBit _ _ _, uses_setDrbMap h1 _, uses_setEdrbMap h2 _]

theorem uses_check (r : W) : (dramRegionCheckOwnership g r).Uses R := by
  unfold dramRegionCheckOwnership
  uses_walk [uses_currentEnclave]

theorem uses_state (r : W) : (dramRegionState g r).Uses R := by
  unfold dramRegionState
  uses_walk []

theorem uses_owner (r : W) : (dramRegionOwner g r).Uses R := by
  unfold dramRegionOwner
  uses_walk []

theorem uses_dmaLoop (e : W) : ∀ (n : Nat) (a : W) (b : Bool), (dmaRangeLoop g e n a b).Uses R
  | 0, _, _ => trivial
  | n + 1, a, b => by
      unfold dmaRangeLoop
      dsimp only
      uses_walk [uses_dmaLoop e n _ _]

theorem uses_setDma (h : R .dma) (b n : W) : (setDmaRange g b n).Uses R := by
  unfold setDmaRange
  refine uses_ite (uses_pure _) (uses_ite (uses_pure _) (uses_bind (uses_tasLock _) fun busy => uses_ite (uses_pure _) ?_))
  dsimp only
  with_reducible refine uses_bind (uses_dmaLoop _ _ _ _) fun res => ?_
  cases res with
  | none => exact uses_pure _
  | some v =>
    dsimp only
    uses_walk []

theorem uses_createMeta (r : W) : (createMetadataRegion g r).Uses R := by
  unfold createMetadataRegion
  uses_walk [uses_initMeta _]

theorem uses_assign (h1 : R .drb) (r e : W) : (assignDramRegion g r e).Uses R := by
  unfold assignDramRegion
  dsimp only
  uses_walk [uses_isValid _, uses_setEnclaveBit _ _ _, uses_setDrbMap h1 _]

theorem uses_coresFlushed (b : W) : ∀ (n : Nat) (i : W), (coresFlushedLoop g b n i).Uses R
  | 0, _ => trivial
  | n + 1, i => by
      unfold coresFlushedLoop
      uses_walk [uses_coresFlushed b n _]

theorem uses_free (r : W) : (freeDramRegion g r).Uses R := by
  unfold freeDramRegion
  uses_walk [uses_coresFlushed _ _ _]

theorem uses_flush (h : R .tlb) : (flushCachedDramRegions g).Uses R := by
  unfold flushCachedDramRegions dramRegionTlbFlush
  uses_walk []

theorem uses_createEnclave (e b k n : W) (d : Bool) : (createEnclave g e b k n d).Uses R := by
  unfold createEnclave
  uses_walk [uses_lockMeta _, uses_reservePages _ _ _ _, uses_initInfo _ _ _ _ _]

theorem uses_assignThread (e t : W) : (assignThread g e t).Uses R := by
  unfold assignThread
  uses_walk [uses_lockEnclave _, uses_lockMeta _, uses_unlockEnclave _, uses_reservePages _ _ _ _]

theorem uses_loadThread (e t a b c d : W) : (loadThread g e t a b c d).Uses R := by
  unfold loadThread
  uses_walk [uses_lockEnclave _, uses_lockMeta _, uses_unlockEnclave _, uses_reservePages _ _ _ _, uses_extendThread _ _ _ _ _]

theorem uses_acceptThread (t i : W) : (acceptThread g t i).Uses R := by
  unfold acceptThread
  dsimp only
  uses_walk [uses_currentEnclave, uses_acceptPages _ _ _ _]

theorem uses_withLocked (e : W) {k : W → Prog W} (hk : ∀ r, (k r).Uses R) : (withLockedEnclave g e k).Uses R := by
  unfold withLockedEnclave
  dsimp only
  uses_walk [uses_isValid _, hk _]

theorem uses_loadPageTable (e p v l a : W) : (loadPageTable g e p v l a).Uses R := by
  unfold loadPageTable
  refine uses_ite (uses_pure _) (uses_ite (uses_pure _) (uses_ite (uses_pure _) (uses_withLocked e fun r => ?_)))
  uses_walk [uses_isEnclaveVirtual _ _]

theorem uses_loadPage (e p v o a : W) : (loadPage g e p v o a).Uses R := by
  unfold loadPage
  refine uses_ite (uses_pure _) (uses_ite (uses_pure _) (uses_withLocked e fun r => ?_))
  uses_walk [uses_isEnclaveVirtual _ _]

theorem uses_initEnclave (e : W) : (initEnclave g e).Uses R := by
  unfold initEnclave
  refine uses_withLocked e fun r => ?_
  uses_walk [uses_finalizeHash _]

theorem uses_enterEnclave (e t : W) : (enterEnclave g e t).Uses R := by
  unfold enterEnclave
  refine uses_withLocked e fun r => ?_
  uses_walk []

theorem uses_deleteLock (a b : W) : ∀ (n : Nat) (i : W), (deleteLockLoop g a b n i).Uses R
  | 0, _ => trivial
  | n + 1, i => by
      unfold deleteLockLoop
      uses_walk [uses_readBitmapBit _ _, uses_deleteLock a b n _]

theorem uses_deleteUnlock (a b : W) : ∀ (n : Nat) (i : W), (deleteUnlockLoop g a b n i).Uses R
  | 0, _ => trivial
  | n + 1, i => by
      unfold deleteUnlockLoop
      uses_walk [uses_readBitmapBit _ _, uses_deleteUnlock a b n _]

theorem uses_deleteFree (a b : W) : ∀ (n : Nat) (i : W), (deleteFreeLoop g a b n i).Uses R
  | 0, _ => trivial
  | n + 1, i => by
      unfold deleteFreeLoop
      uses_walk [uses_readBitmapBit _ _, uses_bzeroDramRegion _, uses_deleteFree a b n _]

theorem uses_deleteEnclave (e : W) : (deleteEnclave g e).Uses R := by
  unfold deleteEnclave
  refine uses_withLocked e fun r => ?_
  dsimp only
  uses_walk [uses_deleteLock _ _ _ _, uses_deleteUnlock _ _ _ _, uses_deleteFree _ _ _ _]

theorem uses_copyWords : ∀ (n : Nat) (a b : W), (copyWords n a b).Uses R
  | 0, _, _ => trivial
  | n + 1, a, b => by
      unfold copyWords
      uses_walk [uses_copyWords n _ _]

theorem uses_copyDebug (e a o : W) (d : Bool) : (copyDebugEnclavePage g e a o d).Uses R := by
  unfold copyDebugEnclavePage
  dsimp only
  uses_walk [uses_readEnclaveBit _ _, uses_copyWords _ _ _]

theorem uses_threadPages (a b : W) : ∀ (n : Nat) (p : W), (threadPagesLoop g a b n p).Uses R
  | 0, _ => trivial
  | n + 1, p => by
      unfold threadPagesLoop
      uses_walk [uses_threadPages a b n _]

theorem uses_createThread (t p : W) : (createThread g t p).Uses R := by
  unfold createThread
  refine uses_ite (uses_pure _) (uses_ite (uses_pure _) (uses_ite (uses_pure _) (uses_bind uses_currentEnclave fun e => ?_)))
  dsimp only
  refine uses_bind (uses_tasLock _) fun _ => uses_ite (uses_pure _) (uses_bind (uses_readBitmapBit _ _) fun _ => uses_ite ?_ ?_)
  · with_reducible refine uses_bind (uses_threadPages _ _ _ _) fun _ => ?_
    uses_walk []
  · uses_walk []

theorem uses_deleteThread (t : W) : (deleteThread g t).Uses R := by
  unfold deleteThread
  dsimp only
  uses_walk [uses_currentEnclave]

theorem uses_exitEnclave : (exitEnclave g).Uses R := by
  unfold exitEnclave
  uses_walk []

/-- The registers that a call may write. -/
def Call.regs (k : Call) : Reg → Prop
  | .shield => False
  | .drb => k.MovesOsRegions
  | .edrb => k.MovesOwnRegions
  | .dma => k.MovesDma
  | .tlb => k.Flushes

theorem uses_call (g : Cfg) (k : Call) : (k.prog g).Uses k.regs := by
  cases k
  case blockDramRegion r => exact uses_block trivial trivial r
  case dramRegionCheckOwnership r => exact uses_check r
  case acceptThread t i => exact uses_acceptThread t i
  case exitEnclave => exact uses_exitEnclave
  case setDmaRange b n => exact uses_setDma trivial b n
  case dramRegionState r => exact uses_state r
  case dramRegionOwner r => exact uses_owner r
  case assignDramRegion r e => exact uses_assign trivial r e
  case freeDramRegion r => exact uses_free r
  case flushCachedDramRegions => exact uses_flush trivial
  case createMetadataRegion r => exact uses_createMeta r
  case createEnclave e b k n d => exact uses_createEnclave e b k n d
  case loadPageTable e p v l a => exact uses_loadPageTable e p v l a
  case loadPage e p v o a => exact uses_loadPage e p v o a
  case loadThread e t a b c d => exact uses_loadThread e t a b c d
  case assignThread e t => exact uses_assignThread e t
  case initEnclave e => exact uses_initEnclave e
  case enterEnclave e t => exact uses_enterEnclave e t
  case createThread t p => exact uses_createThread t p
  case deleteThread t => exact uses_deleteThread t
  case deleteEnclave e => exact uses_deleteEnclave e
  case copyDebugEnclavePage e a o d => exact uses_copyDebug e a o d
  all_goals exact uses_pure _

/-- What an action that writes only registers in `R` leaves alone. -/
theorem exec_uses {c : Nat} {o : Op} {m m' : Machine} {v : W} (h : OpUses R o) (he : exec g c o m = some (v, m')) :
    (¬ R .shield → m'.parBase = m.parBase ∧ m'.parMask = m.parMask ∧ m'.cacheShift = m.cacheShift) ∧
    (∀ c', c' ≠ c ∨ ¬ R .drb → m'.drb c' = m.drb c') ∧ (∀ c', c' ≠ c ∨ ¬ R .edrb → m'.edrb c' = m.edrb c') ∧
    (¬ R .dma → m'.dmaStart = m.dmaStart ∧ m'.dmaEnd = m.dmaEnd ∧ m'.dmarBase = m.dmarBase ∧ m'.dmarMask = m.dmarMask) ∧
    (∀ c', c' ≠ c ∨ ¬ R .tlb → m'.tlbFlushes c' = m.tlbFlushes c') ∧
    (∀ c', c' ≠ c → m'.parBase c' = m.parBase c' ∧ m'.parMask c' = m.parMask c' ∧ m'.cacheShift c' = m.cacheShift c') := by
  cases o <;> simp only [exec] at he <;> (first | (split at he <;> cases he) | cases he)
  all_goals refine ⟨fun hn => ?_, fun c' hc' => ?_, fun c' hc' => ?_, fun hn => ?_, fun c' hc' => ?_, fun c' hc' => ?_⟩
  all_goals first
    | exact rfl
    | exact ⟨rfl, rfl, rfl⟩
    | exact ⟨rfl, rfl, rfl, rfl⟩
    | exact absurd h hn
    | exact upd_ne _ _ (hc'.resolve_right fun hn => hn h)
    | exact ⟨upd_ne _ _ hc', rfl, rfl⟩
    | exact ⟨rfl, upd_ne _ _ hc', rfl⟩
    | exact ⟨rfl, rfl, upd_ne _ _ hc'⟩

end Sanctum
