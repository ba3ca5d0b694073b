import Verif.Spec.Confine
/-
Data races: shared locations, which actions read and write them, and what it means for two cores to be about to access the same
location without synchronisation. Nothing here mentions the monitor's code.
-/
namespace Sanctum

/-- The locations that several cores can access: words of memory, and the DMA window with its registers. (The other registers belong
to one core.) -/
inductive Loc where
  | word (x : Nat)
  | dmaStart
  | dmaEnd
  | dmarBase
  | dmarMask

/-- The action reads the location. -/
def Op.reads (o : Op) (l : Loc) : Prop :=
  match o with
  | .load a => l = .word a.toNat
  | .load32 a => l = .word (a.toNat / 8 * 8)
  | .tas a => l = .word a.toNat
  | .fetchAdd a _ => l = .word a.toNat
  | .getDmaStart => l = .dmaStart
  | .getDmaEnd => l = .dmaEnd
  | _ => False

/-- The action writes the location. -/
def Op.writes (o : Op) (l : Loc) : Prop :=
  match o with
  | .store a _ => l = .word a.toNat
  | .store32 a _ => l = .word (a.toNat / 8 * 8)
  | .tas a => l = .word a.toNat
  | .fetchAdd a _ => l = .word a.toNat
  | .setDmaStart _ => l = .dmaStart
  | .setDmaEnd _ => l = .dmaEnd
  | .setDmarBase _ => l = .dmarBase
  | .setDmarMask _ => l = .dmarMask
  | _ => False

/-- The action reads or writes the location. -/
def Op.touches (o : Op) (l : Loc) : Prop := o.reads l ∨ o.writes l

/-- The words that the monitor's data structures declare atomic: region locks (src/monitor/dram_regions.h:42), the block clock
(dram_regions.h:54) and the flush times of the cores (src/monitor/cpu_core.h:37). -/
def AtomicLoc (g : Cfg) (l : Loc) : Prop :=
  (∃ i, i < g.regions ∧ l = .word (lockA g i)) ∨ l = .word (clockA g) ∨ ∃ c, c < g.cores ∧ l = .word (flushedA c)

/-- The next action of core `c`. -/
def Next (s : Conf) (c : Nat) (o : Op) : Prop := ∃ k f, s.cores c = .running k (.op o f)

/-- Two cores are about to access the same location, which is not atomic, and at least one of them is about to write it. -/
def Race (g : Cfg) (s : Conf) : Prop :=
  ∃ c c' o o' l, c ≠ c' ∧ Next s c o ∧ Next s c' o' ∧ o.writes l ∧ o'.touches l ∧ ¬ AtomicLoc g l

/-- The calls without races: not the thread calls that use the enclave's record after they released the lock of its region, not debug
copies with an enclave's ID (they read the record before they check the ID), not `create_thread` (made by the OS, it takes address 304
for an enclave's bitmap). -/
def Orderly : Call → Prop
  | .assignThread _ _ => False
  | .loadThread _ _ _ _ _ _ => False
  | .copyDebugEnclavePage e _ _ _ => e = nullEnclaveId
  | .createThread _ _ => False
  | _ => True

end Sanctum
