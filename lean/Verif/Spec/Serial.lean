import Verif.Spec.Atomic
/-
The serial machine: every call is made on the whole machine in one indivisible step, at some instant between its invocation and its return, by running its code
undisturbed. Only `flush_cached_dram_regions` takes two steps. A call may instead be turned away, with the answer for resources in use and without any effect,
while a call is in progress on another core. Software loads from and stores to memory whenever it likes. Nothing here mentions locks.
-/
namespace Sanctum
open Classical

/-- Where a core of the serial machine is. -/
inductive SPhase where
  | idle
  /-- the call was made and has not run -/
  | pending (k : Call)
  /-- a flush that flushed the core's TLB and read the time `w` from the block clock -/
  | flushing (w : W)
  /-- the call has run, with this result -/
  | decided (k : Call) (v : W)

structure SerialState where
  phase : Nat → SPhase
  m : Machine

/-- The answer of a call that finds a resource in use by another call. -/
def TurnedAway (k : Call) (v : W) : Prop :=
  match k with
  | .dramRegionState _ => v = stateLocked
  | .dramRegionOwner _ => v = nullEnclaveId
  | .blockDramRegion _ | .dramRegionCheckOwnership _ | .setDmaRange _ _ | .assignDramRegion _ _ | .freeDramRegion _ | .createMetadataRegion _
  | .createEnclave _ _ _ _ _ | .loadPageTable _ _ _ _ _ | .loadPage _ _ _ _ _ | .initEnclave _ | .enterEnclave _ _ | .deleteEnclave _ => v = monitorConcurrentCall
  | _ => False

/-- The machine after core `c` flushed its TLB. -/
def Machine.flushTlb (m : Machine) (c : Nat) : Machine := { m with tlbFlushes := upd m.tlbFlushes c (m.tlbFlushes c + 1) }

/-- The machine after core `c` recorded the flush time `w`. -/
def Machine.record (m : Machine) (c : Nat) (w : W) : Machine := { m with mem := upd m.mem (flushedA c) w }

/-- Steps of the serial machine. Invocations and returns are observable. -/
inductive SerialStep (g : Cfg) : SerialState → List Label → SerialState → Prop
  | start {s : SerialState} {c : Nat} {k : Call} : c < g.cores → s.phase c = .idle →
      SerialStep g s [.start c k] { s with phase := upd s.phase c (.pending k) }
  /-- The call runs, undisturbed, on the whole machine. -/
  | effect {s : SerialState} {c : Nat} {k : Call} {v : W} {m' : Machine} : s.phase c = .pending k → call g c k s.m = some (v, m') →
      SerialStep g s [] { phase := upd s.phase c (.decided k v), m := m' }
  /-- The call has no effect because a call is in progress on another core. -/
  | busy {s : SerialState} {c c' : Nat} {k : Call} {v : W} : s.phase c = .pending k → c' ≠ c → s.phase c' ≠ .idle → TurnedAway k v →
      SerialStep g s [] { s with phase := upd s.phase c (.decided k v) }
  /-- A flush takes two steps: it flushes the TLB and reads the clock ... -/
  | sample {s : SerialState} {c : Nat} : s.phase c = .pending .flushCachedDramRegions →
      SerialStep g s [] { phase := upd s.phase c (.flushing (s.m.clock g)), m := s.m.flushTlb c }
  /-- ... and records that time for its core. -/
  | record {s : SerialState} {c : Nat} {w : W} : s.phase c = .flushing w →
      SerialStep g s [] { phase := upd s.phase c (.decided .flushCachedDramRegions monitorOk), m := s.m.record c w }
  | done {s : SerialState} {c : Nat} {k : Call} {v : W} : s.phase c = .decided k v →
      SerialStep g s [.done c k v] { s with phase := upd s.phase c .idle }

/-- What software sees and does: calls begin and return, and it loads `v` from, or stores `v` at, the address `a`. -/
inductive Seen where
  | call (l : Label)
  | load (a : Nat) (v : W)
  | store (a : Nat) (v : W)

/-- The machine after a store. -/
def Machine.put (m : Machine) (a : Nat) (v : W) : Machine := { m with mem := upd m.mem a v }

/-- Executions of the serial machine, with what software sees and does. -/
inductive SerialRun (g : Cfg) : SerialState → List Seen → SerialState → Prop
  | refl (s : SerialState) : SerialRun g s [] s
  | tail {s s' s'' : SerialState} {h : List Seen} {h' : List Label} : SerialRun g s h s' → SerialStep g s' h' s'' → SerialRun g s (h ++ h'.map .call) s''
  | load {s s' : SerialState} {h : List Seen} (a : Nat) : SerialRun g s h s' → SerialRun g s (h ++ [.load a (s'.m.mem a)]) s'
  | store {s s' : SerialState} {h : List Seen} (a : Nat) (v : W) : SerialRun g s h s' → SerialRun g s (h ++ [.store a v]) { s' with m := s'.m.put a v }

/-- Interleavings `Steps g s t s'` in which software loads and stores outside the monitor's memory, and outside regions that are free or hold metadata, with what software sees
and does. -/
inductive SeenSteps (g : Cfg) : Conf → List Label → List Seen → Conf → Prop
  | refl (s : Conf) : SeenSteps g s [] [] s
  | step {s s' s'' : Conf} {t : List Label} {h : List Seen} {l : Label} : SeenSteps g s t h s' → Step g s' l s'' → l ≠ .soft →
      SeenSteps g s (t ++ [l]) (h ++ (observed [l]).map .call) s''
  | load {s s' : Conf} {t : List Label} {h : List Seen} (a : Nat) : SeenSteps g s t h s' → g.monitorTop.toNat ≤ a →
      s'.m.owner g (regionOf g a) ≠ freeEnclaveId → s'.m.owner g (regionOf g a) ≠ metadataEnclaveId → SeenSteps g s t (h ++ [.load a (s'.m.mem a)]) s'
  | store {s s' : Conf} {t : List Label} {h : List Seen} (a : Nat) (v : W) : SeenSteps g s t h s' → g.monitorTop.toNat ≤ a →
      s'.m.owner g (regionOf g a) ≠ freeEnclaveId → s'.m.owner g (regionOf g a) ≠ metadataEnclaveId →
      SeenSteps g s (t ++ [.soft]) (h ++ [.store a v]) { s' with m := s'.m.put a v }

/-- The calls that access what other calls also access only while they hold the locks that protect it, and release their locks: not the thread calls that
use the enclave's record after they released the lock of its region, not debug copies (they access pages without the lock of the pages' region), not
`create_thread`, `delete_thread` and `accept_thread`. -/
def Lockwise : Call → Prop
  | .acceptThread _ _ => False
  | .assignThread _ _ => False
  | .loadThread _ _ _ _ _ _ => False
  | .createThread _ _ => False
  | .deleteThread _ => False
  | .copyDebugEnclavePage _ _ _ _ => False
  | _ => True

end Sanctum
