import Verif.Spec.Conc
/-
The atomic specification of the region calls: a table of regions on which every call takes effect in one indivisible step at some instant between
its invocation and its return. Nothing here mentions the monitor's code, its memory layout or its locks.
-/
namespace Sanctum
open Classical

/-- The abstract state. Times are natural numbers. -/
structure RegionTable where
  /-- owner of a region: `nullEnclaveId` (the OS), `blockedEnclaveId`, `freeEnclaveId` or `metadataEnclaveId` -/
  owner : Nat → W
  /-- when a region was blocked -/
  stamp : Nat → Nat
  /-- the number of successful blocks -/
  clock : Nat
  /-- when a core flushed -/
  flushed : Nat → Nat
  /-- the time a core that is flushing has read from the clock -/
  sampled : Nat → Nat
  dmaStart : W
  dmaEnd : W

/-- After boot. -/
def RegionTable.initial (g : Cfg) : RegionTable :=
  { owner := fun _ => nullEnclaveId, stamp := fun _ => 0, clock := 0, flushed := fun _ => 0, sampled := fun _ => 0, dmaStart := g.monitorTop, dmaEnd := g.monitorTop + 1 }

/-- The DMA window overlaps, or is adjacent to, the first stripe of region `r`. -/
def RegionTable.dmaTouches (g : Cfg) (s : RegionTable) (r : Nat) : Prop :=
  r * g.stripeSize.toNat ≤ s.dmaEnd.toNat ∧ s.dmaStart.toNat ≤ (r + 1) * g.stripeSize.toNat

/-- The table after region `r` got the owner `o`. -/
def RegionTable.setOwner (s : RegionTable) (r : Nat) (o : W) : RegionTable := { s with owner := upd s.owner r o }

/-- Result and effect of a call, made by the OS, that takes effect in the state `s`: `TakesEffect g k s v s'`. (The calls that are not about regions have no
effect on the table; nothing is said of their results here.) -/
def TakesEffect (g : Cfg) (k : Call) (s : RegionTable) (v : W) (s' : RegionTable) : Prop :=
  match k with
  | .dramSize => (v, s') = (g.dramSize, s)
  | .dramRegionMask => (v, s') = (g.regionMask, s)
  | .metadataRegionPages => (v, s') = (g.metaPages, s)
  | .metadataRegionStart => (v, s') = (g.metaStart, s)
  | .blockDramRegion r => (v, s') =
      if r.toNat = 0 ∨ g.regions ≤ r.toNat then (monitorInvalidValue, s)
      else if s.owner r.toNat ≠ nullEnclaveId then (monitorAccessDenied, s)
      else if s.dmaTouches g r.toNat then (monitorInvalidState, s)
      else (monitorOk, { s.setOwner r.toNat blockedEnclaveId with stamp := upd s.stamp r.toNat s.clock, clock := s.clock + 1 })
  | .dramRegionCheckOwnership r => (v, s') =
      if r.toNat = 0 ∨ g.regions ≤ r.toNat then (monitorInvalidValue, s)
      else if s.owner r.toNat = nullEnclaveId then (monitorOk, s)
      else (monitorInvalidState, s)
  | .dramRegionState r => (v, s') =
      if g.regions ≤ r.toNat then (stateInvalid, s)
      else if s.owner r.toNat = blockedEnclaveId then (stateBlocked, s)
      else if s.owner r.toNat = freeEnclaveId then (stateFree, s)
      else (stateOwned, s)
  | .dramRegionOwner r => (v, s') =
      if r.toNat < g.regions ∧ s.owner r.toNat = metadataEnclaveId then (metadataEnclaveId, s) else (nullEnclaveId, s)
  | .setDmaRange base mask => (v, s') =
      if (∃ n, n ≤ 64 ∧ mask.toNat = 2 ^ n - 1 ∧ 2 ^ n ∣ base.toNat) ∧ base.toNat + mask.toNat < g.dramSize.toNat then
        (monitorOk, { s with dmaStart := base, dmaEnd := (base ||| mask) + 1 })
      else (monitorInvalidValue, s)
  | .assignDramRegion r e => (v, s') =
      if g.regions ≤ r.toNat then (monitorInvalidValue, s)
      else if s.owner r.toNat ≠ freeEnclaveId then (monitorInvalidState, s)
      else if regionOf g e.toNat = r.toNat then (monitorConcurrentCall, s)
      else if e = nullEnclaveId then (monitorOk, s.setOwner r.toNat nullEnclaveId)
      else (monitorInvalidValue, s)
  | .freeDramRegion r => (v, s') =
      if g.regions ≤ r.toNat then (monitorInvalidValue, s)
      else if (s.owner r.toNat = blockedEnclaveId ∧ ∀ c, c < g.cores → s.stamp r.toNat ≤ s.flushed c) ∨ s.owner r.toNat = metadataEnclaveId then
        (monitorOk, s.setOwner r.toNat freeEnclaveId)
      else (monitorInvalidState, s)
  | .createMetadataRegion r => (v, s') =
      if g.regions ≤ r.toNat then (monitorInvalidValue, s)
      else if s.owner r.toNat = freeEnclaveId then (monitorOk, s.setOwner r.toNat metadataEnclaveId)
      else (monitorInvalidState, s)
  | .flushCachedDramRegions => False
  | _ => s' = s

/-- The answer of a region call that finds a resource in use by another call. -/
def BusyAnswer (k : Call) (v : W) : Prop :=
  match k with
  | .blockDramRegion _ | .dramRegionCheckOwnership _ | .setDmaRange _ _ | .assignDramRegion _ _ | .freeDramRegion _ | .createMetadataRegion _ =>
      v = monitorConcurrentCall
  | .dramRegionState _ => v = stateLocked
  | .dramRegionOwner _ => v = nullEnclaveId
  | _ => False

/-- Where a core is. -/
inductive Phase where
  | idle
  /-- the call was made and has not taken effect -/
  | pending (k : Call)
  /-- a flush that has read the clock -/
  | flushing
  /-- the call has taken effect, with this result -/
  | decided (k : Call) (v : W)

structure AtomicState where
  phase : Nat → Phase
  table : RegionTable

/-- Steps of the atomic specification. Invocations and returns are observable; taking effect is not. -/
inductive AtomicStep (g : Cfg) : AtomicState → List Label → AtomicState → Prop
  | start {s : AtomicState} {c : Nat} {k : Call} : c < g.cores → s.phase c = .idle →
      AtomicStep g s [.start c k] { s with phase := upd s.phase c (.pending k) }
  /-- The call takes effect. -/
  | effect {s : AtomicState} {c : Nat} {k : Call} {v : W} {table : RegionTable} : s.phase c = .pending k → TakesEffect g k s.table v table →
      AtomicStep g s [] { phase := upd s.phase c (.decided k v), table := table }
  /-- The call has no effect because a call is in progress on another core. -/
  | busy {s : AtomicState} {c c' : Nat} {k : Call} {v : W} : s.phase c = .pending k → c' ≠ c → s.phase c' ≠ .idle → BusyAnswer k v →
      AtomicStep g s [] { s with phase := upd s.phase c (.decided k v) }
  /-- A flush takes effect in two steps: it reads the clock ... -/
  | sample {s : AtomicState} {c : Nat} : s.phase c = .pending .flushCachedDramRegions →
      AtomicStep g s [] { phase := upd s.phase c .flushing, table := { s.table with sampled := upd s.table.sampled c s.table.clock } }
  /-- ... and records that time for its core. -/
  | flush {s : AtomicState} {c : Nat} : s.phase c = .flushing →
      AtomicStep g s [] { phase := upd s.phase c (.decided .flushCachedDramRegions monitorOk),
                          table := { s.table with flushed := upd s.table.flushed c (s.table.sampled c) } }
  | done {s : AtomicState} {c : Nat} {k : Call} {v : W} : s.phase c = .decided k v →
      AtomicStep g s [.done c k v] { s with phase := upd s.phase c .idle }

/-- Executions of the atomic specification with what is observable of them. -/
inductive AtomicRun (g : Cfg) : AtomicState → List Label → AtomicState → Prop
  | refl (s : AtomicState) : AtomicRun g s [] s
  | tail {s s' s'' : AtomicState} {h h' : List Label} : AtomicRun g s h s' → AtomicStep g s' h' s'' → AtomicRun g s (h ++ h') s''

/-- Invocations and returns. -/
def Label.isCall : Label → Bool
  | .start _ _ => true
  | .done _ _ _ => true
  | _ => false

/-- What callers see of an interleaving. -/
def observed (t : List Label) : List Label := t.filter Label.isCall

end Sanctum
