import Verif.Spec.Conc
/-
Contention: which result of a call reports a taken lock, and what it means that a call found a lock taken that some core held. Nothing
here mentions the monitor's code.
-/
namespace Sanctum

/-- The result by which a call reports that it found a lock taken: `dram_region_locked` for `dram_region_state`,
`monitor_concurrent_call` for the calls that return result codes; the others have no such result (`dram_region_owner` returns the OS's
ID, see C19). -/
def Call.busyCode : Call → Option W
  | .dramRegionState _ => some stateLocked
  | .dramSize | .dramRegionMask | .dramRegionOwner _ | .metadataRegionPages | .metadataRegionStart | .threadMetadataPages
  | .enclaveMetadataPages _ => none
  | _ => some monitorConcurrentCall

/-- The call needs the lock of one region for two purposes: it assigns a region to an ID inside that region, or copies between an
enclave and a page of the region that holds the enclave's ID. -/
def AsksTwice (g : Cfg) : Call → Prop
  | .assignDramRegion r e => regionOf g e.toNat = r.toNat
  | .copyDebugEnclavePage e _ os _ => idRegion g e = regionOf g os.toNat
  | _ => False

/-- The call names the enclave `e` whose own lock word it takes. -/
def TakesEnclaveLock (e : W) : Call → Prop
  | .assignThread e' _ => e' = e
  | .loadThread e' _ _ _ _ _ => e' = e
  | _ => False

/-- In the call that core `c` is running at the end of `t`, it found the word at `x` set by a test-and-set, after the trace `t1`. -/
def FoundSet (t : List Label) (c x : Nat) (t1 : List Label) : Prop :=
  ∃ t2 a v, t = t1 ++ .act c (.tas a) v :: t2 ∧ a.toNat = x ∧ v ≠ 0 ∧ ∀ k, Label.start c k ∉ t2

/-- Why the call `k`, which core `c` is running at the end of `t`, may report a taken lock. -/
inductive Contended (g : Cfg) (t : List Label) (c : Nat) (k : Call) : Prop
  /-- It found the lock of a region taken while another core held it. -/
  | other (i c' : Nat) (t1 : List Label) : i < g.regions → FoundSet t c (lockA g i) t1 → c' ≠ c → holds g t1 c' i → Contended g t c k
  /-- It asked twice for the same lock. -/
  | twice (i : Nat) (t1 : List Label) : i < g.regions → FoundSet t c (lockA g i) t1 → AsksTwice g k → holds g t1 c i → Contended g t c k
  /-- It found the lock of region 0 taken, after a successful `create_thread` or `delete_thread` (they never release it). -/
  | kept (c' : Nat) (k' : Call) (t1 : List Label) : FoundSet t c (lockA g 0) t1 → ¬ NoLeak k' → Label.done c' k' monitorOk ∈ t1 → Contended g t c k
  /-- It found the lock word of the enclave taken. -/
  | enclave (e : W) (t1 : List Label) : TakesEnclaveLock e k → FoundSet t c e.toNat t1 → Contended g t c k

end Sanctum
