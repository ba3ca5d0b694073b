import Verif.Spec.Enclave
/-
Invariants of the whole monitor and legal region transitions. Nothing here mentions the monitor's code.
-/
namespace Sanctum

/-- A region's owner field went from `a` to `b` along an edge of the documented life cycle: owned by the OS
(or an enclave) → blocked → free → (owned or metadata), metadata → free; or did not change. Enclave IDs are
greater than 3. -/
inductive LegalEdge : W → W → Prop
  | same (a : W) : LegalEdge a a
  | block (a : W) : a ≠ blockedEnclaveId → a ≠ metadataEnclaveId → a ≠ freeEnclaveId → LegalEdge a blockedEnclaveId
  | unblock : LegalEdge blockedEnclaveId freeEnclaveId
  | reclaim : LegalEdge metadataEnclaveId freeEnclaveId
  | assign (b : W) : b ≠ blockedEnclaveId → b ≠ metadataEnclaveId → b ≠ freeEnclaveId → LegalEdge freeEnclaveId b
  | metadata : LegalEdge freeEnclaveId metadataEnclaveId

/-- Every region moved along a legal edge. -/
def Legal (g : Cfg) (m m' : Machine) : Prop := ∀ i, i < g.regions → LegalEdge (m.owner g i) (m'.owner g i)

/-- The invariant of all states reachable by calls of the OS. -/
structure Inv (g : Cfg) (m : Machine) : Prop where
  locks : LockWords g m
  owners : ∀ i, i < g.regions → m.owner g i = nullEnclaveId ∨ m.owner g i = blockedEnclaveId ∨ m.owner g i = metadataEnclaveId ∨
    m.owner g i = freeEnclaveId
  region0 : m.owner g 0 = nullEnclaveId
  os : ∀ c, c < g.cores → m.running c = nullEnclaveId
  bitmap : ∀ i, i < g.regions → (m.osBit g i = true ↔ m.owner g i = nullEnclaveId)
  dma : m.dmaStart ≤ m.dmaEnd

/-- The calls the history theorems are about. Not covered: `accept_thread` (it can write the monitor's own
memory), `copy_debug_enclave_page` with the OS's ID on the monitor's own pages (it copies to and from them),
and the calls on the metadata page map on machines whose regions have several stripes (the code shifts by a
negative amount there). -/
def Covered (g : Cfg) : Call → Prop
  | .acceptThread _ _ => False
  | .copyDebugEnclavePage e a _ _ => e ≠ 0 ∨ g.monitorTop.toNat ≤ a.toNat
  | .createEnclave _ _ _ _ _ => g.SingleStripe ∧ g.ShiftOk
  | .loadThread _ _ _ _ _ _ => g.SingleStripe ∧ g.ShiftOk
  | .assignThread _ _ => g.SingleStripe ∧ g.ShiftOk
  | _ => True

/-- A state as the monitor's code expects it, for calls made on core `c`: lock words hold 0 or 1, region 0 is the
OS's, the IDs that the monitor follows (the caller's, and those that pass its validation) point at records outside
the monitor's memory, the DMA window is not inverted. States with `Inv` are such states. -/
structure StateOk (g : Cfg) (c : Nat) (m : Machine) : Prop where
  locks : LockWords g m
  region0 : m.owner g 0 = nullEnclaveId
  caller : RecordOk g (m.running c)
  ids : ∀ e, ValidId g m e → RecordOk g e ∧ e.toNat + 304 + 8 * (g.regions / 64) + 8 ≤ g.dramSize.toNat
  dma : m.dmaStart ≤ m.dmaEnd

/-- The calls for which "a failed call is a no-op" is proved. Not covered: `accept_thread`, and the thread calls on an
enclave whose lock word is neither 0 nor 1 (a test-and-set overwrites it). -/
def NoopOnFailure (g : Cfg) (m : Machine) : Call → Prop
  | .acceptThread _ _ => False
  | .createEnclave _ _ _ _ _ => g.SingleStripe ∧ g.ShiftOk
  | .loadThread e _ _ _ _ _ => g.SingleStripe ∧ g.ShiftOk ∧ (EnclavePage g m e → m.mem e.toNat = 0 ∨ m.mem e.toNat = 1)
  | .assignThread e _ => g.SingleStripe ∧ g.ShiftOk ∧ (EnclavePage g m e → m.mem e.toNat = 0 ∨ m.mem e.toNat = 1)
  | _ => True

/-- The calls for which "all locks are released" is proved. Not covered: `accept_thread`, successful calls of
`enter_enclave`, `create_thread` and `delete_thread` (they keep a lock), debug copies to and from the
monitor's own pages, and `delete_enclave` when the bit after the region bitmap is set (it wipes the
monitor's memory). -/
def Releases (g : Cfg) (m : Machine) (v : W) : Call → Prop
  | .acceptThread _ _ => False
  | .enterEnclave _ _ => v ≠ monitorOk
  | .createThread _ _ => v ≠ monitorOk
  | .deleteThread _ => v ≠ monitorOk
  | .copyDebugEnclavePage e a os _ => RecordOk g e ∧ g.monitorTop.toNat ≤ a.toNat ∧ g.monitorTop.toNat ≤ os.toNat
  | .deleteEnclave e => m.afterBit g e = false
  | .createEnclave _ _ _ _ _ => g.SingleStripe ∧ g.ShiftOk
  | .loadThread _ _ _ _ _ _ => g.SingleStripe ∧ g.ShiftOk
  | .assignThread _ _ => g.SingleStripe ∧ g.ShiftOk
  | _ => True

/-- `m` is the state of a machine that just booted with configuration `g`, on a supported platform, with the
array of core records zeroed before (the monitor does not initialise it, see C12). -/
def FromBoot (g : Cfg) (m : Machine) : Prop :=
  ∃ p m0, p.Sane ∧ boot p m0 = .ok (g, m) ∧ ∀ c, c < g.cores → m0.running c = nullEnclaveId

/-- Only covered calls are made in `h`. -/
def CoveredHist (g : Cfg) (h : List Event) : Prop := ∀ x ∈ h, Covered g x.call

/-- A store by software to memory of the OS outside the monitor's. -/
def OsStore (g : Cfg) (m m' : Machine) : Prop :=
  ∃ a v, g.monitorTop.toNat ≤ a ∧ a < g.dramSize.toNat ∧ m.owner g (regionOf g a) = nullEnclaveId ∧ m' = { m with mem := upd m.mem a v }

/-- Histories as in `Hist`, in which software only writes to memory of the OS. -/
inductive OsHist (g : Cfg) : Machine → List Event → Machine → Prop
  | nil (m : Machine) : OsHist g m [] m
  | cons {m m' m'' : Machine} {c : Nat} {k : Call} {v : W} {h : List Event} :
      c < g.coreCount.toNat → call g c k m = some (v, m') → OsHist g m' h m'' → OsHist g m (⟨c, k, v⟩ :: h) m''
  | soft {m m' m'' : Machine} {h : List Event} : OsStore g m m' → OsHist g m' h m'' → OsHist g m h m''

/-- A successful `create_enclave(e, _, _, n, _)`. -/
def IsCreate (e n : W) (x : Event) : Prop := x.result = monitorOk ∧ ∃ b mk d, x.call = .createEnclave e b mk n d

/-- A successful deletion of `e` or a successful `free_dram_region` of the region `e` is in. -/
def EndsLife (g : Cfg) (e : W) (x : Event) : Prop :=
  x.result = monitorOk ∧ (x.call = .deleteEnclave e ∨ ∃ r, x.call = .freeDramRegion r ∧ r.toNat = regionOf g e.toNat)

/-- `create_enclave` is only called on pages after the page map, with mailbox counts whose structure size does not wrap. -/
def CarefulCreate (g : Cfg) (l : List Event) : Prop :=
  ∀ x ∈ l, ∀ e b mk n d, x.call = .createEnclave e b mk n d →
    g.metaStart.toNat ≤ pageIndex g e.toNat ∧ 304 + 8 * g.bitmapWords.toNat + 304 * n.toNat + 4095 < 2 ^ 64

/-- The DMA window only covers memory of the OS outside the monitor's. -/
def DmaSafe (g : Cfg) (m : Machine) : Prop :=
  ∀ a, m.dmaStart.toNat ≤ a → a < m.dmaEnd.toNat → a < g.dramSize.toNat ∧ g.monitorTop.toNat ≤ a ∧ m.owner g (regionOf g a) = nullEnclaveId

/-- The window `[base, base + mask]` only covers memory of the OS outside the monitor's. -/
def WindowOfOs (g : Cfg) (m : Machine) (base mask : W) : Prop :=
  ∀ a, base.toNat ≤ a → a ≤ base.toNat + mask.toNat → g.monitorTop.toNat ≤ a ∧ m.owner g (regionOf g a) = nullEnclaveId

/-- Histories of covered calls in which the OS sets the DMA window over its own memory only. -/
inductive CarefulHist (g : Cfg) : Machine → Machine → Prop
  | nil (m : Machine) : CarefulHist g m m
  | call {m m' m'' : Machine} {c : Nat} {k : Call} {v : W} : CarefulHist g m m' → c < g.coreCount.toNat → Covered g k →
      (∀ b n, k = .setDmaRange b n → WindowOfOs g m' b n) → call g c k m' = some (v, m'') → CarefulHist g m m''
  | soft {m m' m'' : Machine} : CarefulHist g m m' → SoftwareStore g m' m'' → CarefulHist g m m''

end Sanctum
