import Verif.Spec.Regions
/-
What the calls on enclave metadata are supposed to do. Nothing here mentions the monitor's code.
-/
namespace Sanctum

/-- Index of the page of `a` in its stripe. -/
def pageIndex (g : Cfg) (a : Nat) : Nat := a / 4096 % 2 ^ g.sp

/-- Address of the entry for the page of `a` in the page map at the start of its region (single-stripe
regions: the page index in the stripe is the page index in the region). -/
def entryA (g : Cfg) (a : Nat) : Nat := regionOf g a * g.stripeSize.toNat + 8 * pageIndex g a

/-- Number of pages of the structure of an enclave with `n` mailboxes: a 304-byte record, the region bitmap,
304 bytes per mailbox. The size is computed modulo `2^64`, as in the monitor. -/
def recordPages (g : Cfg) (n : Nat) : Nat := (304 + 8 * g.bitmapWords.toNat + 304 * n + 4095) % 2 ^ 64 / 4096

/-- `a` is a page of DRAM in an unlocked metadata region. -/
def MetaPage (g : Cfg) (m : Machine) (a : Nat) : Prop :=
  a % 4096 = 0 ∧ a < g.dramSize.toNat ∧ m.locked g (regionOf g a) = false ∧ m.owner g (regionOf g a) = metadataEnclaveId

/-- `e` names an enclave: a page of an unlocked metadata region whose map entry says so. -/
def EnclavePage (g : Cfg) (m : Machine) (e : W) : Prop :=
  MetaPage g m e.toNat ∧ m.mem (entryA g e.toNat) = (e ||| enclavePageType)

/-- The condition for `create_enclave(e, base, mask, n, debug)` to succeed. -/
def CreateOk (g : Cfg) (m : Machine) (e base mask n : W) : Prop :=
  (∃ k, 12 ≤ k ∧ k < 64 ∧ mask.toNat = 2 ^ k - 1 ∧ 2 ^ k ∣ base.toNat) ∧ MetaPage g m e.toNat ∧
  pageIndex g e.toNat + recordPages g n.toNat ≤ 2 ^ g.sp ∧
  ∀ k, k < recordPages g n.toNat → m.mem (entryA g e.toNat + 8 * k) = 0

/-- Number of pages of the structure of an enclave with `n` mailboxes, without wrap-around. -/
def exactPages (g : Cfg) (n : Nat) : Nat := (304 + 8 * g.bitmapWords.toNat + 304 * n + 4095) / 4096

/-- The documented condition for `create_enclave(e, base, mask, n, debug)` to succeed. -/
def CreateAllowed (g : Cfg) (m : Machine) (e base mask n : W) : Prop :=
  (∃ k, 12 ≤ k ∧ k < 64 ∧ mask.toNat = 2 ^ k - 1 ∧ 2 ^ k ∣ base.toNat) ∧ MetaPage g m e.toNat ∧
  pageIndex g e.toNat + exactPages g n.toNat ≤ 2 ^ g.sp ∧
  ∀ k, k < exactPages g n.toNat → m.mem (entryA g e.toNat + 8 * k) = 0

/-- The fields of an enclave's record. -/
structure RecordFields (m : Machine) (e base mask n : W) (debug : Bool) : Prop where
  lock : m.mem e.toNat = 0
  mailboxes : m.mem (e.toNat + 8) = n
  initialized : m.mem (e.toNat + 16) = 0
  debug : m.mem (e.toNat + 24) = if debug then 1 else 0
  threads : m.mem (e.toNat + 32) = 0
  regions : m.mem (e.toNat + 40) = 0
  evBase : m.mem (e.toNat + 48) = base
  evMask : m.mem (e.toNat + 56) = mask
  pageTable : m.mem (e.toNat + 64) = 0
  lastLoad : m.mem (e.toNat + 72) = 0

/-- Everything that is not memory is the same. -/
def SameRegs (m m' : Machine) : Prop := SameDma m m' ∧ SameCoreRegs m m' ∧ SameMaps m m'

/-- The documented effect of a successful `create_enclave(e, base, mask, n, debug)`. -/
structure CreateEffect (g : Cfg) (m : Machine) (e base mask n : W) (debug : Bool) (m' : Machine) : Prop where
  record : RecordFields m' e base mask n debug
  /-- the ID's map entry names the new enclave -/
  entry : m'.mem (entryA g e.toNat) = (e ||| enclavePageType)
  /-- the map entries of the other pages of the structure say that they are in use -/
  inner : ∀ k, 0 < k → k < exactPages g n.toNat → m'.mem (entryA g e.toNat + 8 * k) = innerPageType
  /-- nothing outside the metadata region changes -/
  region : ∀ x, x < g.dramSize.toNat → regionOf g x ≠ regionOf g e.toNat → m'.mem x = m.mem x
  regs : SameRegs m m'

end Sanctum
