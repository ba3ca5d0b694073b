import Verif.Spec.Metadata
/-
What the calls that take an enclave ID are supposed to do. Nothing here mentions the monitor's code.
-/
namespace Sanctum

/-- `e` is accepted as an enclave ID: the region that would hold its record is owned by it. -/
def ValidId (g : Cfg) (m : Machine) (e : W) : Prop := e ≠ 0 ∧ m.owner g (idRegion g e) = e

/-- `e` is accepted as an enclave ID, and the lock of its region is free. -/
def IdReady (g : Cfg) (m : Machine) (e : W) : Prop := ValidId g m e ∧ m.locked g (idRegion g e) = false

/-- Fields of an enclave's record. -/
def Machine.initialized (m : Machine) (e : W) : W := m.mem (e.toNat + 16)
@[inherit_doc Machine.initialized] def Machine.isDebug (m : Machine) (e : W) : W := m.mem (e.toNat + 24)
@[inherit_doc Machine.initialized] def Machine.threads (m : Machine) (e : W) : W := m.mem (e.toNat + 32)
@[inherit_doc Machine.initialized] def Machine.evBase (m : Machine) (e : W) : W := m.mem (e.toNat + 48)
@[inherit_doc Machine.initialized] def Machine.evMask (m : Machine) (e : W) : W := m.mem (e.toNat + 56)
@[inherit_doc Machine.initialized] def Machine.lastLoad (m : Machine) (e : W) : W := m.mem (e.toNat + 72)

/-- A page of DRAM. -/
def DramPage (g : Cfg) (a : W) : Prop := a.toNat % 4096 = 0 ∧ a.toNat < g.dramSize.toNat

/-- The condition for `load_page_table(e, p, v, level, acl)` to succeed. -/
def LoadTableOk (g : Cfg) (m : Machine) (e p v level : W) : Prop :=
  DramPage g p ∧ level.toNat < 3 ∧ IdReady g m e ∧ m.initialized e = 0 ∧ (m.lastLoad e).toNat < p.toNat ∧
  (level.toNat < 2 → (v &&& m.evMask e) = m.evBase e)

/-- The condition for `load_page(e, p, v, os, acl)` to succeed. -/
def LoadPageOk (g : Cfg) (m : Machine) (e p v os : W) : Prop :=
  DramPage g p ∧ DramPage g os ∧ IdReady g m e ∧ m.initialized e = 0 ∧ (m.lastLoad e).toNat < p.toNat ∧
  (v &&& m.evMask e) = m.evBase e

/-- The condition for `delete_enclave(e)` to succeed: no threads, and the locks of the enclave's regions are free. -/
def DeleteOk (g : Cfg) (m : Machine) (e : W) : Prop :=
  IdReady g m e ∧ m.threads e = 0 ∧
  ∀ i, i < g.regions → i ≠ idRegion g e → m.bmBit g e i = true → m.locked g i = false

/-- The bit just after the enclave's region bitmap (bit number `regions`), the one `delete_enclave` looks at. -/
def Machine.afterBit (m : Machine) (g : Cfg) (e : W) : Bool := (m.mem (e.toNat + 304 + 8 * (g.regions / 64))).getLsbD (g.regions % 64)

/-- The condition for `copy_debug_enclave_page(e, a, os, _)` to succeed. -/
def CopyOk (g : Cfg) (m : Machine) (e a os : W) : Prop :=
  DramPage g a ∧ DramPage g os ∧ m.locked g (idRegion g e) = false ∧ regionOf g os.toNat ≠ idRegion g e ∧
  m.locked g (regionOf g os.toNat) = false ∧ m.isDebug e ≠ 0 ∧ m.bmBit g e (regionOf g a.toNat) = true ∧
  m.owner g (regionOf g os.toNat) = 0 ∧ m.owner g (idRegion g e) = e

/-- The page at `dst` becomes a copy of the page at `src` and no other word changes. -/
structure CopyEffect (m : Machine) (dst src : Nat) (m' : Machine) : Prop where
  copied : ∀ k, k < 512 → m'.mem (dst + 8 * k) = m.mem (src + 8 * k)
  mem : OnlyMem (fun x => dst ≤ x ∧ x < dst + 4096) m m'
  regs : SameRegs m m'

end Sanctum
