import Verif.Spec.Conc
/-
What the protection registers should say. Nothing here mentions the monitor's code.
-/
namespace Sanctum

/-- The access map in the register of core `c` admits exactly the regions that the OS owns. -/
def MapExact (g : Cfg) (m : Machine) (c : Nat) : Prop := ∀ i, i < g.regions → (m.drbBit c i = true ↔ m.owner g i = nullEnclaveId)

/-- The DMA master's registers admit exactly the addresses of the window that the monitor keeps in its variables. -/
def DmaExact (m : Machine) : Prop :=
  ∀ a : W, rangeCovers m.dmarBase m.dmarMask a = true ↔ m.dmaStart.toNat ≤ a.toNat ∧ a.toNat < m.dmaEnd.toNat

/-- The registers of core `c` keep software on it out of the monitor's memory. -/
def Shielded (g : Cfg) (m : Machine) (c : Nat) : Prop := ∀ a : W, rangeCovers (m.parBase c) (m.parMask c) a = true ↔ a.toNat < g.monitorTop.toNat

end Sanctum
