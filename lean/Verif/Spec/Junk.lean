import Verif.Spec.System
/-
Machines that differ in memory outside the monitor's. Nothing here mentions the monitor's code.
-/
namespace Sanctum

/-- The machines differ at most in the contents of memory outside the monitor's. -/
def SameMonitor (g : Cfg) (m m' : Machine) : Prop :=
  (∀ x, x < g.monitorTop.toNat → m'.mem x = m.mem x) ∧ { m' with mem := m.mem } = m

/-- The calls of the theorem. Not covered, in addition to those not in `Covered`: debug copies with an ID (the code reads the record that the ID would
have before it checks the ID), `create_thread` on machines whose monitor memory ends below the words it takes for the OS's region bitmap, and
`create_enclave` on pages of the page map, or with mailbox counts whose structure size wraps (it writes its record over the map). -/
def Sober (g : Cfg) : Call → Prop
  | .copyDebugEnclavePage e a _ _ => e = nullEnclaveId ∧ g.monitorTop.toNat ≤ a.toNat
  | .createThread _ _ => 304 + 8 * g.bitmapWords.toNat ≤ g.monitorTop.toNat
  | .createEnclave e _ _ n _ => g.SingleStripe ∧ g.ShiftOk ∧ g.metaStart.toNat ≤ pageIndex g e.toNat ∧
      304 + 8 * g.bitmapWords.toNat + 304 * n.toNat + 4095 < 2 ^ 64
  | k => Covered g k

/-- The page maps of all metadata regions are the same: word `k` of the map of each. -/
def SamePageMaps (g : Cfg) (m m' : Machine) : Prop :=
  ∀ i, i < g.regions → m.owner g i = metadataEnclaveId → ∀ k, 8 * k < mapBytes g → m'.mem (i * g.stripeSize.toNat + 8 * k) = m.mem (i * g.stripeSize.toNat + 8 * k)

/-- The calls of a history, with the cores they were made on, without their results. -/
def callsOf (l : List Event) : List (Nat × Call) := l.map fun x => (x.core, x.call)

end Sanctum
