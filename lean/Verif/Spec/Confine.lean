import Verif.Spec.Conc
/-
Which memory the monitor may access. Nothing here mentions the monitor's code.
-/
namespace Sanctum

/-- `x` is a word of a page that the caller passed to a debug copy. -/
def ArgWord (k : Call) (x : Nat) : Prop :=
  match k with
  | .copyDebugEnclavePage _ a os _ => (a.toNat ≤ x ∧ x < a.toNat + 4096) ∨ (os.toNat ≤ x ∧ x < os.toNat + 4096)
  | _ => False

/-- What the monitor may access in state `m` for call `k`, on a core that holds the region locks `H`: its own memory, the pages
passed to a debug copy, and metadata regions whose lock the core holds. -/
def MayAccess (g : Cfg) (H : Nat → Prop) (m : Machine) (k : Call) (x : Nat) : Prop :=
  x < g.monitorTop.toNat ∨ ArgWord k x ∨ (H (regionOf g x) ∧ m.owner g (regionOf g x) = metadataEnclaveId)

/-- The calls the confinement theorems are about. Not covered: the two thread calls that use the enclave's record after they released
the lock of its region; debug copies with an ID (the code reads the record before it checks the ID); `create_thread` on machines whose
monitor memory ends below the words it takes for the OS's region bitmap. -/
def Confined (g : Cfg) : Call → Prop
  | .assignThread _ _ => False
  | .loadThread _ _ _ _ _ _ => False
  | .copyDebugEnclavePage e _ _ _ => e = nullEnclaveId
  | .createThread _ _ => 304 + 8 * g.bitmapWords.toNat ≤ g.monitorTop.toNat
  | _ => True

/-- The configurations differ at most in the contents of region `r` outside the monitor's memory. -/
structure SameBut (g : Cfg) (r : Nat) (s s' : Conf) : Prop where
  cores : s'.cores = s.cores
  mem : ∀ x, x < g.monitorTop.toNat ∨ regionOf g x ≠ r → s'.m.mem x = s.m.mem x
  rest : { s'.m with mem := s.m.mem } = s.m

/-- Interleavings all of whose configurations satisfy `P`. -/
inductive StepsIn (g : Cfg) (P : Conf → Prop) : Conf → List Label → Conf → Prop
  | refl (s : Conf) : P s → StepsIn g P s [] s
  | tail {s s' s'' : Conf} {t : List Label} {l : Label} : StepsIn g P s t s' → Step g s' l s'' → P s'' → StepsIn g P s (t ++ [l]) s''

end Sanctum
