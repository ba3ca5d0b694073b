import Verif.Spec.Confine
/-
The thread calls use the record of an enclave after they released the lock of its region. What may be said of interleavings in which no other core
takes that region away from the metadata meanwhile. Nothing here mentions the monitor's code.
-/
namespace Sanctum

/-- The enclave whose record the call goes on using after it released the lock of the record's region. -/
def Call.borrows : Call → Option W
  | .assignThread e _ => some e
  | .loadThread e _ _ _ _ _ => some e
  | _ => none

/-- `x` is a word of something that the caller passed to a debug copy: one of the two pages, or (if the ID is not the OS's) the record that the
ID points at, with its region bitmap. -/
def NamedWord (g : Cfg) (k : Call) (x : Nat) : Prop :=
  ArgWord k x ∨
  match k with
  | .copyDebugEnclavePage e _ _ _ => e ≠ nullEnclaveId ∧ e.toNat ≤ x ∧ x < e.toNat + 304 + 8 * g.bitmapWords.toNat
  | _ => False

/-- What the monitor may access in state `m` for call `k`, on a core that holds the region locks `H`: its own memory, what was passed to a debug
copy, and metadata regions: those whose lock the core holds and that of the enclave a thread call is about. -/
def MayUse (g : Cfg) (H : Nat → Prop) (m : Machine) (k : Call) (x : Nat) : Prop :=
  x < g.monitorTop.toNat ∨ NamedWord g k x ∨
  (m.owner g (regionOf g x) = metadataEnclaveId ∧ (H (regionOf g x) ∨ ∃ e, k.borrows = some e ∧ regionOf g x = regionOf g e.toNat))

/-- The step from `s` (reached by `t`) to `s'` ends the time of a region as metadata region, while on another core a thread call about an enclave
of that region runs. -/
def Takes (g : Cfg) (t : List Label) (s : Conf) (l : Label) (s' : Conf) : Prop :=
  ∃ c c' o v k e, l = .act c' o v ∧ c' ≠ c ∧ current t c = some k ∧ k.borrows = some e ∧
    s.m.owner g (regionOf g e.toNat) = metadataEnclaveId ∧ s'.m.owner g (regionOf g e.toNat) ≠ metadataEnclaveId

/-- Interleavings all of whose steps satisfy `R` (with the labels so far). -/
inductive StepsBy (g : Cfg) (R : List Label → Conf → Label → Conf → Prop) (s : Conf) : List Label → Conf → Prop
  | refl : StepsBy g R s [] s
  | tail {s' s'' : Conf} {t : List Label} {l : Label} : StepsBy g R s t s' → Step g s' l s'' → R t s' l s'' → StepsBy g R s (t ++ [l]) s''

/-- Interleavings in which no thread call loses the region of its enclave. -/
abbrev Undisturbed (g : Cfg) (s : Conf) (t : List Label) (s' : Conf) : Prop := StepsBy g (fun t s l s' => ¬ Takes g t s l s') s t s'

/-- All calls, but for `create_thread` on machines whose monitor memory ends below the words it takes for the OS's region bitmap. -/
def Roomy (g : Cfg) : Call → Prop
  | .createThread _ _ => 304 + 8 * g.bitmapWords.toNat ≤ g.monitorTop.toNat
  | _ => True

end Sanctum
