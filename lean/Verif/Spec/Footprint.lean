import Verif.Spec.Metadata
import Verif.Spec.Conc
/-
The memory outside the monitor's that a call names. Nothing here mentions the monitor's code.
-/
namespace Sanctum

/-- `x` is in the `n` entries of the page map from that of the page of `a` on. -/
def InEntries (g : Cfg) (a n x : Nat) : Prop := entryA g a ≤ x ∧ x < entryA g a + 8 * n

/-- `x` is in the `n` bytes from `a` on. -/
def InBytes (a n x : Nat) : Prop := a ≤ x ∧ x < a + n

/-- `x` is in the memory that the arguments of the call name: `create_metadata_region`: the page map of the region; `create_enclave`: the map
entries of the enclave's pages and its record; `assign_thread` and `load_thread`: the map entry and the record of the enclave, and the record of
the thread; `accept_thread`: the map entry and the record of the thread, and the page with its description; a debug copy without an ID: the page that is
copied to. The other calls name no memory outside the monitor's, or do so only for enclaves that own memory, which the code never makes (C37). -/
def Names (g : Cfg) : Call → Nat → Prop
  | .createMetadataRegion r, x => InBytes (r.toNat * g.stripeSize.toNat) (mapBytes g) x
  | .createEnclave e _ _ n _, x => InEntries g e.toNat (max 1 (recordPages g n.toNat)) x ∨ InBytes e.toNat 304 x
  | .assignThread e _, x => InEntries g e.toNat 1 x ∨ InBytes e.toNat 40 x
  | .loadThread e t _ _ _ _, x => InEntries g e.toNat 1 x ∨ InBytes e.toNat 304 x ∨ InBytes t.toNat 48 x
  | .acceptThread t info, x => InEntries g t.toNat 1 x ∨ InBytes t.toNat 552 x ∨ InBytes info.toNat 4096 x
  | .copyDebugEnclavePage e a os d, x => e = nullEnclaveId ∧ InBytes (if d then os.toNat else a.toNat) 4096 x
  | _, _ => False

end Sanctum
