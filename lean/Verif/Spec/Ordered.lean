import Verif.Spec.Contention
/-
Calls that ask for region locks in descending order of the regions. Nothing here mentions the monitor's code.
-/
namespace Sanctum

/-- The call asks for locks of regions in descending order: it needs one region only, or region `r` and then a region with a smaller index
(`block_dram_region` and `assign_dram_region` to the OS: region 0). Not thread calls, which take locks of enclaves, nor calls that keep a lock. -/
def AsksDownward (g : Cfg) : Call → Prop
  | .assignDramRegion r e => regionOf g e.toNat < r.toNat
  | .copyDebugEnclavePage e _ os _ => regionOf g os.toNat < idRegion g e
  | .setDmaRange base mask => (base ||| mask).toNat < g.stripeSize.toNat
  | .acceptThread _ _ | .assignThread _ _ | .loadThread _ _ _ _ _ _ | .createThread _ _ | .deleteThread _ => False
  | _ => True

/-- A call returned in `u`, having found free each region lock it asked for, and without reporting a taken lock. -/
def GotThrough (g : Cfg) (u : List Label) : Prop :=
  ∃ u1 c k v u2, u = u1 ++ .done c k v :: u2 ∧ k.busyCode ≠ some v ∧ ∀ i t1, i < g.regions → ¬ FoundSet u1 c (lockA g i) t1

end Sanctum
