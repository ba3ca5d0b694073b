import Verif.Spec.Conc
/-
Which call may write which protection register. Nothing here mentions the monitor's code.
-/
namespace Sanctum

/-- Calls that may change the calling core's access map for the OS: those that change which regions the OS owns. -/
def Call.MovesOsRegions : Call → Prop
  | .blockDramRegion _ => True
  | .assignDramRegion _ _ => True
  | _ => False

/-- Calls that may change the calling core's access map for the enclave on it. -/
def Call.MovesOwnRegions : Call → Prop
  | .blockDramRegion _ => True
  | _ => False

/-- Calls that may change the DMA window. -/
def Call.MovesDma : Call → Prop
  | .setDmaRange _ _ => True
  | _ => False

/-- Calls that may flush the calling core's TLB. -/
def Call.Flushes : Call → Prop
  | .flushCachedDramRegions => True
  | _ => False

end Sanctum
