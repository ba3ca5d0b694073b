import Verif.Spec.Erase
/-
Making the same call again. Nothing here mentions the monitor's code.
-/
namespace Sanctum

/-- The calls of the theorem: those of `Sober`, other than debug copies (which copy again, whatever is there now), and the flush (which flushes again). -/
def Repeatable (g : Cfg) : Call → Prop
  | .copyDebugEnclavePage _ _ _ _ => False
  | .flushCachedDramRegions => False
  | k => Sober g k

/-- The result of making a call again that returned `v`: what was refused is refused again, for the same reason, and a question has the same answer. A
region that was blocked belongs to nobody; what was assigned, freed or turned into a metadata region is in another state; the pages of an enclave are
taken; the thread calls left a lock. All other calls succeed again. -/
def Call.again : Call → W → W
  | .blockDramRegion _, v => if v = monitorOk then monitorAccessDenied else v
  | .assignDramRegion _ _, v => if v = monitorOk then monitorInvalidState else v
  | .freeDramRegion _, v => if v = monitorOk then monitorInvalidState else v
  | .createMetadataRegion _, v => if v = monitorOk then monitorInvalidState else v
  | .createEnclave _ _ _ _ _, v => if v = monitorOk then monitorInvalidState else v
  | .createThread _ _, v => if v = monitorOk then monitorConcurrentCall else v
  | .deleteThread _, v => if v = monitorOk then monitorConcurrentCall else v
  | _, v => v

/-- Is this a store by software? -/
def Item.isStore : Item → Bool
  | .call _ => false
  | .store _ _ => true

/-- `l` consists of calls `k`, on any cores, and of stores. -/
def OnlyRepeats (k : Call) (l : List Item) : Prop := ∀ x, Item.call x ∈ l → x.call = k

end Sanctum
