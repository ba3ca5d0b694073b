import Verif.Model.Enclaves
/-
The API of src/monitor/public/api.h (the functions that have a definition), as one type of calls.
-/
namespace Sanctum

/-- API calls with their arguments, in the order of src/monitor/public/api.h:81-412. -/
inductive Call where
  | dramSize
  | dramRegionMask
  | blockDramRegion (r : W)
  | dramRegionCheckOwnership (r : W)
  | acceptThread (t info : W)
  | exitEnclave
  | setDmaRange (base mask : W)
  | dramRegionState (r : W)
  | dramRegionOwner (r : W)
  | assignDramRegion (r e : W)
  | freeDramRegion (r : W)
  | flushCachedDramRegions
  | createMetadataRegion (r : W)
  | metadataRegionPages
  | metadataRegionStart
  | threadMetadataPages
  | enclaveMetadataPages (mailboxCount : W)
  | createEnclave (e evBase evMask mailboxCount : W) (debug : Bool)
  | loadPageTable (e physAddr virtualAddr level acl : W)
  | loadPage (e physAddr virtualAddr osAddr acl : W)
  | loadThread (e t entryPc entryStack faultPc faultStack : W)
  | assignThread (e t : W)
  | initEnclave (e : W)
  | enterEnclave (e t : W)
  | createThread (t physAddr : W)
  | deleteThread (t : W)
  | deleteEnclave (e : W)
  | copyDebugEnclavePage (e enclaveAddr osAddr : W) (readFromEnclave : Bool)
deriving DecidableEq

/-- The code that runs for a call. -/
def Call.prog (g : Cfg) : Call → Prog W
  | .dramSize => pure g.dramSize                                   -- dram_regions.cc:76-78
  | .dramRegionMask => pure g.regionMask                           -- dram_regions.cc:79-81
  | .blockDramRegion r => Sanctum.blockDramRegion g r
  | .dramRegionCheckOwnership r => Sanctum.dramRegionCheckOwnership g r
  | .acceptThread t info => Sanctum.acceptThread g t info
  | .exitEnclave => Sanctum.exitEnclave g
  | .setDmaRange base mask => Sanctum.setDmaRange g base mask
  | .dramRegionState r => Sanctum.dramRegionState g r
  | .dramRegionOwner r => Sanctum.dramRegionOwner g r
  | .assignDramRegion r e => Sanctum.assignDramRegion g r e
  | .freeDramRegion r => Sanctum.freeDramRegion g r
  | .flushCachedDramRegions => Sanctum.flushCachedDramRegions g
  | .createMetadataRegion r => Sanctum.createMetadataRegion g r
  | .metadataRegionPages => pure g.metaPages                       -- metadata.cc:55-57
  | .metadataRegionStart => pure g.metaStart                       -- metadata.cc:59-61
  | .threadMetadataPages => pure Sanctum.threadMetadataPages       -- metadata.cc:67-69
  | .enclaveMetadataPages n => pure (enclaveInfoPages g n)         -- metadata.cc:63-65
  | .createEnclave e b k n d => Sanctum.createEnclave g e b k n d
  | .loadPageTable e p v l a => Sanctum.loadPageTable g e p v l a
  | .loadPage e p v o a => Sanctum.loadPage g e p v o a
  | .loadThread e t a b c d => Sanctum.loadThread g e t a b c d
  | .assignThread e t => Sanctum.assignThread g e t
  | .initEnclave e => Sanctum.initEnclave g e
  | .enterEnclave e t => Sanctum.enterEnclave g e t
  | .createThread t p => Sanctum.createThread g t p
  | .deleteThread t => Sanctum.deleteThread g t
  | .deleteEnclave e => Sanctum.deleteEnclave g e
  | .copyDebugEnclavePage e a o d => Sanctum.copyDebugEnclavePage g e a o d

/-- One call made on core `c`, undisturbed. -/
def call (g : Cfg) (c : Nat) (k : Call) (m : Machine) : Option (W × Machine) := run g c (k.prog g) m

end Sanctum
