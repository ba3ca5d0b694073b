import Verif.Model.Exec
import Verif.Spec.View
/-
DMA devices. The DMA master stops transfers to addresses outside the window that its two registers describe (src/bare/memory.h:10-18: `set_dmar_base` and
`set_dmar_mask`; written at boot, src/monitor/boot_init.cc:175-179, and by `set_dma_range`, src/monitor/dram_regions.cc:268-273). The devices themselves are hardware:
they may write anything the window admits, at any instant.

Simplification: a transfer writes bytes of one aligned 8-byte word (larger ones are several); reads of devices are not modelled (they change nothing).
-/
namespace Sanctum

/-- A transfer: bytes of the word at `a` that the registers admit change to any values. -/
def Transfer (g : Cfg) (m m' : Machine) : Prop :=
  ∃ a v, 8 ∣ a ∧ a + 8 ≤ g.dramSize.toNat ∧ m' = { m with mem := upd m.mem a v } ∧
    ∀ j, j < 8 → rangeCovers m.dmarBase m.dmarMask (BitVec.ofNat 64 (a + j)) = false → v.extractLsb' (8 * j) 8 = (m.mem a).extractLsb' (8 * j) 8

/-- One step of cores and software (`Step`, Model/Exec.lean), or (no label) a transfer of a device. -/
inductive DStep (g : Cfg) : Conf → Option Label → Conf → Prop
  | step {s s' : Conf} {l : Label} : Step g s l s' → DStep g s (some l) s'
  | dma {s : Conf} {m' : Machine} : Transfer g s.m m' → DStep g s none { s with m := m' }

/-- A finite execution with its trace, oldest step first. Compare `Steps` (Model/Exec.lean). -/
inductive DSteps (g : Cfg) : Conf → List Label → Conf → Prop
  | refl (s : Conf) : DSteps g s [] s
  | tail {s s' s'' : Conf} {t : List Label} {l : Label} : DSteps g s t s' → DStep g s' (some l) s'' → DSteps g s (t ++ [l]) s''
  | dma {s s' s'' : Conf} {t : List Label} : DSteps g s t s' → DStep g s' none s'' → DSteps g s t s''

end Sanctum
