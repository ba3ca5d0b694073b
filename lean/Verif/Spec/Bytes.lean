import Verif.Model.Bytes
import Verif.Spec.System
/-
When a byte machine and a word machine are in the same state.
-/
namespace Sanctum

/-- Byte `a` of the buffer is the right byte (little-endian) of the word that contains it; registers and globals are equal. -/
structure SameState (x : ByteMachine) (m : Machine) : Prop where
  bytes : ∀ a, x.buf.byte a = (m.mem (a / 8 * 8)).extractLsb' (8 * (a % 8)) 8
  dma : x.regs.dmaStart = m.dmaStart ∧ x.regs.dmaEnd = m.dmaEnd ∧ x.regs.dmarBase = m.dmarBase ∧ x.regs.dmarMask = m.dmarMask
  core : x.regs.drb = m.drb ∧ x.regs.edrb = m.edrb ∧ x.regs.parBase = m.parBase ∧ x.regs.parMask = m.parMask ∧ x.regs.cacheShift = m.cacheShift ∧
    x.regs.tlbFlushes = m.tlbFlushes

/-- `x` is the state of a byte machine that just booted with configuration `g`, on a supported platform whose physical memory is the
buffer, with the array of core records zeroed before (as in `FromBoot`). -/
def FromBootB (g : Cfg) (x : ByteMachine) : Prop :=
  ∃ p x0, p.Sane ∧ x0.buf.size = p.dramSize ∧ bootB p x0 = .ok (g, x) ∧ ∀ a, a < 32 * g.cores → x0.buf.byte a = 0

end Sanctum
