import Verif.Spec.View
/-
The same call on another core. Nothing here mentions the monitor's code.
-/
namespace Sanctum

/-- A call took `a0` to `a` on core `c`; the same call took `b0` to `b` on core `c'`. The memory, the monitor's globals and the DMA registers are the same
afterwards; each register of the calling core is as it was, on both, or was loaded with the same value, on both; the registers of the other cores are as
they were. -/
structure SameOutcome (c c' : Nat) (a0 b0 a b : Machine) : Prop where
  mem : a.mem = b.mem
  dmaStart : a.dmaStart = b.dmaStart
  dmaEnd : a.dmaEnd = b.dmaEnd
  dmarBase : a.dmarBase = b.dmarBase
  dmarMask : a.dmarMask = b.dmarMask
  drb : (a.drb c = a0.drb c ∧ b.drb c' = b0.drb c') ∨ a.drb c = b.drb c'
  edrb : (a.edrb c = a0.edrb c ∧ b.edrb c' = b0.edrb c') ∨ a.edrb c = b.edrb c'
  othersA : ∀ i, i ≠ c → a.drb i = a0.drb i ∧ a.edrb i = a0.edrb i
  othersB : ∀ i, i ≠ c' → b.drb i = b0.drb i ∧ b.edrb i = b0.edrb i
  keptA : a.parBase = a0.parBase ∧ a.parMask = a0.parMask ∧ a.cacheShift = a0.cacheShift ∧ a.tlbFlushes = a0.tlbFlushes
  keptB : b.parBase = b0.parBase ∧ b.parMask = b0.parMask ∧ b.cacheShift = b0.cacheShift ∧ b.tlbFlushes = b0.tlbFlushes

/-- Both calls complete, with the same result and the same outcome; or neither completes. -/
def SameEnd {α : Type} (c c' : Nat) (a0 b0 : Machine) : Option (α × Machine) → Option (α × Machine) → Prop
  | some (v, a), some (w, b) => v = w ∧ SameOutcome c c' a0 b0 a b
  | none, none => True
  | _, _ => False

/-- The machines agree on all but the registers of the cores. -/
structure SameMemory (a b : Machine) : Prop where
  mem : a.mem = b.mem
  dmaStart : a.dmaStart = b.dmaStart
  dmaEnd : a.dmaEnd = b.dmaEnd
  dmarBase : a.dmarBase = b.dmarBase
  dmarMask : a.dmarMask = b.dmarMask

/-- `l'` is `l` with calls moved to other cores: the same calls with the same results, in the same order. Flushes, which are about the core they are
made on, stay where they are. -/
inductive Relocated (g : Cfg) : List Event → List Event → Prop
  | nil : Relocated g [] []
  | cons {c c' : Nat} {k : Call} {v : W} {l l' : List Event} : c' < g.cores → (k = .flushCachedDramRegions → c' = c) → Relocated g l l' →
      Relocated g (⟨c, k, v⟩ :: l) (⟨c', k, v⟩ :: l')

end Sanctum
