import Verif.Spec.Conc
/-
What software on a core can reach: the hardware lets it use a region if the core's access map admits it, and keeps using translations that are in the core's
TLB, without looking at the map, until the TLB is flushed (src/monitor/public/api.h, `flush_cached_dram_regions`; src/bare/cpu_context.h:18-20). The TLB is not
part of the monitor's state, so it is added here. Nothing here mentions the monitor's code.
-/
namespace Sanctum

/-- The machine with its TLBs: `tlb c i` says that the TLB of core `c` has a translation to a page of region `i`. -/
structure TlbConf where
  conf : Conf
  tlb : Nat → Nat → Prop

/-- What a step does to the TLBs: a flush empties that of its core. -/
def tlbAfter (T : Nat → Nat → Prop) : Label → Nat → Nat → Prop
  | .act c .flushTlbs _ => fun c' i => c' ≠ c ∧ T c' i
  | _ => T

/-- A step of the machine with TLBs: a step of the machine, or software on a core (outside the monitor) uses a page of a region that the core's map admits, so
that a translation enters its TLB. -/
inductive TlbStep (g : Cfg) : TlbConf → List Label → TlbConf → Prop
  | step {s s' : Conf} {T : Nat → Nat → Prop} {l : Label} : Step g s l s' → TlbStep g ⟨s, T⟩ [l] ⟨s', tlbAfter T l⟩
  | fill {s : Conf} {T : Nat → Nat → Prop} (c i : Nat) : c < g.coreCount.toNat → s.cores c = .idle → s.m.drbBit c i = true →
      TlbStep g ⟨s, T⟩ [] ⟨s, fun c' i' => T c' i' ∨ (c' = c ∧ i' = i)⟩

/-- A finite execution with its trace, in which `Q` holds at every instant. -/
inductive TlbRun (g : Cfg) (Q : Conf → Prop) : TlbConf → List Label → TlbConf → Prop
  | refl (x : TlbConf) : Q x.conf → TlbRun g Q x [] x
  | tail {x y z : TlbConf} {t l : List Label} : TlbRun g Q x t y → TlbStep g y l z → Q z.conf → TlbRun g Q x (t ++ l) z

/-- Software on core `c` can use region `i`: through its TLB, or because its map admits it. -/
def TlbConf.Reaches (x : TlbConf) (c i : Nat) : Prop := x.tlb c i ∨ x.conf.m.drbBit c i = true

end Sanctum
