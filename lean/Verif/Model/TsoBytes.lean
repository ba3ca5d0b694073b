import Verif.Model.Tso
import Verif.Model.Bytes
/-
The machine with store buffers whose memory is the array of bytes `testing::phys_buffer`: `Model/Tso.lean` on the memory of `Model/Bytes.lean`. Every access goes through
`phys_ref` with its assertion (src/bare/arch/test/phys_ptr_arch.h:20-71), a store when it is made and when it reaches memory.

Simplifications: as in `Model/Tso.lean`. Two stores of a core within the same aligned 8 bytes reach memory in program order (the unit of a store buffer is a word).
-/
namespace Sanctum

/-- `TConf` (Model/Tso.lean) with bytes: the machine, what every core is doing, and the stores of every core that wait, oldest first. -/
structure ByteTConf where
  x : ByteMachine
  cores : Nat → CoreState
  bufs : Nat → List Op

/-- A store reaches memory: src/bare/arch/test/phys_ptr_arch.h:32-37,47-52,64-70. -/
def performB (g : Cfg) (c : Nat) (x : ByteMachine) (o : Op) : ByteMachine :=
  match execB g c o x with
  | .ok y => y.2
  | _ => x

/-- The machine as core `c` sees it: its own stores are done. -/
def ByteTConf.view (g : Cfg) (s : ByteTConf) (c : Nat) : ByteMachine := (s.bufs c).foldl (performB g c) s.x

/-- One step, as `TStep` (Model/Tso.lean); hostile software stores a byte at a time, anywhere outside the protected range, as in `StepB` (Model/Bytes.lean). -/
inductive TStepB (g : Cfg) : ByteTConf → Option Label → ByteTConf → Prop
  | start {s : ByteTConf} {c : Nat} (k : Call) : c < g.coreCount.toNat → s.cores c = .idle →
      TStepB g s (some (.start c k)) { s with cores := upd s.cores c (.running k (k.prog g)) }
  | delay {s : ByteTConf} {c : Nat} {k : Call} {o : Op} {f : W → Prog W} {v : W} {x' : ByteMachine} : s.cores c = .running k (.op o f) →
      o.Delayed g → execB g c o (s.view g c) = .ok (v, x') →
      TStepB g s (some (.act c o v)) { s with bufs := upd s.bufs c (s.bufs c ++ [o]), cores := upd s.cores c (.running k (f v)) }
  | fenced {s : ByteTConf} {c : Nat} {k : Call} {o : Op} {f : W → Prog W} {v : W} {x' : ByteMachine} : s.cores c = .running k (.op o f) →
      o.Fenced g → s.bufs c = [] → execB g c o s.x = .ok (v, x') →
      TStepB g s (some (.act c o v)) { s with x := x', cores := upd s.cores c (.running k (f v)) }
  | fetch {s : ByteTConf} {c : Nat} {k : Call} {o : Op} {f : W → Prog W} {v : W} {x' : ByteMachine} : s.cores c = .running k (.op o f) →
      o.Fetches → execB g c o (s.view g c) = .ok (v, x') →
      TStepB g s (some (.act c o v)) { s with cores := upd s.cores c (.running k (f v)) }
  | own {s : ByteTConf} {c : Nat} {k : Call} {o : Op} {f : W → Prog W} {v : W} {x' : ByteMachine} : s.cores c = .running k (.op o f) →
      o.Private → execB g c o s.x = .ok (v, x') →
      TStepB g s (some (.act c o v)) { s with x := x', cores := upd s.cores c (.running k (f v)) }
  | done {s : ByteTConf} {c : Nat} {k : Call} {v : W} : s.cores c = .running k (.ret v) →
      TStepB g s (some (.done c k v)) { s with cores := upd s.cores c .idle }
  | soft {s : ByteTConf} (a : Nat) (v : BitVec 8) : g.monitorTop.toNat ≤ a →
      TStepB g s (some .soft) { s with x := { s.x with buf := { s.x.buf with byte := upd s.x.buf.byte a v } } }
  | drain {s : ByteTConf} {c : Nat} {o : Op} {os os' : List Op} : s.bufs c = os ++ o :: os' → (∀ o' ∈ os, ∀ l, o.writes l → ¬ o'.writes l) →
      TStepB g s none { s with x := performB g c s.x o, bufs := upd s.bufs c (os ++ os') }

/-- A finite execution with its trace, oldest step first, as `TSteps` (Model/Tso.lean). -/
inductive TStepsB (g : Cfg) : ByteTConf → List Label → ByteTConf → Prop
  | refl (s : ByteTConf) : TStepsB g s [] s
  | tail {s s' s'' : ByteTConf} {t : List Label} {l : Label} : TStepsB g s t s' → TStepB g s' (some l) s'' → TStepsB g s (t ++ [l]) s''
  | drain {s s' s'' : ByteTConf} {t : List Label} : TStepsB g s t s' → TStepB g s' none s'' → TStepsB g s t s''

end Sanctum
