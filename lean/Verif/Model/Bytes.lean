import Verif.Model.Bare
import Verif.Model.Exec
/-
The whole machine as the test architecture has it: memory is the array of bytes `testing::phys_buffer`, every access goes through
`phys_ref` with its assertion. Programs, calls and interleavings as in `Model/Exec.lean`, but on this machine.
-/
namespace Sanctum

/-- The buffer, and the registers and globals (the fields of `regs` other than `mem`; `regs.mem` is not used). -/
structure ByteMachine where
  buf : PhysBuf
  regs : Machine

/-- One action. Memory accesses: src/bare/arch/test/phys_ptr_arch.h:26-71; test-and-set and fetch-and-add are what
src/bare/arch/test/phys_atomics_arch.h:14-18,40-45 do, done in one step (as their contract says, see C58). The other actions do not
access physical memory and are as in `exec`. -/
def execB (g : Cfg) (c : Nat) (o : Op) (x : ByteMachine) : Out (W × ByteMachine) :=
  match o with
  | .load a => Out.bind (refGet 8 x.buf a) fun v => .ok (v, x)
  | .store a v => Out.bind (refSet 8 x.buf a v) fun b => .ok (0, { x with buf := b })
  | .load32 a => Out.bind (refGet 4 x.buf a) fun v => .ok (v.setWidth 64, x)
  | .store32 a v => Out.bind (refSet 4 x.buf a v) fun b => .ok (0, { x with buf := b })
  | .tas a => Out.bind (refGet 8 x.buf a) fun w => Out.bind (refSet 8 x.buf a (1 : W)) fun b => .ok (b2w ((w : W) != 0), { x with buf := b })
  | .fetchAdd a v => Out.bind (refGet 8 x.buf a) fun old => Out.bind (refUpdate 8 (· + ·) x.buf a v) fun b => .ok (old, { x with buf := b })
  | o => match exec g c o x.regs with
    | some (v, m) => .ok (v, { x with regs := m })
    | none => .abort

/-- Runs a program to completion on core `c`, undisturbed. -/
def runB {α : Type} (g : Cfg) (c : Nat) : Prog α → ByteMachine → Out (α × ByteMachine)
  | .ret a, x => .ok (a, x)
  | .op o k, x => Out.bind (execB g c o x) fun y => runB g c (k y.1) y.2
  | .fault, _ => .wild
  | .diverge, _ => .diverge

/-- Runs a boot program on core 0, as `bootRun`. -/
def bootRunB (g : Cfg) (p : Prog Unit) (x : ByteMachine) : Boot ByteMachine :=
  match runB g 0 p x with
  | .ok (_, x') => .ok x'
  | _ => .fault

/-- Boot, as in `boot`: src/monitor/boot_init.cc:42-183. -/
def bootB (p : Platform) (x : ByteMachine) : Boot (Cfg × ByteMachine) := do
  let (g0, sp) ← bootInitDramRegions p
  let g1 := bootLayout p (bootInitMetadata g0)
  let x1 ← bootRunB g1 (do act_ (.setCacheShift sp); bootArrays g1) x
  match ceilPowerOfTwo g1.monitorTop with
  | none => .ub
  | some top =>
      if top > g1.stripeSize then .panic
      else do
        let g := { g1 with monitorTop := top }
        let x2 ← bootRunB g (bootProtection g top) x1
        .ok (g, x2)

/-- A configuration: the machine and what every core is doing. -/
structure ByteConf where
  x : ByteMachine
  cores : Nat → CoreState

/-- One step of the whole machine, as `Step`; hostile software stores a byte at a time, anywhere outside the protected range. -/
inductive StepB (g : Cfg) : ByteConf → Label → ByteConf → Prop
  | start {s : ByteConf} {c : Nat} (k : Call) : c < g.coreCount.toNat → s.cores c = .idle →
      StepB g s (.start c k) { s with cores := upd s.cores c (.running k (k.prog g)) }
  | act {s : ByteConf} {c : Nat} {k : Call} {o : Op} {f : W → Prog W} {v : W} {x' : ByteMachine} :
      s.cores c = .running k (.op o f) → execB g c o s.x = .ok (v, x') →
      StepB g s (.act c o v) { x := x', cores := upd s.cores c (.running k (f v)) }
  | done {s : ByteConf} {c : Nat} {k : Call} {v : W} : s.cores c = .running k (.ret v) →
      StepB g s (.done c k v) { s with cores := upd s.cores c .idle }
  | soft {s : ByteConf} (a : Nat) (v : BitVec 8) : g.monitorTop.toNat ≤ a →
      StepB g s .soft { s with x := { s.x with buf := { s.x.buf with byte := upd s.x.buf.byte a v } } }

/-- A finite interleaving with its trace, oldest step first. -/
inductive StepsB (g : Cfg) : ByteConf → List Label → ByteConf → Prop
  | refl (s : ByteConf) : StepsB g s [] s
  | tail {s s' s'' : ByteConf} {t : List Label} {l : Label} : StepsB g s t s' → StepB g s' l s'' → StepsB g s (t ++ [l]) s''

end Sanctum
