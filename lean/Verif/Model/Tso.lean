import Verif.Spec.Race
/-
The machine with store buffers: the cores run the same code as in `Model/Exec.lean`, but a plain store waits in the core's buffer until
it reaches memory, and stores to different locations can reach memory in any order (partial store order, SPARC's PSO; x86's TSO, where
stores reach memory in program order, allows fewer executions). The repository's primitives are `src/bare/arch/riscv/phys_ptr_arch.h:18-37`
and `src/bare/arch/test/phys_ptr_arch.h:20-54` (plain loads and stores), `src/bare/phys_atomics.h` (C atomics with the default,
sequentially consistent order: read-modify-writes and stores are locked instructions or fenced; `src/bare/arch/riscv/phys_atomics_arch.h`
leaves them to be written) and the plain globals of `src/monitor/dram_regions.cc:67-68`. The store buffer itself is hardware.

Simplifications: stores of software outside the monitor reach memory at once (`soft`; a store that waited in a buffer is a later `soft`);
instruction fetches and page walks are not modelled, as in `Model/Exec.lean`; the locks of enclaves are treated as plain words when they
are released (`atomic_flag_clear`, src/monitor/enclave_inl.h), which allows more behaviours.
-/
namespace Sanctum

/-- Actions that wait in the store buffer: plain stores, and writes of the DMA window (plain globals, src/monitor/dram_regions.cc:67-68) and of
the DMA registers (src/bare/arch/test/memory_arch.h:23-28). -/
def Op.Delayed (g : Cfg) : Op → Prop
  | .store a _ => ¬ AtomicLoc g (.word a.toNat)
  | .store32 a _ => ¬ AtomicLoc g (.word (a.toNat / 8 * 8))
  | .setDmaStart _ => True
  | .setDmaEnd _ => True
  | .setDmarBase _ => True
  | .setDmarMask _ => True
  | _ => False

/-- Actions that wait until the core's buffer is empty and then act on memory: read-modify-writes and stores to words declared atomic
(src/bare/phys_atomics.h). -/
def Op.Fenced (g : Cfg) : Op → Prop
  | .store a _ => AtomicLoc g (.word a.toNat)
  | .store32 a _ => AtomicLoc g (.word (a.toNat / 8 * 8))
  | .tas _ => True
  | .fetchAdd _ _ => True
  | _ => False

/-- Loads, plain or atomic: they see the core's own buffered stores. -/
def Op.Fetches : Op → Prop
  | .load _ => True
  | .load32 _ => True
  | .getDmaStart => True
  | .getDmaEnd => True
  | _ => False

/-- The other actions: on registers of the core (src/bare/arch/test/cpu_context_arch.h:50-96). -/
def Op.Private : Op → Prop
  | .curCore => True
  | .flushTlbs => True
  | .setDrb _ => True
  | .setEdrb _ => True
  | .setParBase _ => True
  | .setParMask _ => True
  | .setCacheShift _ => True
  | _ => False

/-- A configuration of the machine with store buffers: `Conf` (Model/Exec.lean) and, for each core, the stores that wait, oldest first. -/
structure TConf where
  m : Machine
  cores : Nat → CoreState
  bufs : Nat → List Op

/-- A store reaches memory. -/
def perform (g : Cfg) (c : Nat) (m : Machine) (o : Op) : Machine :=
  match exec g c o m with
  | some x => x.2
  | none => m

/-- The machine as core `c` sees it: its own stores are done. -/
def TConf.view (g : Cfg) (s : TConf) (c : Nat) : Machine := (s.bufs c).foldl (perform g c) s.m

/-- One step of the machine with store buffers; no label: a store reaches memory (not before an older store of the core to the same
location). Compare `Step` (Model/Exec.lean). -/
inductive TStep (g : Cfg) : TConf → Option Label → TConf → Prop
  | start {s : TConf} {c : Nat} (k : Call) : c < g.coreCount.toNat → s.cores c = .idle →
      TStep g s (some (.start c k)) { s with cores := upd s.cores c (.running k (k.prog g)) }
  | delay {s : TConf} {c : Nat} {k : Call} {o : Op} {f : W → Prog W} {v : W} {m' : Machine} : s.cores c = .running k (.op o f) →
      o.Delayed g → exec g c o (s.view g c) = some (v, m') →
      TStep g s (some (.act c o v)) { s with bufs := upd s.bufs c (s.bufs c ++ [o]), cores := upd s.cores c (.running k (f v)) }
  | fenced {s : TConf} {c : Nat} {k : Call} {o : Op} {f : W → Prog W} {v : W} {m' : Machine} : s.cores c = .running k (.op o f) →
      o.Fenced g → s.bufs c = [] → exec g c o s.m = some (v, m') →
      TStep g s (some (.act c o v)) { s with m := m', cores := upd s.cores c (.running k (f v)) }
  | fetch {s : TConf} {c : Nat} {k : Call} {o : Op} {f : W → Prog W} {v : W} {m' : Machine} : s.cores c = .running k (.op o f) →
      o.Fetches → exec g c o (s.view g c) = some (v, m') →
      TStep g s (some (.act c o v)) { s with cores := upd s.cores c (.running k (f v)) }
  | own {s : TConf} {c : Nat} {k : Call} {o : Op} {f : W → Prog W} {v : W} {m' : Machine} : s.cores c = .running k (.op o f) →
      o.Private → exec g c o s.m = some (v, m') →
      TStep g s (some (.act c o v)) { s with m := m', cores := upd s.cores c (.running k (f v)) }
  | done {s : TConf} {c : Nat} {k : Call} {v : W} : s.cores c = .running k (.ret v) →
      TStep g s (some (.done c k v)) { s with cores := upd s.cores c .idle }
  | soft {s : TConf} {m' : Machine} : SoftwareStore g s.m m' → TStep g s (some .soft) { s with m := m' }
  | drain {s : TConf} {c : Nat} {o : Op} {os os' : List Op} : s.bufs c = os ++ o :: os' → (∀ o' ∈ os, ∀ l, o.writes l → ¬ o'.writes l) →
      TStep g s none { s with m := perform g c s.m o, bufs := upd s.bufs c (os ++ os') }

/-- A finite execution with its trace, oldest step first. Compare `Steps` (Model/Exec.lean). -/
inductive TSteps (g : Cfg) : TConf → List Label → TConf → Prop
  | refl (s : TConf) : TSteps g s [] s
  | tail {s s' s'' : TConf} {t : List Label} {l : Label} : TSteps g s t s' → TStep g s' (some l) s'' → TSteps g s (t ++ [l]) s''
  | drain {s s' s'' : TConf} {t : List Label} : TSteps g s t s' → TStep g s' none s'' → TSteps g s t s''

/-- The configuration with nothing waiting. -/
def Conf.settled (s : Conf) : TConf := ⟨s.m, s.cores, fun _ => []⟩

end Sanctum
