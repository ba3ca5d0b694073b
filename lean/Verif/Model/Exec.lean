import Verif.Model.Boot
/-
Histories (calls one after the other) and interleavings (atomic actions of calls on several cores, mixed
with stores by hostile software).
-/
namespace Sanctum

/-! ### Sequential histories -/

/-- A call of a history: the core it is made on, the call, the value it returned. -/
structure Event where
  core : Nat
  call : Call
  result : W

/-- Software (OS or enclave) stores that the hardware allows: anything outside the protected range. -/
def SoftwareStore (g : Cfg) (m m' : Machine) : Prop :=
  ∃ a v, g.monitorTop.toNat ≤ a ∧ m' = { m with mem := upd m.mem a v }

/-- `Hist g m h m'`: making the calls of `h` one after the other, with any number of stores by software
between them, takes the machine from `m` to `m'`; every call completes and returns the recorded result. -/
inductive Hist (g : Cfg) : Machine → List Event → Machine → Prop
  | nil (m : Machine) : Hist g m [] m
  | cons {m m' m'' : Machine} {c : Nat} {k : Call} {v : W} {h : List Event} :
      c < g.coreCount.toNat → call g c k m = some (v, m') → Hist g m' h m'' →
      Hist g m (⟨c, k, v⟩ :: h) m''
  | soft {m m' m'' : Machine} {h : List Event} : SoftwareStore g m m' → Hist g m' h m'' → Hist g m h m''

/-! ### Interleavings -/

/-- What a core is doing: idle, or in the middle of a call with the given remaining program. -/
inductive CoreState where
  | idle
  | running (k : Call) (p : Prog W)

/-- A configuration: the machine and what every core is doing. -/
structure Conf where
  m : Machine
  cores : Nat → CoreState

/-- What a step was. -/
inductive Label where
  /-- core `c` starts call `k` -/
  | start (c : Nat) (k : Call)
  /-- core `c` performs action `o` with response `v` -/
  | act (c : Nat) (o : Op) (v : W)
  /-- the call `k` running on core `c` returns `v` -/
  | done (c : Nat) (k : Call) (v : W)
  /-- hostile software stores outside the protected range -/
  | soft

/-- One step of the whole machine. A core whose next action faults never steps again. -/
inductive Step (g : Cfg) : Conf → Label → Conf → Prop
  | start {s : Conf} {c : Nat} (k : Call) : c < g.coreCount.toNat → s.cores c = .idle →
      Step g s (.start c k) { s with cores := upd s.cores c (.running k (k.prog g)) }
  | act {s : Conf} {c : Nat} {k : Call} {o : Op} {f : W → Prog W} {v : W} {m' : Machine} :
      s.cores c = .running k (.op o f) → exec g c o s.m = some (v, m') →
      Step g s (.act c o v) { m := m', cores := upd s.cores c (.running k (f v)) }
  | done {s : Conf} {c : Nat} {k : Call} {v : W} : s.cores c = .running k (.ret v) →
      Step g s (.done c k v) { s with cores := upd s.cores c .idle }
  | soft {s : Conf} {m' : Machine} : SoftwareStore g s.m m' → Step g s .soft { s with m := m' }

/-- A finite interleaving with its trace, oldest step first. -/
inductive Steps (g : Cfg) : Conf → List Label → Conf → Prop
  | refl (s : Conf) : Steps g s [] s
  | tail {s s' s'' : Conf} {t : List Label} {l : Label} : Steps g s t s' → Step g s' l s'' → Steps g s (t ++ [l]) s''

end Sanctum
