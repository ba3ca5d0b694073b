import Verif.Model.TsoBytes
import Verif.Spec.Buffers
import Verif.Spec.Bytes
/-
What software sees of the machine with bytes and store buffers, and the serial machine with bytes: as Spec/Serial.lean, but memory is an array of bytes, the code runs with
the test architecture's accesses and assertions, and software loads and stores single bytes. No machine with words is mentioned here.
-/
namespace Sanctum

/-- The word at address `a`, little-endian. -/
def ByteMachine.word (x : ByteMachine) (a : Nat) : W := BitVec.ofNat 64 (leNat x.buf.byte a 8)

/-- The machine after a store of one byte. -/
def ByteMachine.put (x : ByteMachine) (a : Nat) (v : BitVec 8) : ByteMachine := { x with buf := { x.buf with byte := upd x.buf.byte a v } }

/-- The machine after a store of the word `w` at address `a`: byte `i` of `w` is at `a + i`. -/
def ByteMachine.putWord (x : ByteMachine) (a : Nat) (w : W) : ByteMachine :=
  { x with buf := { x.buf with byte := fun b => if a ≤ b ∧ b < a + 8 then w.extractLsb' (8 * (b - a)) 8 else x.buf.byte b } }

/-- The owner of the region that address `a` belongs to, according to memory. -/
def ByteMachine.ownerOf (g : Cfg) (x : ByteMachine) (a : Nat) : W := x.word (ownerA g (regionOf g a))

/-- The same bytes, registers and globals (`regs.mem` is not part of the machine). -/
def ByteMachine.Same (x x' : ByteMachine) : Prop := x.buf = x'.buf ∧ ∀ f, { x.regs with mem := f } = { x'.regs with mem := f }

/-- What software sees and does: calls begin and return, and it loads the byte `v` from, or stores `v` at, the address `a`. -/
inductive SeenByte where
  | call (l : Label)
  | load (a : Nat) (v : BitVec 8)
  | store (a : Nat) (v : BitVec 8)

/-- Executions of the machine with bytes and store buffers in which software loads and stores bytes, outside the monitor's memory, in regions that are the OS's according to
memory, with what software sees and does. Compare `SeenT` (Spec/Buffers.lean). -/
inductive SeenTB (g : Cfg) : ByteTConf → List Label → List SeenByte → ByteTConf → Prop
  | refl (y : ByteTConf) : SeenTB g y [] [] y
  | step {y y' y'' : ByteTConf} {t : List Label} {h : List SeenByte} {l : Label} : SeenTB g y t h y' → TStepB g y' (some l) y'' → l ≠ .soft →
      SeenTB g y (t ++ [l]) (h ++ (observed [l]).map .call) y''
  /-- A store that waited reaches memory. -/
  | drain {y y' y'' : ByteTConf} {t : List Label} {h : List SeenByte} : SeenTB g y t h y' → TStepB g y' none y'' → SeenTB g y t h y''
  | load {y y' : ByteTConf} {t : List Label} {h : List SeenByte} (a : Nat) : SeenTB g y t h y' → g.monitorTop.toNat ≤ a →
      y'.x.ownerOf g a = nullEnclaveId → SeenTB g y t (h ++ [.load a (y'.x.buf.byte a)]) y'
  | store {y y' : ByteTConf} {t : List Label} {h : List SeenByte} (a : Nat) (v : BitVec 8) : SeenTB g y t h y' → g.monitorTop.toNat ≤ a →
      y'.x.ownerOf g a = nullEnclaveId → SeenTB g y (t ++ [.soft]) (h ++ [.store a v]) { y' with x := y'.x.put a v }

/-- A state of the serial machine with bytes. -/
structure SerialStateB where
  phase : Nat → SPhase
  x : ByteMachine

/-- Steps of the serial machine with bytes: every call runs in one step, undisturbed, without a failed assertion or a wild access; a flush takes two steps. Compare
`SerialStep` (Spec/Serial.lean). -/
inductive SerialStepB (g : Cfg) : SerialStateB → List Label → SerialStateB → Prop
  | start {s : SerialStateB} {c : Nat} {k : Call} : c < g.cores → s.phase c = .idle →
      SerialStepB g s [.start c k] { s with phase := upd s.phase c (.pending k) }
  | effect {s : SerialStateB} {c : Nat} {k : Call} {v : W} {x' : ByteMachine} : s.phase c = .pending k → runB g c (k.prog g) s.x = .ok (v, x') →
      SerialStepB g s [] { phase := upd s.phase c (.decided k v), x := x' }
  | busy {s : SerialStateB} {c c' : Nat} {k : Call} {v : W} : s.phase c = .pending k → c' ≠ c → s.phase c' ≠ .idle → TurnedAway k v →
      SerialStepB g s [] { s with phase := upd s.phase c (.decided k v) }
  | sample {s : SerialStateB} {c : Nat} : s.phase c = .pending .flushCachedDramRegions →
      SerialStepB g s [] { phase := upd s.phase c (.flushing (s.x.word (clockA g))), x := { s.x with regs := s.x.regs.flushTlb c } }
  | record {s : SerialStateB} {c : Nat} {w : W} : s.phase c = .flushing w →
      SerialStepB g s [] { phase := upd s.phase c (.decided .flushCachedDramRegions monitorOk), x := s.x.putWord (flushedA c) w }
  | done {s : SerialStateB} {c : Nat} {k : Call} {v : W} : s.phase c = .decided k v →
      SerialStepB g s [.done c k v] { s with phase := upd s.phase c .idle }

/-- Executions of the serial machine with bytes, with what software sees and does. -/
inductive SerialRunB (g : Cfg) : SerialStateB → List SeenByte → SerialStateB → Prop
  | refl (s : SerialStateB) : SerialRunB g s [] s
  | tail {s s' s'' : SerialStateB} {h : List SeenByte} {h' : List Label} : SerialRunB g s h s' → SerialStepB g s' h' s'' → SerialRunB g s (h ++ h'.map .call) s''
  | load {s s' : SerialStateB} {h : List SeenByte} (a : Nat) : SerialRunB g s h s' → SerialRunB g s (h ++ [.load a (s'.x.buf.byte a)]) s'
  | store {s s' : SerialStateB} {h : List SeenByte} (a : Nat) (v : BitVec 8) : SerialRunB g s h s' → SerialRunB g s (h ++ [.store a v]) { s' with x := s'.x.put a v }

end Sanctum
