import Verif.Model.Machine
/-
The bare-metal library as implemented for the test architecture: `phys_ptr`, `phys_ref`, the bounds
assertions, `bzero`, `bcopy`, the atomics, the DRB snapshot. Unlike `Model/Machine.lean`, memory is the
array of bytes that the code has. `Props/Bare.lean` proves that the word memory of `Machine` represents it.
-/
namespace Sanctum

/-- How a function of the library ends on the test architecture: an assertion fails, memory outside `phys_buffer` is
accessed although no assertion failed, it does not end, or it ends with a result. -/
inductive Out (α : Type) where
  | abort
  | wild
  | diverge
  | ok (a : α)
deriving DecidableEq

namespace Out
/-- Sequential composition. -/
def bind {α β : Type} : Out α → (α → Out β) → Out β
  | abort, _ => abort
  | wild, _ => wild
  | diverge, _ => diverge
  | ok a, f => f a
/-- `assert(b)`. -/
def assert (b : Bool) : Out Unit := if b then ok () else abort
end Out

instance : Monad Out where
  pure := Out.ok
  bind := Out.bind

/-- `testing::phys_buffer` and `testing::phys_buffer_size`: src/bare/arch/test/phys_ptr_arch.h:10-11. -/
structure PhysBuf where
  size : W
  byte : Nat → BitVec 8

/-- The number whose little-endian bytes start at `a` (`reinterpret_cast<T*>` on the x86 host of the tests,
src/bare/arch/test/phys_ptr_arch.h:30,45,62). -/
def leNat (f : Nat → BitVec 8) (a : Nat) : Nat → Nat
  | 0 => 0
  | n + 1 => (f a).toNat + 256 * leNat f (a + 1) n

/-- `phys_ref<T>::operator T()`, `sizeof(T) = sz`: src/bare/arch/test/phys_ptr_arch.h:26-31,41-46,58-63. -/
def refGet (sz : Nat) (b : PhysBuf) (a : W) : Out (BitVec (8 * sz)) := do
  Out.assert (decide (a + BitVec.ofNat 64 sz ≤ b.size))
  if a.toNat + sz ≤ b.size.toNat then pure (BitVec.ofNat (8 * sz) (leNat b.byte a.toNat sz)) else .wild

/-- `phys_ref<T>::operator =(const T&)`: src/bare/arch/test/phys_ptr_arch.h:32-39,47-54,64-71. -/
def refSet (sz : Nat) (b : PhysBuf) (a : W) (v : BitVec (8 * sz)) : Out PhysBuf := do
  Out.assert (decide (a + BitVec.ofNat 64 sz ≤ b.size))
  if a.toNat + sz ≤ b.size.toNat then
    pure { b with byte := fun x => if a.toNat ≤ x ∧ x < a.toNat + sz then v.extractLsb' (8 * (x - a.toNat)) 8 else b.byte x }
  else .wild

/-- `*a = *b`: src/bare/phys_ptr.h:43-58. -/
def refCopy (sz : Nat) (b : PhysBuf) (dst src : W) : Out PhysBuf := do
  let v ← refGet sz b src
  refSet sz b dst v

/-- `operator +=`, `-=`, `|=`, `&=` of `phys_ref`: src/bare/phys_ptr.h:71-86 (`f` is the operation). -/
def refUpdate (sz : Nat) (f : BitVec (8 * sz) → BitVec (8 * sz) → BitVec (8 * sz)) (b : PhysBuf) (a : W) (v : BitVec (8 * sz)) : Out PhysBuf := do
  let w ← refGet sz b a
  refSet sz b a (f w v)

/-- `phys_ptr<T>::operator +`, `+=`: src/bare/phys_ptr.h:143-152 (flat pointers: the address grows by `offset * sizeof(T)`, modulo `2^64`). -/
def ptrAdd (sz : Nat) (p n : W) : W := p + n * BitVec.ofNat 64 sz

/-- `phys_ptr<T>::operator -`, `-=`: src/bare/phys_ptr.h:153-161. -/
def ptrSub (sz : Nat) (p n : W) : W := p - n * BitVec.ofNat 64 sz

/-- `&p[n]`: src/bare/phys_ptr.h:130-133 and 61-63. -/
def ptrIndex (sz : Nat) (p n : W) : W := p + n * BitVec.ofNat 64 sz

/-- The loop of `bzero<T>`: src/bare/arch/test/memory_arch.h:54-56. `fuel` iterations are allowed. -/
def bzeroLoop (sz : Nat) (last : W) : Nat → W → PhysBuf → Out PhysBuf
  | 0, _, _ => .diverge
  | fuel + 1, p, b =>
      if p = last then pure b
      else do
        let b' ← refSet sz b p 0
        bzeroLoop sz last fuel (ptrAdd sz p 1) b'

/-- `bzero<T>`: src/bare/arch/test/memory_arch.h:49-57. A loop that runs for more than `2^64` iterations sees the same pointer twice:
`diverge`. -/
def bzeroT (sz : Nat) (b : PhysBuf) (start bytes : W) : Out PhysBuf := do
  let words := bytes / BitVec.ofNat 64 sz
  Out.assert (decide (ptrAdd sz start words ≤ b.size))
  bzeroLoop sz (ptrAdd sz start words) (2 ^ 64) start b

/-- The loop of `bcopy<T>`: src/bare/arch/test/memory_arch.h:68-70. -/
def bcopyLoop (sz : Nat) (last : W) : Nat → W → W → PhysBuf → Out PhysBuf
  | 0, _, _, _ => .diverge
  | fuel + 1, src, dst, b =>
      if src = last then pure b
      else do
        let b' ← refCopy sz b dst src
        bcopyLoop sz last fuel (ptrAdd sz src 1) (ptrAdd sz dst 1) b'

/-- `bcopy<T>`: src/bare/arch/test/memory_arch.h:58-71. -/
def bcopyT (sz : Nat) (b : PhysBuf) (dst src bytes : W) : Out PhysBuf := do
  let words := bytes / BitVec.ofNat 64 sz
  Out.assert (decide (ptrAdd sz src words ≤ b.size))
  Out.assert (decide (ptrAdd sz dst words ≤ b.size))
  Out.assert (decide (ptrAdd sz src words ≤ dst) || decide (ptrAdd sz dst words ≤ src))
  bcopyLoop sz (ptrAdd sz src words) (2 ^ 64) src dst b

/-! ### Atomics of the test architecture, as the code has them (not atomic) -/

/-- `atomic_flag_test_and_set`: src/bare/arch/test/phys_atomics_arch.h:14-18. -/
def tasCode (a : W) : Prog Bool := do
  let w ← load a
  store a 1
  pure (w != 0)

/-- `atomic_flag_clear`: src/bare/arch/test/phys_atomics_arch.h:19-21. -/
def clearCode (a : W) : Prog Unit := store a 0

/-- `atomic_fetch_add<uintptr_t>`: src/bare/arch/test/phys_atomics_arch.h:40-45 (`+=` is a load and a store). -/
def fetchAddCode (a v : W) : Prog W := do
  let old ← load a
  let w ← load a
  store a (w + v)
  pure old

/-- `atomic_fetch_sub<uintptr_t>`: src/bare/arch/test/phys_atomics_arch.h:46-51. -/
def fetchSubCode (a v : W) : Prog W := do
  let old ← load a
  let w ← load a
  store a (w - v)
  pure old

/-- `atomic_flag::test_and_set` of the RISC-V port: src/bare/arch/riscv/phys_atomics_arch.h:18-25, a stub. -/
def tasStub (_ : W) : Prog Bool := pure false

/-- Two programs on two cores; `true` in the schedule lets the first one make an action. -/
def runTwo {α β : Type} (g : Cfg) : List Bool → Prog α → Prog β → Machine → Option (Prog α × Prog β × Machine)
  | [], p, q, m => some (p, q, m)
  | true :: s, .op o k, q, m => (exec g 0 o m).bind fun x => runTwo g s (k x.1) q x.2
  | true :: s, p, q, m => runTwo g s p q m
  | false :: s, p, .op o k, m => (exec g 1 o m).bind fun x => runTwo g s p (k x.1) x.2
  | false :: s, p, q, m => runTwo g s p q m

end Sanctum
