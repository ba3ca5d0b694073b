import Verif.Spec.View
import Verif.Spec.Sha256
import Verif.Model.Measure
/-
Bytes of physical memory, and what a hash object has been fed.
-/
namespace Sanctum

namespace Machine
/-- The byte at physical address `a` (memory words are little-endian). -/
def byteAt (m : Machine) (a : Nat) : Sha.Byte := (m.mem (a / 8 * 8)).extractLsb' (8 * (a % 8)) 8
/-- The `n` bytes from address `a`. -/
def bytes (m : Machine) (a n : Nat) : List Sha.Byte := (List.range n).map fun i => m.byteAt (a + i)
/-- The native (little-endian) 32-bit integer at address `a`. -/
def word32 (m : Machine) (a : Nat) : Sha.Word := (m.byteAt (a + 3) ++ m.byteAt (a + 2) ++ m.byteAt (a + 1) ++ m.byteAt a : BitVec 32)
/-- The eight 32-bit integers at the start of the hash object at `s` (`hash_state_t::h`): where a finalized
object has its result. -/
def digest (m : Machine) (s : Nat) : Sha.State :=
  ⟨m.word32 s, m.word32 (s + 4), m.word32 (s + 8), m.word32 (s + 12),
   m.word32 (s + 16), m.word32 (s + 20), m.word32 (s + 24), m.word32 (s + 28)⟩
end Machine

/-- `s` is a place for a hash object: an aligned address whose 160 bytes are inside DRAM. -/
def HashPlace (g : Cfg) (s : W) : Prop := s.toNat % 8 = 0 ∧ s.toNat + 160 ≤ g.dramSize.toNat

/-- `b` is the address of a block that can be hashed by the object at `s`: its 64 bytes are inside DRAM and
outside the object. -/
def BlockPlace (g : Cfg) (s b : W) : Prop :=
  b.toNat % 4 = 0 ∧ b.toNat + 64 ≤ g.dramSize.toNat ∧ (b.toNat + 64 ≤ s.toNat ∨ s.toNat + 160 ≤ b.toNat)

/-- `Hashing g s m msg`: a history of the hash object at `s`, that ends in memory `m`, in which the object has
been initialized and then been extended with the bytes `msg`. Between the calls, on any core, everything but the
160 bytes of the object may change in any way. -/
inductive Hashing (g : Cfg) (s : W) : Machine → List Sha.Byte → Prop
  | init {c : Nat} {m m' : Machine} {r : Unit} : run g c (initHash s) m = some (r, m') → Hashing g s m' []
  | extend {c : Nat} {m m' : Machine} {r : Unit} {b : W} {msg : List Sha.Byte} : Hashing g s m msg → BlockPlace g s b →
      run g c (extendHash s b) m = some (r, m') → Hashing g s m' (msg ++ m.bytes b.toNat 64)
  | other {m m' : Machine} {msg : List Sha.Byte} : Hashing g s m msg →
      (∀ i, i < 160 → m'.byteAt (s.toNat + i) = m.byteAt (s.toNat + i)) → Hashing g s m' msg

end Sanctum
