import Verif.Spec.Geometry
/-
The abstract region table: the observable state of the monitor as its documentation describes it, read
off the memory layout. `i` ranges over region indices, `c` over cores.
-/
namespace Sanctum

/-- Addresses of the fields of region record `i`. -/
def lockA (g : Cfg) (i : Nat) : Nat := g.regionBase.toNat + 40 * i
@[inherit_doc lockA] def ownerA (g : Cfg) (i : Nat) : Nat := g.regionBase.toNat + 40 * i + 8
@[inherit_doc lockA] def prevA (g : Cfg) (i : Nat) : Nat := g.regionBase.toNat + 40 * i + 16
@[inherit_doc lockA] def pinnedA (g : Cfg) (i : Nat) : Nat := g.regionBase.toNat + 40 * i + 24
@[inherit_doc lockA] def blockedA (g : Cfg) (i : Nat) : Nat := g.regionBase.toNat + 40 * i + 32
/-- Address of the block clock. -/
def clockA (g : Cfg) : Nat := g.regionsBase.toNat
/-- Address of the "running enclave" field of core `c`. -/
def coreEnclaveA (c : Nat) : Nat := 32 * c
/-- Address of the flush timestamp of core `c`. -/
def flushedA (c : Nat) : Nat := 32 * c + 24
/-- Address of the word of the OS region bitmap that holds the bit of region `i`. -/
def osWordA (g : Cfg) (i : Nat) : Nat := g.osBitmap.toNat + 8 * (i / 64)

namespace Machine
variable (m : Machine) (g : Cfg)
/-- Is region `i`'s lock held? -/
def locked (i : Nat) : Bool := m.mem (lockA g i) != 0
/-- Owner field of region `i`: 0 the OS, 1 blocked, 2 metadata, 3 free, otherwise an enclave ID. -/
def owner (i : Nat) : W := m.mem (ownerA g i)
/-- Owner of region `i` before it was blocked. -/
def prevOwner (i : Nat) : W := m.mem (prevA g i)
/-- Pinned page count of region `i`. -/
def pinned (i : Nat) : W := m.mem (pinnedA g i)
/-- Block timestamp of region `i`. -/
def blockedAt (i : Nat) : W := m.mem (blockedA g i)
/-- The block clock. -/
def clock : W := m.mem (clockA g)
/-- The enclave running on core `c`, 0 if it is the OS. -/
def running (c : Nat) : W := m.mem (coreEnclaveA c)
/-- The flush timestamp of core `c`. -/
def flushedAt (c : Nat) : W := m.mem (flushedA c)
/-- Is region `i` in the OS region bitmap? -/
def osBit (i : Nat) : Bool := (m.mem (osWordA g i)).getLsbD (i % 64)
/-- Is region `i` in the access map loaded in core `c`'s DRBMAP register? -/
def drbBit (c i : Nat) : Bool := ((m.drb c).getD (i / 64) 0).getLsbD (i % 64)
/-- A memory word changed. -/
def st (a : Nat) (v : W) : Machine := { m with mem := upd m.mem a v }
end Machine

/-- The region that byte address `a` belongs to. -/
def regionOf (g : Cfg) (a : Nat) : Nat := a / 2 ^ (12 + g.sp) % 2 ^ g.rb

/-- Does the hardware range check with `base` and `mask` cover address `a`? (`base` matches where the mask
has ones: src/bare/cpu_context.h, `set_par_base`/`set_par_mask`.) -/
def rangeCovers (base mask a : W) : Bool := (a &&& mask) == base

/-- No region lock is held. -/
def AllUnlocked (g : Cfg) (m : Machine) : Prop := ∀ i, i < g.regions → m.locked g i = false

end Sanctum
