import Verif.Spec.System
/-
Locks, critical sections and accesses in a trace of an interleaving. Nothing here mentions the monitor's code: a core
takes the lock of a region when its test-and-set of the region's lock word finds 0, and gives it up when it stores to
that word or when its call returns.
-/
namespace Sanctum

/-- The region locks a core holds after action `o` with response `v`, if it held those in `H` before. -/
def heldStep (g : Cfg) (o : Op) (v : W) (H : Nat → Prop) : Nat → Prop := fun i =>
  match o with
  | .tas a => H i ∨ (i < g.regions ∧ v = 0 ∧ a.toNat = lockA g i)
  | .store a _ => H i ∧ a.toNat ≠ lockA g i
  | _ => H i

/-- The region locks core `c` holds after a step. -/
def heldLabel (g : Cfg) (c : Nat) (H : Nat → Prop) (l : Label) : Nat → Prop :=
  match l with
  | .act c' o v => if c' = c then heldStep g o v H else H
  | .done c' _ _ => if c' = c then fun _ => False else H
  | _ => H

/-- The region locks core `c` holds after the trace `t`. -/
def holds (g : Cfg) (t : List Label) (c : Nat) : Nat → Prop := t.foldl (heldLabel g c) (fun _ => False)

/-- The call running on core `c` after a step, if `x` was running before. -/
def currentLabel (c : Nat) (x : Option Call) (l : Label) : Option Call :=
  match l with
  | .start c' k => if c' = c then some k else x
  | .done c' _ _ => if c' = c then none else x
  | _ => x

/-- The call running on core `c` after the trace `t`. -/
def current (t : List Label) (c : Nat) : Option Call := t.foldl (currentLabel c) none

/-- The number of steps core `c` has made in its current call, after a step. -/
def ownStepsLabel (c : Nat) (n : Nat) (l : Label) : Nat :=
  match l with
  | .start c' _ => if c' = c then 0 else n
  | .act c' _ _ => if c' = c then n + 1 else n
  | .done c' _ _ => if c' = c then 0 else n
  | .soft => n

/-- The number of steps core `c` has made in its current call, after the trace `t`. -/
def ownSteps (t : List Label) (c : Nat) : Nat := t.foldl (ownStepsLabel c) 0

/-- A bound on the number of steps of a call that only depends on the machine's geometry. -/
def stepBound (g : Cfg) : Nat :=
  2048 + g.cores + 512 * g.metaStart.toNat + 2 * g.stripePages.toNat + 3 * (g.dramSize.toNat / g.stripeSize.toNat + 1) +
    g.regions * (g.dramSize.toNat / 8 + 7)

/-- The action reads or writes the word at `x`. -/
def Op.accesses (g : Cfg) (o : Op) (x : Nat) : Prop :=
  match o with
  | .load a => a.toNat = x
  | .store a _ => a.toNat = x
  | .load32 a => a.toNat / 8 * 8 = x
  | .store32 a _ => a.toNat / 8 * 8 = x
  | .tas a => a.toNat = x
  | .fetchAdd a _ => a.toNat = x
  | _ => False

/-- The action writes the word at `x` other than by a test-and-set. -/
def Op.overwrites (o : Op) (x : Nat) : Prop :=
  match o with
  | .store a _ => a.toNat = x
  | .store32 a _ => a.toNat / 8 * 8 = x
  | .fetchAdd a _ => a.toNat = x
  | _ => False

/-- `x` is a word of the ownership record of region `i`. -/
def RecordWord (g : Cfg) (i x : Nat) : Prop := x = ownerA g i ∨ x = prevA g i ∨ x = pinnedA g i ∨ x = blockedA g i

/-- The machine has just booted and all cores are idle. -/
def Fresh (g : Cfg) (s : Conf) : Prop := FromBoot g s.m ∧ ∀ c, s.cores c = .idle

/-- All calls started in `t` satisfy `P`. -/
def OnlyCalls (P : Call → Prop) (t : List Label) : Prop := ∀ c k, Label.start c k ∈ t → P k

/-- The calls the interleaving theorems are about: the covered ones (see `Covered`); debug copies only with IDs of records (the
code reads the record before it checks the ID). -/
def CoveredC (g : Cfg) (k : Call) : Prop := Covered g k ∧ ∀ e a os d, k = .copyDebugEnclavePage e a os d → RecordOk g e

/-- Calls that read ownership records only with their locks: not `assign_dram_region` to an ID outside DRAM, and not
`create_thread` (made by the OS, it takes address 304 for an enclave's bitmap). -/
def Disciplined (g : Cfg) : Call → Prop
  | .assignDramRegion _ e => e.toNat < g.dramSize.toNat
  | .createThread _ _ => False
  | _ => True

/-- Calls that release all locks before they return. -/
def NoLeak : Call → Prop
  | .createThread _ _ => False
  | .deleteThread _ => False
  | _ => True

/-- The regions at an instant of an interleaving. -/
structure RegionsOk (g : Cfg) (m : Machine) : Prop where
  owners : ∀ i, i < g.regions → m.owner g i = nullEnclaveId ∨ m.owner g i = blockedEnclaveId ∨ m.owner g i = metadataEnclaveId ∨
    m.owner g i = freeEnclaveId
  region0 : m.owner g 0 = nullEnclaveId
  bitmap : ∀ i, i < g.regions → m.locked g i = false → (m.osBit g i = true ↔ m.owner g i = nullEnclaveId)

end Sanctum
