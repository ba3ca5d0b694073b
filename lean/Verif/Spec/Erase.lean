import Verif.Spec.Junk
/-
Histories with the stores that software makes, and what can be left out of them. Nothing here mentions the monitor's code.
-/
namespace Sanctum

/-- Something that happens: a call, with its result, or a store by the OS. -/
inductive Item where
  | call (x : Event)
  | store (a : Nat) (v : W)

/-- Calls one after the other, with stores by software to memory of the OS in between. -/
inductive Story (g : Cfg) : Machine → List Item → Machine → Prop
  | nil (m : Machine) : Story g m [] m
  | call {m m' m'' : Machine} {c : Nat} {k : Call} {v : W} {l : List Item} :
      c < g.coreCount.toNat → Sanctum.call g c k m = some (v, m') → Story g m' l m'' → Story g m (.call ⟨c, k, v⟩ :: l) m''
  | store {m m'' : Machine} {a : Nat} {v : W} {l : List Item} :
      g.monitorTop.toNat ≤ a → a < g.dramSize.toNat → m.owner g (regionOf g a) = nullEnclaveId → Story g (m.st a v) l m'' → Story g m (.store a v :: l) m''

/-- The calls of a list of items. -/
def Item.event? : Item → Option Event
  | .call x => some x
  | .store _ _ => none

/-- The calls that ask for information. -/
def Call.isQuery : Call → Bool
  | .dramSize | .dramRegionMask | .dramRegionCheckOwnership _ | .dramRegionState _ | .dramRegionOwner _ | .metadataRegionPages | .metadataRegionStart
  | .threadMetadataPages | .enclaveMetadataPages _ => true
  | _ => false

/-- Successful calls, other than those that ask for information, and stores. -/
def Item.matters : Item → Bool
  | .call x => !x.call.isQuery && x.result == monitorOk
  | .store _ _ => true

/-- `l'` is `l` without some (or all) of the refused calls and of the calls that ask for information. -/
def LeavesOut (l l' : List Item) : Prop := l'.Sublist l ∧ l'.filter Item.matters = l.filter Item.matters

/-- The calls of the theorem: those of `Sober`, and all covered debug copies. -/
def Traceless (g : Cfg) : Call → Prop
  | .copyDebugEnclavePage e a _ _ => e ≠ nullEnclaveId ∨ g.monitorTop.toNat ≤ a.toNat
  | k => Sober g k

/-- All calls of the history are such. -/
def AllCalls (p : Call → Prop) (l : List Item) : Prop := ∀ x, Item.call x ∈ l → p x.call

end Sanctum
