import Verif.Model.Machine
/-
What someone who watches the memory bus (or measures time) sees of a piece of code: which locations are accessed, in which order and how, but not the data. Nothing here
mentions the monitor's code.
-/
namespace Sanctum

/-- An action without the data that it writes. -/
def Op.shape : Op → Op
  | .store a _ => .store a 0
  | .store32 a _ => .store32 a 0
  | .fetchAdd a _ => .fetchAdd a 0
  | .setDrb _ => .setDrb []
  | .setEdrb _ => .setEdrb []
  | .setParBase _ => .setParBase 0
  | .setParMask _ => .setParMask 0
  | .setCacheShift _ => .setCacheShift 0
  | .setDmarBase _ => .setDmarBase 0
  | .setDmarMask _ => .setDmarMask 0
  | .setDmaStart _ => .setDmaStart 0
  | .setDmaEnd _ => .setDmaEnd 0
  | o => o

/-- The actions of a run on core `c` from machine `m`, without the data; up to and including the one that faults, if one does. -/
def pattern {α : Type} (g : Cfg) (c : Nat) : Prog α → Machine → List Op
  | .ret _, _ => []
  | .op o k, m => o.shape :: match exec g c o m with
      | some (v, m') => pattern g c (k v) m'
      | none => []
  | .fault, _ => []
  | .diverge, _ => []

/-- The code's actions, without the data, are the same whatever memory and registers contain. -/
def DataOblivious {α : Type} (g : Cfg) (p : Prog α) : Prop := ∀ c m m', pattern g c p m = pattern g c p m'

end Sanctum
