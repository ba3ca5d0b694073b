import Verif.Model.Tso
import Verif.Spec.Serial
/-
What software sees of a machine with store buffers.
-/
namespace Sanctum

/-- Executions of the machine with store buffers (trace `t`) in which software loads and stores, outside the monitor's memory, in regions that are the OS's
according to memory, with what software sees and does. Compare `SeenSteps` (Spec/Serial.lean). -/
inductive SeenT (g : Cfg) : TConf → List Label → List Seen → TConf → Prop
  | refl (τ : TConf) : SeenT g τ [] [] τ
  | step {τ τ' τ'' : TConf} {t : List Label} {h : List Seen} {l : Label} : SeenT g τ t h τ' → TStep g τ' (some l) τ'' → l ≠ .soft →
      SeenT g τ (t ++ [l]) (h ++ (observed [l]).map .call) τ''
  /-- A store that waited reaches memory. -/
  | drain {τ τ' τ'' : TConf} {t : List Label} {h : List Seen} : SeenT g τ t h τ' → TStep g τ' none τ'' → SeenT g τ t h τ''
  | load {τ τ' : TConf} {t : List Label} {h : List Seen} (a : Nat) : SeenT g τ t h τ' → g.monitorTop.toNat ≤ a →
      τ'.m.owner g (regionOf g a) = nullEnclaveId → SeenT g τ t (h ++ [.load a (τ'.m.mem a)]) τ'
  | store {τ τ' : TConf} {t : List Label} {h : List Seen} (a : Nat) (v : W) : SeenT g τ t h τ' → g.monitorTop.toNat ≤ a →
      τ'.m.owner g (regionOf g a) = nullEnclaveId → SeenT g τ (t ++ [.soft]) (h ++ [.store a v]) { τ' with m := τ'.m.put a v }

end Sanctum
