import Verif.Spec.Conc
/-
Counting calls in the trace of an interleaving. Nothing here mentions the monitor's code.
-/
namespace Sanctum

/-- The number of calls that satisfy `Q` and returned with success. -/
def succeeded (Q : Call → Bool) (t : List Label) : Nat :=
  t.countP fun l => match l with | .done _ k v => Q k && v == monitorOk | _ => false

/-- The number of calls that satisfy `Q` and have not returned. -/
def inProgress (g : Cfg) (Q : Call → Bool) (t : List Label) : Nat := (List.range g.cores).countP fun c => (current t c).any Q

/-- `n` is a possible number of calls that satisfy `Q` and took effect: all that succeeded and some of those in progress. -/
def MayCount (g : Cfg) (Q : Call → Bool) (t : List Label) (n : Nat) : Prop := succeeded Q t ≤ n ∧ n ≤ succeeded Q t + inProgress g Q t

/-- The call blocks region `r`. -/
def Call.blocks (r : W) : Call → Bool
  | .blockDramRegion r' => r' == r
  | _ => false

/-- The call frees region `r`. -/
def Call.frees (r : W) : Call → Bool
  | .freeDramRegion r' => r' == r
  | _ => false

/-- The call assigns region `r` to an owner. -/
def Call.assigns (r : W) : Call → Bool
  | .assignDramRegion r' _ => r' == r
  | _ => false

/-- The call makes region `r` a metadata region. -/
def Call.makesMetadata (r : W) : Call → Bool
  | .createMetadataRegion r' => r' == r
  | _ => false

/-- The call takes the free region `r`. -/
def Call.takes (r : W) (k : Call) : Bool := k.assigns r || k.makesMetadata r

end Sanctum
