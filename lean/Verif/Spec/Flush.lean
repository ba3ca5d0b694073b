import Verif.Spec.Atomic
/-
Calls in what is observable of an interleaving. Nothing here mentions the monitor's code.
-/
namespace Sanctum

/-- The core of an invocation or a return. -/
def Label.core : Label → Option Nat
  | .start c _ => some c
  | .act c _ _ => some c
  | .done c _ _ => some c
  | .soft => none

/-- `h` is what happens while the call `k` runs on core `c`, from its invocation to its return with `v`. -/
def During (c : Nat) (k : Call) (v : W) (h : List Label) : Prop :=
  ∃ mid, h = Label.start c k :: (mid ++ [Label.done c k v]) ∧ ∀ l ∈ mid, l.core ≠ some c

/-- Core `c` flushed its TLB in `t1`; or it did in `t0`, which comes before, and has not left the monitor in the rest of `t0`. -/
def FlushedSince (t0 t1 : List Label) (c : Nat) : Prop :=
  (∃ v, Label.act c .flushTlbs v ∈ t1) ∨ ∃ u v w, t0 = u ++ Label.act c .flushTlbs v :: w ∧ ∀ l ∈ w, ∀ k x, l ≠ Label.done c k x

/-- Core `c` was flushing after `h0`, or has started to flush in `h`. -/
def FlushesSince (h0 h : List Label) (c : Nat) : Prop := current h0 c = some .flushCachedDramRegions ∨ Label.start c .flushCachedDramRegions ∈ h

end Sanctum
