import Verif.Spec.Boot
/-
The last-level cache as the hardware sees it: which set an address goes to, given the core's cache index shift (src/bare/cpu_context.h:29-35,
src/bare/memory.h:29-59). Nothing here mentions the monitor's code.
-/
namespace Sanctum

/-- `f` is what the hardware may do to page numbers of `w` bits when the index shift is `s`: the `w - s` low bits of the result are the page number without
its `s` low bits. What becomes of the `s` bits that fall out is left open. -/
structure Shifter (w s : Nat) (f : Nat → Nat) : Prop where
  low : ∀ n, n < 2 ^ w → f n % 2 ^ (w - s) = n / 2 ^ s

/-- The set of the last-level cache for the physical address `a`, when page numbers are shifted by `f`. -/
def llcSet (p : Platform) (f : Nat → Nat) (a : Nat) : Nat :=
  (f (a / 4096) * 4096 + a % 4096) / p.line % p.sets

/-- A circular right shift (the bits that fall out come back at the top) is such a function. -/
theorem shifter_rotate (w s : Nat) (hs : s ≤ w) : Shifter w s (fun n => n / 2 ^ s + n % 2 ^ s * 2 ^ (w - s)) := by
  refine ⟨fun n hn => ?_⟩
  show (n / 2 ^ s + n % 2 ^ s * 2 ^ (w - s)) % 2 ^ (w - s) = _
  rw [Nat.add_mul_mod_self_right]
  refine Nat.mod_eq_of_lt (Nat.div_lt_of_lt_mul ?_)
  rw [← Nat.pow_add, Nat.add_sub_cancel' hs]; exact hn

/-- So is a logical right shift (the bits that fall out are lost). -/
theorem shifter_shift (w s : Nat) (hs : s ≤ w) : Shifter w s (fun n => n / 2 ^ s) := by
  refine ⟨fun n hn => Nat.mod_eq_of_lt (Nat.div_lt_of_lt_mul ?_)⟩
  rw [← Nat.pow_add, Nat.add_sub_cancel' hs]; exact hn

end Sanctum
