import Verif.Spec.View
/-
Small concrete platforms, used only to show that hypotheses can be met and to exhibit witnesses.
-/
namespace Sanctum

/-- A machine whose memory and registers are all zero. -/
def zeroMachine : Machine :=
  { mem := fun _ => 0, dmaStart := 0, dmaEnd := 0, dmarBase := 0, dmarMask := 0, drb := fun _ => [], edrb := fun _ => []
    parBase := fun _ => 0, parMask := fun _ => 0, cacheShift := fun _ => 0, tlbFlushes := fun _ => 0 }

/-- 256 KiB of DRAM, 32 KiB cache index range (8 regions of one 32 KiB stripe), 4 cores. Out-of-range
shifts use the amount modulo 64, as RISC-V and x86 do. -/
def toyPlatform : Platform :=
  { dramSize := 0x40000, cacheLevels := 3, shared := fun i => i == 2, lineSize := fun _ => 64, setCount := fun _ => 512
    minShift := 0, maxShift := 16, coreCount := 4, oobShl := fun x n => x <<< (n.toNat % 64) }

/-- As `toyPlatform`, but the hardware can shift the cache index by one bit at most: 8 regions of 4
stripes of 8 KiB each. -/
def stripedPlatform : Platform := { toyPlatform with maxShift := 1 }

/-- As `stripedPlatform` with a smaller cache: 2 regions of 16 stripes of 8 KiB each. -/
def manyStripesPlatform : Platform := { stripedPlatform with setCount := fun _ => 128 }

/-- 8 KiB of DRAM, less than the cache index range. -/
def tinyDramPlatform : Platform := { toyPlatform with dramSize := 0x2000 }

/-- 192 KiB of DRAM, not a power of two. -/
def oddDramPlatform : Platform := { toyPlatform with dramSize := 0x30000 }

/-- Some configuration (never used when boot succeeds). -/
def zeroCfg : Cfg :=
  { dramSize := 0, regionShift := 0, stripeShift := 0, stripePageMask := 0, regionMask := 0, stripeMask := 0, regionCount := 0
    stripeSize := 0, stripePages := 0, bitmapWords := 0, metaPages := 0, metaStart := 0, coreCount := 0, coreBase := 0
    regionBase := 0, regionsBase := 0, osBitmap := 0, monitorTop := 0, oobShl := fun x _ => x }

/-- Did boot succeed? -/
def Boot.isOk {α : Type} : Boot α → Bool
  | .ok _ => true
  | _ => false

/-- The outcome of booting `p` from zeroed memory. -/
def booted (p : Platform) : Cfg × Machine :=
  match boot p zeroMachine with
  | .ok x => x
  | _ => (zeroCfg, zeroMachine)

theorem booted_ok {p : Platform} (h : (boot p zeroMachine).isOk = true) : boot p zeroMachine = .ok ((booted p).1, (booted p).2) := by
  unfold booted
  cases hb : boot p zeroMachine with
  | ok x => rfl
  | panic => rw [hb] at h; cases h
  | ub => rw [hb] at h; cases h
  | fault => rw [hb] at h; cases h

set_option maxRecDepth 100000 in
theorem toy_boots : (boot toyPlatform zeroMachine).isOk = true := by decide +kernel
set_option maxRecDepth 100000 in
theorem striped_boots : (boot stripedPlatform zeroMachine).isOk = true := by decide +kernel
set_option maxRecDepth 100000 in
theorem manyStripes_boots : (boot manyStripesPlatform zeroMachine).isOk = true := by decide +kernel
set_option maxRecDepth 100000 in
theorem tinyDram_boots : (boot tinyDramPlatform zeroMachine).isOk = true := by decide +kernel
set_option maxRecDepth 100000 in
theorem oddDram_boots : (boot oddDramPlatform zeroMachine).isOk = true := by decide +kernel

/-- Makes the calls `h` one after the other; the results, oldest first, and the final machine. -/
def runCalls (g : Cfg) : List (Nat × Call) → Machine → Option (List W × Machine)
  | [], m => some ([], m)
  | (c, k) :: h, m =>
      match call g c k m with
      | some (v, m') => (runCalls g h m').map (fun x => (v :: x.1, x.2))
      | none => none

/-- The history made by `runCalls`. -/
theorem hist_of_runCalls {g : Cfg} (h : List (Nat × Call)) : ∀ {m m' : Machine} {vs : List W},
    runCalls g h m = some (vs, m') → (∀ x ∈ h, x.1 < g.coreCount.toNat) →
    Hist g m (List.zipWith (fun x v => ⟨x.1, x.2, v⟩) h vs) m' := by
  induction h with
  | nil =>
      intro m m' vs hr _
      simp only [runCalls, Option.some.injEq, Prod.mk.injEq] at hr
      obtain ⟨rfl, rfl⟩ := hr
      exact .nil m
  | cons x h ih =>
      intro m m' vs hr hc
      obtain ⟨c, k⟩ := x
      rw [runCalls] at hr
      split at hr
      · rename_i v m1 hcall
        cases hrest : runCalls g h m1 with
        | none => rw [hrest] at hr; simp at hr
        | some y =>
            rw [hrest] at hr
            simp only [Option.map_some, Option.some.injEq, Prod.mk.injEq] at hr
            obtain ⟨rfl, rfl⟩ := hr
            exact .cons (hc (c, k) (by simp)) hcall (ih hrest (fun x hx => hc x (by simp [hx])))
      · simp at hr

/-- The results and the final machine of `runCalls`. -/
def after (g : Cfg) (h : List (Nat × Call)) (m : Machine) : List W × Machine := (runCalls g h m).getD ([], zeroMachine)

theorem after_ok {g : Cfg} {h : List (Nat × Call)} {m : Machine} (hs : (runCalls g h m).isSome = true) : runCalls g h m = some (after g h m) := by
  unfold after
  cases hr : runCalls g h m with
  | none => rw [hr] at hs; cases hs
  | some x => rfl

/-- The events of `runCalls`. -/
def events (g : Cfg) (h : List (Nat × Call)) (m : Machine) : List Event := List.zipWith (fun x v => ⟨x.1, x.2, v⟩) h (after g h m).1

theorem hist_after {g : Cfg} {h : List (Nat × Call)} {m : Machine} (hs : (runCalls g h m).isSome = true) (hc : ∀ x ∈ h, x.1 < g.coreCount.toNat) :
    Hist g m (events g h m) (after g h m).2 := hist_of_runCalls h (after_ok hs) hc

/-- The toy platform's configuration and its machine after boot. -/
def toyG : Cfg := (booted toyPlatform).1
@[inherit_doc toyG] def toyM : Machine := (booted toyPlatform).2

end Sanctum
