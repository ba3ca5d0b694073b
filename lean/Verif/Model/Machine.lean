import Verif.Model.BitMasking
/-
The machine: physical memory, per-core protection registers, DMA registers; the programs that run
on it (trees of atomic actions); sequential execution.
-/
namespace Sanctum

/-- The constants computed during boot and never changed afterwards
(src/monitor/dram_regions.h:57-110, src/monitor/metadata.h:59-66, src/monitor/cpu_core.h:40-47,
src/monitor/enclave.h:113-117). Array bases are the values of the `phys_ptr` globals. -/
structure Cfg where
  /-- `g_dram_size` -/
  dramSize : W
  /-- `g_dram_region_shift` -/
  regionShift : W
  /-- `g_dram_stripe_shift` -/
  stripeShift : W
  /-- `g_dram_stripe_page_mask` -/
  stripePageMask : W
  /-- `g_dram_region_mask` -/
  regionMask : W
  /-- `g_dram_stripe_mask` -/
  stripeMask : W
  /-- `g_dram_region_count` -/
  regionCount : W
  /-- `g_dram_stripe_size` -/
  stripeSize : W
  /-- `g_dram_stripe_pages` -/
  stripePages : W
  /-- `g_dram_region_bitmap_words` -/
  bitmapWords : W
  /-- `g_metadata_region_pages` -/
  metaPages : W
  /-- `g_metadata_region_start` -/
  metaStart : W
  /-- `g_core_count` -/
  coreCount : W
  /-- `g_core` -/
  coreBase : W
  /-- `g_dram_region` -/
  regionBase : W
  /-- `g_dram_regions` -/
  regionsBase : W
  /-- `g_os_region_bitmap` -/
  osBitmap : W
  /-- `g_monitor_top` -/
  monitorTop : W
  /-- Not a variable of the code: the result the platform gives to a left shift of a 64-bit value by
  an amount of 64 or more, which C++ leaves undefined (needed by src/monitor/dram_regions_inl.h:85-86). -/
  oobShl : W → W → W

/-- The observable machine state.
* `mem a`: the 64-bit little-endian word at the 8-byte aligned physical address `a`
  (`phys_buffer` of src/bare/arch/test/phys_ptr_arch.h);
* `dmaStart`, `dmaEnd`: the globals of src/monitor/dram_regions.cc:67-68;
* `dmarBase`, `dmarMask`: DMA master registers (src/bare/arch/test/memory_arch.h:23-28);
* `drb`, `edrb`, `parBase`, `parMask`, `tlbFlushes`, `cacheShift`: per-core registers
  (src/bare/arch/test/cpu_context_arch.h:16-27). -/
structure Machine where
  mem : Nat → W
  dmaStart : W
  dmaEnd : W
  dmarBase : W
  dmarMask : W
  drb : Nat → List W
  edrb : Nat → List W
  parBase : Nat → W
  parMask : Nat → W
  cacheShift : Nat → W
  tlbFlushes : Nat → Nat

/-- Pointwise update of a total map. -/
def upd {β : Type} (f : Nat → β) (a : Nat) (v : β) : Nat → β := fun x => if x = a then v else f x

/-- Atomic actions. -/
inductive Op where
  /-- 64-bit load / `atomic_load`: src/bare/arch/test/phys_ptr_arch.h:26-31, phys_atomics_arch.h:32-35 -/
  | load (a : W)
  /-- 64-bit store / `atomic_store` / `atomic_flag_clear`: phys_ptr_arch.h:32-39, phys_atomics_arch.h:19-21,36-39 -/
  | store (a v : W)
  /-- 32-bit load: phys_ptr_arch.h:41-46 -/
  | load32 (a : W)
  /-- 32-bit store: phys_ptr_arch.h:47-54 -/
  | store32 (a : W) (v : W32)
  /-- `atomic_flag_test_and_set`: phys_atomics_arch.h:14-18 (atomic, as its contract says) -/
  | tas (a : W)
  /-- `atomic_fetch_add`: phys_atomics_arch.h:40-45 (atomic, as its contract says) -/
  | fetchAdd (a v : W)
  /-- `current_core()`: cpu_context_arch.h:54 -/
  | curCore
  /-- `flush_tlbs()`: cpu_context_arch.h:56-58 -/
  | flushTlbs
  /-- the register write of `set_drb_map`: cpu_context_arch.h:89-92 (see `setDrbMap`) -/
  | setDrb (ws : List W)
  /-- `set_edrb_map(phys_addr)`: cpu_context_arch.h:93-96 -/
  | setEdrb (ws : List W)
  /-- `set_par_base`: cpu_context_arch.h:74-76 -/
  | setParBase (v : W)
  /-- `set_par_mask`: cpu_context_arch.h:80-82 -/
  | setParMask (v : W)
  /-- `set_cache_index_shift`: cpu_context_arch.h:62-64 -/
  | setCacheShift (v : W)
  /-- `set_dmar_base`: memory_arch.h:23-25 -/
  | setDmarBase (v : W)
  /-- `set_dmar_mask`: memory_arch.h:26-28 -/
  | setDmarMask (v : W)
  /-- reads of `g_dma_range_start` -/
  | getDmaStart
  /-- reads of `g_dma_range_end` -/
  | getDmaEnd
  /-- writes of `g_dma_range_start` -/
  | setDmaStart (v : W)
  /-- writes of `g_dma_range_end` -/
  | setDmaEnd (v : W)

/-- A piece of monitor code: a tree of atomic actions. `fault` is undefined behaviour reached by the
code itself, `diverge` an infinite loop. -/
inductive Prog (α : Type) where
  | ret (a : α)
  | op (o : Op) (k : W → Prog α)
  | fault
  | diverge

namespace Prog
/-- Sequential composition. -/
def bind {α β : Type} : Prog α → (α → Prog β) → Prog β
  | ret a, f => f a
  | op o k, f => op o (fun v => (k v).bind f)
  | fault, _ => fault
  | diverge, _ => diverge
end Prog

instance : Monad Prog where
  pure := Prog.ret
  bind := Prog.bind

/-- An aligned 64-bit access inside DRAM. Anything else trips the assertion of
src/bare/arch/test/phys_ptr_arch.h:29,36 or is an unaligned access. -/
def okAddr (g : Cfg) (a : W) : Bool := decide (a.toNat % 8 = 0 ∧ a.toNat + 8 ≤ g.dramSize.toNat)

/-- An aligned 32-bit access inside DRAM (phys_ptr_arch.h:44,51). -/
def okAddr32 (g : Cfg) (a : W) : Bool := decide (a.toNat % 4 = 0 ∧ a.toNat + 4 ≤ g.dramSize.toNat)

/-- The 32-bit lane of the little-endian word `w` at byte address `a`. -/
def lane32 (w : W) (a : Nat) : W32 := if a % 8 < 4 then w.extractLsb' 0 32 else w.extractLsb' 32 32

/-- Replaces the 32-bit lane at byte address `a` in the little-endian word `w`. -/
def setLane32 (w : W) (a : Nat) (v : W32) : W :=
  if a % 8 < 4 then (w.extractLsb' 32 32 ++ v : BitVec 64) else (v ++ w.extractLsb' 0 32 : BitVec 64)

/-- `words` aligned words starting at `a` lie inside DRAM. -/
def okRange (g : Cfg) (a : W) (words : Nat) : Bool :=
  decide (a.toNat % 8 = 0 ∧ a.toNat + 8 * words ≤ g.dramSize.toNat)

/-- The `words` words at `a`. -/
def snapshot (m : Machine) (a : Nat) (words : Nat) : List W := (List.range words).map (fun i => m.mem (a + 8 * i))

/-- Effect and response of one atomic action by core `c`; `none` is a faulting access. -/
def exec (g : Cfg) (c : Nat) (o : Op) (m : Machine) : Option (W × Machine) :=
  match o with
  | .load a => if okAddr g a then some (m.mem a.toNat, m) else none
  | .store a v => if okAddr g a then some (0, { m with mem := upd m.mem a.toNat v }) else none
  | .load32 a =>
      if okAddr32 g a then some ((lane32 (m.mem (a.toNat / 8 * 8)) a.toNat).setWidth 64, m) else none
  | .store32 a v =>
      if okAddr32 g a then
        some (0, { m with mem := upd m.mem (a.toNat / 8 * 8)
                                   (setLane32 (m.mem (a.toNat / 8 * 8)) a.toNat v) })
      else none
  | .tas a =>
      if okAddr g a then
        some (b2w (m.mem a.toNat != 0), { m with mem := upd m.mem a.toNat 1 })
      else none
  | .fetchAdd a v =>
      if okAddr g a then
        some (m.mem a.toNat, { m with mem := upd m.mem a.toNat (m.mem a.toNat + v) })
      else none
  | .curCore => some (BitVec.ofNat 64 c, m)
  | .flushTlbs => some (0, { m with tlbFlushes := upd m.tlbFlushes c (m.tlbFlushes c + 1) })
  | .setDrb ws => some (0, { m with drb := upd m.drb c ws })
  | .setEdrb ws => some (0, { m with edrb := upd m.edrb c ws })
  | .setParBase v => some (0, { m with parBase := upd m.parBase c v })
  | .setParMask v => some (0, { m with parMask := upd m.parMask c v })
  | .setCacheShift v => some (0, { m with cacheShift := upd m.cacheShift c v })
  | .setDmarBase v => some (0, { m with dmarBase := v })
  | .setDmarMask v => some (0, { m with dmarMask := v })
  | .getDmaStart => some (m.dmaStart, m)
  | .getDmaEnd => some (m.dmaEnd, m)
  | .setDmaStart v => some (0, { m with dmaStart := v })
  | .setDmaEnd v => some (0, { m with dmaEnd := v })

/-- Runs a program to completion on core `c`, undisturbed. `none`: it faults or diverges. -/
def run {α : Type} (g : Cfg) (c : Nat) : Prog α → Machine → Option (α × Machine)
  | .ret a, m => some (a, m)
  | .op o k, m =>
      match exec g c o m with
      | some (v, m') => run g c (k v) m'
      | none => none
  | .fault, _ => none
  | .diverge, _ => none

/-! ### Single-action programs -/

/-- One action, returning its response. -/
def act (o : Op) : Prog W := .op o .ret
/-- `*p` for a `phys_ptr` to a 64-bit type. -/
def load (a : W) : Prog W := act (.load a)
/-- `*p = v` for a `phys_ptr` to a 64-bit type. -/
def store (a v : W) : Prog Unit := .op (.store a v) (fun _ => .ret ())
/-- `*p` for a `phys_ptr<uint32_t>`. -/
def load32 (a : W) : Prog W32 := .op (.load32 a) (fun v => .ret (v.setWidth 32))
/-- `*p = v` for a `phys_ptr<uint32_t>`. -/
def store32 (a : W) (v : W32) : Prog Unit := .op (.store32 a v) (fun _ => .ret ())
/-- `atomic_flag_test_and_set(p)`. -/
def tas (a : W) : Prog Bool := .op (.tas a) (fun v => .ret (v != 0))
/-- An action whose response is not used. -/
def act_ (o : Op) : Prog Unit := .op o (fun _ => .ret ())

/-! ### Bitmaps and bulk memory -/

/-- `set_bitmap_bit`: src/bare/bit_masking.h:71-82 (`|=` and `&=` on a `phys_ref` are a load followed
by a store, src/bare/phys_ptr.h:79-86). -/
def setBitmapBit (bitmap bit : W) (value : Bool) : Prog Unit := do
  let a := bitmap + bitmapOffset bit * 8
  let w ← load a
  if value then store a (w ||| bitmapMask bit) else store a (w &&& ~~~ (bitmapMask bit))

/-- `read_bitmap_bit`: src/bare/bit_masking.h:84-92. -/
def readBitmapBit (bitmap bit : W) : Prog Bool := do
  let w ← load (bitmap + bitmapOffset bit * 8)
  pure ((w &&& bitmapMask bit) != 0)

/-- The loop of `snapshot_dram_region_bitmap`: src/bare/arch/test/cpu_context_arch.cc:46-51; `n` words left. The words are read one at a time; they are
collected and written to the register in one action at the end (`Op.setDrb`), which only the core itself could tell from writing them one at a time. The
register array has `max_dram_region_bitmap_words` words, whose tail is not written. -/
def snapshotLoop : Nat → W → Prog (List W)
  | 0, _ => pure []
  | n + 1, p => do
      let w ← load p
      let ws ← snapshotLoop n (p + 8)
      pure (w :: ws)

/-- `set_drb_map(phys_addr)`: src/bare/arch/test/cpu_context_arch.h:89-92. The word count is the platform's, assumed equal to `g_dram_region_bitmap_words`. -/
def setDrbMap (g : Cfg) (a : W) : Prog Unit := do
  let ws ← snapshotLoop g.bitmapWords.toNat a
  act_ (.setDrb ws)

/-- `set_edrb_map(phys_addr)`: src/bare/arch/test/cpu_context_arch.h:93-96. -/
def setEdrbMap (g : Cfg) (a : W) : Prog Unit := do
  let ws ← snapshotLoop g.bitmapWords.toNat a
  act_ (.setEdrb ws)

/-- The loop of `bzero<size_t>`: src/bare/arch/test/memory_arch.h:54-56, `n` words left. -/
def bzeroWords (start : W) : Nat → Prog Unit
  | 0 => pure ()
  | n + 1 => do
      store start 0
      bzeroWords (start + 8) n

/-- `bzero(phys_ptr<size_t>, bytes)`: src/bare/arch/test/memory_arch.h:49-57. The assertion on line 52
is subsumed by the per-access bound of `okAddr`. -/
def bzero (start bytes : W) : Prog Unit := bzeroWords start (bytes.toNat / 8)

end Sanctum
