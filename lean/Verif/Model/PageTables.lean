import Verif.Model.Machine
/-
Model of src/bare/page_tables.h, src/bare/arch/{riscv,test}/page_tables_arch.h and of the page walk of
src/monitor/enclave_inl.h:46-92.
-/
namespace Sanctum

/-- The architecture constants the walk depends on: for each level, from the leaves (level 0) up,
`page_table_shift(level)` and `page_table_entry_shift(level)`; `page_table_levels()` is the length. -/
structure PtGeom where
  levels : List (Nat × Nat)

/-- src/bare/arch/riscv/page_tables_arch.h:15-23. -/
def riscvGeom : PtGeom := ⟨[(9, 3), (9, 3), (9, 3)]⟩

/-- src/bare/arch/test/page_tables_arch.h:15-36. -/
def testGeom : PtGeom := ⟨[(9, 3), (10, 4), (11, 4)]⟩

/-- `page_table_translated_bits`: src/bare/page_tables.h:90-100. -/
def translatedBits (p : PtGeom) : Nat := pageShift + (p.levels.map Prod.fst).sum

/-- `page_table_size(level)`: src/bare/page_tables.h:70-82 (entries times entry size; the `int` shifts are in range for both architectures). -/
def pageTableSize (p : PtGeom) (level : Nat) : Nat := 2 ^ (p.levels.getD level (0, 0)).1 * 2 ^ (p.levels.getD level (0, 0)).2

/-- `page_table_pages(level)`: src/bare/page_tables.h:85-87. -/
def pageTablePages (p : PtGeom) (level : Nat) : Nat := pageTableSize p level >>> pageShift

/-- `is_valid_page_table_entry`: riscv/page_tables_arch.h:25-27, test/page_tables_arch.h:38-40. -/
def isValidPte (entryAddr : W) : Prog Bool := do
  let e ← load entryAddr
  pure ((e &&& 1) != 0)

/-- The mask `~((1 << page_shift()) - 1)` sign-extended to 64 bits (page_tables_arch.h, target_mask). -/
def pteTargetMask : W := ~~~ (pageSize - 1)

/-- `page_table_entry_target`: riscv/page_tables_arch.h:28-31, test/page_tables_arch.h:41-44. -/
def pteTarget (entryAddr : W) : Prog W := do
  let e ← load entryAddr
  pure (e &&& pteTargetMask)

/-- The value stored by `write_page_table_entry`: riscv/page_tables_arch.h:34-37, test:47-50. -/
def pteValue (target acl : W) : W := target ||| ((acl &&& (pageSize - 1)) ||| 1)

/-- `write_page_table_entry`: riscv/page_tables_arch.h:32-38, test/page_tables_arch.h:45-51. -/
def writePte (entryAddr target acl : W) : Prog Unit := store entryAddr (pteValue target acl)

/-- The loop of `walk_page_tables_to_entry`: src/monitor/enclave_inl.h:57-73. `upper` lists the levels
still to be walked, the current one first (so the current `walk_level` is `upper.length - 1`);
`addrShift` is the variable of the same name before its decrement. Running past level 0 happens only for
`level >= page_table_levels()`, which the code's contract excludes: `fault`. -/
def walkLoop (virtualAddr : W) (level : Nat) : List (Nat × Nat) → Nat → W → Prog W
  | [], _, _ => .fault
  | (shift, entryShift) :: rest, addrShift, table => do
      let addrShift := addrShift - shift
      let offset := (virtualAddr >>> addrShift) &&& (BitVec.ofNat 64 (2 ^ shift - 1))
      let entryAddr := table + (offset <<< entryShift)
      if rest.length = level then pure entryAddr
      else do
        let v ← isValidPte entryAddr
        if v then do
          let t ← pteTarget entryAddr
          walkLoop virtualAddr level rest addrShift t
        else pure 0

/-- `walk_page_tables_to_entry`: src/monitor/enclave_inl.h:46-74. -/
def walkToEntry (p : PtGeom) (ptb virtualAddr : W) (level : Nat) : Prog W :=
  if ptb = 0 then pure 0
  else walkLoop virtualAddr level p.levels.reverse (translatedBits p) ptb

/-- `walk_page_tables`: src/monitor/enclave_inl.h:85-92. -/
def walkPageTables (p : PtGeom) (ptb virtualAddr : W) : Prog W := do
  let entryAddr ← walkToEntry p ptb virtualAddr 0
  if entryAddr = 0 then pure 0
  else do
    let v ← isValidPte entryAddr
    if v then pteTarget entryAddr else pure 0

end Sanctum
