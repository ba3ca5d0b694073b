import Verif.Model.PageTables
import Verif.Model.Hash
import Verif.Model.Bare
import Verif.Spec.Toy
import Verif.Spec.Sha256
/-
The repository's own unit tests, run on the model. These are tests of the model, not theorems about it: they show that the definitions of `Model/` give
the results that src/**/*_test.cc expects of the C++ code. No claim rests on them. Not translated: src/bare/traits_test.cc and
src/bare/base_types_test.cc (compile-time facts about C++ types), and the tests of functions that the monitor never calls and the model omits
(`flush_private_caches`, `set_ptbr`, `set_eptbr`, `set_epar_*`, `set_ev_*`).
-/
namespace Sanctum.RepoTests
open Sanctum

/-- What a piece of code returns when it runs on core `c` of the machine `m`. -/
def sees {α : Type} (g : Cfg) (c : Nat) (p : Prog α) (m : Machine) : Option α := (run g c p m).map (·.1)

/-- The words of `phys_buffer` at the addresses `l`. -/
def peek : List W → Prog (List W)
  | [] => pure []
  | a :: l => do
      let w ← load a
      let ws ← peek l
      pure (w :: ws)

/-- Several calls of the same function, and their results. -/
def each {α β : Type} (f : α → Prog β) : List α → Prog (List β)
  | [] => pure []
  | x :: l => do
      let y ← f x
      let ys ← each f l
      pure (y :: ys)

/-- The test rig: a configuration with 256 KiB of `phys_buffer` and nothing else. -/
def rig : Cfg := { zeroCfg with dramSize := 0x40000 }

/-! ### src/bare/bit_masking_test.cc -/

-- lines 20-41
example : [0x00, 0x01, 0x03, 0x07, 0x0F, 0x1F, 0x3F, 0x7F, 0xFF].map isValidRangeMask = List.replicate 9 true := by decide +kernel
example : [0x02, 0x04, 0x05, 0x06, 0x08, 0x09, 0x0A, 0x0E, 0xFE].map isValidRangeMask = List.replicate 9 false := by decide +kernel
-- lines 43-51
example : [(0x10, 0x0F), (0x18, 0x0F), (0x100, 0xFF), (0x101, 0xFF), (0x200, 0xFF), (0x220, 0xFF), (0x1000, 0xFF)].map (fun x => isAlignedToMask x.1 x.2)
    = [true, false, true, false, true, false, true] := by decide +kernel
-- lines 53-58
example : [(0x10, 0x0F), (0x10, 0x08), (0x11, 0x0F), (0x11, 0x08)].map (fun x => isValidRange x.1 x.2) = [true, false, false, false] := by decide +kernel
-- lines 60-69
example : [0, 1, 0x1000, 0x1001, 0x2000, 0x2001, 0x4000, 0x4800].map isPageAligned = [true, false, true, false, true, false, true, false] := by
  decide +kernel
-- lines 71-88
example : [0, 1, 0x800, 0xFFF, 0x1000, 0x1001, 0x1800, 0x1FFF, 0x2000, 0x2001, 0x3FFF, 0x4000, 0x4001, 65535, 65536, 65537].map pagesNeededFor
    = [0, 1, 1, 1, 1, 2, 2, 2, 2, 3, 4, 4, 5, 16, 16, 17] := by decide +kernel
-- lines 90-101
example : [1, 2, 3, 4, 5, 8, 9, 16, 65535, 65536].map addressBitsFor = [0, 1, 2, 2, 3, 3, 4, 4, 16, 16] := by decide +kernel
-- lines 103-114
example : [1, 2, 3, 4, 5, 8, 9, 16, 65535, 65536].map ceilPowerOfTwo = [1, 2, 4, 4, 8, 8, 16, 16, 65536, 65536].map some := by decide +kernel
-- lines 116-131
example : [1, 2, 3, 4, 5, 6, 7, 8, 9, 15, 16, 17, 65535, 65536].map isPowerOfTwo
    = [true, true, false, true, false, false, false, true, false, false, true, false, false, true] := by decide +kernel
-- lines 133-145
example : [0xff, 0xff00, 0xff0000, 0xff000000, 0, 0x78563412, 0x12345678, 0x98badcfe, 0xfedcba98].map reverseBytes
    = [0xff000000, 0xff0000, 0xff00, 0xff, 0, 0x12345678, 0x78563412, 0xfedcba98, 0x98badcfe] := by decide +kernel

/-- lines 156-177: bits of the first word. -/
def bitmapFirst : Prog (List (W × List Bool)) := do
  store 160 0xFFFF
  let b0 ← each (readBitmapBit 160) [0, 1, 2, 3]
  setBitmapBit 160 0 false
  let w1 ← load 160
  let b1 ← each (readBitmapBit 160) [0, 1, 2, 3]
  setBitmapBit 160 3 false
  let w2 ← load 160
  let b2 ← each (readBitmapBit 160) [0, 1, 2, 3]
  setBitmapBit 160 0 true
  let w3 ← load 160
  let b3 ← each (readBitmapBit 160) [0, 1, 2, 3]
  pure [(0xFFFF, b0), (w1, b1), (w2, b2), (w3, b3)]

example : sees rig 0 bitmapFirst zeroMachine
    = some [(0xFFFF, [true, true, true, true]), (0xFFFE, [false, true, true, true]), (0xFFF6, [false, true, true, false]),
        (0xFFF7, [true, true, true, false])] := by decide +kernel

/-- lines 179-250: bits 317 to 322, around the boundary between two words; `ptr2 - 1` is 192, `ptr2` is 200. -/
def bitmapSecond : List (W × Bool) → Prog (List (List W × List Bool))
  | [] => pure []
  | (bit, v) :: l => do
      setBitmapBit 160 bit v
      let ws ← peek [192, 200]
      let bs ← each (readBitmapBit 160) [317, 318, 319, 320, 321, 322]
      let rest ← bitmapSecond l
      pure ((ws, bs) :: rest)

example : sees rig 0 (bitmapSecond [(320, true), (321, true), (320, false), (319, true), (320, true), (318, true), (319, false)]) zeroMachine
    = some [([0, 1], [false, false, false, true, false, false]),
        ([0, 3], [false, false, false, true, true, false]),
        ([0, 2], [false, false, false, false, true, false]),
        ([0x8000000000000000, 2], [false, false, true, false, true, false]),
        ([0x8000000000000000, 3], [false, false, true, true, true, false]),
        ([0xC000000000000000, 3], [false, true, true, true, true, false]),
        ([0x4000000000000000, 3], [false, true, false, true, true, false])] := by decide +kernel

/-! ### src/bare/page_tables_test.cc -/

-- lines 25-57
example : testGeom.levels.length = 3 ∧ pageShift = 12 ∧ pageSize = 4096 ∧ translatedBits testGeom = 42 := by decide +kernel
example : testGeom.levels.map Prod.fst = [9, 10, 11] ∧ testGeom.levels.map Prod.snd = [3, 4, 4] := by decide +kernel
example : [0, 1, 2].map (pageTableSize testGeom) = [4096, 16384, 32768] ∧ [0, 1, 2].map (pageTablePages testGeom) = [1, 4, 8] := by decide +kernel

/-- Stores each value at 160 and calls `f` on that entry. -/
def onEntry {α : Type} (f : W → Prog α) : List W → Prog (List α) := each fun v => do
  store 160 v
  f 160

-- lines 59-81
example : sees rig 0 (onEntry isValidPte [0, 1, 0xcafebabe000, 0xcafebabe001]) zeroMachine = some [false, true, false, true] := by decide +kernel
-- lines 83-110
example : sees rig 0 (onEntry pteTarget [0, 1, 0xcafebabe000, 0xcafebabe001, 0xcafebabffff]) zeroMachine
    = some [0, 0, 0xcafebabe000, 0xcafebabe000, 0xcafebabf000] := by decide +kernel
-- lines 112-133
example : sees rig 0 (each (fun acl => do writePte 160 0xcafebabe000 acl; load 160) [0, 0xffffffffff]) zeroMachine
    = some [0xcafebabe001, 0xcafebabefff] := by decide +kernel

/-! ### src/monitor/metadata_inl_test.cc -/

-- lines 20-40
example : isPowerOfTwo 8 = true ∧ metadataPageTypeMask < pageSize - 1 := by decide +kernel
example : [emptyPageType, innerPageType, enclavePageType, threadPageType].map (· &&& metadataPageTypeMask)
    = [emptyPageType, innerPageType, enclavePageType, threadPageType] := by decide +kernel
-- lines 42-50
example : metadataPageInfo 0xAA0000 0x3 = 0xAA0003 ∧ emptyMetadataPageInfo = 0 := by decide +kernel
-- lines 52-61
example : [0xFFF000, 0xEFE001, 0xEEE0002, 0xAA0003].map metadataPageInfoType = [0, 1, 2, 3] := by decide +kernel

/-! ### src/bare/phys_atomics_test.cc -/

-- lines 14-39
example : sees rig 0 (do
      let a ← tas 160
      let w1 ← peek [160, 200]
      let b ← tas 200
      let w2 ← peek [160, 200]
      let c ← tas 160
      let d ← tas 200
      let w3 ← peek [160, 200]
      pure ([a, b, c, d], [w1, w2, w3])) zeroMachine
    = some ([false, false, true, true], [[1, 0], [1, 1], [1, 1]]) := by decide +kernel
example : sees rig 0 (each tasCode [160, 200, 160, 200]) zeroMachine = some [false, false, true, true] := by decide +kernel
-- lines 41-70
example : sees rig 0 (do
      let _ ← tas 160
      let _ ← tas 200
      let w1 ← peek [160, 200]
      clearCode 160
      let w2 ← peek [160, 200]
      clearCode 200
      let w3 ← peek [160, 200]
      let a ← tas 160
      let b ← tas 200
      pure ([a, b], [w1, w2, w3])) zeroMachine
    = some ([false, false], [[1, 1], [0, 1], [0, 0]]) := by decide +kernel
-- lines 72-116, 118-162
example : sees rig 0 (do
      store 160 0xbeef
      let w1 ← load 160
      store 160 0xdeed
      let w2 ← load 160
      let a ← act (.fetchAdd 160 0xbeef)
      let w3 ← load 160
      let b ← act (.fetchAdd 160 0xbeef)
      let w4 ← load 160
      pure [w1, w2, a, w3, b, w4]) zeroMachine
    = some [0xbeef, 0xdeed, 0xdeed, 0xdeed + 0xbeef, 0xdeed + 0xbeef, 0xdeed + 2 * 0xbeef] := by decide +kernel
example : sees rig 0 (do
      store 160 0xdeed
      let a ← fetchAddCode 160 0xbeef
      let w3 ← load 160
      let b ← fetchAddCode 160 0xbeef
      let w4 ← load 160
      store 160 0xdeed
      let c ← fetchSubCode 160 0xbeef
      let w5 ← load 160
      let d ← fetchSubCode 160 0xbeef
      let w6 ← load 160
      pure [a, w3, b, w4, c, w5, d, w6]) zeroMachine
    = some [0xdeed, 0xdeed + 0xbeef, 0xdeed + 0xbeef, 0xdeed + 2 * 0xbeef, 0xdeed, 0xdeed - 0xbeef, 0xdeed - 0xbeef, 0xdeed - 2 * 0xbeef] := by
  decide +kernel

/-! ### src/bare/memory_test.cc -/

-- lines 18-30
example : ((run rig 0 (do act_ (.setDmarBase 0x21000000); act_ (.setDmarMask 0x1fffff)) zeroMachine).map fun x => (x.2.dmarBase, x.2.dmarMask))
    = some (0x21000000, 0x1fffff) := by decide +kernel

/-- `phys_buffer` filled by `memset`, 256 bytes. -/
def filled (f : Nat → BitVec 8) : PhysBuf := ⟨256, f⟩

/-- `*(phys_ptr<size_t>{a})` for each `a` of the list. -/
def words (b : PhysBuf) (l : List W) : List (Option W) := l.map fun a => match refGet 8 b a with
  | .ok v => some (v.setWidth 64)
  | _ => none

/-- The words at `l` after `o`. -/
def wordsOf (o : Out PhysBuf) (l : List W) : List (Option W) := match o with
  | .ok b => words b l
  | _ => []

-- lines 90-126: `bzero` of 0, 8 and 96 bytes at 64, in the library as it is ...
example : wordsOf (bzeroT 8 (filled fun _ => 0xcc) 64 0) [48, 56, 64, 72, 80] = List.replicate 5 (some 0xcccccccccccccccc) := by decide +kernel
example : wordsOf (bzeroT 8 (filled fun _ => 0xcc) 64 8) [48, 56, 64, 72, 80]
    = [some 0xcccccccccccccccc, some 0xcccccccccccccccc, some 0, some 0xcccccccccccccccc, some 0xcccccccccccccccc] := by decide +kernel
example : wordsOf (bzeroT 8 (filled fun _ => 0xcc) 64 96) [48, 56, 64, 72, 80, 144, 152]
    = [some 0xcccccccccccccccc, some 0xcccccccccccccccc, some 0, some 0, some 0, some 0, some 0] := by decide +kernel
example : wordsOf (bzeroT 8 (filled fun _ => 0xcc) 64 96) [160, 168, 176] = List.replicate 3 (some 0xcccccccccccccccc) := by decide +kernel
-- ... and as the monitor's programs use it
example : sees rig 0 (do bzero 64 96; peek [48, 56, 64, 72, 80, 144, 152, 160, 168, 176]) { zeroMachine with mem := fun _ => 0xcccccccccccccccc }
    = some ([0xcccccccccccccccc, 0xcccccccccccccccc, 0, 0, 0, 0, 0, 0xcccccccccccccccc, 0xcccccccccccccccc, 0xcccccccccccccccc]) := by decide +kernel

/-- `memset(phys_buffer, 0xcc, 128); memset(phys_buffer + 128, 0xdd, 128)`. -/
def halves : PhysBuf := filled fun x => if x < 128 then 0xcc else 0xdd

-- lines 128-169: `bcopy` of 0, 8 and 48 bytes from 160 to 32
example : wordsOf (bcopyT 8 halves 32 160 0) [16, 24, 32, 40, 48] = List.replicate 5 (some 0xcccccccccccccccc) := by decide +kernel
example : wordsOf (bcopyT 8 halves 32 160 8) [16, 24, 32, 40, 48]
    = [some 0xcccccccccccccccc, some 0xcccccccccccccccc, some 0xdddddddddddddddd, some 0xcccccccccccccccc, some 0xcccccccccccccccc] := by decide +kernel
example : wordsOf (bcopyT 8 halves 32 160 48) [16, 24, 32, 40, 48, 64, 72, 80, 88, 96]
    = List.replicate 2 (some 0xcccccccccccccccc) ++ List.replicate 5 (some 0xdddddddddddddddd) ++ List.replicate 3 (some 0xcccccccccccccccc) := by
  decide +kernel

/-! ### src/bare/phys_ptr_test.cc -/

/-- `phys_buffer` holding the 64-bit value at 160, zero elsewhere. -/
def buf64 (v : W) : Out PhysBuf := refSet 8 ⟨256, fun _ => 0⟩ 160 v

-- lines 12-119, 64-bit values: reads, writes, indexing, copies
example : wordsOf (buf64 0xdeadbeefbeefdead) [152, 160, 168] = [some 0, some 0xdeadbeefbeefdead, some 0] := by decide +kernel
example : wordsOf (do let b ← buf64 0xdeadbeefbeefdead; refSet 8 b 160 0xbad0deeddeedbad0) [160] = [some 0xbad0deeddeedbad0] := by decide +kernel
example : wordsOf (do let b ← buf64 0xdeadbeefbeefdead; refSet 8 b (ptrIndex 8 160 1) 0xbad0deeddeedbad0) [160, 168]
    = [some 0xdeadbeefbeefdead, some 0xbad0deeddeedbad0] := by decide +kernel
example : wordsOf (do let b ← buf64 0xdeadbeefbeefdead; refSet 8 b (ptrIndex 8 160 2) 0xbad0deeddeedbad0) [176] = [some 0xbad0deeddeedbad0] := by
  decide +kernel
example : wordsOf (do let b ← buf64 0xdeadbeefbeefdead; let b ← refSet 8 b 168 0xbad0deeddeedbad0; refCopy 8 b 160 168) [160, 168]
    = [some 0xbad0deeddeedbad0, some 0xbad0deeddeedbad0] := by decide +kernel
example : ptrIndex 8 160 16 = ptrAdd 8 160 16 ∧ ptrSub 8 (ptrAdd 8 160 16) 8 = ptrIndex 8 160 8 := by decide +kernel
example : [(· + ·), (· - ·), (· ||| ·), (· &&& ·)].map (fun f => wordsOf (do let b ← buf64 0xdeadbeefbeefdead; refUpdate 8 f b 160 0xbad0deeddeedbad0) [160])
    = [[some (0xdeadbeefbeefdead + 0xbad0deeddeedbad0)], [some (0xdeadbeefbeefdead - 0xbad0deeddeedbad0)],
       [some (0xdeadbeefbeefdead ||| 0xbad0deeddeedbad0)], [some (0xdeadbeefbeefdead &&& 0xbad0deeddeedbad0)]] := by decide +kernel

/-- The same with the 32-bit value. -/
def buf32 (v : W32) : Out PhysBuf := refSet 4 ⟨256, fun _ => 0⟩ 160 v

/-- `*(phys_ptr<uint32_t>{a})` for each `a` of the list. -/
def halvesOf (o : Out PhysBuf) (l : List W) : List (Option W32) := match o with
  | .ok b => l.map fun a => match refGet 4 b a with
    | .ok v => some (v.setWidth 32)
    | _ => none
  | _ => []

-- lines 121-228, 32-bit values
example : halvesOf (buf32 0xdeadbeef) [156, 160, 164] = [some 0, some 0xdeadbeef, some 0] := by decide +kernel
example : halvesOf (do let b ← buf32 0xdeadbeef; refSet 4 b (ptrIndex 4 160 1) 0xbad0deed) [160, 164] = [some 0xdeadbeef, some 0xbad0deed] := by
  decide +kernel
example : halvesOf (do let b ← buf32 0xdeadbeef; let b ← refSet 4 b 164 0xbad0deed; refCopy 4 b 160 164) [160, 164]
    = [some 0xbad0deed, some 0xbad0deed] := by decide +kernel
example : ptrIndex 4 160 16 = ptrAdd 4 160 16 ∧ ptrSub 4 (ptrAdd 4 160 16) 8 = ptrIndex 4 160 8 := by decide +kernel
example : [(· + ·), (· - ·), (· ||| ·), (· &&& ·)].map (fun f => halvesOf (do let b ← buf32 0xdeadbeef; refUpdate 4 f b 160 0xbad0deed) [160])
    = [[some (0xdeadbeef + 0xbad0deed)], [some (0xdeadbeef - 0xbad0deed)], [some (0xdeadbeef ||| 0xbad0deed)], [some (0xdeadbeef &&& 0xbad0deed)]] := by
  decide +kernel

/-! ### src/bare/cpu_context_test.cc -/

/-- Makes each action on its core, one after the other. -/
def onCores (g : Cfg) : List (Nat × Prog Unit) → Machine → Option Machine
  | [], m => some m
  | (c, p) :: l, m => (run g c p m).bind fun x => onCores g l x.2

-- lines 46-73
example : (onCores rig [(0, act_ .flushTlbs), (3, act_ .flushTlbs), (3, act_ .flushTlbs), (0, act_ .flushTlbs), (0, act_ .flushTlbs)] zeroMachine).map
      (fun m => (m.tlbFlushes 0, m.tlbFlushes 3)) = some (3, 2) := by decide +kernel
-- lines 105-124
example : (onCores rig [(0, act_ (.setCacheShift 11))] zeroMachine).map (fun m => (m.cacheShift 0, m.cacheShift 3)) = some (11, 0) := by decide +kernel
example : (onCores rig [(0, act_ (.setCacheShift 11)), (3, act_ (.setCacheShift 10))] zeroMachine).map (fun m => (m.cacheShift 0, m.cacheShift 3))
    = some (11, 10) := by decide +kernel
-- lines 166-183, 204-221
example : (onCores rig [(3, act_ (.setParBase 0x21000000)), (3, act_ (.setParMask 0x3fff))] zeroMachine).map
      (fun m => ((m.parBase 0, m.parMask 0), (m.parBase 3, m.parMask 3))) = some ((0, 0), (0x21000000, 0x3fff)) := by decide +kernel

/-- lines 282-286: word `i` of memory holds `i` up to 127, zero from 128. -/
def numbered : Machine := { zeroMachine with mem := fun a => if a / 8 < 128 then BitVec.ofNat 64 (a / 8) else 0 }

-- lines 290-333: the registers hold the words of the map, as many as the platform's bitmap has
example : (onCores { rig with bitmapWords := 2 } [(0, setDrbMap { rig with bitmapWords := 2 } (42 * 8))] numbered).map (fun m => (m.drb 0, m.drb 3))
    = some ([42, 43], []) := by decide +kernel
example : (onCores { rig with bitmapWords := 3 } [(0, setDrbMap { rig with bitmapWords := 3 } (64 * 8)), (3, setDrbMap { rig with bitmapWords := 3 } (29 * 8))]
      numbered).map (fun m => (m.drb 0, m.drb 3)) = some ([64, 65, 66], [29, 30, 31]) := by decide +kernel
example : (onCores { rig with bitmapWords := 3 } [(0, setDrbMap { rig with bitmapWords := 3 } (64 * 8)), (0, setDrbMap { rig with bitmapWords := 3 } (128 * 8))]
      numbered).map (fun m => m.drb 0) = some [0, 0, 0] := by decide +kernel
-- lines 335-387
example : (onCores { rig with bitmapWords := 3 } [(0, setEdrbMap { rig with bitmapWords := 3 } (64 * 8)), (3, setEdrbMap { rig with bitmapWords := 3 } (29 * 8))]
      numbered).map (fun m => (m.edrb 0, m.edrb 3)) = some ([64, 65, 66], [29, 30, 31]) := by decide +kernel

/-! ### src/crypto/hash_test.cc -/

/-- `h[0..7]` of the hash state at 160. -/
def digestAt160 : Prog (List W32) := each (fun i => load32 (at32 160 i)) [0, 1, 2, 3, 4, 5, 6, 7]

/-- Hashes the 64-byte blocks at the addresses `l`. -/
def hashBlocks (l : List W) : Prog (List W32) := do
  initHash 160
  let _ ← each (extendHash 160) l
  finalizeHash 160
  digestAt160

-- lines 15-33
example : sees rig 0 (hashBlocks []) zeroMachine
    = some [0xe3b0c442, 0x98fc1c14, 0x9afbf4c8, 0x996fb924, 0x27ae41e4, 0x649b934c, 0xa495991b, 0x7852b855] := by decide +kernel
-- lines 35-57
example : sees rig 0 (hashBlocks [400]) { zeroMachine with mem := fun a => if 400 ≤ a then 0x4141414141414141 else 0 }
    = some [0xd53eda7a, 0x637c99cc, 0x7fb566d9, 0x6e9fa109, 0xbf15c478, 0x410a3f5e, 0xb4d4c4e2, 0x6cd081f6] := by decide +kernel

-- lines 59-82: "abcdbcdecdefdefgefghfghighijhijkijkljklmklmnlmnomnopnopq01234567"
example : sees rig 0 (hashBlocks [400])
      { zeroMachine with mem := fun a => if 400 ≤ a then [0x6564636264636261, 0x6766656466656463, 0x6968676668676665, 0x6b6a69686a696867, 0x6d6c6b6a6c6b6a69, 0x6f6e6d6c6e6d6c6b, 0x71706f6e706f6e6d, 0x3736353433323130].getD ((a - 400) / 8) 0 else 0 }
    = some [0x9e411773, 0x2130ab9d, 0xc766d118, 0x4ecb8dcc, 0xf82bc6a4, 0x2a12378a, 0x0fd067b9, 0x5d04ebff] := by decide +kernel
-- lines 84-109: a page, on the specification of the hash (`C44_any_length` relates the two), eight blocks at a time
def pageWords : List Sha.Word := List.replicate 16 0x55555555
def eightBlocks (s : Sha.State) : Sha.State := (List.replicate 8 pageWords).foldl Sha.compress s
theorem page_blocks : Sha.blocks 65 (Sha.words (Sha.padWith 32768 (List.replicate 4096 0x55))) =
    List.replicate 64 pageWords ++ [0x80000000 :: List.replicate 14 0 ++ [0x8000]] := by decide +kernel
theorem page_start : Sha.H0 = ⟨0x6a09e667, 0xbb67ae85, 0x3c6ef372, 0xa54ff53a, 0x510e527f, 0x9b05688c, 0x1f83d9ab, 0x5be0cd19⟩ := by decide +kernel
theorem page_eight0 : eightBlocks ⟨0x6a09e667, 0xbb67ae85, 0x3c6ef372, 0xa54ff53a, 0x510e527f, 0x9b05688c, 0x1f83d9ab, 0x5be0cd19⟩ =
    ⟨0x637511fe, 0xf57c5b4e, 0x46f1399c, 0x126f0f04, 0x22275654, 0x5e0cd4ae, 0xe95faf77, 0x80e7d31f⟩ := by decide +kernel
theorem page_eight1 : eightBlocks ⟨0x637511fe, 0xf57c5b4e, 0x46f1399c, 0x126f0f04, 0x22275654, 0x5e0cd4ae, 0xe95faf77, 0x80e7d31f⟩ =
    ⟨0x8317466c, 0x8abb7f38, 0x7b0e0994, 0xf4fda4a9, 0x6623e16b, 0xe34fa948, 0xb4c80e01, 0x59aa1326⟩ := by decide +kernel
theorem page_eight2 : eightBlocks ⟨0x8317466c, 0x8abb7f38, 0x7b0e0994, 0xf4fda4a9, 0x6623e16b, 0xe34fa948, 0xb4c80e01, 0x59aa1326⟩ =
    ⟨0x27a58829, 0xac1027ec, 0x16031704, 0x8f2ffaf3, 0xd7e23d88, 0x29189e1e, 0xc94b5137, 0xa9702911⟩ := by decide +kernel
theorem page_eight3 : eightBlocks ⟨0x27a58829, 0xac1027ec, 0x16031704, 0x8f2ffaf3, 0xd7e23d88, 0x29189e1e, 0xc94b5137, 0xa9702911⟩ =
    ⟨0x90f1fa85, 0x7c9d31cb, 0x543f4160, 0xcdefd10d, 0x6ec90235, 0x28b37176, 0xddf293d6, 0xf899b1a8⟩ := by decide +kernel
theorem page_eight4 : eightBlocks ⟨0x90f1fa85, 0x7c9d31cb, 0x543f4160, 0xcdefd10d, 0x6ec90235, 0x28b37176, 0xddf293d6, 0xf899b1a8⟩ =
    ⟨0xc1e5ffa7, 0x2b2f9001, 0xd7013e06, 0x24af87db, 0xccdfd92f, 0x4a3b3f4c, 0x1e0ad0e8, 0x669e61df⟩ := by decide +kernel
theorem page_eight5 : eightBlocks ⟨0xc1e5ffa7, 0x2b2f9001, 0xd7013e06, 0x24af87db, 0xccdfd92f, 0x4a3b3f4c, 0x1e0ad0e8, 0x669e61df⟩ =
    ⟨0x491b3ecf, 0x0f08018e, 0xf5aba25c, 0xb0af13a4, 0x2552a1bd, 0x7771d27a, 0x22280126, 0xbb79cf55⟩ := by decide +kernel
theorem page_eight6 : eightBlocks ⟨0x491b3ecf, 0x0f08018e, 0xf5aba25c, 0xb0af13a4, 0x2552a1bd, 0x7771d27a, 0x22280126, 0xbb79cf55⟩ =
    ⟨0x79e42256, 0x44221de9, 0x01986043, 0xf185e17b, 0x6e3fd8c8, 0x175d99e0, 0xd2a278f1, 0x9833ab77⟩ := by decide +kernel
theorem page_eight7 : eightBlocks ⟨0x79e42256, 0x44221de9, 0x01986043, 0xf185e17b, 0x6e3fd8c8, 0x175d99e0, 0xd2a278f1, 0x9833ab77⟩ =
    ⟨0xf342f354, 0xbe2b1538, 0x8c3efc7c, 0xccdc5d4e, 0x39ac9cce, 0x17dc353b, 0xffdeae56, 0x4b05de08⟩ := by decide +kernel
theorem page_last : Sha.compress ⟨0xf342f354, 0xbe2b1538, 0x8c3efc7c, 0xccdc5d4e, 0x39ac9cce, 0x17dc353b, 0xffdeae56, 0x4b05de08⟩ (0x80000000 :: List.replicate 14 0 ++ [0x8000]) =
    ⟨0x0561079e, 0x4fe3390b, 0xc1d8bb70, 0x6edb7d80, 0x243eeca7, 0xddf876ce, 0xfbaa8c16, 0x84db80c3⟩ := by decide +kernel
theorem page_split' {α β : Type} (f : α → β → α) (b : β) (s : α) : (List.replicate 64 b).foldl f s =
    let e := fun s => (List.replicate 8 b).foldl f s
    e (e (e (e (e (e (e (e s))))))) := by simp only [List.replicate, List.foldl]
theorem page_split (s : Sha.State) : (List.replicate 64 pageWords).foldl Sha.compress s =
    eightBlocks (eightBlocks (eightBlocks (eightBlocks (eightBlocks (eightBlocks (eightBlocks (eightBlocks s))))))) := page_split' _ _ _
theorem page_length : (Sha.padWith 32768 (List.replicate 4096 0x55)).length / 64 = 65 := by decide +kernel
example : Sha.sha256 (List.replicate 4096 0x55)
    = ⟨0x0561079e, 0x4fe3390b, 0xc1d8bb70, 0x6edb7d80, 0x243eeca7, 0xddf876ce, 0xfbaa8c16, 0x84db80c3⟩ := by
  unfold Sha.sha256 Sha.hashWith
  rw [List.length_replicate, show 8 * 4096 = 32768 from rfl, page_length, page_blocks, List.foldl_append, page_split, page_start, page_eight0, page_eight1, page_eight2, page_eight3,
    page_eight4, page_eight5, page_eight6, page_eight7]
  exact page_last

/-! ### src/monitor/boot_init_test.cc -/

/-- `set_up_paper_memory_model` (lines 50-73) with the given DRAM size and `max_cache_index_shift`; `toyPlatform` is the case `0x40000`, 16. -/
def paper (dram maxShift : W) : Platform := { toyPlatform with dramSize := dram, maxShift := maxShift }

/-- `boot_init_dram_regions` and then `boot_init_metadata`. -/
def geometry (p : Platform) : Option Cfg := match bootInitDramRegions p with
  | .ok (g, _) => some (bootInitMetadata g)
  | _ => none

/-- `check_dram_geometry_invariants`: lines 75-121. -/
def checkInvariants (g : Cfg) : Bool :=
  let pageMask := pageSize - 1
  [ pageMask &&& g.stripePageMask == 0,
    g.stripePageMask == 0 || decide (pageMask < g.stripePageMask),
    g.stripePageMask &&& g.regionMask == 0,
    g.stripePageMask == 0 || decide (g.stripePageMask < g.regionMask),
    g.regionMask &&& g.stripeMask == 0,
    g.stripeMask == 0 || decide (g.regionMask < g.stripeMask),
    g.stripePageMask == 0 || (g.stripePageMask &&& pageSize == pageSize && decide (pageSize ≤ g.stripePageMask)),
    g.regionMask &&& ((1 : W) <<< g.regionShift.toNat) == (1 : W) <<< g.regionShift.toNat,
    decide ((1 : W) <<< g.regionShift.toNat ≤ g.regionMask),
    g.stripeMask == 0 || (g.stripeMask &&& ((1 : W) <<< g.stripeShift.toNat) == (1 : W) <<< g.stripeShift.toNat
      && decide ((1 : W) <<< g.stripeShift.toNat ≤ g.stripeMask)),
    isPowerOfTwo g.regionCount,
    (g.regionMask >>> g.regionShift.toNat) + 1 == g.regionCount,
    (pageMask ||| g.stripePageMask ||| g.regionMask ||| g.stripeMask) == g.dramSize - 1,
    isPowerOfTwo g.stripeSize,
    isPowerOfTwo g.stripePages,
    g.stripeSize == (1 : W) <<< g.regionShift.toNat,
    g.stripeSize >>> pageShift == g.stripePages ].all id

/-- What the tests look at. -/
def shape (p : Platform) : Option (List W × Bool) :=
  (geometry p).map fun g => ([g.regionCount, g.regionShift, g.stripeShift, g.bitmapWords, g.metaPages, g.metaStart], checkInvariants g)

-- lines 125-135, 168-175
example : shape (paper 0x40000 3) = some ([8, 15, 18, 1, 8, 1], true) := by decide +kernel
example : shape (paper 0x40000 16) = some ([8, 15, 18, 1, 8, 1], true) := by decide +kernel
-- lines 137-146, 177-185
example : shape (paper 0x40000 0) = some ([8, 12, 15, 1, 8, 1], true) := by decide +kernel
-- lines 148-157, 187-195
example : shape (paper 0x40000 1) = some ([8, 13, 16, 1, 8, 1], true) := by decide +kernel
-- lines 159-166, 197-205
example : shape (paper 0x40000 2) = some ([8, 14, 17, 1, 8, 1], true) := by decide +kernel
-- lines 207-220, 222-241, 243-260
example : shape (paper 0x400000 0) = some ([8, 12, 15, 1, 128, 1], true) := by decide +kernel
example : shape (paper 0x1000000 0) = some ([8, 12, 15, 1, 512, 1], true) := by decide +kernel
example : shape (paper 0x10000000 0) = some ([8, 12, 15, 1, 512, 1], true) := by decide +kernel

-- lines 262-281: the arrays are adjacent. The test starts them at 0x800; in the model, as on a machine that boots, they start at 0.
example : (geometry toyPlatform).map (fun g => (bootLayout toyPlatform g).coreCount) = some 4 := by decide +kernel
example : (geometry toyPlatform).map (fun g => ((bootLayout toyPlatform g).coreBase, (bootLayout toyPlatform g).regionBase))
    = some (0, 0 + 4 * coreInfoSize) := by decide +kernel
example : (geometry toyPlatform).map (fun g => (bootLayout toyPlatform g).regionsBase - (bootLayout toyPlatform g).regionBase)
    = some (8 * regionInfoSize) := by decide +kernel
example : (geometry toyPlatform).map (fun g => ((bootLayout toyPlatform g).osBitmap - (bootLayout toyPlatform g).regionsBase,
    (bootLayout toyPlatform g).monitorTop - (bootLayout toyPlatform g).osBitmap)) = some (8, 8) := by decide +kernel

/-- What the test of lines 283-296 looks at, when the monitor's memory ends at `top`. -/
def protection (top : W) : Option (W × List W × List W) := (geometry toyPlatform).bind fun g =>
  (ceilPowerOfTwo top).bind fun t => (run g 0 (bootProtection g t) zeroMachine).map fun x =>
    (t, [x.2.parBase 0, ~~~ x.2.parMask 0], [x.2.dmaStart, x.2.dmaEnd, x.2.dmarBase, ~~~ x.2.dmarMask])

-- lines 283-296
example : protection 0x7363 = some (0x8000, [0, 0x7fff], [0x8000, 0x8001, 0x8000, 0]) := by decide +kernel

/-! ### src/monitor/dram_regions_inl_test.cc -/

-- lines 75-83
example : [0, 1, 0x1000, 0x3ffff, 0x40000, 0x40001, ~~~ 0].map (isDramAddress toyG) = [true, true, true, true, false, false, false] := by decide +kernel
-- lines 85-105
example : [0, 1, 2, 6, 7, 8, 16, ~~~ 0].map (isValidDramRegion toyG) = [true, true, true, true, true, false, false, false] := by decide +kernel
example : [0, 1, 2, 6, 7, 8, 16, ~~~ 0].map (isDynamicDramRegion toyG) = [false, true, true, true, true, false, false, false] := by decide +kernel
-- lines 107-112
example : [0, 1, 2, 32].map (dramRegionStart toyG) = [0, 0x8000, 0x10000, 0x100000] := by decide +kernel
-- lines 114-148
example : [0, 1, 0x7fff, 0x8000, 0x8001, 0x9000, 0xa000, 0xe000, 0xffff, 0x10000, 0x10001, 0x3ffff].map (dramRegionFor toyG)
    = [0, 0, 0, 1, 1, 1, 1, 1, 1, 2, 2, 7] := by decide +kernel
example : [0, 1, 0x7fff, 0x8000, 0x8001, 0x9000, 0xa000, 0xe000, 0xffff, 0x10000, 0x10001, 0x3ffff, 0x40000, 0x40001, 0x48000, 0x7ffff].map
    (clampedDramRegionFor toyG) = [0, 0, 0, 1, 1, 1, 1, 1, 1, 2, 2, 7, 0, 0, 0, 0] := by decide +kernel

/-- The addresses of lines 150-217. -/
def addresses : List W := [0, 1, 0xfff, 0x1000, 0x1001, 0x1fff, 0x2000, 0x3000, 0x4000, 0x6000, 0x7fff, 0x8000, 0x8001, 0x9000, 0xa000, 0xe000, 0xffff, 0x10000,
  0x10001, 0x3ffff]

-- lines 150-171
example : addresses.map (dramStripePageFor toyG) = [0, 0, 0, 1, 1, 1, 2, 3, 4, 6, 7, 0, 0, 1, 2, 6, 7, 0, 0, 7] := by decide +kernel
-- lines 173-194
example : addresses.map (dramStripeFor toyG) = List.replicate 20 0 := by decide +kernel
-- lines 196-217
example : addresses.map (dramRegionPageFor toyG) = [0, 0, 0, 1, 1, 1, 2, 3, 4, 6, 7, 0, 0, 1, 2, 6, 7, 0, 0, 7] := by decide +kernel

-- lines 219-244
example : sees toyG 0 (do
      clearLock toyG 5
      let _ ← tasLock toyG 5
      let a ← tas (regionA toyG 5 + offLock)
      clearLock toyG 5
      let b ← tas (regionA toyG 5 + offLock)
      pure (a, b)) toyM = some (true, false) := by decide +kernel
example : sees toyG 0 (do
      clearLock toyG 0; clearLock toyG 1; clearLock toyG 2
      let l ← each (tasLock toyG) [0, 0, 1, 1, 2, 2]
      clearLock toyG 1
      let l' ← each (tasLock toyG) [0, 1, 2]
      pure (l, l')) toyM = some ([false, true, false, true, false, true], [true, false, true]) := by decide +kernel
-- lines 246-257
example : sees toyG 0 (do
      let _ ← each (fun x : W × W => store (regionA toyG x.1 + offOwner) x.2)
        [(0, 0x42424242), (1, 0xabababab), (2, 0x98765432), (5, 0x12345678), (7, 0xfccffccf)]
      each (readOwner toyG) [0, 1, 2, 5, 7]) toyM = some [0x42424242, 0xabababab, 0x98765432, 0x12345678, 0xfccffccf] := by decide +kernel
-- lines 259-269 (the test looks at every word of DRAM; here, the words at both ends of the region and their neighbours)
example : sees toyG 0 (do bzeroDramRegion toyG 1; peek [0, 0x7ff8, 0x8000, 0x8008, 0xc000, 0xfff8, 0x10000, 0x3fff8]) { toyM with mem := fun _ => ~~~ 0 }
    = some [~~~ 0, ~~~ 0, 0, 0, 0, 0, ~~~ 0, ~~~ 0] := by decide +kernel
-- lines 271-291
example : (run toyG 2 (do
      store toyG.regionsBase 0x12345678
      store (coreA toyG 2 + offFlushedAt) 0
      dramRegionTlbFlush toyG
      load (coreA toyG 2 + offFlushedAt)) { toyM with tlbFlushes := fun c => [16, 32, 64, 128].getD c 0 }).map
        (fun x => (x.1, [0, 1, 2, 3].map x.2.tlbFlushes)) = some (0x12345678, [16, 32, 65, 128]) := by decide +kernel

end Sanctum.RepoTests
