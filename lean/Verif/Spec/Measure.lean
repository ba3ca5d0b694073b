import Verif.Spec.Hash
/-
What an enclave's measurement is meant to cover (src/monitor/measure_inl.h:20-31, comments of public/api.h):
the sequence of loading operations with their arguments and the contents of the loaded pages.
-/
namespace Sanctum

/-- A measured operation. -/
inductive MeasuredOp where
  /-- Creation of the enclave: range of its virtual addresses, number of mailboxes, debug flag. -/
  | create (evBase evMask mailboxes : W) (debug : Bool)
  /-- A page table: virtual address, level, access control bits. -/
  | pageTable (virtualAddr level acl : W)
  /-- A page: virtual address, access control bits, its 4096 bytes. -/
  | page (virtualAddr acl : W) (contents : List Sha.Byte)
  /-- A thread: entry and fault program counters and stacks. -/
  | thread (entryPc entryStack faultPc faultStack : W)
  /-- The end of loading. -/
  | finalize

/-- A 64-bit integer as eight bytes, least significant first. -/
def le64 (w : W) : List Sha.Byte := (List.range 8).map fun i => w.extractLsb' (8 * i) 8

/-- A `measurement_block_t` padded to 64 bytes: opcode, four pointers, two sizes, and an unused word. -/
def opBlock (opcode ptr1 ptr2 ptr3 ptr4 size1 size2 : W) : List Sha.Byte :=
  le64 opcode ++ le64 ptr1 ++ le64 ptr2 ++ le64 ptr3 ++ le64 ptr4 ++ le64 size1 ++ le64 size2 ++ le64 0

/-- The bytes that stand for an operation. -/
def MeasuredOp.encode : MeasuredOp → List Sha.Byte
  | create evBase evMask mailboxes debug => opBlock 0xAAAAAAAA evBase evMask 0 0 mailboxes (if debug then 1 else 0)
  | pageTable virtualAddr level acl => opBlock 0xBBBBBBBB virtualAddr acl 0 0 level 0
  | page virtualAddr acl contents => opBlock 0xCCCCCCCC virtualAddr acl 0 0 0 0 ++ contents
  | thread entryPc entryStack faultPc faultStack => opBlock 0xDDDDDDDD entryPc entryStack faultPc faultStack 0 0
  | finalize => opBlock 0xEEEEEEEE 0 0 0 0 0 0

/-- The bytes that stand for a sequence of operations. -/
def encodeOps (ops : List MeasuredOp) : List Sha.Byte := ops.flatMap MeasuredOp.encode

/-- Pages have 4096 bytes. -/
def MeasuredOp.Ok : MeasuredOp → Prop
  | page _ _ contents => contents.length = 4096
  | _ => True

/-- `e` is a place for an enclave record: an aligned address whose 304 bytes (without the tail of variable size)
are inside DRAM. Its hash object and block are at `e + 80` and `e + 240`. -/
def RecordPlace (g : Cfg) (e : W) : Prop := e.toNat % 8 = 0 ∧ e.toNat + 304 ≤ g.dramSize.toNat

/-- `p` is a page that can be measured into the record at `e`: inside DRAM and apart from the measurement. -/
def PagePlace (g : Cfg) (e p : W) : Prop :=
  p.toNat % 4096 = 0 ∧ p.toNat + 4096 ≤ g.dramSize.toNat ∧ (p.toNat + 4096 ≤ e.toNat + 80 ∨ e.toNat + 304 ≤ p.toNat)

/-- `Measuring g e m ops`: a history that ends in memory `m`, in which the enclave with its record at `e` has been
created and loaded by the operations `ops`. Between the operations, on any core, everything but the 224 bytes of
the record's measurement may change in any way. -/
inductive Measuring (g : Cfg) (e : W) : Machine → List MeasuredOp → Prop
  | create {c : Nat} {m m' : Machine} {r : Unit} {evBase evMask mailboxes : W} {debug : Bool} :
      run g c (initEnclaveHash e evBase evMask mailboxes debug) m = some (r, m') →
      Measuring g e m' [.create evBase evMask mailboxes debug]
  | pageTable {c : Nat} {m m' : Machine} {r : Unit} {ops : List MeasuredOp} {virtualAddr level acl : W} :
      Measuring g e m ops → run g c (extendHashWithPageTable e virtualAddr level acl) m = some (r, m') →
      Measuring g e m' (ops ++ [.pageTable virtualAddr level acl])
  | page {c : Nat} {m m' : Machine} {r : Unit} {ops : List MeasuredOp} {virtualAddr acl p : W} :
      Measuring g e m ops → PagePlace g e p → run g c (extendHashWithPage e virtualAddr acl p) m = some (r, m') →
      Measuring g e m' (ops ++ [.page virtualAddr acl (m.bytes p.toNat 4096)])
  | thread {c : Nat} {m m' : Machine} {r : Unit} {ops : List MeasuredOp} {entryPc entryStack faultPc faultStack : W} :
      Measuring g e m ops → run g c (extendHashWithThread e entryPc entryStack faultPc faultStack) m = some (r, m') →
      Measuring g e m' (ops ++ [.thread entryPc entryStack faultPc faultStack])
  | other {m m' : Machine} {ops : List MeasuredOp} : Measuring g e m ops →
      (∀ i, i < 224 → m'.byteAt (e.toNat + 80 + i) = m.byteAt (e.toNat + 80 + i)) → Measuring g e m' ops

end Sanctum
