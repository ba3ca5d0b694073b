# Sanctum security monitor: a Lean 4 model and machine-checked proofs

Target: `/repo/src` of pwnall/sanctum (C++). The model is in `lean/Verif/Model`, the small
independent specification in `lean/Verif/Spec`, helper lemmas in `lean/Verif/Lemmas`, the property
theorems (and, beside each, a concrete instance meeting the hypotheses) in `lean/Verif/Props`.

## Trusted base

* Lean 4.33.0's kernel and the three standard axioms `propext`, `Classical.choice`, `Quot.sound`
  (no theorem uses any other; no axiom is added, no compiled-code tactic is used).
  Kernel evaluation of closed terms (`decide +kernel`, `rfl`) is used for concrete witnesses only.
* The reading of the C++ code. Every definition of the model cites file and lines.
* The LP64 data layout (`sizeof`, `offsetof`) written down in `Model/Layout.lean`.
* Memory is sequentially consistent (C75-C76 and C79 justify this for orderly calls) and an aligned 8-byte (or 4-byte, for the hash) access is
  atomic. The code's plain accesses are modelled as such atomic actions, one action per C++ access.
* Undefined behaviour is not assumed away: an access outside DRAM or unaligned is a `fault` outcome;
  a C `int` shift by >= 31 at boot is the outcome `ub`; `dram_region_page_for`, whose shift amount is
  always out of range, takes the result of an out-of-range shift from an arbitrary function
  `oobShl` of the configuration, so a theorem says what it needs of it (usually: shifting 0 gives 0).

## What is modelled

| code | model |
|---|---|
| `bare/bit_masking.h` | `Model/BitMasking.lean` (pure), bitmap accessors as programs in `Model/Machine.lean` |
| `bare/page_tables.h`, `bare/arch/{riscv,test}/page_tables_arch.h`, the walk of `monitor/enclave_inl.h` | `Model/PageTables.lean` |
| `bare/arch/test/*` (physical memory, atomics, DRB map registers, TLB flush, DMA registers, bzero) | `Model/Machine.lean` |
| `bare/phys_ptr.h`, `bare/arch/test/phys_ptr_arch.h`, `memory_arch.h`, `phys_atomics_arch.h`, `cpu_context_arch.cc`, at byte level | `Model/Bare.lean` |
| the whole machine on that byte memory: programs, boot, interleavings | `Model/Bytes.lean` |
| the machine with store buffers (hardware; the code's plain and atomic accesses) | `Model/Tso.lean` |
| both: byte memory and store buffers | `Model/TsoBytes.lean` |
| transfers of DMA devices (hardware; the registers that the code writes) | `Model/Dma.lean` |
| data layout of the structures, codes | `Model/Layout.lean` |
| `crypto/hash.cc` | `Model/Hash.lean` |
| `monitor/measure_inl.h` | `Model/Measure.lean` |
| `monitor/boot_init.cc` | `Model/Boot.lean` |
| `monitor/dram_regions_inl.h`, `cpu_core_inl.h` | `Model/DramRegions.lean` |
| `monitor/metadata_inl.h`, `init_enclave_info` and `is_enclave_virtual_address` of `monitor/enclave_inl.h` | `Model/Metadata.lean` |
| `monitor/dram_regions.cc` | `Model/Regions.lean` |
| `monitor/metadata.cc`, `enclave_init.cc`, `enclave.cc` | `Model/Enclaves.lean` |
| every API entry point that has a definition (28 calls) | `Model/Calls.lean` (`Call`, `Call.prog`) |
| histories, interleavings, hostile software | `Model/Exec.lean` |

Not modelled: `api.h` functions with no definition anywhere in `/repo` (mailboxes, attestation),
code that is commented out in the source, the RISC-V assembly stubs ("TODO asm"), the C++
templates of `phys_ptr` and `traits.h` beyond their effect on addresses and bytes, the compiler, caches/TLB contents (only the fact
that a flush was executed), the linker-provided `g_monitor_top` (the code sets it to 0).

Simplifications, each also noted at its definition: the words of a region bitmap are read one at a time, but the DRB register of the core is written in one
action after the last read (only the core itself could tell).

The specification files (`Spec/*.lean`) mention no code of the monitor except where a statement has to name a call:
`View` (where the region table, core records and bitmaps are in memory), `Geometry`, `Regions`, `Metadata`, `Enclave`
(decision and effect of each call in terms of that view), `System` (histories, well-formed states, covered calls),
`Conc` (interleavings), `Confine` (which memory a call may access), `Lent` (the same for thread calls), `Sha256` (FIPS 180-4, constants computed from the primes, checked on published vectors),
`Hash` and `Measure` (bytes in memory, histories of a hash object and of an enclave's measurement), `Toy` (small concrete platforms).

## The machine

`W = BitVec 64`. `Machine` = DRAM (byte-addressed, accessed by aligned words), per-core DRB map
registers and TLB-flush counters, DMA range registers and the two DMA-range globals. `Cfg` = the
constants computed at boot. A function of the monitor is a `Prog`: a tree of atomic actions (load,
store, test-and-set, fetch-add, register writes). `run` executes one sequentially; `Exec` interleaves
the actions of calls on any number of cores with arbitrary stores by hostile software outside the
monitor's protected range. All code is written once, as a `Prog`, and used by both semantics.
`Cfg.WF` says that the constants are those of a power-of-two DRAM with at least as many bytes as
the cache, a monitor that fits in the first stripe, and in-range C shifts; it is *proved* of every
successful boot on such a platform (C09), and shown to fail on others.

## Plan per property

* C01, C02, C03, C05, C07, C08, C43: pure theorems over `BitVec 64/32`, specification in terms of `Nat`
  arithmetic (powers of two, ceilings, intervals).
* C04: theorem about the bitmap programs in every memory.
* C06: walk proved equal to a recursive specification over an arbitrary geometry (list of levels).
* C09, C10, C11, C14: theorems about `boot` for every platform; decomposition by mixed-radix Nat arithmetic.
* C12: symbolic execution of the boot loops, invariants over the loop counters.
* C13: wipe loop, invariants over stripes and words.
* C15-C19, C22-C24, C27, C33, C36, C39-C42: symbolic execution of `run`; each call gets a closed form stated
  on an abstract region table (`Spec/View.lean`), with the memory frame.
* C20, C21, C25, C26, C28, C34, C35, C37, C38: induction over histories of calls.
* C29-C32: every interleaving of atomic actions. A program logic over `Prog` (`Lemmas/Safe*.lean`) tracks which locks a call
  in progress holds; `Safe` is proved for the program of every covered call and preserved by all steps of all other cores and of hostile
  software; the invariant gives mutual exclusion (C29), the region-table invariant at every instant (C30), quiescence (C32).
  C31: a bound on the number of actions of every `Prog` for every sequence of responses (`Lemmas/Bounded*.lean`), hence for every interleaving.
* C44: the circular in-memory schedule is proved equal to the FIPS 180-4 recurrence, padding proved; the message is what
  a history of `init`/`extend` calls has fed (`Hashing`), with arbitrary changes elsewhere in between.
* C45, C46: `Measuring` is the analogous history of an enclave's record; the bytes fed are the encoding of the operations, the
  encoding is injective; the measurement is a function of the operations only. Linked to `create_enclave` and `init_enclave`.
* C49, C50: exact decision and effect (as C15-C19). C51: exact decision, and proof that nothing is loaded or measured.
* C52, C53: a second program logic over `Prog` (`Lemmas/Confine*.lean`, `Cfn`), on top of the one for C29-C32: every action of a call in progress accesses
  only what `MayAccess` (`Spec/Confine.lean`) allows; kept by all steps of the other cores because a lock protects a region's ownership.
  C54: simulation of two runs that differ in one region's contents, from C52.
* C52-C54 with the thread calls and debug copies with an ID (`*_undisturbed_partial`): a second logic (`Lemmas/Lent.lean`): from the moment at which a thread call knows that the region of
  its enclave is a metadata region and holds its lock, it may access that region without the lock. Sound as long as no step of another core (`Takes`) ends the region's time as metadata
  region while the call runs; calls made one after the other never do that (`undisturbed_apart`). The witness of finding 26 shows the hypothesis is needed. A debug copy with an ID names the record as well.
* C55-C59: a second, byte-level model of the bare-metal library (`Model/Bare.lean`); loops by induction; the word machine is proved to represent it.
  C60: induction over the walk (`Reaches`), tables that form a tree.
- C61, C62 (exact result codes): tables of codes in Spec/Codes.lean as nested conditions on the view of the state; every call is
  run symbolically through all its failure paths. `accept_thread` is left out: the index of the lock it takes is an address.
* C63 (reset): the boot program is oblivious of what it finds in memory, so it succeeds again; the rest is C12 and the interleaving invariant.
  C64: induction over histories. C65: construction of the sequence of calls (block, flush on all cores, free, assign) from the exact
  theorems C15-C19, C50.
* C66: direct computation from the facts about a booted geometry. C67: exact results of the truncated bodies; the full statement is refuted.
* C68: forward simulation. `Spec/Atomic.lean` is an automaton over a table of regions (owner, stamp, clock, flush times, DMA window) in which every call takes effect in one
  step between its invocation and its return, a flush in two (sample the clock, record it), and in which a region call may only answer "concurrent call" while a call is in
  progress on another core (or when its two regions are the same). `Lemmas/Lin.lean` is a logic in which each atomic action of a call may be its instant of effect, with the
  rely condition "records and table entries of regions whose lock I hold do not change, clock and flush times only grow"; soundness for interleavings is proved once, then
  every call is verified in the logic (`LinTame.lean` for the calls that never touch the table, `LinCalls.lean` for the region calls). Block takes effect at the fetch-and-add,
  free and assign and create_metadata at the release of the region's lock, a failing free at the load of the flush time that is too old.
* C47: table of codes. C48: not expressible - the functions are declared and never defined.
* C69, C70: rely-guarantee logic `Mir` over the interleaving semantics, on top of the logic of C29-C30: while a core holds the lock of region 0 nobody else changes the bitmap,
  the set of OS regions or the DMA registers; when it is free, bitmap and registers are in order. The map is copied word by word, so the proof is about every word's instant.
* C71: a syntactic predicate on programs (`Prog.Uses`), proved of every call's program, whatever its loads return; then induction over interleavings.
* C72: C71 and the state after boot; witness with registers that protect nothing before boot.
* C73, C74: consequences of the atomic specification (induction over its runs), carried over to the code by the linearizability theorem C68. For the TLB flush itself (C73_flushed_partial), a flush that has not made its first action is removed from the interleaving.
* C75, C76: a logic over `Prog` (`Lemmas/Race*.lean`) for the lock that protects each word of the monitor's tables, together with the confinement logic (C52) for metadata
  regions and, for debug copies, a rely-guarantee logic on top of C69 (they only copy memory of the OS, under the lock of region 0); two cores never hold the same lock. C76: actions that do
  not race commute. This justifies the assumption that memory is sequentially consistent, for orderly calls, on hardware that is sequentially consistent for race-free programs.
* C77: a logic over `Prog` (`Lemmas/Civil.lean`) of which actions justify the result that reports a taken lock and which locks a call may ask for; with the mutual exclusion invariants of C29, a taken
  lock has a holder. The livelock is a concrete interleaving that ends where it began.
* C78: a second machine (`Model/Bytes.lean`) whose memory is the byte array of the test architecture; a simulation, step by step, with the word machine of the other theorems. That every access is
  aligned and in bounds comes from the safety logic behind C29 (for calls) and from an alignment logic (for boot).
* C79: a third machine (`Model/Tso.lean`) with store buffers. The invariant relates it to an interleaving with the same trace: a core whose next action touches a location sees there what the interleaving's
  memory contains, because only the holder of the locks that protect a location can have a store to it waiting (`next_held`, from C75), and because a call writes owners before it writes memory above the
  monitor's (`Lemmas/Late.lean`), so that what protects a waiting store does not change under it.
* C80: the outcome of the boot model (`ok`, `panic`, undefined, fault) decided from what the hardware reports (`Spec/Boot.lean`), by case analysis along the checks of `boot_init.cc`; the array loops always run to their
  end when the arrays fit in DRAM (`Prog.AllOk`). The converse direction reuses the inversion lemmas behind C01/C12. Refuted in full by two machines.
* C81: the serial machine (`Spec/Serial.lean`) executes each call in one step on the whole machine state, by `call`. Reduction: a logic (`Lemmas/Serial.lean`) in which a program takes locks one after the other,
  accesses only what the locks it holds protect (and what never changes), and then only releases; forward simulation (`SerialSim`, `SerialStep`) in which a call takes effect when it has its last lock (block: when it
  increments the clock; free: when it has seen a stale core or the last core), because what is left of it depends only on what it owns. `set_dma_range` releases region locks in the loop: the loop is shown to do
  the same again (`Redo`). Every call is verified in the logic in `SerialCalls.lean`. Software loads and stores between the steps: the pages of a region become a core's when, under the region's lock, it reads that the region
  is free or metadata (`hot` in `Prot`, `Two`, `Sim`), so no core owns the pages that software uses. Counterexamples to two stronger claims (`Props/Torn.lean`): a complete search of the serial machine for a given history (`Lemmas/Explore.lean`) finds no state.
* C82: a logic (`Lemmas/Ordered.lean`) for the order in which a call asks for locks: descending, none after a refusal, none after the first release. Invariant of a burst: whenever a lock `i` was found taken, some call
  has got through, or one that was not refused holds a lock up to `i` (the holder of `i`, or by induction on `i` a holder of what it was refused). False in full because `set_dma_range` asks in ascending order.
* C83: the cache is specified from the hardware's side (`Spec/Cache.lean`): an index shifter is any function on page numbers whose low bits are the page number without its `s` low bits (a circular and a logical
  shift are instances); the set of an address follows from line size and set count. Boot's arithmetic gives `line * sets = 4096 * regions` and the shift register; C71 keeps the register; the exact set of every address follows.
* C84: TLBs are added to the interleaving semantics from the hardware's side (`Spec/Reach.lean`): software fills its core's TLB from regions that the map admits, a flush empties it. Invariant after a core's own block: by C69 its map
  does not admit the region while the OS does not own it; hence after a flush nothing can fill the TLB. False in full (two witnesses).
* C85: the pattern of a run (`Spec/Pattern.lean`) is its list of actions without data. Two programs are `Alike` if they do the same actions up to data whatever responses they get; that implies equal patterns.
* C86: C79 and C81 composed. New is software's memory: an invariant (`Lemmas/TsoSoft.lean`) says that the pages to which a store waits belong to metadata regions, that a call writes at most one owner
  (`Lemmas/Once.lean`), so at most one store to an owner waits and memory lags at most one legal change of owner behind; so no store waits to memory that is the OS's according to memory, and software loads what it would
  load in the interleaving.
* C87: a machine with DMA transfers (`Model/Dma.lean`). Invariant: the base register, and every value that what is left of a running call can write to it, is not below the monitor's top; the window has no
  address below its base, whatever the mask. So each transfer is a store that software could make.
* C88: a specification of what each call names (`Spec/Footprint.lean`); a logic for the words a program can write, given what the invariant of C30 says about the words it reads (`Lemmas/Footprint.lean`: no ID passes validation, so the calls on enclaves that own memory write nothing); an invariant over interleavings. Falsity: `accept_thread`'s test-and-set at an address computed from an address.
* C89: a simulation between two runs of the same program on two cores: equal memory throughout, registers changed in the same way (`Spec/Twin.lean`, `Lemmas/Twin.lean`). Programs without an operation that names the core are related by induction on the program; the calls that ask which enclave runs are taken apart by hand.
* C90: from the guarantee that each step meets in the logic of C29/C30 (a step changes lock words and records only of regions whose lock its core holds); the lock of a region that nobody holds is never taken, since a test-and-set of a taken lock fails, so it stays as it is by induction over the steps. For histories, each call is a piece of an interleaving that starts from a state between calls (`good_atRest`). `Props/Kept.lean`.
* C91: every call about a region is a word-by-word update of memory (`Shape.put`: what becomes of the word at each address), whose kind and result depend only on a small view of the state (locks, the region's own record, flush times, DMA window) that calls about other regions do not change; updates for different regions commute at every address (two bits of one bitmap word, two steps of the clock). `Spec/Swap.lean`, `Lemmas/Swap.lean`, `Props/Swap.lean`.
* C92: `Model/TsoBytes.lean` (the machine of `Model/Tso.lean` on the memory of `Model/Bytes.lean`) and a serial machine with bytes (`Spec/TsoBytes.lean`). One simulation relates
  five machines step by step (`Follows`): bytes with buffers, words with buffers, interleaving on words, serial on words, serial on bytes. Byte stores of software are word stores
  that change one byte; the serial machine has the same word there because software stores only in regions that are the OS's.
* C93: two runs of each call from states that agree on the monitor's memory, on the page maps of metadata regions and on the records of enclaves in them (`Akin`): every word that a call
  reads is in one of these, since a map is cleared before its region becomes metadata and `create_enclave` fills in the words of the record that are read later; hence the same result and again such
  states. Boot: every load of the boot sequence is below `g_monitor_top` (`Lockstep`). `Spec/Junk.lean`, `Lemmas/Junk.lean`, `Props/Junk.lean`, `Props/JunkBoot.lean`.
* C94: induction over the history with the invariants of C20 and C93 (lock words of enclaves are 0): a refused call changes nothing (C22), nor does a question (C19). `Spec/Erase.lean`, `Props/Erase.lean`.
* C95: the exact effects (C15-C18, C33, C49) and the exact result codes (C61, C62) of a success and of the call in the state after it; then, for any number of repetitions and stores in between, induction with the invariants of C93 (stores do not change the result), C22 (a refusal changes nothing) and C89 (nor does the core). `Spec/Again.lean`, `Props/Again.lean`.

Where the unchanged code violates a property, the full statement is kept as a `Prop`, its negation is
proved with a concrete witness, and the part that does hold is proved under the suffix `_partial`.

## Disagreements found while reading the code (each becomes a negation theorem)

1. `set_dma_range` computes `os_owns_regions` and never uses it; the window can cover non-OS regions and the monitor (C26).
2. `block_dram_region`'s DMA overlap test looks only at the region's first stripe (C27, multi-stripe).
3. `is_valid_enclave_id` compares the owner of the ID's region with the ID, but enclaves live in metadata regions; only ID 0 ever validates (C37, C38, C40).
4. `assign_metadata_pages` writes the inner-page entries one slot too low: the first entry is overwritten, the last stays empty; `free_info` is ignored (C33, C34).
5. `enclave_info_size` wraps for huge mailbox counts (C02).
6. `dram_region_page_for` shifts by `region_shift - stripe_shift`, which is negative: always out of range (C11); on processors that take the amount modulo 64 the stripe number ends up in the top bits of the index (C11_masked_shift), which is then larger than any page number of the region and drops the other stripe bits. With at most 8 regions the pages of different stripes then share an entry of the page map: create_enclave is refused at a page that nobody ever used (C11_masked_taken).
7. `create_enclave` accepts pages below `metadata_region_start` (C36), never pins (C35).
8. `assign_thread`/`load_thread` reserve the enclave's own page, hence always fail (C41).
9. `accept_thread` uses an address as a region index for locking, and never validates `thread_id` (C42, C22).
10. `enter_enclave`, `create_thread`, `delete_thread` keep a region lock on success (C23, C32).
11. `delete_enclave`'s freeing loop tests bit `region_count` instead of `i` (C40).
12. `free_dram_region` accepts `flushed_at == blocked_at`, where `blocked_at` is the clock before the increment (C25).
13. The DRB map is reloaded on the calling core only (C28).
14. `is_enclave_virtual_address` masks with the mask instead of its complement (C43).
15. `copy_debug_enclave_page` with ID 0 treats `g_core[0].flushed_at` as the debug flag (C39, C26).
16. Boot: `int` shifts, unsigned underflow bypassing the cache-size panic, non-power-of-two DRAM, `g_core` never initialised (C03, C09, C12).
17. The hash's bit counter has 32 bits (C44).
18. `monitor_async_exit` and `monitor_access_denied` are both 4 (C47).
19. `copy_debug_enclave_page` reads `enclave_id + offset` before it validates the ID: it faults with two locks held (C31), with ID 0 it reads and writes
    the monitor's memory (C20, C21, C30, C37, C39), and for a debug enclave it accepts the OS page 0, i.e. the monitor's tables (C39).
20. `accept_thread` reads an owner without holding its lock and releases locks it does not hold (C29), and can overwrite
    core records right after boot (C42) or a finished measurement (C38).
21. `assign_dram_region` with an owner outside DRAM validates against region 0 without region 0's lock; it can never assign a region to a real enclave (C16, C37).
22. `create_enclave` does not clear the new enclave's region bitmap (C33); `create_thread` by the OS uses address 304 as the bitmap (C32).
23. `load_page` and `load_page_table` return `monitor_ok` without loading or measuring anything (C51).
24. The digest is stored as native (little-endian) words, so the bytes of a record are not the FIPS byte string (C44 is stated on the words).
25. A word at offset 0 of a page in the map pages can act as an enclave lock with a value other than 0 and 1 (C22).
26. `assign_thread`/`load_thread` use the enclave's record after they released its region's lock: another core can free the region and give it to the OS first (C52-C54).
27. The bounds assertions of `phys_ref` add before they compare; at the end of the address space the sum wraps and the access is not caught (C56).
28. The test architecture's atomics are plain load/store sequences, the RISC-V ones are stubs that always succeed (C58).
29. `g_core` survives a reset while the clock restarts at 0: blocked regions can then be freed without a flush (C63).
30. `enter_enclave`, `create_thread`, `delete_thread` keep a region lock when they succeed, and `enter_enclave` does not enter: what would follow is commented out (C67).
31. `set_dma_range` writes the DMA base register before the mask register: in between, the DMA master is let into addresses of neither the old nor the new window (C70).
32. Boot sets the protected range, the cache index shift and the access map on the booting core only; the code has no path that sets them on the other cores (C72).
33. `copy_debug_enclave_page` reads the region bitmap and the `is_debug` word of the ID it is given before it checks the ID, with the lock of the region that the ID falls in; this
    races with another core's debug copy into that page, which holds the lock of region 0 only (C75, C76; a witness for assign_thread is `C75_thread_calls_false`).
34. A call that asks twice for one lock (an assignment to an ID inside the region, a debug copy with a page of the region of the ID) returns `monitor_concurrent_call` each time it is tried, and
    two cores that retry (`block_dram_region` and `set_dma_range`, which take the locks of regions 0 and r in opposite orders) can refuse each other for ever (C77).
35. Boot computes region sizes with `int` shifts (src/monitor/boot_init.cc:101-103), so a machine whose regions are 2 GiB or larger, which passes every check, gets undefined behaviour instead of a
    panic (C80); and the check that the monitor fits (172-173) comes after the monitor's arrays were written, so on a machine with very many cores boot writes outside DRAM before it would halt.
36. Boot checks that the last-level cache's line size is a power of two, but not that it is at most a page; with larger lines, two DRAM regions share cache lines, against src/monitor/dram_regions.h:8-12 (C83). The
    shift is set on the booting core only, so that on the other cores the regions may share sets even with ordinary lines (finding 32).
37. Findings 12 and the stale maps (C28) together: software can keep using a region after it was freed and made a metadata region, through the TLB of the core that blocked it or through the map of another core (C84).
38. Because of the races of `assign_thread` (C52), overlapping calls are not serializable once thread calls are among them (C81): software on a core reads 1 and later 0 from a page the OS
    owns and nobody stores to, because an `assign_thread` that began before the region was freed (src/monitor/metadata.cc:103-134) still clears the lock word in the enclave's old record.
39. `set_dma_range` (src/monitor/dram_regions.cc:229-277) accepts windows over the monitor's memory, through which a device can rewrite the region table; and by finding 31 a device can change a metadata
    region while the OS moves the window from one part of its own memory to another (C87).
40. `accept_thread` (src/monitor/metadata.cc:199-214) takes a lock by address, so it does not hold the lock of the thread's region; when it then cannot take the lock of the enclave's region it releases the lock of the thread's region, although another core may hold it. Two cores can then hold the lock of region 0 at the same time (C29, C90).

## Reachability

In every state that the model reaches from boot by covered calls, the only ID that `is_valid_enclave_id` accepts is 0 (C37). The calls that take
an enclave ID therefore always refuse in those states; theorems about their success (C38-C40, C45's `init_enclave` part, C51) are about *all* states that meet
their hypotheses, and the examples beside them use a hand-made state (`enclM`) in which an enclave owns two regions.

## Testing the theorems

`seeded/LOG.jsonl` records edits of the model (realistic bugs) made in a scratch copy, and what stopped proving.

`lean/Verif/Tests/Repo.lean` runs the repository's own unit tests (`src/**/*_test.cc`) on the model: the same inputs, and the results the tests expect of
the C++ code. They are tests of the model's fidelity, no claim rests on them. Only the compile-time tests of C++ types and the tests of functions that the
monitor never calls are left out.
