{
 "claims": [
  {
   "property": "C01",
   "status": "proved",
   "theorems": [
    "Sanctum.C01_range_exact"
   ],
   "note": "All 64-bit pairs."
  },
  {
   "property": "C02",
   "status": "partial",
   "theorems": [
    "Sanctum.C02_pages_least_partial",
    "Sanctum.C02_enclave_pages_partial",
    "Sanctum.C02_thread_pages",
    "Sanctum.C02_statement_false",
    "Sanctum.C02_enclave_statement_false"
   ],
   "note": "False when the size computation wraps (witnesses); proved for every size/mailbox count that does not wrap."
  },
  {
   "property": "C03",
   "status": "partial",
   "theorems": [
    "Sanctum.C03_address_bits_least",
    "Sanctum.C03_ceil_power_of_two_partial",
    "Sanctum.C03_is_power_of_two",
    "Sanctum.C03_statement_false"
   ],
   "note": "address_bits_for proved for all n >= 1; ceil_power_of_two proved up to 2^30 and proved undefined (int shift) beyond."
  },
  {
   "property": "C04",
   "status": "proved",
   "theorems": [
    "Sanctum.C04_bitmaps_are_sets"
   ],
   "note": ""
  },
  {
   "property": "C05",
   "status": "proved",
   "theorems": [
    "Sanctum.C05_pte_round_trip"
   ],
   "note": "Both architectures have the same entry format."
  },
  {
   "property": "C06",
   "status": "proved",
   "theorems": [
    "Sanctum.C06_walk",
    "Sanctum.C06_walk_zero_iff",
    "Sanctum.C06_same_translated_bits",
    "Sanctum.C06_full_walk"
   ],
   "note": "Arbitrary geometry."
  },
  {
   "property": "C07",
   "status": "proved",
   "theorems": [
    "Sanctum.C07_byte_reversal",
    "Sanctum.C07_involutive"
   ],
   "note": ""
  },
  {
   "property": "C08",
   "status": "proved",
   "theorems": [
    "Sanctum.C08_pack_lossless"
   ],
   "note": ""
  },
  {
   "property": "C09",
   "status": "partial",
   "theorems": [
    "Sanctum.C09_geometry_partial",
    "Sanctum.C09_statement_false",
    "Sanctum.C09_odd_dram_false"
   ],
   "note": "Proved for power-of-two DRAM at least as large as the cache index range; false (witnesses) on other platforms, where boot does not panic."
  },
  {
   "property": "C10",
   "status": "proved",
   "theorems": [
    "Sanctum.C10_address_decomposition",
    "Sanctum.C10_bijection_on_dram"
   ],
   "note": ""
  },
  {
   "property": "C11",
   "status": "partial",
   "theorems": [
    "Sanctum.C11_page_index_unique_partial",
    "Sanctum.C11_shift_out_of_range",
    "Sanctum.C11_masked_shift",
    "Sanctum.C11_masked_collisions",
    "Sanctum.C11_masked_too_large",
    "Sanctum.C11_masked_false",
    "Sanctum.C11_masked_entries",
    "Sanctum.C11_masked_taken",
    "Sanctum.C11_statement_false"
   ],
   "note": "Proved when regions have a single stripe; false for multi-stripe regions (C11_shift_out_of_range: on every machine that boots the shift amount is 2^64 minus a small number; exact, and false, too, on processors that mask the amount; there the pages of different stripes share entries of the page map, and a create on an unused page is refused)."
  },
  {
   "property": "C12",
   "status": "proved",
   "theorems": [
    "Sanctum.C12_boot_state",
    "Sanctum.C12_cores_not_initialised"
   ],
   "note": "The core array is never initialised (second theorem)."
  },
  {
   "property": "C13",
   "status": "proved",
   "theorems": [
    "Sanctum.C13_wipe_exact"
   ],
   "note": ""
  },
  {
   "property": "C14",
   "status": "proved",
   "theorems": [
    "Sanctum.C14_metadata_map"
   ],
   "note": ""
  },
  {
   "property": "C15",
   "status": "proved",
   "theorems": [
    "Sanctum.C15_block_exact"
   ],
   "note": "Exact decision and effect, for every caller, in every state with 0/1 lock words."
  },
  {
   "property": "C16",
   "status": "proved",
   "theorems": [
    "Sanctum.C16_assign_exact"
   ],
   "note": "Exact decision and effect; ID validation is the code's (see C37 for what it accepts)."
  },
  {
   "property": "C17",
   "status": "proved",
   "theorems": [
    "Sanctum.C17_free_exact"
   ],
   "note": "Exact decision and effect."
  },
  {
   "property": "C18",
   "status": "proved",
   "theorems": [
    "Sanctum.C18_create_metadata_exact"
   ],
   "note": "Exact decision and effect."
  },
  {
   "property": "C19",
   "status": "proved",
   "theorems": [
    "Sanctum.C19_state",
    "Sanctum.C19_owner",
    "Sanctum.C19_check_ownership"
   ],
   "note": "Exact answers; no effect."
  },
  {
   "property": "C20",
   "status": "partial",
   "theorems": [
    "Sanctum.C20_lifecycle_partial",
    "Sanctum.C20_statement_false"
   ],
   "note": "All histories of covered calls and software stores; the excluded call (copy_debug_enclave_page with an ID in the monitor's memory) breaks it, witness proved."
  },
  {
   "property": "C21",
   "status": "partial",
   "theorems": [
    "Sanctum.C21_os_bitmap_partial",
    "Sanctum.C21_statement_false"
   ],
   "note": "As C20."
  },
  {
   "property": "C22",
   "status": "partial",
   "theorems": [
    "Sanctum.C22_failure_is_noop_partial",
    "Sanctum.C22_reachable_partial",
    "Sanctum.C22_statement_false"
   ],
   "note": "Proved for every call but accept_thread (a failing one leaves a lock-like word set, witness) and thread calls on an enclave whose lock word is neither 0 nor 1 (a test-and-set overwrites it)."
  },
  {
   "property": "C23",
   "status": "partial",
   "theorems": [
    "Sanctum.C23_locks_released_partial",
    "Sanctum.C23_enclave_lock",
    "Sanctum.C23_statement_false"
   ],
   "note": "Proved for all calls except accept_thread, debug copies touching the monitor's pages and a successful create_thread, delete_thread or enter_enclave: these three keep the region lock (witness)."
  },
  {
   "property": "C24",
   "status": "proved",
   "theorems": [
    "Sanctum.C24_no_spurious_contention"
   ],
   "note": ""
  },
  {
   "property": "C25",
   "status": "partial",
   "theorems": [
    "Sanctum.C25_flush_before_free_partial",
    "Sanctum.C25_statement_false"
   ],
   "note": "Off by one: block increments the clock after stamping. Proved relative to the previous block."
  },
  {
   "property": "C26",
   "status": "partial",
   "theorems": [
    "Sanctum.C26_dma_window_partial",
    "Sanctum.C26_statement_false"
   ],
   "note": "set_dma_range never checks owners; proved for OSes that only set the window over their own memory, single-stripe machines."
  },
  {
   "property": "C27",
   "status": "partial",
   "theorems": [
    "Sanctum.C27_dma_blocks_block_partial",
    "Sanctum.C27_statement_false"
   ],
   "note": "Proved for single-stripe regions; false (witness) for several stripes."
  },
  {
   "property": "C28",
   "status": "partial",
   "theorems": [
    "Sanctum.C28_access_map_partial",
    "Sanctum.C28_statement_false"
   ],
   "note": "Proved for the calling core; other cores keep a stale map (witness)."
  },
  {
   "property": "C29",
   "status": "partial",
   "theorems": [
    "Sanctum.C29_mutual_exclusion_partial",
    "Sanctum.C29_statement_false",
    "Sanctum.C29_exclusion_false"
   ],
   "note": "Every interleaving from boot, any number of cores, hostile software in between; covered calls (not accept_thread, not debug copies with IDs that are no records; metadata calls on single-stripe machines). Record accesses: not assign_dram_region to an ID outside DRAM and not create_thread. False in general: accept_thread reads a record without its lock, and it releases a lock that another core holds, after which two cores hold it (witness interleavings)."
  },
  {
   "property": "C30",
   "status": "partial",
   "theorems": [
    "Sanctum.C30_regions_partial",
    "Sanctum.C30_statement_false"
   ],
   "note": "Every instant of every interleaving of covered calls; false once copy_debug_enclave_page takes the OS's own ID (witness)."
  },
  {
   "property": "C31",
   "status": "partial",
   "theorems": [
    "Sanctum.C31_steps_bounded",
    "Sanctum.C31_wait_free_partial",
    "Sanctum.C31_returns_partial",
    "Sanctum.C31_statement_false"
   ],
   "note": "The step bound holds for all calls, from all states, in all interleavings. That a call never gets stuck is proved for covered calls; copy_debug_enclave_page with a bad ID faults holding two locks (witness)."
  },
  {
   "property": "C32",
   "status": "partial",
   "theorems": [
    "Sanctum.C32_quiescence_partial",
    "Sanctum.C32_statement_false"
   ],
   "note": "All interleavings of covered calls other than create_thread and delete_thread, which keep a lock (witness)."
  },
  {
   "property": "C33",
   "status": "partial",
   "theorems": [
    "Sanctum.C33_create_enclave_partial",
    "Sanctum.C33_statement_false",
    "Sanctum.C33_wrap_false"
   ],
   "note": "Exact decision and effect as coded. The English claim is false in two ways (witnesses): map entries of a multi-page record are shifted by one, and a huge mailbox count wraps the record size to one page; the record's region bitmap is not initialised."
  },
  {
   "property": "C34",
   "status": "partial",
   "theorems": [
    "Sanctum.C34_no_double_allocation_partial",
    "Sanctum.C34_statement_false"
   ],
   "note": "Proved for all histories of covered calls whose creates are outside the map pages and do not wrap the size, for all pages of a record but the last of a multi-page one; false in general (witness history)."
  },
  {
   "property": "C35",
   "status": "partial",
   "theorems": [
    "Sanctum.C35_always_freed",
    "Sanctum.C35_statement_false"
   ],
   "note": "False: pinned_pages is never counted. Proved instead, for every history, that a locked-free metadata region is always freeable."
  },
  {
   "property": "C36",
   "status": "partial",
   "theorems": [
    "Sanctum.C36_map_kept_partial",
    "Sanctum.C36_statement_false",
    "Sanctum.C36_reallocates"
   ],
   "note": "create_enclave accepts IDs inside the map pages (witness); proved for IDs past them."
  },
  {
   "property": "C37",
   "status": "partial",
   "theorems": [
    "Sanctum.C37_id_check_partial",
    "Sanctum.C37_statement_false"
   ],
   "note": "Proved for all histories of covered calls and all 64-bit IDs; false for copy_debug_enclave_page with ID 0 (witness). No real enclave ID is ever accepted in a reachable state."
  },
  {
   "property": "C38",
   "status": "partial",
   "theorems": [
    "Sanctum.C38_sealed_partial",
    "Sanctum.C38_statement_false"
   ],
   "note": "Proved for all sequences of building calls after init_enclave; false once accept_thread can be called in between (it overwrites the measurement, witness)."
  },
  {
   "property": "C39",
   "status": "partial",
   "theorems": [
    "Sanctum.C39_debug_copy_partial",
    "Sanctum.C39_statement_false",
    "Sanctum.C39_monitor_overwritten"
   ],
   "note": "Exact decision and effect for record IDs and pages outside the monitor's memory; ID 0 and the monitor's page are accepted by the code (witnesses)."
  },
  {
   "property": "C40",
   "status": "partial",
   "theorems": [
    "Sanctum.C40_delete_partial",
    "Sanctum.C40_refused",
    "Sanctum.C40_statement_false",
    "Sanctum.C40_wipes_monitor"
   ],
   "note": "Refusals and the decision are exact; on success no region is freed, because the loop tests the wrong bit (witness)."
  },
  {
   "property": "C41",
   "status": "partial",
   "theorems": [
    "Sanctum.C41_no_threads_partial",
    "Sanctum.C41_statement_false"
   ],
   "note": "The calls reserve the enclave's own page instead of the thread's, so they never succeed (proved for all states); the claim is false (witness)."
  },
  {
   "property": "C42",
   "status": "partial",
   "theorems": [
    "Sanctum.C42_accept_thread_partial",
    "Sanctum.C42_copies",
    "Sanctum.C42_statement_false"
   ],
   "note": "Exact write footprint for all states and arguments, and what a successful call writes in the thread record; the footprint includes unvalidated addresses, so the claim is false (witness right after boot)."
  },
  {
   "property": "C43",
   "status": "partial",
   "theorems": [
    "Sanctum.C43_check_exact_partial",
    "Sanctum.C43_statement_false",
    "Sanctum.C43_accepts_outside"
   ],
   "note": "The check is wrong (masks with the mask); what it computes is characterised exactly."
  },
  {
   "property": "C44",
   "status": "partial",
   "theorems": [
    "Sanctum.C44_sha256_partial",
    "Sanctum.C44_any_length",
    "Sanctum.C44_every_message",
    "Sanctum.C44_init_runs",
    "Sanctum.C44_extend_runs",
    "Sanctum.C44_wrong_padding"
   ],
   "note": "Against an independent FIPS 180-4 specification, for every message under 2^29 bytes; the length counter is 32 bits, so longer messages get a wrong length field (C44_any_length is exact for all lengths, C44_wrong_padding shows the padded message is then not the standard's)."
  },
  {
   "property": "C45",
   "status": "proved",
   "theorems": [
    "Sanctum.C45_blocks",
    "Sanctum.C45_unambiguous",
    "Sanctum.C45_distinct",
    "Sanctum.C45_every_sequence",
    "Sanctum.C45_create_enclave",
    "Sanctum.C45_init_enclave",
    "Sanctum.C45_measurement_any_length",
    "Sanctum.C45_measurement_partial"
   ],
   "note": "All sequences of operations, with anything else happening in between."
  },
  {
   "property": "C46",
   "status": "proved",
   "theorems": [
    "Sanctum.C46_placement",
    "Sanctum.C46_calls"
   ],
   "note": "All sequences, placements, machines."
  },
  {
   "property": "C47",
   "status": "partial",
   "theorems": [
    "Sanctum.C47_codes_partial",
    "Sanctum.C47_statement_false"
   ],
   "note": "Two result codes collide."
  },
  {
   "property": "C48",
   "status": "not_applicable",
   "theorems": [],
   "note": "The four functions are declared in api.h and defined nowhere, there is no code to model."
  },
  {
   "property": "C49",
   "status": "proved",
   "theorems": [
    "Sanctum.C49_set_dma_exact"
   ],
   "note": ""
  },
  {
   "property": "C50",
   "status": "proved",
   "theorems": [
    "Sanctum.C50_flush_exact"
   ],
   "note": ""
  },
  {
   "property": "C51",
   "status": "partial",
   "theorems": [
    "Sanctum.C51_loads_partial",
    "Sanctum.C51_not_measured",
    "Sanctum.C51_statement_false"
   ],
   "note": "The bodies of load_page and load_page_table are commented out: they check their arguments (exact) and do nothing."
  },
  {
   "property": "C52",
   "status": "partial",
   "theorems": [
    "Sanctum.C52_confinement_partial",
    "Sanctum.C52_undisturbed_partial",
    "Sanctum.undisturbed_apart",
    "Sanctum.leak_race",
    "Sanctum.C52_statement_false"
   ],
   "note": "Every interleaving of covered calls; the access bound is for all calls except assign_thread, load_thread, debug copies with an ID, and create_thread on machines with a tiny monitor. C52_undisturbed_partial adds the thread calls (without the lock of their enclave's region) and debug copies with IDs of records, for interleavings in which no other core takes the metadata region of a running thread call away; calls one after the other are such (undisturbed_apart). False in full: assign_thread uses the enclave's record after releasing its region's lock."
  },
  {
   "property": "C53",
   "status": "partial",
   "theorems": [
    "Sanctum.C53_integrity_partial",
    "Sanctum.C53_histories_partial",
    "Sanctum.C53_undisturbed_partial",
    "Sanctum.C53_statement_false"
   ],
   "note": "In interleavings, same coverage as C52. For calls made one after the other (C53_histories_partial) all covered calls, assign_thread, load_thread and debug copies with any ID among them; interleavings with these calls in which no thread call loses its enclave's region: C53_undisturbed_partial. False in full: assign_thread can write an OS region when another call runs at the same time."
  },
  {
   "property": "C54",
   "status": "partial",
   "theorems": [
    "Sanctum.C54_noninterference_partial",
    "Sanctum.C54_undisturbed_partial",
    "Sanctum.C54_statement_false"
   ],
   "note": "Same coverage as C52; a simulation between the two runs. C54_undisturbed_partial adds the thread calls and debug copies with IDs, as for C52. False in full: a debug copy reads a word of its ID before it checks it."
  },
  {
   "property": "C55",
   "status": "proved",
   "theorems": [
    "Sanctum.C55_read",
    "Sanctum.C55_write",
    "Sanctum.C55_read_back",
    "Sanctum.C55_update",
    "Sanctum.C55_word_memory",
    "Sanctum.snapshot_loop"
   ],
   "note": "Byte-level model of the test architecture; C55_word_memory proves that the word machine used everywhere else is a faithful view of it; snapshot_loop does the same for the DRB register load."
  },
  {
   "property": "C56",
   "status": "partial",
   "theorems": [
    "Sanctum.C56_bounds_partial",
    "Sanctum.C56_statement_false"
   ],
   "note": "The assertion adds before it compares and wraps: the last few addresses of the 64-bit space pass it (witness). Proved for all others."
  },
  {
   "property": "C57",
   "status": "proved",
   "theorems": [
    "Sanctum.C57_bzero",
    "Sanctum.C57_bcopy",
    "Sanctum.C57_monitor_bzero"
   ],
   "note": "All element sizes; the refusal part for buffers that do not wrap around the end of the address space."
  },
  {
   "property": "C58",
   "status": "partial",
   "theorems": [
    "Sanctum.C58_alone_partial",
    "Sanctum.C58_statement_false",
    "Sanctum.C58_riscv_false",
    "Sanctum.C58_lost_update",
    "Sanctum.C58_model_tas"
   ],
   "note": "The test architecture's operations are load/store sequences: equal to the atomic operation when undisturbed, both cores can get a flag otherwise (witness schedule); the RISC-V ones are stubs. The model assumes the contract (C58_model_tas)."
  },
  {
   "property": "C59",
   "status": "proved",
   "theorems": [
    "Sanctum.C59_pointers"
   ],
   "note": ""
  },
  {
   "property": "C60",
   "status": "proved",
   "theorems": [
    "Sanctum.C60_map",
    "Sanctum.C60_map_page",
    "Sanctum.C60_entry_in_table",
    "Sanctum.C60_table_pages"
   ],
   "note": "Arbitrary geometry."
  },
  {
   "property": "C61",
   "status": "proved",
   "theorems": [
    "Sanctum.C61_block",
    "Sanctum.C61_assign",
    "Sanctum.C61_free",
    "Sanctum.C61_create_metadata",
    "Sanctum.C61_check_ownership",
    "Sanctum.C61_set_dma",
    "Sanctum.C61_reachable",
    "Sanctum.C61_unlocked"
   ],
   "note": "The tables are in Spec/Codes.lean, without reference to the code."
  },
  {
   "property": "C62",
   "status": "proved",
   "theorems": [
    "Sanctum.C62_load_page_table",
    "Sanctum.C62_load_page",
    "Sanctum.C62_init_enclave",
    "Sanctum.C62_enter_enclave",
    "Sanctum.C62_delete_enclave",
    "Sanctum.C62_copy_debug",
    "Sanctum.C62_create_enclave",
    "Sanctum.C62_assign_thread",
    "Sanctum.C62_load_thread",
    "Sanctum.C62_create_thread",
    "Sanctum.C62_delete_thread",
    "Sanctum.C62_exit_enclave"
   ],
   "note": "accept_thread (which takes the lock of a wild index, C42) is outside the quantifier."
  },
  {
   "property": "C63",
   "status": "partial",
   "theorems": [
    "Sanctum.C63_boot_any",
    "Sanctum.C63_reset_partial",
    "Sanctum.C63_statement_false",
    "Sanctum.C63_stale_flush"
   ],
   "note": "The second boot always succeeds with the same geometry and a clean region table. False in full: g_core is not initialised at boot, so the flush times of before the reset survive while the clock restarts; a region can then be freed without a flush (C63_stale_flush)."
  },
  {
   "property": "C64",
   "status": "proved",
   "theorems": [
    "Sanctum.C64_clock",
    "Sanctum.C64_stamps"
   ],
   "note": ""
  },
  {
   "property": "C65",
   "status": "proved",
   "theorems": [
    "Sanctum.C65_recovery"
   ],
   "note": ""
  },
  {
   "property": "C66",
   "status": "proved",
   "theorems": [
    "Sanctum.C66_info"
   ],
   "note": "Every state whatsoever; Recipe states the decoding rule of api.h and recipe_unique that it determines shift and count."
  },
  {
   "property": "C67",
   "status": "partial",
   "theorems": [
    "Sanctum.C67_threads_partial",
    "Sanctum.C67_statement_false",
    "Sanctum.C67_enter_does_not_enter"
   ],
   "note": "The bodies of these functions are commented out in the code; proved: exactly what is left of them. The full statement is refuted."
  },
  {
   "property": "C68",
   "status": "proved",
   "theorems": [
    "Sanctum.C68_linearizable"
   ],
   "note": "Atomic specification: Spec/Atomic.lean. Nothing is said there of the results of the calls on enclaves and threads, only that they leave the table alone. create_thread and delete_thread (which keep a lock, C67) and accept_thread are outside the quantifier."
  },
  {
   "property": "C69",
   "status": "partial",
   "theorems": [
    "Sanctum.C69_maps_partial",
    "Sanctum.C69_statement_false"
   ],
   "note": "All interleavings of the covered calls (not debug copies with a non-record ID, accept_thread). Refuted in full: the OS can overwrite the bitmap with a debug copy (finding 19)."
  },
  {
   "property": "C70",
   "status": "partial",
   "theorems": [
    "Sanctum.C70_dma_partial",
    "Sanctum.C70_quiescent",
    "Sanctum.C70_statement_false"
   ],
   "note": "Registers equal the window whenever the lock of region 0 is free. Refuted for all instants: set_dma_range writes the base register before the mask register."
  },
  {
   "property": "C71",
   "status": "proved",
   "theorems": [
    "Sanctum.C71_registers",
    "Sanctum.C71_shield"
   ],
   "note": "All calls, not only the covered ones, from every state with idle cores."
  },
  {
   "property": "C72",
   "status": "partial",
   "theorems": [
    "Sanctum.C72_shielded_partial",
    "Sanctum.C72_statement_false"
   ],
   "note": "Proved for the booting core and all calls; refuted for the others, whose registers boot does not set."
  },
  {
   "property": "C73",
   "status": "partial",
   "theorems": [
    "Sanctum.C73_flush_partial",
    "Sanctum.C73_flushed_partial",
    "Sanctum.C73_statement_false"
   ],
   "note": "Proved since the call that made the previous successful block, for the calls and (C73_flushed_partial) for the TLB flush itself; the full statement is refuted, as for C25 (finding 12)."
  },
  {
   "property": "C74",
   "status": "proved",
   "theorems": [
    "Sanctum.C74_account",
    "Sanctum.C74_handed_out_once",
    "Sanctum.C74_blocked_once"
   ],
   "note": "Interleavings of the covered calls of fewer than 2^64 steps."
  },
  {
   "property": "C75",
   "status": "partial",
   "theorems": [
    "Sanctum.C75_no_race_partial",
    "Sanctum.C75_statement_false",
    "Sanctum.C75_thread_calls_false"
   ],
   "note": "Proved for interleavings of the orderly calls: covered, and not assign_thread, load_thread, create_thread, nor debug copies with an ID. Refuted with those: a debug copy reads the is_debug word of whatever ID it is given (finding 33); and assign_thread races with a debug copy even if debug copies only have the ID of the OS (C75_thread_calls_false)."
  },
  {
   "property": "C76",
   "status": "partial",
   "theorems": [
    "Sanctum.C76_swap_partial",
    "Sanctum.C76_statement_false"
   ],
   "note": "Proved for interleavings of the orderly calls (as C75); refuted for debug copies with an ID."
  },
  {
   "property": "C77",
   "status": "proved",
   "theorems": [
    "Sanctum.C77_contention",
    "Sanctum.C77_locks",
    "Sanctum.C77_alone",
    "Sanctum.C77_self",
    "Sanctum.C77_livelock"
   ],
   "note": "Interleavings of the covered calls. C77_self: a call that waits for itself, on a concrete machine; C77_livelock: two cores refuse each other any number of times."
  },
  {
   "property": "C78",
   "status": "proved",
   "theorems": [
    "Sanctum.C78_programs",
    "Sanctum.C78_boot",
    "Sanctum.C78_interleavings",
    "Sanctum.C78_complete"
   ],
   "note": "Boot on all platforms; interleavings of the covered calls on sane platforms. Test-and-set and fetch-and-add are one step, as their contract says (C58)."
  },
  {
   "property": "C79",
   "status": "partial",
   "theorems": [
    "Sanctum.C79_store_buffers_partial",
    "Sanctum.C79_interleavings",
    "Sanctum.C79_mutual_exclusion_partial",
    "Sanctum.C79_statement_false"
   ],
   "note": "Proved for executions of the orderly calls (as C75) on partial-store-order machines (TSO included); refuted with debug copies that are given an ID: one can read a word whose store still waits in another core's buffer. C79_interleavings is the converse: no interleaving is lost."
  },
  {
   "property": "C80",
   "status": "partial",
   "theorems": [
    "Sanctum.C80_boots_iff",
    "Sanctum.C80_halts_partial",
    "Sanctum.C80_statement_false",
    "Sanctum.C80_huge",
    "Sanctum.C80_unsupported_not_halted"
   ],
   "note": "C80_boots_iff is exact on sane platforms (power-of-two DRAM no smaller than the cache index range); the panic is proved for platforms on which the int arithmetic is defined and DRAM holds the monitor's arrays, and refuted for the others: a supported machine with 2 GiB regions runs into undefined behaviour, and one with too many cores writes outside DRAM before it would halt."
  },
  {
   "property": "C81",
   "status": "proved",
   "theorems": [
    "Sanctum.C81_serializable",
    "Sanctum.C81_thread_calls_false",
    "Sanctum.C81_flush_not_atomic"
   ],
   "note": "Whole machine, by reduction (locks as ownership; pages of a region are a core's while it holds the lock of a region that is free or metadata). Covered calls without the thread calls and debug copies, which use pages outside the critical sections of their region's lock. The history has software's loads and stores. That assign_thread is left out, and that a flush takes two steps, is necessary: two counterexamples, each shown impossible on the serial machine by a complete search of it (Lemmas/Explore)."
  },
  {
   "property": "C82",
   "status": "partial",
   "theorems": [
    "Sanctum.C82_someone_gets_through_partial",
    "Sanctum.C82_statement_false"
   ],
   "note": "For bursts of calls that ask for region locks in descending order (all but set_dma_range of a range outside region 0, assignments to an ID in a larger region, debug copies to a larger region, and thread calls). False in full: block_dram_region and set_dma_range ask for the same two locks in opposite orders and can refuse each other for ever (C77_livelock)."
  },
  {
   "property": "C83",
   "status": "partial",
   "theorems": [
    "Sanctum.C83_cache_isolation_partial",
    "Sanctum.C83_set_of_address",
    "Sanctum.C83_statement_false",
    "Sanctum.C83_wide_lines_false",
    "Sanctum.C83_other_cores_false"
   ],
   "note": "Proved, with the exact set of every address, for caches whose lines are not larger than a page and for the shift of the core that booted (and of cores that something else gave the same shift). False in full: boot does not check the line size, and sets the shift on its own core only (src/monitor/boot_init.cc:95-96 has a TODO)."
  },
  {
   "property": "C84",
   "status": "partial",
   "theorems": [
    "Sanctum.C84_out_of_reach_partial",
    "Sanctum.C84_statement_false",
    "Sanctum.C84_stale_tlb_false",
    "Sanctum.C84_stale_map_false"
   ],
   "note": "Proved for a core that blocked the region itself and flushed since, until the OS owns the region again. False in full, twice: free succeeds without a flush since the block (finding 12), so the blocking core's TLB keeps the region; and other cores' maps are not reloaded (C28), so core 1 can still use a region that became a metadata region although all cores flushed."
  },
  {
   "property": "C85",
   "status": "proved",
   "theorems": [
    "Sanctum.C85_data_oblivious"
   ],
   "note": "A relational argument: the two runs do the same actions up to data, whatever responses they get. The C++ code's registers and stack are not memory of the model; the work area of the hash is."
  },
  {
   "property": "C86",
   "status": "proved",
   "theorems": [
    "Sanctum.C86_store_buffers",
    "Sanctum.C86_quiet"
   ],
   "note": "Covered calls without the thread calls and debug copies, as C81 (C81_thread_calls_false applies here too: interleavings are executions of this machine). Software's own stores reach memory at once (a store that waited is a later store) and it accesses regions whose owner in memory is the OS."
  },
  {
   "property": "C87",
   "status": "partial",
   "theorems": [
    "Sanctum.C87_monitor_partial",
    "Sanctum.C87_devices_partial",
    "Sanctum.C87_statement_false",
    "Sanctum.C87_careful_false"
   ],
   "note": "Proved, for all calls (not only the covered ones), that transfers leave the monitor's memory alone if no call asks for a window that starts in it; then every execution with devices is an interleaving with software stores, so the other theorems apply. False in full: the code accepts windows over the monitor's memory; and, even if the OS asks only for windows over its own memory, a metadata region is exposed between the writes of the two registers."
  },
  {
   "property": "C88",
   "status": "partial",
   "theorems": [
    "Sanctum.C88_footprint_partial",
    "Sanctum.C88_frame_partial",
    "Sanctum.C88_histories_partial",
    "Sanctum.C88_statement_false"
   ],
   "note": "Proved for every call but accept_thread (and debug copies without an ID of the monitor's own memory; create_enclave and the thread calls on machines with one stripe). False in full: accept_thread locks by address and so writes to memory nobody named."
  },
  {
   "property": "C89",
   "status": "proved",
   "theorems": [
    "Sanctum.C89_any_core",
    "Sanctum.C89_flush",
    "Sanctum.C89_histories",
    "Sanctum.C89_other_software"
   ],
   "note": "The claim for one call holds for every call and every state, reachable or not; the claim for histories is for covered calls and arbitrary stores by software between them. C89_other_software: the condition on the software that runs is needed."
  },
  {
   "property": "C90",
   "status": "partial",
   "theorems": [
    "Sanctum.C90_release_partial",
    "Sanctum.C90_kept_partial",
    "Sanctum.C90_lost_partial",
    "Sanctum.C90_statement_false"
   ],
   "note": "Proved for every interleaving and history of covered calls. False in full: accept_thread, when it cannot take the lock of its enclave's region, releases the lock of the thread's region, which it never took (it locks by address); witness interleaving."
  },
  {
   "property": "C91",
   "status": "proved",
   "theorems": [
    "Sanctum.C91_either_order",
    "Sanctum.C91_one_core",
    "Sanctum.C91_block_times",
    "Sanctum.C91_maps"
   ],
   "note": "For every state reachable by covered calls. C91_block_times and C91_maps show that the two exceptions are needed."
  },
  {
   "property": "C92",
   "status": "proved",
   "theorems": [
    "Sanctum.C92_serial",
    "Sanctum.C92_quiet",
    "Sanctum.C92_no_fault"
   ],
   "note": "Composes C78 (bytes), C79/C86 (store buffers) and C81 (serial machine) in one theorem whose statement mentions no machine with words: Model/TsoBytes and the byte-addressed serial machine of Spec/TsoBytes. Covered calls without the thread calls and debug copies, as C81 and C86. C92_no_fault is for orderly calls (more than those of C92_serial) and also gives the interleaving on words. Two waiting stores within the same aligned 8 bytes stay in order."
  },
  {
   "property": "C93",
   "status": "partial",
   "theorems": [
    "Sanctum.C93_what_memory_holds_partial",
    "Sanctum.C93_completes_partial",
    "Sanctum.C93_maps_partial",
    "Sanctum.C93_boot",
    "Sanctum.C93_from_power_on_partial",
    "Sanctum.C93_statement_false"
   ],
   "note": "Proved for boot on all sane platforms, and for histories of the covered calls without debug copies that have an ID, create_thread where the monitor's memory ends below the words it takes for the OS's bitmap, and create_enclave on pages of the page map or with a mailbox count whose structure size wraps. False in full: a debug copy with an ID reads the is_debug word of the record that the ID would have before it checks the ID (finding 33), so its result depends on a word of the OS's memory."
  },
  {
   "property": "C94",
   "status": "partial",
   "theorems": [
    "Sanctum.C94_no_trace_partial",
    "Sanctum.C94_statement_false"
   ],
   "note": "Proved for the calls of C93 and all covered debug copies (with an ID, too). False in full: a refused accept_thread leaves a word set in memory, as in C22 (witness)."
  },
  {
   "property": "C95",
   "status": "partial",
   "theorems": [
    "Sanctum.C95_again_partial",
    "Sanctum.C95_debug_again_partial",
    "Sanctum.C95_flush_again",
    "Sanctum.C95_statement_false"
   ],
   "note": "Proved for the calls of C93, after histories of the calls of C94; the flush has its own theorem, and so have debug copies, for repetitions without stores in between (one that is made again copies again). False in full: the result of a debug copy with an ID can change when the OS stores to its own memory (finding 33)."
  }
 ]
}