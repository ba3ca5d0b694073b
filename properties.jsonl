{"id": "C01", "title": "Base/mask range validation is exact", "statement": "A (base, mask) pair is accepted as a range exactly when mask = 2^k - 1 for some k and base is a multiple of 2^k; then base|mask = base+mask is the last address of the range.", "quantifier": "all pairs of 64-bit words", "why_tests_cant": "2^128 pairs; the boundary masks 0 and 2^64-1 and misaligned bases must all be classified correctly", "anchors": ["src/bare/bit_masking.h:is_valid_range", "src/bare/bit_masking.h:is_valid_range_mask", "src/bare/bit_masking.h:is_aligned_to_mask"]}
{"id": "C02", "title": "Page counts are exact ceilings", "statement": "The number of pages reported for an amount of memory is the least number of 4096-byte pages that holds it; in particular enclave_metadata_pages(n) and thread_metadata_pages() are enough to hold the structures they are reported for.", "quantifier": "all 64-bit sizes and mailbox counts", "why_tests_cant": "wrap-around at the top of the 64-bit range is never exercised by literals", "anchors": ["src/bare/bit_masking.h:pages_needed_for", "src/monitor/metadata_inl.h:enclave_info_size", "src/monitor/metadata_inl.h:enclave_info_pages", "src/monitor/metadata_inl.h:thread_metadata_pages", "src/monitor/public/api.h:enclave_metadata_pages"]}
{"id": "C03", "title": "Power-of-two rounding is minimal", "statement": "address_bits_for(n) is the least b with n <= 2^b and ceil_power_of_two(n) is the least power of two >= n.", "quantifier": "all 64-bit n >= 1", "why_tests_cant": "the loop length and the int-typed shift depend on the magnitude of n; tests stop at 65536", "anchors": ["src/bare/bit_masking.h:address_bits_for", "src/bare/bit_masking.h:ceil_power_of_two", "src/bare/bit_masking.h:is_power_of_two"]}
{"id": "C04", "title": "Region bitmaps behave as sets", "statement": "After setting or clearing bit i of a bitmap, reading bit j returns the new value if j = i and the old value otherwise, and no memory outside the one word holding bit i changes.", "quantifier": "all bitmap addresses, all bit indices, all memory contents", "why_tests_cant": "infinitely many (address, index, content) triples; tests probe a handful of indices", "anchors": ["src/bare/bit_masking.h:set_bitmap_bit", "src/bare/bit_masking.h:read_bitmap_bit"]}
{"id": "C05", "title": "Page-table entries round-trip", "statement": "After writing an entry with a page-aligned target and any ACL, the entry reads back as valid, its target is exactly the target written, its ACL bits are the caller's low 12 bits with the valid bit forced on, and no other word changes.", "quantifier": "all targets, ACLs, entry addresses, memory contents, both architectures", "why_tests_cant": "2^64 ACLs times 2^52 targets", "anchors": ["src/bare/arch/riscv/page_tables_arch.h:write_page_table_entry", "src/bare/arch/riscv/page_tables_arch.h:page_table_entry_target", "src/bare/arch/riscv/page_tables_arch.h:is_valid_page_table_entry", "src/bare/arch/test/page_tables_arch.h:write_page_table_entry"]}
{"id": "C06", "title": "Software page walk follows the page tables", "statement": "Walking to a level returns the address of the unique entry reached by following, from the root, the entry selected at each level by that level's slice of the virtual address; it returns 0 exactly when the root is unset or an intermediate entry is not valid; two virtual addresses with the same translated bits walk identically.", "quantifier": "all memory contents in which no page table is at physical page 0 (which holds the monitor), roots, virtual addresses and levels below the number of levels, all page-table geometries", "why_tests_cant": "the walk depends on unbounded memory contents", "anchors": ["src/monitor/enclave_inl.h:walk_page_tables_to_entry", "src/monitor/enclave_inl.h:walk_page_tables", "src/bare/page_tables.h:page_table_translated_bits"]}
{"id": "C07", "title": "Byte-order conversion is a byte reversal", "statement": "Converting a 32-bit value to big-endian reverses its four bytes; doing it twice is the identity.", "quantifier": "all 2^32 values", "why_tests_cant": "2^32 values", "anchors": ["src/bare/bit_masking.h:reverse_bytes", "src/crypto/hash.cc:to_big_endian"]}
{"id": "C08", "title": "Metadata page-map entries pack losslessly", "statement": "Packing a page-aligned enclave ID with a page type can be undone: the type and the ID are both recovered, distinct (ID, type) pairs give distinct entries, and an entry is zero only for the null ID with the empty type.", "quantifier": "all page-aligned 64-bit IDs and all four types", "why_tests_cant": "2^52 IDs", "anchors": ["src/monitor/metadata_inl.h:metadata_page_info", "src/monitor/metadata_inl.h:metadata_page_info_type", "src/monitor/metadata_inl.h:empty_metadata_page_info"]}
{"id": "C09", "title": "Boot derives a consistent DRAM geometry or refuses to boot", "statement": "If boot does not panic, the page-offset, stripe-page, region and stripe masks are pairwise disjoint, together cover exactly the DRAM address bits, match the reported shifts, counts and sizes, and every DRAM region lies inside DRAM.", "quantifier": "all platform descriptions (DRAM size, cache geometry, cache index shift limits)", "why_tests_cant": "the parameter space is six unbounded integers; tests fix one toy machine", "anchors": ["src/monitor/boot_init.cc:boot_init_dram_regions"]}
{"id": "C10", "title": "Address decomposition is a bijection and region indices are always in range", "statement": "Every DRAM address corresponds to exactly one (stripe, region, stripe page, page offset) tuple; the region index computed for any 64-bit address whatsoever is below the region count; the index for an address clamps to 0 outside DRAM; the region mask reported to the OS lets it recompute shift and count.", "quantifier": "all addresses, all booted machines", "why_tests_cant": "2^64 addresses times all geometries", "anchors": ["src/monitor/dram_regions_inl.h:dram_region_for", "src/monitor/dram_regions_inl.h:clamped_dram_region_for", "src/monitor/dram_regions_inl.h:dram_region_start", "src/monitor/dram_regions_inl.h:dram_stripe_for", "src/monitor/dram_regions_inl.h:dram_stripe_page_for", "src/monitor/public/api.h:dram_region_mask"]}
{"id": "C11", "title": "Region page indices are unique within a region", "statement": "Two addresses of the same DRAM region have the same region page index exactly when they are in the same page.", "quantifier": "all pairs of addresses of a region, all booted machines including multi-stripe ones", "why_tests_cant": "the tests explicitly leave the multi-stripe case as a TODO", "anchors": ["src/monitor/dram_regions_inl.h:dram_region_page_for", "src/monitor/metadata_inl.h:metadata_page_info_for"]}
{"id": "C12", "title": "Boot leaves a protected, fully OS-owned machine", "statement": "After boot the monitor's arrays are pairwise disjoint and lie inside the protected range programmed into the hardware, every region is unlocked and owned by the OS, the OS region bitmap has every region's bit set and is loaded on the boot core, and the DMA window is outside the monitor's memory.", "quantifier": "all booted machines with a power-of-two DRAM at least as large as the cache index range and fewer than 2^57 cores (all core counts, region counts)", "why_tests_cant": "array layout depends on unbounded core and region counts", "anchors": ["src/monitor/boot_init.cc:boot_init_dynamic_arrays", "src/monitor/boot_init.cc:boot_init_protection"]}
{"id": "C13", "title": "Wiping a region clears exactly that region", "statement": "Wiping DRAM region r sets every byte of every stripe of r to zero and changes no byte of any other region.", "quantifier": "all regions, all memory contents, all single- and multi-stripe geometries", "why_tests_cant": "the multi-stripe case is a TODO in the tests; the loop count is unbounded", "anchors": ["src/monitor/dram_regions_inl.h:bzero_dram_region"]}
{"id": "C14", "title": "The metadata page map fits and covers", "statement": "metadata_region_pages() entries fit in the first metadata_region_start() pages of a metadata region, those pages lie inside one stripe, and no smaller number of pages would hold the map.", "quantifier": "all booted machines", "why_tests_cant": "depends on DRAM size and stripe size over unbounded ranges", "anchors": ["src/monitor/boot_init.cc:boot_init_metadata"]}
{"id": "C15", "title": "block_dram_region: exact decision and effect", "statement": "block_dram_region(r) succeeds exactly when r is a valid non-zero region owned by the caller, an enclave caller has no pinned pages in it, r and the region of the caller's record are unlocked and different, and, if the caller's record region is region 0 (always so for the OS), the first stripe of r neither overlaps nor is adjacent to the DMA window; on success the region is blocked, remembers its previous owner and block time, the block clock advances by one, the owner's bitmap bit is cleared and reloaded on the calling core, and nothing else changes; otherwise nothing changes at all.", "quantifier": "all machine states with lock words 0 or 1, a well-ordered DMA window and a caller record outside the monitor; all callers and 64-bit arguments", "why_tests_cant": "the decision depends on the whole machine state", "anchors": ["src/monitor/dram_regions.cc:block_dram_region"]}
{"id": "C16", "title": "assign_dram_region: exact decision and effect", "statement": "assign_dram_region(r, e) succeeds exactly when r is valid, unlocked and free, e names the OS or an enclave accepted by ID validation, and e's own region is unlocked and different from r; on success e owns r, e's bitmap has r's bit, and no other region changes owner.", "quantifier": "all machine states and 64-bit arguments", "why_tests_cant": "depends on the whole machine state", "anchors": ["src/monitor/dram_regions.cc:assign_dram_region", "src/monitor/metadata_inl.h:is_valid_enclave_id"]}
{"id": "C17", "title": "free_dram_region: exact decision and effect", "statement": "free_dram_region(r) succeeds exactly when r is valid and unlocked and is either blocked with every core's flush timestamp at least the region's block timestamp, or a metadata region with no pinned pages; on success the region is free and nothing else changes.", "quantifier": "all machine states, all core counts, all 64-bit arguments", "why_tests_cant": "quantifies over all cores and timestamps", "anchors": ["src/monitor/dram_regions.cc:free_dram_region"]}
{"id": "C18", "title": "create_metadata_region: exact decision and effect", "statement": "create_metadata_region(r) succeeds exactly when r is valid, unlocked and free; on success r is a metadata region with no pinned pages whose whole page map reads as empty, and no memory outside r's map and r's table entry changes.", "quantifier": "all machine states and arguments", "why_tests_cant": "depends on the whole machine state and on map size", "anchors": ["src/monitor/dram_regions.cc:create_metadata_region", "src/monitor/metadata_inl.h:init_metadata_region"]}
{"id": "C19", "title": "Region queries are truthful and free of side effects", "statement": "dram_region_state, dram_region_owner and dram_region_check_ownership report invalid, locked, free, blocked or owned exactly as the region table says; ownership is confirmed to an enclave exactly when it owns the region; none of them changes the machine.", "quantifier": "all machine states, callers and arguments", "why_tests_cant": "quantifies over all states", "anchors": ["src/monitor/dram_regions.cc:dram_region_state", "src/monitor/dram_regions.cc:dram_region_owner", "src/monitor/dram_regions.cc:dram_region_check_ownership"]}
{"id": "C20", "title": "Region lifecycle is respected in every history", "statement": "In every history of API calls a region only moves owned -> blocked -> free -> (owned or metadata) and metadata -> free; region 0 stays owned by the OS for ever.", "quantifier": "all finite histories of API calls by any cores with any arguments", "why_tests_cant": "unbounded histories", "anchors": ["src/monitor/dram_regions.cc:block_dram_region", "src/monitor/dram_regions.cc:free_dram_region", "src/monitor/dram_regions.cc:assign_dram_region", "src/monitor/dram_regions.cc:create_metadata_region"]}
{"id": "C21", "title": "The OS region bitmap always equals OS ownership", "statement": "In every reachable state, the OS region bitmap contains exactly the regions owned by the OS.", "quantifier": "all finite histories from boot", "why_tests_cant": "unbounded histories", "anchors": ["src/monitor/dram_regions.cc:block_dram_region", "src/monitor/dram_regions.cc:assign_dram_region", "src/monitor/metadata_inl.h:set_enclave_region_bitmap_bit"]}
{"id": "C22", "title": "Failed calls are no-ops", "statement": "An API call that returns anything other than monitor_ok leaves all of memory, all locks and all hardware registers exactly as they were.", "quantifier": "all API calls, all arguments, all machine states", "why_tests_cant": "every error path of every call from every state", "anchors": ["src/monitor/dram_regions.cc:block_dram_region", "src/monitor/metadata.cc:create_enclave", "src/monitor/enclave.cc:delete_enclave", "src/monitor/enclave.cc:copy_debug_enclave_page"]}
{"id": "C23", "title": "Calls release every lock they take", "statement": "When an API call returns, every DRAM region lock and enclave lock has the value it had when the call started.", "quantifier": "all API calls, arguments and states", "why_tests_cant": "every return path", "anchors": ["src/monitor/enclave.cc:enter_enclave", "src/monitor/enclave.cc:delete_thread", "src/monitor/enclave.cc:create_thread", "src/monitor/metadata.cc:assign_thread", "src/monitor/dram_regions_inl.h:clear_dram_region_lock"]}
{"id": "C24", "title": "No spurious monitor_concurrent_call", "statement": "When no lock is held, single-region calls (block, free, create metadata, set DMA range, ownership check) never return monitor_concurrent_call, so retrying after contention ends always makes progress.", "quantifier": "all machine states with all region locks free, all arguments; callers whose own record is not in a region they own", "why_tests_cant": "quantifies over all states", "anchors": ["src/monitor/dram_regions.cc:block_dram_region", "src/monitor/dram_regions.cc:set_dma_range", "src/monitor/dram_regions.cc:free_dram_region"]}
{"id": "C25", "title": "A region is only freed after every core flushed its TLB since the block", "statement": "If a successful free_dram_region(r) follows a successful block_dram_region(r), every core performed flush_cached_dram_regions strictly between the two.", "quantifier": "all finite histories, all core counts", "why_tests_cant": "unbounded histories and all flush/block interleavings", "anchors": ["src/monitor/dram_regions.cc:free_dram_region", "src/monitor/dram_regions.cc:flush_cached_dram_regions", "src/monitor/dram_regions_inl.h:dram_region_tlb_flush"]}
{"id": "C26", "title": "The DMA window only ever covers OS-owned memory", "statement": "In every reachable state every address in the DMA window belongs to a DRAM region owned by the OS and lies outside the monitor's protected range.", "quantifier": "all finite histories", "why_tests_cant": "unbounded histories", "anchors": ["src/monitor/dram_regions.cc:set_dma_range", "src/monitor/dram_regions.cc:block_dram_region", "src/monitor/boot_init.cc:boot_init_protection"]}
{"id": "C27", "title": "Regions under the DMA window cannot be blocked", "statement": "block_dram_region(r) never succeeds for an OS-owned region that contains a byte of the current DMA window.", "quantifier": "all machine states, all regions, single- and multi-stripe geometries", "why_tests_cant": "interval overlap over all endpoints and stripes", "anchors": ["src/monitor/dram_regions.cc:block_dram_region"]}
{"id": "C28", "title": "Hardware access maps follow ownership", "statement": "After a successful block or assign involving the OS, the region access map loaded in the hardware equals the set of OS-owned regions, on every core.", "quantifier": "all histories and cores", "why_tests_cant": "unbounded histories, all cores", "anchors": ["src/monitor/dram_regions.cc:block_dram_region", "src/monitor/dram_regions.cc:assign_dram_region", "src/monitor/boot_init.cc:boot_init_protection"]}
{"id": "C29", "title": "Mutual exclusion under every interleaving", "statement": "In every interleaving of API calls on any number of cores, at most one core at a time is inside the critical section of a DRAM region, every access to a region's ownership record happens inside it, and no call releases a lock held by another core.", "quantifier": "all interleavings of atomic memory actions of any number of calls on any number of cores", "why_tests_cant": "exponentially many schedules", "anchors": ["src/monitor/dram_regions_inl.h:test_and_set_dram_region_lock", "src/monitor/dram_regions_inl.h:clear_dram_region_lock"]}
{"id": "C30", "title": "Region invariants hold at every instant of every interleaving", "statement": "At every point of every interleaving of API calls, with adversarial software writing anything anywhere outside the monitor's protected range, region 0 is owned by the OS, every region is owned, blocked, metadata or free, every ownership change is a legal lifecycle edge, and an unlocked region is in the OS bitmap exactly if the OS owns it.", "quantifier": "all interleavings with an adversarial environment", "why_tests_cant": "exponentially many schedules times arbitrary adversary writes", "anchors": ["src/monitor/dram_regions.cc:block_dram_region", "src/monitor/dram_regions.cc:assign_dram_region", "src/monitor/dram_regions.cc:free_dram_region"]}
{"id": "C31", "title": "Calls are wait-free", "statement": "Every API call finishes within a number of its own steps that is bounded by the machine geometry, whatever the other cores do; the monitor cannot deadlock or livelock.", "quantifier": "all interleavings, all states", "why_tests_cant": "requires reasoning about all schedules", "anchors": ["src/monitor/public/api.h:monitor_concurrent_call", "src/monitor/dram_regions.cc:set_dma_range", "src/monitor/enclave.cc:delete_enclave"]}
{"id": "C32", "title": "Quiescence restores all locks", "statement": "Whenever all calls of an interleaving have returned, no region lock is held.", "quantifier": "all interleavings", "why_tests_cant": "exponentially many schedules", "anchors": ["src/monitor/dram_regions_inl.h:clear_dram_region_lock"]}
{"id": "C33", "title": "create_enclave: exact decision and effect", "statement": "create_enclave succeeds exactly when the virtual range is valid and at least a page, the ID is a page-aligned DRAM address in an unlocked metadata region, the structure fits in the rest of the stripe and all its map entries are empty; on success the ID's map entry names the new enclave, its record holds the given arguments with the enclave not initialized and no threads, and nothing outside the metadata region changes.", "quantifier": "all arguments and machine states", "why_tests_cant": "depends on the whole machine state", "anchors": ["src/monitor/metadata.cc:create_enclave", "src/monitor/enclave_inl.h:init_enclave_info", "src/monitor/metadata_inl.h:reserve_metadata_pages"]}
{"id": "C34", "title": "Metadata pages are never allocated twice", "statement": "No page of a live enclave's metadata structure can be allocated to another structure.", "quantifier": "all histories of enclave creation, all mailbox counts", "why_tests_cant": "unbounded histories and sizes", "anchors": ["src/monitor/metadata_inl.h:assign_metadata_pages", "src/monitor/metadata.cc:create_enclave"]}
{"id": "C35", "title": "A metadata region with live enclaves cannot be freed", "statement": "free_dram_region fails on a metadata region as long as an enclave created in it has not been deleted.", "quantifier": "all histories", "why_tests_cant": "unbounded histories", "anchors": ["src/monitor/dram_regions.cc:free_dram_region", "src/monitor/metadata.cc:create_enclave"]}
{"id": "C36", "title": "Enclave creation never overwrites the page map", "statement": "A successful create_enclave only places the enclave's record in usable metadata pages, never in the pages holding the region's page map.", "quantifier": "all arguments and states", "why_tests_cant": "all IDs", "anchors": ["src/monitor/metadata.cc:create_enclave", "src/monitor/public/api.h:metadata_region_start"]}
{"id": "C37", "title": "Enclave ID validation never accepts a non-enclave", "statement": "Calls that take an enclave ID only proceed for an ID that a successful create_enclave returned; every other ID is rejected with an error and no effect.", "quantifier": "all histories, all 64-bit IDs", "why_tests_cant": "unbounded histories and 2^64 IDs", "anchors": ["src/monitor/metadata_inl.h:is_valid_enclave_id", "src/monitor/metadata_inl.h:lock_enclave", "src/monitor/enclave_init.cc:init_enclave", "src/monitor/enclave_init.cc:load_page", "src/monitor/enclave.cc:enter_enclave"]}
{"id": "C38", "title": "An initialized enclave is sealed", "statement": "init_enclave succeeds at most once per enclave; after it, load_page_table, load_page, load_thread and init_enclave on that enclave fail and the enclave's measurement never changes again.", "quantifier": "all machine states and arguments", "why_tests_cant": "all later calls", "anchors": ["src/monitor/enclave_init.cc:init_enclave", "src/monitor/enclave_init.cc:load_page", "src/monitor/enclave_init.cc:load_page_table", "src/monitor/metadata.cc:load_thread", "src/monitor/measure_inl.h:finalize_enclave_hash"]}
{"id": "C39", "title": "Debug page copy is confined", "statement": "copy_debug_enclave_page copies exactly one page, only between a page of a region of the named debug enclave and a page of an OS-owned region, changes nothing but the destination page, and refuses non-debug enclaves.", "quantifier": "all arguments and states", "why_tests_cant": "all page pairs and memory contents", "anchors": ["src/monitor/enclave.cc:copy_debug_enclave_page"]}
{"id": "C40", "title": "delete_enclave frees exactly the enclave's regions", "statement": "delete_enclave fails while the enclave has threads; on success exactly the regions in the enclave's bitmap become free and are wiped, and every other region keeps its owner and contents.", "quantifier": "all machine states and IDs", "why_tests_cant": "all bitmaps and region counts", "anchors": ["src/monitor/enclave.cc:delete_enclave"]}
{"id": "C41", "title": "Thread metadata is allocated at the thread ID", "statement": "assign_thread and load_thread reserve the pages named by thread_id, for the named enclave, and count the thread; they succeed for free pages.", "quantifier": "all arguments and states", "why_tests_cant": "all IDs", "anchors": ["src/monitor/metadata.cc:assign_thread", "src/monitor/metadata.cc:load_thread"]}
{"id": "C42", "title": "accept_thread only touches the calling enclave's resources", "statement": "accept_thread writes only the thread metadata pages assigned to the caller and takes and releases only locks of existing regions; a caller cannot use it to change monitor state.", "quantifier": "all callers, arguments and states", "why_tests_cant": "all 64-bit addresses", "anchors": ["src/monitor/metadata.cc:accept_thread"]}
{"id": "C43", "title": "The enclave virtual range check is interval membership", "statement": "A virtual address is accepted as belonging to an enclave exactly when it lies in [ev_base, ev_base + ev_mask].", "quantifier": "all valid ranges and 64-bit addresses", "why_tests_cant": "2^64 addresses", "anchors": ["src/monitor/enclave_inl.h:is_enclave_virtual_address"]}
{"id": "C44", "title": "The measurement hash is SHA-256", "statement": "Initializing, extending with n 64-byte blocks and finalizing yields the SHA-256 digest (FIPS 180-4) of the concatenated blocks.", "quantifier": "all block sequences", "why_tests_cant": "unbounded message length and contents", "anchors": ["src/crypto/hash.cc:init_hash", "src/crypto/hash.cc:extend_hash", "src/crypto/hash.cc:finalize_hash"]}
{"id": "C45", "title": "Measured operations are encoded unambiguously", "statement": "The sequence of hash blocks fed to the measurement determines the sequence of measured operations with all their arguments and page contents; two different load sequences never feed the same block sequence, and stale arguments of earlier operations never leak into later blocks.", "quantifier": "all sequences of measured operations", "why_tests_cant": "unbounded sequences", "anchors": ["src/monitor/measure_inl.h:init_enclave_hash", "src/monitor/measure_inl.h:extend_enclave_hash_with_page", "src/monitor/measure_inl.h:extend_enclave_hash_with_page_table", "src/monitor/measure_inl.h:extend_enclave_hash_with_thread", "src/monitor/measure_inl.h:finalize_enclave_hash"]}
{"id": "C46", "title": "The measurement covers contents, not placement", "statement": "The measurement of an enclave is a function of the measured arguments and page contents only, and does not depend on where in physical memory the enclave's record or pages are placed.", "quantifier": "all physical placements, all operation sequences", "why_tests_cant": "unbounded sequences and placements", "anchors": ["src/monitor/measure_inl.h:extend_enclave_hash_with_page", "src/monitor/measure_inl.h:init_enclave_hash", "src/monitor/metadata.cc:create_enclave"]}
{"id": "C47", "title": "Result codes are distinguishable", "statement": "Different API outcomes are reported by different numeric result codes, and numeric state codes of regions are pairwise distinct.", "quantifier": "all pairs of result codes", "why_tests_cant": "a table property; needs the whole table", "anchors": ["src/monitor/public/api.h:api_result_t", "src/monitor/public/api.h:dram_region_state_t"]}
{"id": "C48", "title": "Local attestation mailboxes deliver only expected messages", "statement": "accept_message, send_message, read_message and get_attestation_key deliver a message only between enclaves whose identities match, and give the key only to the signing enclave.", "quantifier": "all message histories", "why_tests_cant": "unbounded histories", "anchors": ["src/monitor/public/api.h:accept_message", "src/monitor/public/api.h:send_message", "src/monitor/public/api.h:read_message", "src/monitor/public/api.h:get_attestation_key"]}
{"id": "C49", "title": "set_dma_range: exact decision and effect", "statement": "set_dma_range(base, mask) succeeds exactly when (base, mask) is an aligned power-of-two range inside DRAM and neither region 0 nor any region with a byte in the range is locked; on success the DMA window and the DMA registers are exactly that range and nothing else changes; on failure nothing changes.", "quantifier": "all machine states with lock words 0 or 1, all 64-bit arguments, all geometries", "why_tests_cant": "The call walks the stripes of the range; that the walk meets every region of every aligned range depends on the geometry and on 2^128 argument pairs.", "anchors": ["src/monitor/dram_regions.cc:set_dma_range"]}
{"id": "C50", "title": "flush_cached_dram_regions: exact effect", "statement": "flush_cached_dram_regions always succeeds, flushes the calling core's TLBs once, records the current block clock as that core's flush time, and changes nothing else.", "quantifier": "all machine states, all cores", "why_tests_cant": "Frame conditions over the whole machine for every state and core.", "anchors": ["src/monitor/dram_regions.cc:flush_cached_dram_regions", "src/monitor/dram_regions_inl.h:dram_region_tlb_flush"]}
{"id": "C51", "title": "A page that is loaded with success is copied and measured", "statement": "When load_page succeeds, the enclave page holds the contents of the OS page and the enclave's measurement covers the page's address, access bits and contents; when load_page_table succeeds, the table is zeroed and the measurement covers its address, level and access bits.", "quantifier": "all machine states with an enclave being built, all arguments, all measurement histories", "why_tests_cant": "The measurement depends on the whole history of loads; whether a given page is covered must hold for every history and contents.", "anchors": ["src/monitor/enclave_init.cc:load_page", "src/monitor/enclave_init.cc:load_page_table", "src/monitor/measure_inl.h:extend_enclave_hash_with_page"]}
{"id": "C52", "title": "The monitor accesses only its own memory, locked metadata and the arguments of a debug copy", "statement": "Whatever calls run on whatever cores, each single memory access made on behalf of a call is to the monitor's own memory, to one of the two pages named by a debug copy, or to a DRAM region that is a metadata region at that moment and whose lock the calling core holds.", "quantifier": "all interleavings of calls and hostile stores from a fresh boot, every single access of every call", "why_tests_cant": "Depends on every schedule: a record may be used after its region's lock is released and the region has changed hands.", "anchors": ["src/monitor/enclave.cc", "src/monitor/enclave_init.cc", "src/monitor/metadata.cc", "src/monitor/dram_regions.cc"]}
{"id": "C53", "title": "Monitor calls never modify memory of the OS or of enclaves", "statement": "No step of any monitor call changes a word of a region that is not a metadata region, except in the pages named by a debug copy.", "quantifier": "all interleavings of calls and hostile stores from a fresh boot, all addresses", "why_tests_cant": "Integrity over all schedules, all addresses.", "anchors": ["src/monitor/metadata.cc:assign_thread", "src/monitor/enclave.cc:load_thread", "src/monitor/enclave.cc:copy_debug_enclave_page"]}
{"id": "C54", "title": "Contents of non-metadata regions do not influence the monitor", "statement": "While a region is not a metadata region and no debug copy names its pages, nothing the monitor does (results, state, other memory) depends on the contents of that region: the same interleaving with other contents gives the same results and the same final state up to the contents of that region.", "quantifier": "all interleavings, all pairs of contents of the region", "why_tests_cant": "A two-run (hyper)property over all schedules and all pairs of contents.", "anchors": ["src/monitor/enclave.cc:copy_debug_enclave_page", "src/monitor/metadata.cc:assign_thread", "src/monitor/dram_regions.cc"]}
{"id": "C55", "title": "Physical memory is an array of bytes", "statement": "A read through a physical reference returns the little-endian value of the bytes at its address; a write sets exactly these bytes; what was written is read back and disjoint accesses are not affected; 32-bit and 64-bit accesses agree on the bytes they share.", "quantifier": "all memory contents, addresses, values and access sizes", "why_tests_cant": "All addresses, all values, all pairs of accesses.", "anchors": ["src/bare/arch/test/phys_ptr_arch.h:phys_ref<uint64_t>", "src/bare/arch/test/phys_ptr_arch.h:phys_ref<uint32_t>", "src/bare/phys_ptr.h:phys_ref", "src/bare/arch/test/cpu_context_arch.cc:snapshot_dram_region_bitmap"]}
{"id": "C56", "title": "Accesses outside physical memory are always stopped", "statement": "On the test architecture every read or write through a physical reference whose bytes are not all inside the memory buffer fails an assertion.", "quantifier": "all addresses, buffer sizes, access sizes", "why_tests_cant": "The failing addresses are a handful at the end of a 64-bit space.", "anchors": ["src/bare/arch/test/phys_ptr_arch.h"]}
{"id": "C57", "title": "bzero and bcopy have exactly their effect", "statement": "bzero clears and bcopy copies exactly the whole elements that fit in the byte count, at exactly the given addresses, and change nothing else; overlapping or out-of-range buffers are stopped.", "quantifier": "all addresses, sizes, element sizes, memory contents", "why_tests_cant": "All sizes and alignments, frame conditions over all memory.", "anchors": ["src/bare/arch/test/memory_arch.h:bzero", "src/bare/arch/test/memory_arch.h:bcopy"]}
{"id": "C58", "title": "Lock and counter primitives are atomic", "statement": "Of two cores that test and set a free flag exactly one gets it; concurrent additions to a counter are not lost.", "quantifier": "all schedules of the memory accesses of two cores", "why_tests_cant": "Depends on the schedule.", "anchors": ["src/bare/arch/test/phys_atomics_arch.h", "src/bare/arch/riscv/phys_atomics_arch.h", "src/bare/phys_atomics.h"]}
{"id": "C59", "title": "Physical pointer arithmetic counts elements", "statement": "Offsets add up, subtraction undoes addition, indexing is addition, and distinct elements of an array that fits in the address space never overlap.", "quantifier": "all element sizes, addresses and offsets", "why_tests_cant": "All 64-bit addresses and offsets.", "anchors": ["src/bare/phys_ptr.h:phys_ptr"]}
{"id": "C60", "title": "Writing a page-table entry maps exactly one page", "statement": "If the tables form a tree, then after writing the entry that the walk finds for a virtual address, the walk of every address in the same page (or covered by the same entry) yields the new target and the walk of every other address is unchanged. Entries used by the walk lie inside their tables.", "quantifier": "all table contents that form a tree, all virtual addresses, levels, geometries", "why_tests_cant": "All table contents and all pairs of addresses.", "anchors": ["src/monitor/enclave_inl.h:walk_page_tables", "src/monitor/enclave_inl.h:walk_page_tables_to_entry", "src/bare/page_tables.h", "src/bare/arch/test/page_tables_arch.h:write_page_table_entry"]}
{"id": "C61", "title": "Result codes of the region calls", "statement": "block, assign, free, create_metadata, check_ownership, set_dma_range and flush return exactly the code that the documented order of checks gives: bad arguments, then a lock that is taken, then ownership or state, then the second lock, then the rest. With no lock held, monitor_concurrent_call is only the answer to a call that names one region twice.", "quantifier": "all arguments, all states with well-formed lock words, and all states reached by histories from boot", "why_tests_cant": "Every combination of arguments, owners, locks, timestamps and DMA windows.", "anchors": ["src/monitor/dram_regions.cc", "src/monitor/public/api.h:api_result_t"]}
{"id": "C62", "title": "Result codes of the enclave and thread calls", "statement": "create_enclave, load_page_table, load_page, init_enclave, enter_enclave, delete_enclave, copy_debug_enclave_page, assign_thread, load_thread, create_thread, delete_thread and exit_enclave return exactly the code that the order of their checks gives.", "quantifier": "all arguments and all states with well-formed lock words in which records of valid IDs lie in DRAM outside the monitor; debug copies of pages outside the monitor's memory; deletion when the bit after the region bitmap is clear; metadata regions with one stripe. accept_thread is not in the list", "why_tests_cant": "Every combination of arguments, owners, locks, page map entries and record fields.", "anchors": ["src/monitor/enclave.cc", "src/monitor/metadata.cc", "src/monitor/metadata_inl.h:lock_enclave"]}
{"id": "C63", "title": "Reset at any instant", "statement": "A reset at any instant, with any number of calls in progress on any number of cores and whatever was done to memory before, boots again: same geometry, every region owned by the OS and unlocked, clock zero, monitor's memory protected, no enclave running, and no trace of the time before the reset in the monitor's decisions.", "quantifier": "all platforms that boot, all interleaved executions of covered calls, all instants of reset, all memory contents", "why_tests_cant": "Every crash point of every interleaving.", "anchors": ["src/monitor/boot_init.cc:boot_init_dynamic_arrays", "src/monitor/boot_init.cc:boot_init_protection", "src/monitor/cpu_core.h:core_info_t"]}
{"id": "C64", "title": "The monitor's clock counts blocks", "statement": "At every point of every history the clock used for flush and block times equals the number of successful block_dram_region calls so far; a block stamps its region with it, a flush stamps the core with it, and no stamp is ever in the future.", "quantifier": "all histories of covered calls from boot (modulo 2^64; stamps: fewer than 2^64 calls, core records zero at boot)", "why_tests_cant": "All histories of any length.", "anchors": ["src/monitor/dram_regions.cc:block_dram_region", "src/monitor/dram_regions.cc:flush_cached_dram_regions", "src/monitor/dram_regions.h:block_clock"]}
{"id": "C65", "title": "No region is ever lost", "statement": "In every reachable state with no lock taken, the OS can bring any region other than region 0 (and not under the DMA window) to any state of the life cycle with a sequence of calls that all succeed, without changing the state of other regions.", "quantifier": "all histories of covered calls from boot (fewer than 2^64-3), all regions, all target states", "why_tests_cant": "A liveness property over all reachable states.", "anchors": ["src/monitor/dram_regions.cc"]}
{"id": "C66", "title": "Information calls are truthful", "statement": "dram_size, dram_region_mask, metadata_region_pages, metadata_region_start, thread_metadata_pages and enclave_metadata_pages change nothing and return values that agree with the machine: decoding the mask as the API documentation says gives the number of regions and the bits that select a region; the metadata page map has an entry for every metadata page; records fit in the number of pages reported and in no fewer.", "quantifier": "all platforms on which boot succeeds, all cores, all machine states (including those in the middle of other calls)", "why_tests_cant": "All platforms and all states.", "anchors": ["src/monitor/public/api.h:dram_region_mask", "src/monitor/metadata.cc", "src/monitor/dram_regions.cc"]}
{"id": "C67", "title": "Entering, leaving and threads", "statement": "A successful enter_enclave leaves the core running that enclave, exit_enclave gives the core back to the OS, and entering, creating and deleting threads leave no region lock taken.", "quantifier": "all states allowed by the invariant, all arguments, all cores", "why_tests_cant": "All states and arguments.", "anchors": ["src/monitor/enclave.cc:enter_enclave", "src/monitor/enclave.cc:exit_enclave", "src/monitor/enclave.cc:create_thread", "src/monitor/enclave.cc:delete_thread"]}
{"id": "C68", "title": "Region calls are linearizable", "statement": "Whatever callers on all cores see of any interleaving of monitor calls (which calls were made and returned what, in which order) they could also see of a machine in which every region call takes effect at a single instant between its invocation and its return, on a table of region owners, block times, clock, flush times and the DMA window (flush_cached_dram_regions at two instants: it reads the clock, then records it); a call answers that there is a concurrent call only while a call is in progress on another core, or when its own two regions coincide. When no lock is taken the machine's records are those of the table.", "quantifier": "all interleavings, at the granularity of single memory accesses, of all covered calls (not the thread calls that keep a lock) on all cores, of fewer than 2^64 steps from boot", "why_tests_cant": "All schedules of all lengths; a test sees one schedule and cannot enumerate the linearization points.", "anchors": ["src/monitor/dram_regions.cc", "src/monitor/dram_regions_inl.h", "src/monitor/dram_regions.cc:create_metadata_region", "src/monitor/public/api.h"]}
{"id": "C69", "title": "Access maps are only ever loaded exact", "statement": "In every interleaving of calls on several cores, whenever a step changes the access map of a core, the step is that core's own and the new map admits, at that instant, exactly the regions the OS owns; when block_dram_region returns monitor_ok its core's map does not admit the region, and when assign_dram_region to the OS returns monitor_ok its core's map admits it, whatever other cores did meanwhile.", "quantifier": "all interleavings from boot, at the granularity of single memory accesses, of any length", "why_tests_cant": "All schedules; the map is copied word by word from a bitmap other cores change.", "anchors": ["src/monitor/dram_regions.cc:block_dram_region", "src/monitor/dram_regions.cc:assign_dram_region", "src/bare/cpu_context.h:set_drb_map"]}
{"id": "C70", "title": "The DMA registers admit only requested windows", "statement": "At every instant of every interleaving the DMA master's registers admit exactly the addresses of the monitor's DMA window, and never an address outside the windows that boot or a set_dma_range call asked for.", "quantifier": "all interleavings from boot, all instants", "why_tests_cant": "All schedules and instants, including those between the writes of the two registers.", "anchors": ["src/monitor/dram_regions.cc:set_dma_range", "src/bare/memory.h:set_dmar_base", "src/bare/memory.h:set_dmar_mask"]}
{"id": "C71", "title": "Only the documented calls write protection registers", "statement": "In every interleaving of any calls with any arguments, from any state: the protected range and the cache index shift never change; the access map of a core changes only while a call on that core to block or assign a region runs; its enclave access map only while one to block runs; the DMA window only while a set_dma_range runs; a core's TLB is flushed only while a flush call runs on it.", "quantifier": "all calls, all arguments, all interleavings, all starting states (including corrupted ones)", "why_tests_cant": "All calls, schedules and states.", "anchors": ["src/monitor", "src/bare/cpu_context.h", "src/bare/memory.h"]}
{"id": "C72", "title": "Every core is kept out of the monitor's memory", "statement": "From boot on, at every instant, the protected range of every core is exactly the monitor's memory.", "quantifier": "all platforms on which boot succeeds, all interleavings of all calls, all cores", "why_tests_cant": "All platforms, schedules and cores.", "anchors": ["src/monitor/boot_init.cc", "src/bare/cpu_context.h:set_par_base", "src/bare/cpu_context.h:set_par_mask"]}
{"id": "C73", "title": "TLB flushes separate blocking from freeing in every schedule", "statement": "If a call to block a region succeeded and a later call to free that region succeeded, then every core was running a flush of its cached regions, or started one, since the call to block was made, however the calls of different cores interleave.", "quantifier": "all interleavings of the covered calls on all cores, all pairs of successful block and free calls", "why_tests_cant": "All schedules and histories of concurrent calls.", "anchors": ["src/monitor/dram_regions.cc:flush_cached_dram_regions", "src/monitor/dram_regions.cc:free_dram_region", "src/monitor/dram_regions.cc:block_dram_region"]}
{"id": "C74", "title": "A region is handed out once for each time it is freed", "statement": "Whatever number of cores ask for a region at the same time, the successful assignments and metadata creations of that region never outnumber its successful frees (counting frees still in progress), and its successful blocks never outnumber its assignments by more than one; who owns the region is determined by the difference of these counts.", "quantifier": "all interleavings of the covered calls on all cores, all regions", "why_tests_cant": "All schedules; two calls that race for the same region.", "anchors": ["src/monitor/dram_regions.cc:assign_dram_region", "src/monitor/dram_regions.cc:free_dram_region", "src/monitor/dram_regions.cc:block_dram_region", "src/monitor/dram_regions.cc:create_metadata_region"]}
{"id": "C75", "title": "No data races", "statement": "However calls made on different cores interleave, two cores are never about to access the same memory word or DMA register, one of them to write it, unless it is one of the words the monitor's data structures declare atomic (region locks, the block clock, the cores' flush times).", "quantifier": "all interleavings of calls on all cores, all pairs of cores, all memory words and shared registers", "why_tests_cant": "All schedules of all calls; a race is invisible in most executions.", "anchors": ["src/monitor/dram_regions.h:dram_region_info_t", "src/monitor/cpu_core.h:core_info_t", "src/monitor/enclave.h:enclave_info_t", "src/monitor/enclave.cc:copy_debug_enclave_page"]}
{"id": "C76", "title": "Actions of different cores that do not meet at an atomic word commute", "statement": "If two consecutive actions of an interleaving are of different cores and do not both access the same atomic word, they can be made in the other order, with the same responses and the same outcome; so what the calls do does not depend on the order in which the hardware makes plain accesses of different cores visible.", "quantifier": "all interleavings, all pairs of consecutive actions", "why_tests_cant": "All schedules and all reorderings.", "anchors": ["src/monitor/dram_regions.h:dram_region_info_t", "src/bare/arch/test/phys_atomics_arch.h", "src/monitor/enclave.cc:copy_debug_enclave_page"]}
{"id": "C77", "title": "A call reports a taken lock only if it found one", "statement": "However calls on different cores interleave, a call that returns monitor_concurrent_call (or dram_region_locked, for dram_region_state) found a lock taken during that call: the lock of a region that another core held at that moment, or that the call itself held because its arguments make it ask twice for one lock, or that a successful create_thread or delete_thread kept, or the lock word of the enclave a thread call names. Hence a call made while the other cores make none is not refused, unless one of the last three cases applies. At every instant a taken region lock is held by a core in the middle of a call, or was kept by create_thread or delete_thread. Progress is not guaranteed: two cores that retry can refuse each other for ever.", "quantifier": "all interleavings of calls on all cores, all results, all instants", "why_tests_cant": "All schedules; a spurious refusal or a lock left behind shows up only in some of them, and only later.", "anchors": ["src/monitor/public/api.h:monitor_concurrent_call", "src/monitor/dram_regions_inl.h:test_and_set_dram_region_lock", "src/monitor/dram_regions.cc:block_dram_region", "src/monitor/dram_regions.cc:set_dma_range", "src/monitor/enclave.cc:copy_debug_enclave_page"]}
{"id": "C78", "title": "The monitor runs on byte-addressed memory as on word-addressed memory", "statement": "On the test architecture, where physical memory is an array of bytes and each access goes through a bounds assertion, boot succeeds exactly when, and with the configuration and memory contents with which, it does on a machine with memory of 64-bit words; and every interleaving of calls since boot is one of the word machine, with the same responses, results and final contents: no access is split, misaligned across words, or fails its assertion. Hence what holds of the calls on words holds on bytes.", "quantifier": "all platforms, all initial memory contents, all interleavings of calls on all cores with single-byte stores of hostile software, all instants", "why_tests_cant": "All memory contents, all schedules; a misaligned or partly out-of-bounds access may happen for one argument only.", "anchors": ["src/bare/arch/test/phys_ptr_arch.h:phys_ref", "src/bare/arch/test/phys_atomics_arch.h", "src/monitor/boot_init.cc", "src/monitor/dram_regions.cc", "src/monitor/enclave.cc"]}
{"id": "C79", "title": "Store buffers do not show", "statement": "On a machine whose cores keep plain stores in store buffers, from which they reach memory later and (to different locations) in any order, every execution of monitor calls looks to all cores like an interleaving without buffers: the same calls, actions, responses and results in the same order; and at any time the waiting stores can reach memory, which then has the contents of that interleaving. The monitor needs no fences besides its atomic operations.", "quantifier": "all platforms, all executions with store buffers of monitor calls on all cores with stores of hostile software, all orders in which stores reach memory, all instants", "why_tests_cant": "Weak-memory behaviours depend on timing of the hardware; tests run on one core, and no test can force or enumerate the orders in which stores reach memory.", "anchors": ["src/bare/phys_atomics.h", "src/bare/arch/test/phys_ptr_arch.h", "src/bare/arch/riscv/phys_atomics_arch.h", "src/monitor/dram_regions_inl.h:test_and_set_dram_region_lock", "src/monitor/dram_regions_inl.h:clear_dram_region_lock"]}
{"id": "C80", "title": "Boot accepts exactly the machines it supports and halts on the others", "statement": "Boot completes on every machine the design supports (no shared cache but the last, which has a power-of-two line size and set count and an index range larger than a page; a cache index shift the hardware allows; a stripe large enough for the monitor), whatever the machine's memory holds, and on every other machine it halts before any software runs under a monitor whose protection does not hold.", "quantifier": "all platform descriptions (DRAM sizes, cache hierarchies, shift limits, core counts), all initial memory contents", "why_tests_cant": "The boot tests configure three or four machines; the decision depends on seven numbers of 64 bits and on arithmetic that is undefined for some of them.", "anchors": ["src/monitor/boot_init.cc:boot_init_dram_regions", "src/monitor/boot_init.cc:boot_init_dynamic_arrays", "src/monitor/boot_init.cc:boot_init_protection", "src/monitor/boot_init.cc:boot_panic"]}
{"id": "C81", "title": "Calls on several cores behave as calls made one at a time", "statement": "Whatever software on the cores can see of calls that overlap in time (calls other than the thread calls and debug copies, which touch pages outside their critical sections; which calls were made, in which order calls began and returned, what they returned, and what it stored and loaded between) it can also see if every call is carried out on the whole machine in one indivisible step at some instant between its begin and its return, by its own code running alone; only a flush takes two such steps (it reads the block clock, and records what it read), and a call may be turned away without effect, with the answer for resources in use, while a call is in progress on another core. The machine ends up in the state that those steps produce: equal when no call is in progress, and equal otherwise in everything no lock that is taken protects. So what is proved of single calls from any state holds, composed, of overlapping calls. It is so while software on the cores keeps loading from and storing to memory of the OS, and the values it loads are those it would load from that machine.", "quantifier": "all platforms, all interleavings (any number of cores, any schedule, any number of steps below 2^64) of the calls that use shared data under locks (not thread calls and debug copies; metadata calls on machines whose regions are one stripe), with loads and stores of software to memory of the OS, from any state the monitor boots to", "why_tests_cant": "The number of schedules is unbounded; a race shows only in one of them, and tests run calls one at a time on one core.", "anchors": ["src/monitor/dram_regions.cc", "src/monitor/enclave.cc", "src/monitor/metadata.cc", "src/monitor/dram_regions_inl.h:test_and_set_dram_region_lock", "src/monitor/dram_regions_inl.h:clear_dram_region_lock"]}
{"id": "C82", "title": "Contention is settled in someone's favour", "statement": "When calls on several cores compete for locks, they do not all lose: in every burst of overlapping calls that starts and ends with all cores outside the monitor, at least one call finds every region lock it asks for free and does not return monitor_concurrent_call (or dram_region_locked). So cores that retry cannot all be refused for ever.", "quantifier": "all platforms, all interleavings of calls on any number of cores, after any history of calls, any number of steps", "why_tests_cant": "It ranges over all schedules of any number of calls; a burst in which all calls refuse each other needs an exact schedule, and a cycle of refusals may involve any number of cores.", "anchors": ["src/monitor/dram_regions.cc:block_dram_region", "src/monitor/dram_regions.cc:assign_dram_region", "src/monitor/dram_regions.cc:set_dma_range", "src/monitor/enclave.cc:copy_debug_enclave_page", "src/monitor/dram_regions_inl.h:test_and_set_dram_region_lock"]}
{"id": "C83", "title": "Different DRAM regions never share last-level cache sets", "statement": "On every machine that boots, whatever calls are made, two physical addresses in DRAM that differ in the bits reported by dram_region_mask() are cached in different sets of the last-level cache, under the cache index shift that boot sets; every region has as many sets as a page has cache lines, and they never change. So software that can only touch its own regions cannot evict, or see the eviction of, lines of another region.", "quantifier": "all supported platforms (cache and DRAM sizes, shift limits), all pairs of DRAM addresses, all cores, all reachable states, every way the hardware may treat the shifted-out bits", "why_tests_cant": "It relates arithmetic done at boot to the hardware's indexing for all pairs of addresses on all cache geometries, and must survive every later history of calls.", "anchors": ["src/monitor/dram_regions.h", "src/monitor/boot_init.cc:boot_init_dram_regions", "src/bare/cpu_context.h:set_cache_index_shift", "src/monitor/dram_regions.cc:dram_region_mask"]}
{"id": "C84", "title": "A freed region is out of reach of the software that lost it", "statement": "When a region is free or holds the monitor's metadata, software on no core can use it: no core's access map admits it, and no core's TLB has a translation to it (the hardware uses cached translations without looking at the map until flush_cached_dram_regions empties the TLB).", "quantifier": "all platforms, all cores and regions, all interleavings of calls on any number of cores and of accesses by software that fill the TLBs, at every instant", "why_tests_cant": "The TLB contents depend on which pages software used at which instants between the calls of all cores; the claim is about every such schedule.", "anchors": ["src/monitor/dram_regions.cc:block_dram_region", "src/monitor/dram_regions.cc:flush_cached_dram_regions", "src/monitor/dram_regions.cc:free_dram_region", "src/monitor/public/api.h:flush_cached_dram_regions", "src/bare/cpu_context.h:flush_tlbs"]}
{"id": "C85", "title": "Hashing, measuring, copying and wiping access memory in a pattern that does not depend on data", "statement": "Which locations init_hash, extend_hash, finalize_hash, the measurement operations, the copy of a page and bzero access, in which order and how often, depends only on the pointers and sizes they are given, never on the data that is hashed, measured, copied or overwritten; so neither bus traffic nor running time tells anything about an enclave's contents.", "quantifier": "all memory contents, all pointers and sizes, all measured arguments, all platforms", "why_tests_cant": "It compares the runs on all pairs of memory contents.", "anchors": ["src/crypto/hash.cc:extend_hash", "src/crypto/hash.cc:init_hash", "src/crypto/hash.cc:finalize_hash", "src/monitor/measure_inl.h", "src/monitor/enclave.cc:copy_debug_enclave_page", "src/bare/arch/test/memory_arch.h:bzero"]}
{"id": "C86", "title": "Calls on cores with store buffers behave as calls made one after the other", "statement": "On a multiprocessor whose plain stores wait in store buffers and reach memory late and out of order, whatever software sees of overlapping calls (other than thread calls and debug copies, which touch pages outside their critical sections; answers, order, and its own loads and stores in memory of the OS) it could see if each call were made in one indivisible step on the whole machine, a flush in two, at an instant between invocation and return, except that a call may be turned away because another is in progress. When no call is in progress no store waits, and memory and registers are those of the serial machine.", "quantifier": "all interleavings of calls on all cores, all orders in which waiting stores reach memory, all loads and stores of software in between", "why_tests_cant": "Store-buffer effects need rare timings and most hardware shows only few of them; the claim ranges over all executions of all lengths.", "anchors": ["src/bare/phys_atomics.h", "src/bare/arch/riscv/phys_ptr_arch.h", "src/monitor/dram_regions.cc", "src/monitor/metadata.cc", "src/monitor/enclave.cc"]}
{"id": "C87", "title": "DMA devices change only memory of the OS", "statement": "Whatever DMA devices write through the DMA window, at any instant of any interleaving of calls and software, no transfer changes the monitor's memory or a region that is not the OS's; devices can do no more to the monitor than software can.", "quantifier": "all interleavings from boot with transfers at any instant, all window settings the calls accept", "why_tests_cant": "Transfers can hit any instant, including those between the writes of the DMA master's two registers; histories are unbounded.", "anchors": ["src/monitor/dram_regions.cc:set_dma_range", "src/monitor/boot_init.cc:boot_init_protection", "src/bare/memory.h:set_dmar_base", "src/bare/memory.h:set_dmar_mask"]}
{"id": "C88", "title": "A call changes only memory that its arguments name", "statement": "Outside the monitor's own memory, a call changes only what its arguments name: create_metadata_region the page map of the region, create_enclave the map entries and the record of the enclave, the thread calls the entry and records of the enclave and the thread, a debug copy the page that is copied to; all other calls change nothing there. So memory that no call names and that software does not write keeps its contents through every interleaving.", "quantifier": "all interleavings from boot, all calls and arguments, all words outside the monitor's memory", "why_tests_cant": "A stray write can depend on arguments, states and schedules; tests look at the words they expect to change.", "anchors": ["src/monitor/metadata.cc:create_enclave", "src/monitor/metadata.cc:assign_thread", "src/monitor/metadata.cc:load_thread", "src/monitor/metadata.cc:accept_thread", "src/monitor/enclave.cc:copy_debug_enclave_page", "src/monitor/dram_regions.cc:create_metadata_region"]}
{"id": "C89", "title": "It does not matter on which core a call is made", "statement": "A call other than a flush, made on either of two cores on which the same software runs, completes on both or on neither, returns the same value and has the same effect on regions, enclaves, threads, locks, bitmaps, DMA window and all other memory; only the access map of the calling core may differ, and it is loaded with the same map. So in a history of calls the OS can move any call to any core without changing any result or the memory at the end. A flush concerns the core it is made on: it changes only that core's flush time and TLB.", "quantifier": "all machine states, all pairs of cores on which the same software runs, all calls and arguments; all histories from boot of covered calls and all ways of moving calls between cores", "why_tests_cant": "A dependence on the calling core (a loop that skips it, a record of core 0 that is read instead, a map loaded from another core's record) shows only for some states and pairs of cores; tests run on one core.", "anchors": ["src/monitor/cpu_core_inl.h:current_enclave", "src/monitor/dram_regions.cc:block_dram_region", "src/monitor/dram_regions.cc:free_dram_region", "src/monitor/dram_regions.cc:flush_cached_dram_regions", "src/monitor/metadata.cc:accept_thread"]}
{"id": "C90", "title": "Only the call that took a lock releases it", "statement": "However calls on different cores interleave, the lock of a region is released only by the call that took it and still holds it. So a lock that a call kept when it returned is taken for good: no later calls release it, the region's owner, previous owner, pinned pages and block time never change again, and every block, assign, free, metadata creation or ownership check of that region reports monitor_concurrent_call.", "quantifier": "all interleavings from boot with any number of cores and any stores by software; all histories from boot and all continuations of them", "why_tests_cant": "A release on an error path of a lock that the path failed to take shows only when another core holds that lock at that moment; 'never again' ranges over all continuations.", "anchors": ["src/monitor/metadata.cc:accept_thread", "src/monitor/metadata.cc:delete_thread", "src/monitor/metadata.cc:create_thread", "src/monitor/dram_regions_inl.h:clear_dram_region_lock", "src/monitor/dram_regions_inl.h:test_and_set_dram_region_lock", "src/monitor/dram_regions.cc:set_dma_range"]}
{"id": "C91", "title": "Calls about different regions can be made in either order", "statement": "Two calls that block, assign, free, make a metadata region, or ask about two different regions can be made one after the other in either order, on the same core or on different ones: each returns the same in both orders, and all of memory (owners, page maps, bitmaps, locks, clock) and all registers are the same at the end. The exceptions are the block times when both calls were successful blocks, and the access maps of the two cores when they are different cores.", "quantifier": "all histories from boot of covered calls with arbitrary stores by software between them; all pairs of such calls with any arguments, on any cores", "why_tests_cant": "There are quadratically many pairs of calls for every reachable state; a dependence between regions (a shared bitmap word that is overwritten, a record index off by one, a map area that overlaps the next region) shows only for particular pairs.", "anchors": ["src/monitor/dram_regions.cc:block_dram_region", "src/monitor/dram_regions.cc:assign_dram_region", "src/monitor/dram_regions.cc:free_dram_region", "src/monitor/dram_regions.cc:create_metadata_region", "src/monitor/dram_regions.cc:dram_region_state", "src/monitor/dram_regions.cc:dram_region_owner", "src/monitor/dram_regions.cc:dram_region_check_ownership", "src/monitor/dram_regions_inl.h:read_dram_region_owner"]}
{"id": "C92", "title": "On byte-addressed memory with store buffers, calls behave as calls made one after the other", "statement": "On a multiprocessor whose memory is an array of bytes, accessed with the test architecture's bounds assertions, and whose plain stores wait in store buffers and reach memory late and out of order, whatever software sees since boot of overlapping calls (other than thread calls and debug copies, which touch pages outside their critical sections; answers, order, and its own loads and stores of single bytes in memory of the OS) it could see if each call ran in one indivisible step on that memory, a flush in two, except that a call may be turned away because another is in progress. No assertion fails, no access is wild, no store fails when it reaches memory. When no call is in progress no store waits, and bytes and registers are those of the serial machine.", "quantifier": "all platforms, all initial memory contents, all interleavings of calls on all cores, all orders in which waiting stores reach memory, all loads and stores of bytes by software in between", "why_tests_cant": "All memory contents, all schedules and all store-buffer timings at once; tests run one core on one memory image.", "anchors": ["src/bare/arch/test/phys_ptr_arch.h:phys_ref", "src/bare/phys_atomics.h", "src/monitor/boot_init.cc", "src/monitor/dram_regions.cc", "src/monitor/metadata.cc", "src/monitor/enclave.cc"]}
{"id": "C93", "title": "What memory outside the monitor's holds does not influence the monitor", "statement": "Take two machines whose memories hold different things outside the monitor's own memory: other programs and data of the OS, junk from before power-on, whatever former owners left behind. If both boot and the OS makes the same calls on the same cores in the same order, storing what it likes to its own memory meanwhile on either machine, then both boot with the same configuration, every call returns the same on both, and in the end the monitor's own memory, the DMA window and the registers of all cores are the same: nothing that software keeps in its memory, and nothing left in a region before it became metadata, makes the monitor decide differently.", "quantifier": "all pairs of initial memory contents, all platforms that boot, all histories of calls, all stores by the OS between the calls on either machine", "why_tests_cant": "It compares two executions, for all memory contents and all histories; a test runs one execution on one (usually zeroed) memory image.", "anchors": ["src/monitor/boot_init.cc", "src/monitor/dram_regions.cc", "src/monitor/metadata.cc:create_metadata_region", "src/monitor/metadata_inl.h", "src/monitor/enclave.cc:create_enclave", "src/monitor/enclave.cc:copy_debug_enclave_page", "src/monitor/enclave.cc:assign_thread", "src/monitor/enclave.cc:load_thread"]}
{"id": "C94", "title": "Refused calls and questions leave no trace in what happens later", "statement": "In every history of calls and of stores by software since boot, any of the refused calls (those that return an error) and of the calls that only ask for information can be left out: all other calls complete and return exactly what they returned, and the machine - memory, locks, registers - is exactly the same in the end.", "quantifier": "all histories of calls and of software's stores since boot, on all platforms and cores, and all choices of refused calls and questions to leave out", "why_tests_cant": "It quantifies over all histories and all subsets of their refused calls; a leftover of one error path may show only many calls later.", "anchors": ["src/monitor/dram_regions.cc", "src/monitor/metadata.cc", "src/monitor/enclave.cc", "src/monitor/public/api.h"]}
{"id": "C95", "title": "Making the same call again", "statement": "After any call, making the same call again - on any core on which the same software runs, any number of times, whatever software stores in its own memory in between - completes, always has the same result, and changes nothing. What was refused is refused again with the same code; a question has the same answer; set_dma_range and exit_enclave succeed again; a block that succeeded is answered with access_denied; an assignment, a free, a create_metadata_region or a create_enclave that succeeded is answered with invalid_state; create_thread and delete_thread (which keep a lock) with concurrent_call. A flush flushes again and records the same time.", "quantifier": "all histories of calls and software stores since boot, all next calls with all arguments, all sequences of repetitions on any cores and of stores by software between them", "why_tests_cant": "It quantifies over all histories, arguments, numbers of repetitions and stores in between; a call that is not idempotent (a count that goes up twice, a page handed out twice) may do so in rare states only.", "anchors": ["src/monitor/dram_regions.cc", "src/monitor/metadata.cc", "src/monitor/enclave.cc", "src/monitor/public/api.h"]}
