{"id": "C01", "title": "Responses equal a flat memory executed in request order", "statement": "For a cache attached to an in-order memory, with naturally aligned requests of at most 4 bytes (READ, WRITE, the nine AMOs, INV, FLUSH), the data field of every response equals what a flat byte memory would return if the accepted requests were executed one after the other in acceptance order: hits, misses, evictions, refills of partially dirty lines and AMO forwarding are invisible.", "quantifier": "every parameter choice (1 or 2 ways, number of sets, line size, opaque width), every initial SRAM content, every request sequence, every cycle-by-cycle schedule of request arrival, response back-pressure, memory back-pressure and memory latency", "why_tests_cant": "The interleavings of pipeline stalls with evictions, refills and clean-hit tag updates are unbounded; the random tests sample a few thousand.", "anchors": ["blocking_cache/BlockingCacheRTL.py:BlockingCacheRTL", "blocking_cache/BlockingCacheCtrlRTL.py:BlockingCacheCtrlRTL", "blocking_cache/BlockingCacheDpathRTL.py:BlockingCacheDpathRTL", "blocking_cache/BlockingCacheFL.py:ModelCache"]}
{"id": "C02", "title": "One response per request, in order, with its own opaque/type/len", "statement": "The responses handed to the processor are, in order, exactly one per accepted request; each carries the opaque, type and len fields of that request; no response is duplicated, dropped, reordered or invented, also while the response port is not ready.", "quantifier": "every request sequence, every stall and latency schedule, every parameter choice", "why_tests_cant": "Loss or duplication appears only for particular alignments of back-pressure with replays and clean-hit updates.", "anchors": ["blocking_cache/BlockingCacheRTL.py:BlockingCacheRTL", "blocking_cache/BlockingCacheCtrlRTL.py:BlockingCacheCtrlRTL", "blocking_cache/BlockingCacheDpathRTL.py:BlockingCacheDpathRTL"]}
{"id": "C03", "title": "The hit/miss test bit agrees with the FL reference model", "statement": "The test field of every READ/WRITE response of the RTL equals the hit value predicted by the FL HitMissTracker run on the same request sequence (true LRU for two ways), and is 0 for AMO, INV and FLUSH.", "quantifier": "every sequence of READ/WRITE/AMO/INV/FLUSH requests, every timing schedule, 1 and 2 ways", "why_tests_cant": "Replacement state depends on the entire history of accesses to a set; tests compare a bounded number of sequences.", "anchors": ["blocking_cache/BlockingCacheRTL.py:BlockingCacheRTL", "blocking_cache/BlockingCacheCtrlRTL.py:BlockingCacheCtrlRTL", "blocking_cache/BlockingCacheDpathRTL.py:BlockingCacheDpathRTL", "blocking_cache/BlockingCacheFL.py:HitMissTracker", "blocking_cache/units/ReplacementPolicy.py:ReplacementPolicy"]}
{"id": "C04", "title": "Reset initialisation empties the cache whatever the SRAMs contained", "statement": "After reset the cache is not ready for requests until it has cleared every tag entry (one per cycle, exactly as many cycles as there are lines); when it first becomes ready no line is valid or dirty, so the first access to any address misses and nothing stale or dirty can ever be served or written back.", "quantifier": "every power-up content of tag and data SRAMs, every number of lines, every behaviour of the environment during initialisation", "why_tests_cant": "Power-up SRAM contents are arbitrary; simulation always starts from one content (zeros or a vl_xinit choice).", "anchors": ["blocking_cache/BlockingCacheCtrlRTL.py:fsm_M0_next_state", "blocking_cache/BlockingCacheCtrlRTL.py:tag_array_val_logic_M0", "blocking_cache/units/counters.py:CounterEnRst"]}
{"id": "C05", "title": "En/rdy protocol is respected on both output ports", "statement": "The cache never asserts its response enable in a cycle in which the processor is not ready and never asserts its memory-request enable in a cycle in which the memory is not ready; it never asserts both enables in the same cycle.", "quantifier": "every state the cache can be in and every input combination", "why_tests_cant": "Needs all combinations of pipeline state and ready inputs.", "anchors": ["blocking_cache/BlockingCacheCtrlRTL.py:cs_table_M2"]}
{"id": "C06", "title": "Blocking: no request is accepted while a miss, AMO, INV or FLUSH is in progress", "statement": "Whenever the request port is ready, nothing is outstanding at memory, the requests accepted so far cause no further memory traffic and their responses leave within two unstalled cycles; consequently no request is accepted while a miss, AMO, INV or FLUSH is in progress, at most one request (preceded by at most one write-back) is outstanding towards memory, and at most two accepted requests are unanswered.", "quantifier": "every reachable state, every schedule", "why_tests_cant": "A one-cycle hole in the ready logic would only be visible for a request arriving in exactly that cycle.", "anchors": ["blocking_cache/BlockingCacheCtrlRTL.py:cachereq_rdy", "blocking_cache/units/MSHR.py:MSHR"]}
{"id": "C07", "title": "Write-backs carry exactly the dirty words of one line", "statement": "Every WRITE request the cache sends to memory has a word mask selecting only 32-bit words of that line that the processor wrote through this cache since the line was last written back or refilled, carries the current value of those words, is line aligned and never has an empty mask.", "quantifier": "every request history and schedule", "why_tests_cant": "A wrong mask bit is only observable when another agent changes the unmasked word.", "anchors": ["blocking_cache/BlockingCacheDpathRTL.py:write_mask_M1", "blocking_cache/BlockingCacheDpathRTL.py:evict_addr_M1", "blocking_cache/units/UpdateTagArrayUnit.py:UpdateTagArrayUnit"]}
{"id": "C08", "title": "FLUSH publishes every dirty word before it responds", "statement": "When the response to a FLUSH is delivered, memory holds the latest value of every word written through the cache before the FLUSH, no line of the cache is dirty, and lines that were valid before are still valid (later accesses to them hit).", "quantifier": "every cache content at the time of the FLUSH, every memory latency and back-pressure, every number of lines", "why_tests_cant": "Needs all subsets of dirty lines times all ack arrival times.", "anchors": ["blocking_cache/BlockingCacheCtrlRTL.py:M0_FSM_STATE_FLUSH", "blocking_cache/BlockingCacheCtrlRTL.py:M0_FSM_STATE_FLUSH_WAIT"]}
{"id": "C09", "title": "INV makes every clean word be re-fetched", "statement": "When the response to an INV is delivered no line is valid: the next READ or WRITE to any line misses and every word that was not dirty is re-fetched from memory, so it returns a value memory held after the INV was accepted.", "quantifier": "every cache content, every schedule", "why_tests_cant": "Requires all cache contents and counter alignments, including the last line being invalidated twice.", "anchors": ["blocking_cache/BlockingCacheCtrlRTL.py:M0_FSM_STATE_INV", "blocking_cache/units/UpdateTagArrayUnit.py:UpdateTagArrayUnit"]}
{"id": "C10", "title": "INV never loses a dirty word", "statement": "INV keeps the dirty words of every line: a later READ of such a word returns the value written before the INV, and a later eviction or FLUSH still writes it back; the refill of the invalid line does not overwrite its dirty words.", "quantifier": "every cache content, any number of INVs, any subset of dirty words, every schedule", "why_tests_cant": "Depends on the exact dirty-word subset of a partially dirty line.", "anchors": ["blocking_cache/units/arithmetics.py:WriteBitEnGen", "blocking_cache/units/arithmetics.py:TagArrayRDataProcessUnit", "blocking_cache/units/MSHR.py:MSHR"]}
{"id": "C11", "title": "An AMO is executed exactly once, at memory, on the up-to-date word", "statement": "For every accepted AMO exactly one AMO message reaches memory, preceded by the write-back of the line if it is dirty in the cache; it operates on the value the processor last wrote, its response returns the old value, and after it the cache no longer holds the line.", "quantifier": "every cache state of the addressed line (absent, valid clean, valid dirty, invalid dirty, either way), every schedule", "why_tests_cant": "Hit information must survive arbitrary stalls between the eviction pass and the forwarding pass.", "anchors": ["blocking_cache/BlockingCacheCtrlRTL.py:TRANS_TYPE_AMO_REQ", "blocking_cache/BlockingCacheDpathRTL.py:hit_stall_engine", "blocking_cache/units/arithmetics.py:OffsetLenSelector"]}
{"id": "C12", "title": "Timing cannot change results", "statement": "Two runs of the cache with the same accepted request sequence and the same initial memory produce the same response sequence (all fields, including test), whatever the two stall, arrival and latency schedules are.", "quantifier": "every pair of schedules", "why_tests_cant": "A hyperproperty over pairs of unbounded schedules.", "anchors": ["blocking_cache/BlockingCacheRTL.py:BlockingCacheRTL", "blocking_cache/BlockingCacheCtrlRTL.py:BlockingCacheCtrlRTL", "blocking_cache/BlockingCacheDpathRTL.py:BlockingCacheDpathRTL"]}
{"id": "C13", "title": "No memory response the cache needs is ever lost", "statement": "Although the cache keeps its memory-response port always ready and its input register is frozen during stalls, no refill, AMO or flush-acknowledge response can arrive in a cycle in which it would be dropped; only acknowledgements of evictions can be dropped and dropping them has no observable effect.", "quantifier": "every latency and back-pressure schedule of an in-order memory", "why_tests_cant": "A lost response needs an exact coincidence of latency and back-pressure.", "anchors": ["blocking_cache/BlockingCacheCtrlRTL.py:memresp_rdy", "blocking_cache/BlockingCacheDpathRTL.py:pipeline_reg_M0"]}
{"id": "C14", "title": "In-order memory is required", "statement": "The cache relies on its memory answering in order: there is a memory that answers each request correctly but delivers a write acknowledgement after a later read response, with which the cache silently loses an accepted processor request or mis-routes it.", "quantifier": "existence over schedules (the positive side - in-order memory suffices - is C01/C02/C13)", "why_tests_cant": "The test memory always answers in order, so no test can reveal the assumption.", "anchors": ["blocking_cache/BlockingCacheCtrlRTL.py:cachereq_memresp_mux_sel_M0"]}
{"id": "C15", "title": "Every request is eventually answered", "statement": "If both output ports are ready from some time on and memory answers every request after a finite delay, every accepted request is answered, and the request port becomes ready again.", "quantifier": "every request history, every finite delay of memory responses, every number of lines", "why_tests_cant": "Liveness: no finite test distinguishes slow from never.", "anchors": ["blocking_cache/BlockingCacheRTL.py:BlockingCacheRTL", "blocking_cache/BlockingCacheCtrlRTL.py:BlockingCacheCtrlRTL", "blocking_cache/BlockingCacheDpathRTL.py:BlockingCacheDpathRTL"]}
{"id": "C16", "title": "MSHR is never over- or under-filled", "statement": "The miss register is only allocated when empty and only deallocated when occupied, never both in one cycle, its occupancy is counted exactly, and the entry of a pending request is never overwritten before its replay.", "quantifier": "every reachable state", "why_tests_cant": "Needs all reachable control states.", "anchors": ["blocking_cache/units/MSHR.py:MSHR", "blocking_cache/BlockingCacheCtrlRTL.py:MSHR_alloc_en", "blocking_cache/BlockingCacheCtrlRTL.py:MSHR_dealloc_en"]}
{"id": "C17", "title": "A line is cached in at most one way", "statement": "At no time do two ways of a set hold (validly or dirtily) the same line, so a write can never leave a stale second copy that is later read or written back.", "quantifier": "every reachable state", "why_tests_cant": "Invariant over all histories.", "anchors": ["blocking_cache/units/arithmetics.py:TagArrayRDataProcessUnit", "blocking_cache/BlockingCacheCtrlRTL.py:way_offset_M1"]}
{"id": "C18", "title": "Software coherence: write+FLUSH on one cache, then INV+READ on another", "statement": "With any number of caches on one shared memory: if a word is written through cache A and A's FLUSH has been answered, and afterwards cache B (which has not itself written the word since its last FLUSH) completes an INV and reads the word, and nobody else wrote it, B's read returns A's value.", "quantifier": "any number of caches, every interleaving, every other activity of the caches on other words", "why_tests_cant": "Unbounded interleavings of several caches; the multi-cache tests contain a handful of scripted orders.", "anchors": ["blocking_cache/BlockingCacheRTL.py:BlockingCacheRTL", "blocking_cache/BlockingCacheCtrlRTL.py:BlockingCacheCtrlRTL", "blocking_cache/BlockingCacheDpathRTL.py:BlockingCacheDpathRTL", "test/MulticoreModel.py:MulticoreModel", "blocking_cache/test/MultiCacheTestCases.py"]}
{"id": "C19", "title": "False sharing is harmless", "statement": "A cache never changes in shared memory a 32-bit word that was not written through it: words of the same line written by different caches (each word by one cache only) never overwrite each other, however evictions, flushes and AMOs interleave.", "quantifier": "any number of caches, every interleaving", "why_tests_cant": "Unbounded interleavings.", "anchors": ["blocking_cache/BlockingCacheDpathRTL.py:memreq_M2", "test/MemoryCL.py:MemoryCL"]}
{"id": "C20", "title": "AMOs of several caches are atomic", "statement": "AMOs issued to the same word by any number of caches take effect one after the other at the shared memory: every AMO returns exactly the value left by the previous one and no update is lost.", "quantifier": "any number of caches, every interleaving", "why_tests_cant": "Unbounded interleavings.", "anchors": ["blocking_cache/BlockingCacheCtrlRTL.py:TRANS_TYPE_AMO_REQ", "test/MemoryCL.py:MemoryCL"]}
{"id": "C21", "title": "A sub-word write changes exactly the addressed bytes", "statement": "For a naturally aligned write of len bytes at an offset, the write-enable mask and the replicated data together change exactly bytes offset .. offset+len-1 of the line to the low len bytes of the data and no other bit.", "quantifier": "every line width, data width up to 128, len, aligned offset, data and old line", "why_tests_cant": "2^(line bits + data bits) inputs.", "anchors": ["blocking_cache/units/arithmetics.py:DataReplicator", "blocking_cache/units/arithmetics.py:WriteBitEnGen"]}
{"id": "C22", "title": "A sub-word read returns exactly the addressed bytes, zero extended", "statement": "For a naturally aligned read of len bytes the data-select mux returns bytes offset .. offset+len-1 of the line in the low bits and zero above; when disabled it returns 0 and for AMOs it returns the low 32 bits.", "quantifier": "every line, offset, len, width", "why_tests_cant": "2^(line bits) inputs.", "anchors": ["blocking_cache/units/muxes.py:FastDataSelectMux"]}
{"id": "C23", "title": "Fast and chained data-select muxes agree", "statement": "DataSelectMux and FastDataSelectMux produce the same output for every non-AMO input; for AMO inputs they agree for 32-bit data, and for wider data exactly when bits 32 and above of the selected data are zero.", "quantifier": "every line, offset, len, en, widths", "why_tests_cant": "2^(line bits) inputs.", "anchors": ["blocking_cache/units/muxes.py:DataSelectMux", "blocking_cache/units/muxes.py:FastDataSelectMux"]}
{"id": "C24", "title": "Distinct lines use distinct rows of the data array", "statement": "Two different (set, way) pairs always map to different rows of the single data SRAM and every row is used, for every number of sets that is a power of two; for other set counts two lines can collide.", "quantifier": "all indices, all ways, all power-of-two sizes", "why_tests_cant": "Range over all sizes.", "anchors": ["blocking_cache/units/arithmetics.py:Indexer", "blocking_cache/CacheDerivedParams.py:CacheDerivedParams"]}
{"id": "C25", "title": "SRAM returns the last written value bit by bit", "statement": "After any sequence of port operations, a read of a row returns, one cycle later, for every bit the value last written to it with that bit enabled (or the power-up value), and the output holds until the next read.", "quantifier": "every operation history", "why_tests_cant": "Histories are unbounded.", "anchors": ["sram/SramGenericPRTL.py:SramGenericPRTL", "sram/SramPRTL.py:SramPRTL"]}
{"id": "C26", "title": "Stall engine holds the SRAM output over any stall", "statement": "During a stall of any length the stall engine's output equals the SRAM output of the first stalled cycle whatever the SRAM output does meanwhile, and when not stalled it is transparent.", "quantifier": "every stall length and input history", "why_tests_cant": "Unbounded histories.", "anchors": ["blocking_cache/units/StallEngine.py:StallEngine"]}
{"id": "C27", "title": "Address slicing is lossless and consistent between RTL and FL", "statement": "Tag, index and offset partition the address: packing and unpacking are inverse for all widths, and the FL model slices an address into the same tag and index as the RTL for power-of-two sizes.", "quantifier": "all addresses, all widths", "why_tests_cant": "2^32 addresses times configurations.", "anchors": ["blocking_cache/cacheStructs.py:mk_addr_struct", "blocking_cache/CacheDerivedParams.py:CacheDerivedParams", "blocking_cache/BlockingCacheFL.py:HitMissTracker.split_address"]}
{"id": "C28", "title": "Test memory: in order, one response per request, masked writes, atomic AMOs", "statement": "MemoryCL answers the requests of each port in order, exactly one response each with the request's type and opaque; the requests of all ports are executed one after the other on one memory; a WRITE with a word mask changes exactly the masked words; a READ returns the current bytes; an AMO returns the old word and stores the combined word. It never stops with an exception as long as AMOs of 4 bytes arrive only at ports whose messages have a write mask; an AMO at a port without write mask stops it (defect).", "quantifier": "every request sequence, latency, stall pattern, number of ports", "why_tests_cant": "Unbounded histories.", "anchors": ["test/MemoryCL.py:MemoryCL"]}
{"id": "C29", "title": "AMO functions", "statement": "For all 32-bit operands the nine AMO functions compute add, and, or, swap, signed min, unsigned min, signed max, unsigned max and xor of the memory value and the operand.", "quantifier": "all 2^64 operand pairs", "why_tests_cant": "2^64 cases.", "anchors": ["blocking_cache/BlockingCacheFL.py:AMO_FUNS"]}
{"id": "C30", "title": "FL model data equals a flat memory", "statement": "The responses generated by the FL ModelCache for any sequence of aligned requests carry exactly the data of a flat byte memory started with the given initial memory image.", "quantifier": "every request sequence and memory image", "why_tests_cant": "Unbounded sequences.", "anchors": ["blocking_cache/BlockingCacheFL.py:ModelCache"]}
{"id": "C31", "title": "FL hit/miss tracker is a true LRU cache", "statement": "For every access sequence the tracker's per-set recency list is a permutation of the ways ordered by last use, the victim is always the least recently used way, and an access hits if and only if fewer than nways distinct other lines of the same set were accessed since its last access (without intervening AMO or INV).", "quantifier": "every access sequence, every number of ways and sets", "why_tests_cant": "Unbounded sequences.", "anchors": ["blocking_cache/BlockingCacheFL.py:HitMissTracker"]}
{"id": "C32", "title": "RTL replacement bit is true LRU", "statement": "With two ways the way chosen as victim is always the one not used by the most recent READ or WRITE access to the set (or the way freed by the most recent AMO), also when the recency update happens while the pipeline stalls.", "quantifier": "every access sequence and schedule", "why_tests_cant": "Unbounded sequences.", "anchors": ["blocking_cache/units/ReplacementPolicy.py:ReplacementPolicy", "blocking_cache/units/registers.py:ReplacementBitsReg"]}
{"id": "C33", "title": "Wide writes (8/16 bytes) do not survive eviction (defect)", "statement": "A user expects a WRITE of 8 or 16 bytes (data width 64 or 128) to be read back completely after its line was evicted. The code does not provide this: there are executions in which a full-width write, an eviction of its line and a full-width read of the same address return only the first word of the written value and the old memory contents for the others. The cause holds for every write: whatever its length (the 3-code double word aside), it marks exactly one word of the line dirty.", "quantifier": "existence of an execution for both data widths; for the cause: every configuration, entry, offset, length", "why_tests_cant": "The test generators restrict writes to at most 4 bytes when the data width exceeds 32.", "anchors": ["blocking_cache/units/UpdateTagArrayUnit.py:UpdateTagArrayUnit", "blocking_cache/units/arithmetics.py:TagArrayRDataProcessUnit"]}
{"id": "C34", "title": "WRITE_INIT corrupts other addresses (defect)", "statement": "A user expects a WRITE_INIT request to change only the bytes it addresses. The code does not provide this: with two ways there is an execution in which a read of address A returns the value that WRITE_INIT stored to another address, with one way one in which an earlier write to A is lost. (All other properties therefore exclude WRITE_INIT requests.)", "quantifier": "existence of an execution, with one and with two ways", "why_tests_cant": "Depends on the replacement state and dirty victim at the time of the request.", "anchors": ["blocking_cache/BlockingCacheCtrlRTL.py:TRANS_TYPE_INIT_REQ"]}
{"id": "C35", "title": "Double-word zero-extending write (len 3)", "statement": "With 32-bit data a WRITE with len 3 at an 8-byte aligned address stores the 32-bit value zero-extended to 64 bits, i.e. behaves as two word writes, and both words survive eviction, INV and FLUSH.", "quantifier": "every address, value, cache state, schedule", "why_tests_cant": "All cache states.", "anchors": ["blocking_cache/units/arithmetics.py:DataReplicator", "blocking_cache/units/arithmetics.py:WriteBitEnGen", "blocking_cache/units/UpdateTagArrayUnit.py:UpdateTagArrayUnit"]}
{"id": "C36", "title": "Processor model in-flight counter is exact and never overflows", "statement": "In front of the cache the ProcModel's 2-bit in-flight counter always equals the number of accepted requests minus delivered responses and never wraps.", "quantifier": "every schedule", "why_tests_cant": "Unbounded histories.", "anchors": ["test/ProcModel.py:ProcModel"]}
{"id": "C37", "title": "Multicore model orders phases", "statement": "The multicore driver lets no request of order k into a cache before all responses of requests of order less than k have been delivered.", "quantifier": "every program, every number of caches, every schedule", "why_tests_cant": "Unbounded histories.", "anchors": ["test/MulticoreModel.py:MulticoreModel", "blocking_cache/units/counters.py:CounterUpDown"]}
{"id": "C38", "title": "Reset recovers from any state", "statement": "Asserting reset in any state whatsoever (mid-miss, mid-flush, corrupted registers) brings the cache, once no old memory response is outstanding, back to the same observable behaviour as after power-up.", "quantifier": "every state, reachable or not", "why_tests_cant": "All 2^n register states.", "anchors": ["blocking_cache/BlockingCacheRTL.py:BlockingCacheRTL", "blocking_cache/BlockingCacheCtrlRTL.py:BlockingCacheCtrlRTL", "blocking_cache/BlockingCacheDpathRTL.py:BlockingCacheDpathRTL"]}
{"id": "C39", "title": "Refill merges around dirty words bit-exactly", "statement": "A refill writes exactly the words whose dirty bit is clear and leaves every bit of every dirty word unchanged.", "quantifier": "every line width, dirty mask, old and new line", "why_tests_cant": "2^(2*line bits) inputs.", "anchors": ["blocking_cache/units/arithmetics.py:WriteBitEnGen"]}
{"id": "C40", "title": "Derived parameters are consistent", "statement": "For every power-of-two configuration tag, index and offset widths add up to the address width, the line counter covers exactly all (set, way) pairs, and the dirty mask has one bit per 32-bit word of the line.", "quantifier": "all power-of-two sizes, associativities 1 and 2, all address and line widths", "why_tests_cant": "Unbounded parameter space.", "anchors": ["blocking_cache/CacheDerivedParams.py:CacheDerivedParams"]}
{"id": "C41", "title": "The processor model and the cache cannot latch up", "statement": "The ready signals of ProcModel and the cache form a combinational loop when nothing is in flight (cache resp.rdy depends on cache req.rdy, which depends on resp.rdy). In every reachable state the loop has exactly one solution: with nothing in flight the cache's req.rdy does not depend on its resp.rdy, and no response is sent.", "quantifier": "every reachable state, every input, every number of caches", "why_tests_cant": "a test that settles shows one solution in the states it visits; uniqueness must hold in every reachable state", "anchors": ["test/ProcModel.py:signal_model", "blocking_cache/BlockingCacheCtrlRTL.py:cachereq_rdy, ostall_M2"]}
{"id": "C42", "title": "Software coherence, liberal discipline", "statement": "With several caches on one memory, a response returns the value of one flat memory executing the requests of all caches in the order of acceptance, provided every store to the words it reads is published before another cache may use it. A store counts as published once the storing cache has answered, at or after the store, a FLUSH, an atomic operation on the line, or (direct-mapped) a read or write of a conflicting line. A reader is up to date if at some moment after publication it held no copy of the line: it never touched it, or it accepted an INV or gave the line up by an atomic operation or a conflicting access and has not read or written the line since; the INV may be accepted before the FLUSH is answered. An atomic operation needs no such moment: published stores suffice, even if its own cache holds a stale copy. When all stores to a word are published, memory holds the latest value.", "quantifier": "any number of caches, configurations, histories and schedules satisfying the discipline on the words concerned", "why_tests_cant": "MultiCacheTestCases runs four fixed programs; the property ranges over all interleavings of all programs with this discipline.", "anchors": ["blocking_cache/test/MultiCacheTestCases.py:rd_wr_2c,amo_2c,inv_fl_2c,inv_fl_4c", "blocking_cache/BlockingCacheCtrlRTL.py:trans_M0, is_evict_M1, FLUSH, INV, AMO"]}
{"id": "C43", "title": "Synchronised multicore programs are deterministic; the multi-cache tests pass for every timing", "statement": "Run a program (a list of core, order, request) through the multicore driver. If conflicting accesses of different cores to a word are synchronised in the text of the program - a store is followed on its core by a FLUSH, an atomic operation or (direct-mapped) an eviction of smaller order than some request of the other core at or before the later access, at which the other core holds no copy; a read is separated by an order from a later store - then every response, in all fields, is the one of the sequential execution of the list on a flat memory with private LRU directories, whatever the stalls, latencies and interleaving; two executions deliver the same responses; and memory ends with the sequential contents of published words. In particular the four programs of MultiCacheTestCases return exactly the expected responses in every execution.", "quantifier": "all synchronised programs of fewer than 2^32 valid requests, all numbers of cores, configurations, timings and initial cache contents", "why_tests_cant": "a test runs one timing of one program", "anchors": ["blocking_cache/test/MultiCacheTestCases.py:rd_wr_2c,amo_2c,inv_fl_2c,inv_fl_4c", "test/MulticoreModel.py:MulticoreModel", "blocking_cache/BlockingCacheRTL.py"]}
{"id": "C44", "title": "The tag check reports exactly the ways that hold the line", "statement": "Given the tag entries read from the ways and the tag of the request, the tag check unit reports a hit if and only if some way is valid with that tag, a hit on an invalidated line if and only if some way is invalid, has that tag and has a dirty word, and in both cases a way that matches (the only one if there is only one). It reports a line dirty exactly if some word is dirty, and the written word dirty exactly if every word the write touches is already dirty. When disabled, or for initialisation accesses, it reports no hit whatever the array contains.", "quantifier": "all tag array contents, tags, offsets, lengths, both associativities, all widths", "why_tests_cant": "the unit tests try a handful of entries; the statement ranges over all entries and widths", "anchors": ["blocking_cache/units/arithmetics.py:TagArrayRDataProcessUnit"]}
{"id": "C45", "title": "The tag update changes exactly the intended fields", "statement": "For every old entry: a write hit keeps tag and valid bit and adds exactly the words the write touches (the addressed word, and the next one for the double-word write) to the dirty words; a write refill makes the entry valid with the kept dirty words plus the touched words; a read refill makes it valid with the kept dirty words; invalidation clears only the valid bit; clear empties the entry; the other commands keep it. After a write hit or write refill, the same write finds its words dirty.", "quantifier": "all entries, commands, offsets, lengths, widths", "why_tests_cant": "there is no unit test for this unit, and the statement ranges over all entries", "anchors": ["blocking_cache/units/UpdateTagArrayUnit.py:UpdateTagArrayUnit"]}
{"id": "C46", "title": "A directed test passes or fails independently of timing", "statement": "For one cache and any list of valid requests offered in order, the complete response stream (type, opaque, length, hit bit and data of every response, in order) is a function of the initial memory and the request list only: it does not depend on memory latency, stalls, source and sink delays or what the SRAMs contained. If the ports are ready again and again, memory answers and the source keeps offering, every request is eventually answered, so the stream is complete. In particular each of the 60 directed single-cache tests of the repository that use only valid requests passes with every timing.", "quantifier": "all request lists, all timings of processor, memory and clock, all initial memory and SRAM contents, all configurations", "why_tests_cant": "the repository runs each list with one or two choices of latency and delays; the outcome has to be the same for all", "anchors": ["blocking_cache/test/GenericTestCases.py", "blocking_cache/test/AmoTests.py", "blocking_cache/test/InvFlushTests.py", "blocking_cache/test/OtherCiferTests.py", "test/sim_utils.py:TestHarness", "blocking_cache/BlockingCacheRTL.py:BlockingCacheRTL"]}
{"id": "C47", "title": "The multicore test driver never deadlocks on ordered programs", "statement": "In a multi-cache test, if on every core the order numbers of the requests never decrease, then in every execution in which ports are ready again and again, memory answers and the sources keep offering, every request is eventually answered; the test then ends with exactly the responses of the sequential execution if the program is synchronised. Conversely, a program in which some core has a request of a smaller order behind one of a larger order never completes. The four multi-cache tests of the repository end with the responses they list, in every fair execution.", "quantifier": "all programs, numbers of cores, configurations, timings and fair infinite executions", "why_tests_cant": "a test run shows one schedule ends; termination is about all schedules and about arbitrary programs", "anchors": ["test/MulticoreModel.py:MulticoreModel", "blocking_cache/test/MultiCacheTestCases.py", "test/sim_utils.py:MultiCacheTestHarness"]}
{"id": "C48", "title": "Counters hold exactly what their history says", "statement": "After any history of port values, the up/down counter holds the value of the last cycle that assigned one (reset value on reset, otherwise the load amount on load; reset wins over load, load over counting), plus the up amounts of later cycles with only up enabled, minus the down amounts of later cycles with only down enabled, modulo 2^n; simultaneous up and down leave it unchanged. The enabled counter holds its reset value plus the number of enabled up-cycles minus the number of enabled down-cycles since the last reset. Its load and load_value ports have no effect in any history (a defect: they are declared but dead).", "quantifier": "all widths, reset values, initial contents and histories of port values", "why_tests_cant": "the histories are unbounded and the wrap-around depends on all of them", "anchors": ["blocking_cache/units/counters.py:CounterUpDown", "blocking_cache/units/counters.py:CounterEnRst"]}
{"id": "C49", "title": "The processor model is transparent and the whole test bench terminates", "statement": "Putting the processor model between source, sink and cache neither adds nor removes a sequence of observable events (accepted requests, responses, memory traffic). In the single-cache bench with processor model, if sink and memory are ready together again and again, memory answers and the source keeps offering its valid requests, the sink eventually has received exactly the expected responses and nothing else afterwards; in particular the 60 directed tests. In the multicore bench with one processor model per core, every program whose orders do not decrease on a core is eventually fully answered, and a synchronised program ends with exactly the responses of its sequential execution; in particular the four multi-cache tests.", "quantifier": "all request lists and programs, numbers of cores, configurations, memory and SRAM contents, all fair infinite executions", "why_tests_cant": "termination under every schedule of stalls and latencies cannot be observed on finitely many runs, and the ready path through the processor model is a combinational loop that could deadlock only for particular alignments", "anchors": ["test/ProcModel.py:ProcModel", "test/sim_utils.py:TestHarness", "test/MulticoreModel.py:MulticoreModel"]}
{"id": "C50", "title": "The random and property-based tests pass for every draw and every timing", "statement": "For every associativity, pair of line and data widths and number of blocks the property-based tests use, and for the ten configurations of the random tests: whatever memory image and whatever list of requests (types, addresses, data, lengths, of any number) the generators draw, the FL reference model generates its transaction list without raising an exception, one response per request; the responses it lists are those of a flat memory with an LRU directory; and the RTL cache, sent the requests of that list through the test bench, never delivers a response that deviates from the list, and in every fair execution ends having delivered exactly the list, with every latency, stall and delay pattern. On the directed tests the FL model lists the expected responses.", "quantifier": "all draws of the generators, all list lengths, all memory images, all configurations of the two files, all executions of the bench", "why_tests_cant": "this is the statement that the tests themselves can never fail: a run samples 75 draws with one timing each", "anchors": ["blocking_cache/test/HypothesisTest.py:gen_reqs", "blocking_cache/test/HypothesisTest.py:HypothesisTests", "blocking_cache/test/RandomTestCases.py:random_test_generator", "blocking_cache/BlockingCacheFL.py:ModelCache", "test/sim_utils.py:rand_mem"]}
{"id": "C51", "title": "The order in which the update blocks run does not matter", "statement": "The cache consists of update blocks (update functions, lambdas, connections), some of which depend on each other cyclically. For every content of registers and SRAMs and every input there is exactly one assignment of the internal wires that no block changes. Every schedule that runs each block sufficiently often, in any order and starting from any left-over wire values, ends in it, as does every schedule that stops when nothing changes. So the output ports and the register contents after the clock edge do not depend on the simulator's schedule. At no moment, not even before the wires have settled, does a signal that selects a way select one that does not exist (which would be an IndexError in a direct-mapped cache).", "quantifier": "all parameters, all register and SRAM contents, all inputs, all initial wire values, all block schedules", "why_tests_cant": "A test runs with the one schedule the simulator happens to choose and with the wire values left over from its own previous cycles.", "anchors": ["blocking_cache/BlockingCacheCtrlRTL.py:BlockingCacheCtrlRTL", "blocking_cache/BlockingCacheDpathRTL.py:BlockingCacheDpathRTL", "blocking_cache/units/UpdateTagArrayUnit.py:UpdateTagArrayUnit"]}
{"id": "C52", "title": "The guarantees hold for the design as written, wire by wire", "statement": "Take the cache as it is written: wires and update blocks evaluated in any order, registers holding numeric codes, tag arrays holding packed words written through bit masks, control signals sliced out of concatenated table rows, SRAMs with active-low pins, messages with flat addresses. From a reset of arbitrary registers, on a memory with arbitrary delays, the response data are those of a flat byte memory on the accepted request messages, responses come one per request in order with the request's type, opaque and length (at most two requests unanswered), and the test fields are those the FL tracker predicts. More generally the executions of the design as written are exactly those of the abstract cycle model.", "quantifier": "all parameters, any number of caches, all register, SRAM and wire contents before reset, all request sequences, stalls, latencies and block schedules", "why_tests_cant": "It ranges over all executions and schedules, and over all pre-reset states.", "anchors": ["blocking_cache/BlockingCacheRTL.py:BlockingCacheRTL", "blocking_cache/BlockingCacheCtrlRTL.py:BlockingCacheCtrlRTL", "blocking_cache/BlockingCacheDpathRTL.py:BlockingCacheDpathRTL", "sram/SramGenericPRTL.py:SramGenericPRTL", "blocking_cache/cacheStructs.py:mk_tag_array_struct"]}
{"id": "C53", "title": "Malformed requests are isolated", "statement": "The cache accepts requests of every length and alignment. One outside the supported shapes (unaligned write, odd length, multi-word write, unaligned atomic operation) is not served correctly, but it can corrupt only the line it addresses (an atomic operation that crosses a line end: also the next one). Every supported request to any other line is answered, before and after, with the data of a flat memory that executed the supported requests and ignored the malformed ones, and a FLUSH publishes exactly that memory for all other lines. Malformed reads corrupt nothing. The damage is real: after an unaligned write, two reads of the same word with no write in between can return different data.", "quantifier": "all parameters, all request sequences without WRITE_INIT, of any length and alignment, all timings, all initial states and memories", "why_tests_cant": "It ranges over all interleavings of malformed and well-formed requests and over all lines.", "anchors": ["blocking_cache/units/arithmetics.py:WriteBitEnGen", "blocking_cache/units/arithmetics.py:DataReplicator", "blocking_cache/units/UpdateTagArrayUnit.py:UpdateTagArrayUnit", "blocking_cache/BlockingCacheRTL.py:BlockingCacheRTL"]}
{"id": "C54", "title": "Meaning of requests of every length and alignment", "statement": "A small flat-memory specification gives the exact meaning of every read (aligned downwards to its size; zero if the size is not a power of two), of every write whose bytes stay in the word it addresses or, for length 3, that and the next word (the bytes are taken from the data at their natural alignment, so an unaligned write stores them rotated; the part beyond the end of the line is dropped; sizes that are not powers of two store nothing), and of every word-sized atomic operation inside a line. Responses and flushed memory are those of this specification, for all such requests on lines that no other request may have corrupted. On supported requests it coincides with the plain flat memory.", "quantifier": "all parameters, all request sequences without WRITE_INIT, all timings, all initial states and memories", "why_tests_cant": "Tests only send aligned requests of supported sizes; the claim covers every address and length.", "anchors": ["blocking_cache/units/muxes.py:FastDataSelectMux", "blocking_cache/units/arithmetics.py:WriteBitEnGen", "blocking_cache/units/arithmetics.py:DataReplicator", "blocking_cache/units/UpdateTagArrayUnit.py:UpdateTagArrayUnit"]}
{"id": "C55", "title": "Memory never goes back in time (crash consistency)", "statement": "At every moment of an execution every aligned 32-bit word of the memory behind the cache is the word a flat memory has after some prefix of the accepted requests: never a value the program did not have there, never a torn word. The prefix only grows with time, and it includes every answered FLUSH and every answered atomic operation on the line. If the cache is stopped at an arbitrary moment and reset on the memory it left, the first read of a word returns such a past value, no older than the last answered FLUSH. Different words may be from different moments: a later store may be in memory while an earlier one is not.", "quantifier": "all parameters, all sequences of supported requests, all timings, all stop points, all initial states and memories", "why_tests_cant": "The stop point ranges over every cycle of every execution, including the middle of evictions, refills and flushes.", "anchors": ["blocking_cache/BlockingCacheCtrlRTL.py:BlockingCacheCtrlRTL", "blocking_cache/BlockingCacheDpathRTL.py:BlockingCacheDpathRTL", "test/MemoryCL.py:MemoryCL"]}
{"id": "C56", "title": "WRITE_INIT requests are isolated", "statement": "A cache that receives WRITE_INIT requests, mixed in any order and timing with requests of every type, length and alignment, still answers every request exactly once and in order, with its type, opaque field and length (the answer to a WRITE_INIT carries zero data and test bits). A WRITE_INIT does not behave like a write (C34), but it can corrupt only addresses of the cache set it addresses: every supported request to another set is answered, before and after, with the data of a flat memory that executed the supported requests and ignored the WRITE_INITs, and a FLUSH publishes exactly that memory for all other sets.", "quantifier": "all parameters, all request sequences of all types, lengths and alignments, all timings, all initial states and memories", "why_tests_cant": "It ranges over all interleavings of WRITE_INIT with other traffic, all addresses and timings; the tests use WRITE_INIT only to warm up an empty cache.", "anchors": ["blocking_cache/BlockingCacheCtrlRTL.py:BlockingCacheCtrlRTL", "blocking_cache/BlockingCacheDpathRTL.py:BlockingCacheDpathRTL", "blocking_cache/units/UpdateTagArrayUnit.py:UpdateTagArrayUnit"]}
{"id": "C57", "title": "Warming up an empty cache with WRITE_INIT", "statement": "The use WRITE_INIT is made for works: a direct-mapped cache that is reset and then receives WRITE_INITs of supported lengths and alignments, no two of them to different lines of one set (a two-way cache: a single WRITE_INIT), answers all supported requests that follow with the data of a memory in which the lines addressed by WRITE_INITs are zero except for the bytes the WRITE_INITs wrote. This holds as long as the cache does not fetch these lines from memory, i.e. until a conflict, an INV or an AMO removed them; after that their data are lost, because WRITE_INIT marks nothing dirty.", "quantifier": "all parameters, all such request sequences, all timings, all initial states and memories", "why_tests_cant": "The tests warm up one or two lines with one timing; the claim covers all warm-up sequences, all following requests and all timings.", "anchors": ["blocking_cache/BlockingCacheCtrlRTL.py:BlockingCacheCtrlRTL", "blocking_cache/BlockingCacheDpathRTL.py:BlockingCacheDpathRTL", "blocking_cache/test/GenericTestCases.py:rd_hit_1wd"]}
{"id": "C58", "title": "The directed tests with WRITE_INIT pass for every timing", "statement": "After reset and a warm-up with WRITE_INITs (with two ways: at most one) the responses to any following requests are, in every field, a function of the initial memory and the request sequence, whatever the timing of processor, memory and clock. In particular each of the 15 directed tests of the repository that use WRITE_INIT or 128-bit writes passes for every timing, not only for the latencies and delays the test file picks.", "quantifier": "all parameters and request sequences starting with the WRITE_INITs, all timings, all initial states of the memories in the cache; the 15 directed tests", "why_tests_cant": "A test run fixes one timing.", "anchors": ["blocking_cache/test/GenericTestCases.py:rd_hit_1wd", "blocking_cache/test/OtherCiferTests.py:OtherCiferTests", "blocking_cache/BlockingCacheRTL.py:BlockingCacheRTL", "test/sim_utils.py:mk_req_resp"]}
{"id": "C59", "title": "Reset in mid-operation", "statement": "The cache may be reset at any moment, for any number of cycles, while memory requests it sent are unexecuted and responses undelivered. For fewer than num_lines clock edges after the reset it is not ready and sends nothing, whatever memory delivers. If all old memory traffic has been executed and delivered before the num_lines-th clock edge after the reset, then memory holds at every aligned word the value after some prefix of the requests accepted before the reset (including every answered FLUSH, and AMO on the line), and from there every request is answered, in order, as by a flat memory with these contents: no old response is ever taken for a new one. The limit is sharp: an old response delivered on the num_lines-th clock edge after the reset makes the cache answer a newly accepted request with the opaque and data of another one.", "quantifier": "all parameters, all executions before the reset, all reset moments and lengths, all contents of the memory port at the reset, all timings after it; any number of caches for the part that compares with caches reset with empty ports", "why_tests_cant": "The tests reset once, before any request. The moment of the reset, the messages in flight and the arrival times after it are unbounded.", "anchors": ["blocking_cache/BlockingCacheCtrlRTL.py:BlockingCacheCtrlRTL", "blocking_cache/BlockingCacheCtrlRTL.py:fsm_M0_next_state", "blocking_cache/BlockingCacheCtrlRTL.py:cachereq_memresp_mux_sel_M0", "blocking_cache/BlockingCacheDpathRTL.py:BlockingCacheDpathRTL", "test/MemoryCL.py:MemoryCL"]}
{"id": "C60", "title": "Hit latency and throughput", "statement": "A READ or WRITE whose line is in the cache, accepted at a clock edge, is answered at the second edge after it if the ports are ready: after one more edge everything accepted before it has been answered, and the response port then offers its response (type, opaque and test = 1 of this request) and nothing is sent to memory. After accepting a READ hit the cache is ready again in the next cycle. After accepting a WRITE hit it is ready in the next cycle exactly if all words it writes were already waiting to be written back, and otherwise in the cycle after that. Hence READ hits are accepted one per cycle for any number of cycles, with at most two of them unanswered.", "quantifier": "all parameters, all executions from reset with any number of caches, all requests, all behaviours of memory and of the other caches in between; any number of cycles for the throughput", "why_tests_cant": "A test measures the latency of the few requests it sends in the few states it sets up; the claim is for every reachable state and every history of the directory.", "anchors": ["blocking_cache/BlockingCacheCtrlRTL.py:cs_table_M1", "blocking_cache/BlockingCacheCtrlRTL.py:status_logic_M1", "blocking_cache/BlockingCacheCtrlRTL.py:BlockingCacheCtrlRTL", "blocking_cache/BlockingCacheDpathRTL.py:BlockingCacheDpathRTL", "blocking_cache/BlockingCacheRTL.py:BlockingCacheRTL"]}
{"id": "C61", "title": "Miss and AMO latency", "statement": "After the acceptance of an AMO, or of a READ or WRITE whose line is not in the cache, the second clock edge with ready ports sends a memory request and no response: either the fetch (READ of the whole line from its first byte; for an AMO the AMO with its own address), or a write-back WRITE, in which case the third edge sends the fetch. When a clock edge delivers the line, the cache is not ready in the next two cycles, is ready in the third, and the fourth edge sends the response, the only one then outstanding. For the result of an AMO it is one cycle less.", "quantifier": "all parameters, all executions from reset with any number of caches, all requests, all delays of memory before the delivery", "why_tests_cant": "The tests compare responses, not cycles, and memory delay, history and address are unbounded.", "anchors": ["blocking_cache/BlockingCacheCtrlRTL.py:cs_table_M1", "blocking_cache/BlockingCacheCtrlRTL.py:cs_table_M2", "blocking_cache/BlockingCacheCtrlRTL.py:fsm_M0_next_state", "blocking_cache/BlockingCacheCtrlRTL.py:transaction_logic_M0", "blocking_cache/BlockingCacheRTL.py:BlockingCacheRTL"]}
{"id": "C62", "title": "Invalidation and flush latency", "statement": "With ready ports, after the acceptance of an INV the cache sends nothing to memory and becomes ready again after exactly num_lines + 1 clock edges. After the acceptance of an INV or FLUSH, if memory owed an answer at w of the edges and m write-backs were sent, the cache becomes ready again after exactly num_lines + 1 + w + 3 m edges; two edges later at the latest the response has been sent, and all earlier requests have been answered before it.", "quantifier": "all parameters, all executions from reset with any number of caches, all cache contents, all delays of memory", "why_tests_cant": "The number of dirty lines, their positions and the delays of each write-back are unbounded combinations; the tests compare messages, not cycles.", "anchors": ["blocking_cache/BlockingCacheCtrlRTL.py:fsm_M0_next_state", "blocking_cache/BlockingCacheCtrlRTL.py:transaction_logic_M0", "blocking_cache/units/counters.py:CounterEnRst", "blocking_cache/BlockingCacheCtrlRTL.py:BlockingCacheCtrlRTL"]}
{"id": "C63", "title": "Lines are written back exactly when needed", "statement": "Between the acceptance of a request and its answer the cache sends exactly this to memory. READ or WRITE of a cached line, and INV: nothing. READ or WRITE of any other line: one read of that line, preceded by at most one write-back; a line written back is another line of the same set with a word memory has not seen, and is either not cached any more (left behind by an INV) or the least recently used line of a full set; that least recently used line is written back whenever it has a word memory has not seen; if the missing line itself has such a word nothing is written back; a direct-mapped cache writes back the set's unsaved line whether it is cached or not. AMO: the operation, preceded by the write-back of its own line if and only if that has a word memory has not seen. FLUSH: exactly one write-back per line with a word memory has not seen, in descending order of the sets. At no acceptance does a set have more unsaved lines than ways.", "quantifier": "all parameters, all executions from reset with any number of caches, all request sequences, stalls and memory delays", "why_tests_cant": "Superfluous or missing write-backs change no response until another request reaches the line; which line is the victim depends on the whole history of accesses, invalidations, AMOs and flushes.", "anchors": ["blocking_cache/BlockingCacheCtrlRTL.py:cs_table_M1", "blocking_cache/BlockingCacheCtrlRTL.py:cs_table_M2", "blocking_cache/BlockingCacheCtrlRTL.py:status_logic_M1", "blocking_cache/BlockingCacheCtrlRTL.py:BlockingCacheCtrlRTL"]}
{"id": "C64", "title": "Caches of any shapes refine one programmer's memory model", "statement": "Several caches, each with its own size, associativity, block size, data width and opaque width, share one memory. Everything the processors see (requests accepted, responses delivered, in order and with their contents) together with the final contents of memory is an execution of a small machine that has only words: each cache holds absent, clean or dirty copies of words; while it works on a request it may fetch absent words, drop clean ones and save dirty ones; READ and WRITE act on copies, an AMO acts on memory on a word of which the cache has no copy, INV drops all clean copies, FLUSH completes when no copy is dirty. Lines, sets, ways, replacement and pipelining cannot be observed otherwise.", "quantifier": "all families of parameters, all executions from reset, all schedules of caches and memory ports, all valid request sequences", "why_tests_cant": "The set of behaviours software must be prepared for is infinite: it depends on every interleaving of caches, evictions and memory delays; tests with two caches of chosen shapes see a few interleavings.", "anchors": ["blocking_cache/BlockingCacheRTL.py:BlockingCacheRTL", "test/sim_utils.py:MultiCache", "blocking_cache/BlockingCacheCtrlRTL.py:BlockingCacheCtrlRTL"]}
{"id": "C65", "title": "Software coherence with FLUSH, INV and AMOs for caches of any shapes", "statement": "Caches of different shapes share a memory. FLUSH and AMOs release a word, INV and AMOs acquire it. If every WRITE to a word is given to a cache that is up to date on it (every store of another cache to it was released and answered, and the cache then accepted an acquiring request), and every AMO on it only when the other caches' stores are released, then an AMO, and a READ given to an up-to-date cache with no racing store, returns exactly what one flat memory executing all accepted requests in order of acceptance would return, with the request's type, opaque and length. When all stores to a word are released, memory holds its latest contents. Words with a single writer need no synchronisation even if other words of the line are written by others; a word nobody stores to never changes in memory.", "quantifier": "all families of parameters, all executions from reset, all schedules, all programs obeying the discipline on the word", "why_tests_cant": "Correctness of software coherence depends on every interleaving of evictions, refills and maintenance operations of caches with different line sizes; tests run a few fixed programs.", "anchors": ["blocking_cache/BlockingCacheRTL.py:BlockingCacheRTL", "test/sim_utils.py:MultiCache", "blocking_cache/test/MultiCacheTestCases.py:MultiCacheTestCases"]}
{"id": "C66", "title": "Atomic operations of caches of any shapes are linearisable", "statement": "Caches of different shapes share a memory and no WRITE stores to a word. Then there is one sequence of all atomic operations on that word such that each returns the value left by its predecessor, memory holds the value left by the last one, and at every moment of the history an initial part of the sequence contains all operations answered so far (with the value given in the response) and only operations asked for so far, each cache's in order; in particular an operation answered before another one is requested precedes it.", "quantifier": "all families of parameters, all executions from reset, all interleavings of racing AMOs", "why_tests_cant": "Lost updates and reorderings only show in particular races between caches; linearisability is a statement over every history.", "anchors": ["blocking_cache/BlockingCacheCtrlRTL.py:BlockingCacheCtrlRTL", "test/sim_utils.py:MultiCache", "blocking_cache/test/MultiCacheTestCases.py:MultiCacheTestCases"]}
{"id": "C67", "title": "A spin lock built from AMO_SWAP, INV and FLUSH protects shared data", "statement": "Processors behind caches of different shapes use a word that is initially 0 as a lock: take it with AMO_SWAP of 1 (successful if it returns 0), give it back with AMO_SWAP of 0 after all their requests are answered and their stores flushed, and access protected words only while holding the lock, after an INV given after taking it. Then no two processors hold the lock at the same time, and every READ (or AMO) of protected words returns the latest data: everything accepted before, by any cache, performed on one flat memory.", "quantifier": "all families of parameters, any number of caches, all executions from reset, all programs following the lock protocol, all schedules", "why_tests_cant": "Mutual exclusion and data visibility must hold for every interleaving of an unbounded number of critical sections; tests exercise a few.", "anchors": ["blocking_cache/BlockingCacheRTL.py:BlockingCacheRTL", "test/sim_utils.py:MultiCache", "blocking_cache/test/MultiCacheTestCases.py:MultiCacheTestCases"]}
{"id": "C68", "title": "The cache does not depend on what its SRAMs output when they are not read", "statement": "The Python SRAM keeps its output after a write or an idle cycle, the Verilog SRAM that replaces it in hardware outputs 0, hard macros leave it unspecified. All the same, after a reset every output of the cache (ready signals, responses, memory requests) is in every cycle the same with all of them, for all inputs; systems of such caches have the same executions, so the flat-memory guarantee and liveness hold for them. The Verilog SRAM holds the same contents as the Python SRAM after every history and outputs the same word after every read.", "quantifier": "all parameters, all power-up states, all input sequences (further resets included), all choices of the SRAM outputs in cycles after which they were not read, all finite and infinite executions of systems", "why_tests_cant": "A stale or undefined SRAM output leaks only for particular combinations of stalls, evictions and requests; simulation uses one SRAM model, silicon another.", "anchors": ["sram/SramGenericPRTL.py:SramGenericPRTL", "sram/brg_gf14_sram_generic_synopsys.v:dout_next", "sram/SramPRTL.py:SramPRTL", "blocking_cache/units/StallEngine.py:StallEngine", "blocking_cache/BlockingCacheDpathRTL.py:BlockingCacheDpathRTL"]}
{"id": "C69", "title": "Messages count only while their en signal is high, and the state before a reset does not count", "statement": "After a reset the outputs of a cache are determined, cycle by cycle, by the control inputs and by the messages in the cycles in which their en is high: in two histories that agree in those, the cache is ready in the same cycles, sends its responses and memory requests in the same cycles, and these are the same messages. The messages on the ports while en is low, the opaque field of memory responses (and the data of write acknowledgements), everything in the registers and SRAMs before the reset, and the inputs in the cycle of the reset have no influence. The only message field that is not determined is the opaque field of write-backs, which FLUSH takes from the request port while en is low. The processor obeys rdy and does not send WRITE_INIT: with WRITE_INIT the data a later read returns can depend on the request port while en is low.", "quantifier": "all parameters, all pairs of power-up states, all pairs of input sequences that agree where en is high (further resets included), all SRAM outputs after cycles without a read", "why_tests_cant": "Testbenches drive zeros or stale messages on idle ports and start from a zeroed simulator state; a leak shows up only for particular values at particular cycles, so a test passes with one set of idle values and fails in silicon with another.", "anchors": ["blocking_cache/BlockingCacheCtrlRTL.py:BlockingCacheCtrlRTL", "blocking_cache/BlockingCacheDpathRTL.py:BlockingCacheDpathRTL", "blocking_cache/BlockingCacheRTL.py:BlockingCacheRTL", "blocking_cache/README.md:opaque"]}
{"id": "C70", "title": "Data values never influence timing, hits, addresses or masks", "statement": "If two input sequences differ only in the data of requests and of memory responses, the outputs of the cache differ in every cycle only in the data of responses and of memory requests: it is ready in the same cycles, responds in the same cycles with the same types, opaque fields and test bits, and sends the same memory requests (types, addresses, lengths, write masks) in the same cycles. Together with C69: after a reset all this depends only on the control inputs and, while en is high, on type, opaque field, address and length of the requests and on which memory responses are write acknowledgements. For a system of caches: replacing the memory contents and the data of every request yields an execution with the same events except for data.", "quantifier": "all parameters, all states, all pairs of input sequences that differ in data only (WRITE_INIT, unsupported requests and resets included); for systems all numbers of caches, all executions, all memories, all request data", "why_tests_cant": "Whether some data value changes a hit, a stall or an address would have to be tried for every value in every situation; it also rules out a timing channel through data.", "anchors": ["blocking_cache/BlockingCacheCtrlRTL.py:BlockingCacheCtrlRTL", "blocking_cache/BlockingCacheDpathRTL.py:BlockingCacheDpathRTL", "blocking_cache/BlockingCacheRTL.py:BlockingCacheRTL"]}
{"id": "C71", "title": "Worst-case response time, in any environment", "statement": "Consider the cache alone after a reset from any power-up state, in an environment that only obeys the port rules (requests of any type, WRITE_INIT and unsupported types included, only when ready; memory answers in order, each request once, with the request's type, with arbitrary data). If, from the acceptance of a request on, both output ports are ready and memory never lets the cache wait more than D cycles in a row for an answer, the response is handed over at the latest after 8 + 2D clock edges (READ, WRITE, AMO), 2 edges (WRITE_INIT), lines + 3 edges (INV) or 3 + (5 + D) * lines edges (FLUSH), whatever other requests follow; these bounds are reached. With arbitrarily slow ports and memory, every accepted request is answered once the environment has done its part in 3 + 5 * lines further cycles; if no request follows, the cache then is ready and memory owes nothing. There are never more responses than accepted requests.", "quantifier": "all parameters, all power-up states, all finite input histories obeying the port rules, all D, all ports' readiness patterns, all memory data, all request types", "why_tests_cant": "A worst case over all states, request sequences and memory latencies, and progress under every stall pattern, cannot be established by running examples.", "anchors": ["blocking_cache/BlockingCacheCtrlRTL.py:BlockingCacheCtrlRTL", "blocking_cache/BlockingCacheRTL.py:BlockingCacheRTL", "blocking_cache/units/MSHR.py:MSHR"]}
{"id": "C72", "title": "The hit/miss tracker with banks", "statement": "A hit/miss tracker built with nbanks > 0 predicts, after any calls, exactly what the tracker without banks predicts when every address is handed over with its bank bits removed. So, as long as all addresses belong to one bank, an access to a line accessed before hits exactly if fewer than nways other lines of its set were accessed since (no INV, and no AMO to the set in between). Addresses that differ in bank and offset only are treated as one line: right after an access to one of them the other is reported as a hit, whether or not it was ever accessed.", "quantifier": "all sizes, associativities, numbers of banks and line sizes, all call sequences with 32-bit addresses", "why_tests_cant": "The prediction depends on the whole history of addresses, and the repository never builds a tracker with banks.", "anchors": ["blocking_cache/BlockingCacheFL.py:HitMissTracker", "blocking_cache/BlockingCacheFL.py:split_address"]}
{"id": "C73", "title": "Message formats and their strings", "statement": "For every choice of opaque, address and data widths, with or without a write mask: a request or response converts to plain bits with its fields side by side (type uppermost, data lowest) and back without loss, in either direction. The string of a request determines all its fields except the data of a READ, the string of a response all its fields except the data of a WRITE; conversely these are the only things it hides. If the data width is a multiple of 4 all strings of one format have the same length, so traces line up. The type strings accepted by the message builders are exactly the type table's, except that INV is built from 'inv' instead of the table's 'iv' and LR and SC cannot be built.", "quantifier": "all widths, all messages, all strings", "why_tests_cant": "The tests print four messages of fixed widths; the claim is about every message of every format and every pair of messages.", "anchors": ["mem_ifcs/MemMsg.py:mk_mem_req_msg", "mem_ifcs/MemMsg.py:mk_mem_resp_msg", "mem_ifcs/MemMsg.py:MemMsgType", "blocking_cache/BlockingCacheFL.py:req", "test/sim_utils.py:decode_type"]}
{"id": "C74", "title": "The cache touches no memory it was not asked to touch", "statement": "Whatever the processors ask for (any requests but WRITE_INIT, however malformed), every request a cache sends to memory is accounted for by requests this cache accepted before: it reads the whole line of a READ or WRITE, or writes words of a line addressed by a WRITE, or is an AMO forwarded unchanged. Hence memory bytes in lines no cache accepts a WRITE for, and outside the words of accepted AMOs, keep their values. If all accepted requests are valid, every memory request is one that the test memory executes without an exception, and if their addresses lie below N (a multiple of the line size) every memory request stays below N.", "quantifier": "all parameters, any number of caches, all executions, all requests, all memory timings", "why_tests_cant": "Absence of unasked traffic and of side effects elsewhere in memory must hold for every history; tests only look at the addresses they use.", "anchors": ["blocking_cache/BlockingCacheCtrlRTL.py:BlockingCacheCtrlRTL", "blocking_cache/BlockingCacheDpathRTL.py:BlockingCacheDpathRTL", "test/MemoryCL.py:MemoryCL"]}
{"id": "C75", "title": "The line trace never aborts a simulation and tells the truth", "statement": "line_trace, which the test benches call in every cycle, returns a string in every cycle of every simulation (its `assert False` is unreachable), from power-on or after a reset. Its marks are true: '>' at the left exactly when a memory response arrives, '#' exactly when the cache does not accept requests, '>' at the right exactly when a memory request leaves. The trace identifies the control state: equal traces mean the same FSM state, the same transactions in the stages (an eviction in M2 hides the transaction there) and the same handshakes. A read or write shown green is answered as a hit in the next cycle and sends nothing to memory, one shown red sends a memory request instead (if the ports are ready). For a read or write in the last stage 'ev' is shown exactly if a write goes to memory in that cycle. The control part is 22 columns wide in every cycle, and with the message widths of the tests the whole trace has the same width in every cycle.", "quantifier": "all cache shapes and message widths, all inputs and resets, all orders of the update blocks, all cycles", "why_tests_cant": "The tests print traces but check none of them; reachability of the assertion and the meaning of each mark concern every state of every execution.", "anchors": ["blocking_cache/BlockingCacheCtrlRTL.py:line_trace", "blocking_cache/BlockingCacheRTL.py:line_trace", "mem_ifcs/MemMsg.py:req_to_str", "test/sim_utils.py:DefaultPassGroup"]}
{"id": "C76", "title": "What one sees on the ports of the design: every request answered once, in order and in time", "statement": "Watch the port waveforms of the cache after a reset, with the update blocks executed in any complete order and arbitrary values on the wires before each cycle. If the environment only follows the port protocol (requests while the cache is ready, memory answers in order with the type of the request and with any data), then: the sequence of (type, opaque, length) of the responses is a prefix of that of the requests; every request is answered as soon as the environment has helped in 3 + 5*lines cycles; if the ports are ready and memory lets the cache wait at most D cycles in a row, a request of type t is answered within the closed-form bound for t and D; and once no requests come, every request has been answered exactly once, nothing is owed by memory and the cache is ready again.", "quantifier": "all cache shapes, all waveforms of the netlist (all block orders, all wire values, all inputs that obey the port protocol, all data returned by memory), all latencies", "why_tests_cant": "Tests observe a few waveforms with one memory model and one block schedule; the guarantees range over all environments and all schedules of the update blocks.", "anchors": ["blocking_cache/BlockingCacheRTL.py:BlockingCacheRTL", "blocking_cache/BlockingCacheCtrlRTL.py:BlockingCacheCtrlRTL", "blocking_cache/BlockingCacheDpathRTL.py:BlockingCacheDpathRTL", "test/sim_utils.py:DefaultPassGroup"]}
{"id": "C77", "title": "--replace-sram replaces exactly the SRAMs for which there is a hard macro", "statement": "translate.py --replace-sram turns an instance of the generic SRAM with b bits and w words in the translated Verilog into an instance of the wrapper with the same parameters if and only if the wrapper selects a hard macro for (b, w), for all b and w; all other lines stay as they are and keep their place. The address and data ports of each macro fit the SRAM. Among the supported caches (addresses up to 128 bits) all SRAMs become hard macros exactly for 128-bit lines, 32-bit addresses and 4 KiB with one or two ways or 8 KiB with two ways, and of these only the default options (4 KiB, two ways) give a file that can be simulated without the foundry's cells; the behavioural models of the cells do what the wrapper does without a macro.", "quantifier": "all lines and files, all SRAM sizes, all supported cache configurations", "why_tests_cant": "No test runs translate.py; agreement of the script's list with the wrapper's and with the derived sizes is a statement about all sizes and configurations.", "anchors": ["blocking_cache/translate.py:replace_sram", "sram/brg_gf14_sram_generic_synopsys.v:SramGenericPRTL", "blocking_cache/CacheDerivedParams.py:bitwidth_tag_array", "blocking_cache/BlockingCacheDpathRTL.py:SramPRTL"]}
{"id": "C78", "title": "Racy programs: the accesses to one word have one order", "statement": "Caches of different shapes share a memory and processors run any program, with no FLUSH, INV or lock between conflicting accesses. If every WRITE that stores to a word writes the whole word, then the READs, WRITEs and atomic operations of all processors on that word have one common order, which keeps the order of each processor's requests, contains all answered accesses and only requested ones, and explains every response: performed one after the other on the initial memory the accesses return exactly the data seen. Memory always holds the word some initial part of this order leaves. With WRITEs of single bytes this is false even if every store is flushed: a byte write carries the old values of the other bytes of its word to memory.", "quantifier": "all families of parameters, all executions from reset, all programs of supported requests in which writes to the word are whole, all schedules", "why_tests_cant": "The order must exist for every history of racing, stale and evicted copies; the existing multi-cache tests only use synchronised programs, and a test sees a single schedule.", "anchors": ["blocking_cache/BlockingCacheCtrlRTL.py:BlockingCacheCtrlRTL", "test/sim_utils.py:MultiCache", "blocking_cache/test/MultiCacheTestCases.py:MultiCacheTestCases"]}
{"id": "C79", "title": "Racy programs: no byte out of thin air", "statement": "Caches of different shapes share a memory and processors run any program with accesses of any supported size, without any synchronisation. Every byte returned by a READ or an atomic operation, and every byte in memory, was at that address in the initial memory, or was stored at that address by a WRITE some cache accepted before, or was left there by an atomic operation accepted before on such bytes; WRITE, INV and FLUSH return zero. Nothing comes from the power-up contents of the SRAMs, from another address or from the future.", "quantifier": "all families of parameters, all executions from reset, all programs of supported requests, all schedules", "why_tests_cant": "Garbage would only show for particular victims, partial writes or races; the property covers every history.", "anchors": ["blocking_cache/BlockingCacheCtrlRTL.py:BlockingCacheCtrlRTL", "test/sim_utils.py:MultiCache", "blocking_cache/test/MultiCacheTestCases.py:MultiCacheTestCases"]}
{"id": "C80", "title": "Crash consistency of several caches", "statement": "Caches of different shapes share a memory and processors run any program in which every WRITE that stores to a given word writes the whole word. Stop the system at any moment, losing all caches: memory holds, for that word, the result of an initial part of an order that explains all responses seen so far. This initial part contains everything a processor did to the word up to any of its answered FLUSHes or atomic operations on the word (also the atomic operation itself). If the system is stopped later instead, the stores that have reached memory are the same ones in the same order, possibly followed by more: no store that survived an earlier crash point is undone or reordered at a later one.", "quantifier": "all families of parameters, all executions from reset, all pairs of crash points, all programs, all schedules", "why_tests_cant": "A test observes one crash point of one schedule; the property is about every pair of crash points in every interleaving of several caches.", "anchors": ["blocking_cache/BlockingCacheCtrlRTL.py:BlockingCacheCtrlRTL", "test/sim_utils.py:MultiCache", "blocking_cache/test/MultiCacheTestCases.py:MultiCacheTestCases"]}
{"id": "C81", "title": "Message passing through a polled flag", "statement": "A producer writes a data word (with WRITEs of any size or atomic operations), issues FLUSH and then sets a flag by any WRITE or atomic operation; a consumer polls the flag with plain READs or atomic operations. Once a poll shows a flag byte that could only come from a request of the producer after the FLUSH, an INV followed by a READ returns the producer's data, whatever else other caches do on other words and whatever stale or dirty copies the consumer held, provided no other cache stores to the data word and the producer does not store to it after the FLUSH. Neither the FLUSH of the producer nor the INV of the consumer can be left out.", "quantifier": "all families of parameters, all executions from reset, all pairs of different caches, all data words and flag bytes, all schedules", "why_tests_cant": "The order of the accesses of two caches and the evictions in between range over all schedules.", "anchors": ["blocking_cache/BlockingCacheCtrlRTL.py:BlockingCacheCtrlRTL", "test/sim_utils.py:MultiCache", "blocking_cache/test/MultiCacheTestCases.py:MultiCacheTestCases"]}
{"id": "C82", "title": "The programmer's guarantees hold on the wires", "statement": "Connect any number of caches of different sizes, associativities and line lengths to one memory, each as written in the source: registers with their codes and packed words, update blocks run in any order that settles the wires, arbitrary wire values before each cycle. Everything programmers are promised about such systems holds for the messages on the ports: the memory model, software coherence with FLUSH/INV/AMO, linearisable atomic operations, spin locks, coherence of racy programs, no byte out of thin air, crash consistency and message passing. Nothing is promised that the wires cannot do: each execution of the cycle models is also one of the wires.", "quantifier": "all families of parameters, all register, SRAM and wire contents before reset, all orders of the update blocks in each cycle, all programs, all schedules", "why_tests_cant": "A simulation runs one order of the update blocks, one family of shapes and one program.", "anchors": ["blocking_cache/BlockingCacheCtrlRTL.py:BlockingCacheCtrlRTL", "test/sim_utils.py:MultiCache", "blocking_cache/test/MultiCacheTestCases.py:MultiCacheTestCases", "blocking_cache/BlockingCacheDpathRTL.py:BlockingCacheDpathRTL", "blocking_cache/BlockingCacheRTL.py:BlockingCacheRTL"]}
{"id": "C83", "title": "Every cache of a system is answered in time, whatever the others do", "statement": "In a system of caches of different shapes on one memory, the ports of each cache show a waveform of that cache alone in which its environment obeys the port rules. Hence for each cache, whatever the other caches and their programs do: responses come in the order of the requests, once each, with their type, opaque and length; a request is answered within the worst-case number of its own clock cycles if memory lets it wait at most D cycles in a row; in every infinite execution in which the cache is clocked again and again with its output ports ready, and memory answers it, every request is answered, and the cache becomes ready for good if no further requests come. Every finite execution can be continued to such an infinite one: no system of caches can get stuck.", "quantifier": "all families of parameters, all finite and infinite executions of the wires from reset, all programs (also unsupported lengths and alignments), all schedules", "why_tests_cant": "Liveness is about infinite executions, and interference of other caches ranges over all their programs and shapes.", "anchors": ["blocking_cache/BlockingCacheCtrlRTL.py:BlockingCacheCtrlRTL", "test/sim_utils.py:MultiCache", "blocking_cache/test/MultiCacheTestCases.py:MultiCacheTestCases", "blocking_cache/BlockingCacheDpathRTL.py:BlockingCacheDpathRTL", "blocking_cache/BlockingCacheRTL.py:BlockingCacheRTL"]}
{"id": "C84", "title": "Caches may be reset one by one while the others run", "statement": "Several caches of any shapes share a memory. Any of them is reset at any moments, for any number of cycles and any number of times, while the others and memory go on; memory finishes with the requests left in the port of the reset cache before it has seen nLines clock edges. Then a reset does to the programmer's view exactly this: that cache loses its copies, the request it works on and the responses not yet delivered; no other cache notices, no word of memory changes by it. After the reset the cache is silent until its port is empty. A word stored to through one cache only is found by the next life of this cache as an initial part of the requests of the life before left it, which includes every answered FLUSH and atomic operation, and the responses of each life are those of a flat memory starting there. Software coherence, private words of other caches, linearisable atomic operations, coherence of racy programs and no byte out of thin air hold across resets.", "quantifier": "all families of parameters, all initial contents, all programs, all schedules, all moments, lengths and numbers of resets of each cache", "why_tests_cant": "The moment of a reset relative to requests in flight, and the other caches' progress meanwhile, range over infinitely many schedules.", "anchors": ["blocking_cache/BlockingCacheCtrlRTL.py:BlockingCacheCtrlRTL", "blocking_cache/BlockingCacheCtrlRTL.py:fsm_M0_next_state", "blocking_cache/BlockingCacheCtrlRTL.py:cachereq_memresp_mux_sel_M0", "blocking_cache/BlockingCacheDpathRTL.py:BlockingCacheDpathRTL", "test/MemoryCL.py:MemoryCL", "test/sim_utils.py:MultiCache", "blocking_cache/test/MultiCacheTestCases.py:MultiCacheTestCases"]}
{"id": "C85", "title": "Resets of single caches at the level of wires", "statement": "The guarantees of C84 hold for the wires of the design: several caches of any shapes, whose cycles run the update blocks of the source in any complete order on registers with codes and packed words, are reset one by one at any moments while the others and memory go on. What the processors see on their ports, with the resets, is an execution of the programmer's model in which a reset makes one cache lose its copies, the request it works on and the responses not yet delivered; each life of a cache finds the words only it stores to as an initial part of the requests of the life before left them, including every answered FLUSH and atomic operation; while messages from before the reset are on their way the ports say that the cache sends nothing and accepts nothing, whatever is offered; private words, software coherence, linearisable atomic operations, coherence of racy programs and no byte out of thin air hold across resets. Conversely every such execution of the cycle models happens on the wires.", "quantifier": "all families of parameters, all initial register, SRAM, wire and memory contents, all block orders in each cycle, all programs, schedules and resets", "why_tests_cant": "The order of the update blocks, the stale wire values and the moment of each reset range over unboundedly many combinations.", "anchors": ["blocking_cache/BlockingCacheCtrlRTL.py:BlockingCacheCtrlRTL", "blocking_cache/BlockingCacheCtrlRTL.py:fsm_M0_next_state", "blocking_cache/BlockingCacheCtrlRTL.py:cachereq_memresp_mux_sel_M0", "blocking_cache/BlockingCacheDpathRTL.py:BlockingCacheDpathRTL", "test/MemoryCL.py:MemoryCL", "test/sim_utils.py:MultiCache", "blocking_cache/test/MultiCacheTestCases.py:MultiCacheTestCases", "blocking_cache/BlockingCacheRTL.py:BlockingCacheRTL"]}
{"id": "C86", "title": "Every life of a cache is served in order and in time", "statement": "Several caches of any shapes on the wires of the design are reset one by one at any moments, also with messages in flight. Since its last reset the ports of each cache show the waveform of a freshly reset cache (up to the ignored message on the request port in cycles without a request), if the late memory responses to requests from before the reset are left out. So after each reset a cache becomes ready without any request to memory; it answers the requests made since then, in order, once each, with their type, opaque and length, and never a request from before; each is answered within the worst-case number of its own clock cycles of C71 unless the cache is reset again; and in every infinite execution a cache that is not reset any more, whose output ports are ready again and again and to which memory answers, answers every request of its last life and is ready again, whatever happens to the other caches, even if those are reset for ever. Such executions exist for every finite beginning.", "quantifier": "all families of parameters, all initial register, SRAM, wire and memory contents, all block orders in each cycle, all requests (no validity assumed), schedules and resets, all infinite executions", "why_tests_cant": "Unbounded time, every moment of a reset and every state of the messages in flight.", "anchors": ["blocking_cache/BlockingCacheCtrlRTL.py:BlockingCacheCtrlRTL", "test/sim_utils.py:MultiCache", "blocking_cache/test/MultiCacheTestCases.py:MultiCacheTestCases", "blocking_cache/BlockingCacheDpathRTL.py:BlockingCacheDpathRTL", "blocking_cache/BlockingCacheRTL.py:BlockingCacheRTL", "blocking_cache/BlockingCacheCtrlRTL.py:fsm_M0_next_state", "blocking_cache/BlockingCacheCtrlRTL.py:cachereq_memresp_mux_sel_M0", "test/MemoryCL.py:MemoryCL"]}
{"id": "C87", "title": "A cache keeps its guarantees whatever else changes memory", "statement": "The guarantees of one cache towards its processor and towards memory do not depend on who else uses the memory: caches of other shapes, processors without a cache, DMA engines that change any byte at any moment between the requests of this cache. Responses come in order with type, opaque and length of their requests; the test bits are those of the FL tracker on the own requests; the cache is ready only with nothing outstanding and then sends nothing unasked; write-backs carry exactly the own unsaved words and nothing else is changed in memory; after an answered FLUSH nothing is unsaved; hits and INV cause no memory traffic, misses, AMOs and FLUSH exactly the traffic of C63; an AMO is performed once on the contents memory has at that moment; after an INV the next access of a line misses and a read returns what memory holds at a moment after its acceptance; and reads of words that nobody else stores to return what a memory performing the own requests in order would, even if others keep changing other words of the same lines.", "quantifier": "all parameters, all initial states and memories, all requests (AMOs inside the address space), all schedules, all changes of memory by others at all moments, executions of any length; every cache of every system of caches of any shapes, also on the wires", "why_tests_cant": "The behaviour of the rest of the system is arbitrary.", "anchors": ["blocking_cache/BlockingCacheRTL.py:BlockingCacheRTL", "blocking_cache/BlockingCacheCtrlRTL.py:BlockingCacheCtrlRTL", "blocking_cache/BlockingCacheDpathRTL.py:BlockingCacheDpathRTL", "blocking_cache/BlockingCacheDpathRTL.py:write_mask_M1", "blocking_cache/BlockingCacheDpathRTL.py:evict_addr_M1", "blocking_cache/units/UpdateTagArrayUnit.py:UpdateTagArrayUnit", "blocking_cache/BlockingCacheCtrlRTL.py:M0_FSM_STATE_INV", "blocking_cache/BlockingCacheDpathRTL.py:memreq_M2", "test/MemoryCL.py:MemoryCL", "test/sim_utils.py:MultiCache"]}
{"id": "C88", "title": "A misbehaving processor does not disturb the others", "statement": "In a system of caches of any shapes on one memory, together with other agents, one processor may make any requests except WRITE_INIT: unsupported types, lengths and alignments, WRITEs across the end of a line. Memory executes for its cache only operations on lines it addressed with a WRITE and on the four bytes it addressed with an atomic operation. So for another processor that makes valid requests, every read of words in no line the others address with a WRITE and among no bytes they address with an atomic operation returns what a memory performing its own requests in order would hold, and after its FLUSH memory holds that. All its other guarantees (order, hit bits, traffic, coherence commands) hold whatever the others do. The same on the wires.", "quantifier": "all families of parameters, all initial states and memories, all requests of the other processors (atomic operations inside the address space), all valid requests of the processor in question, all schedules and changes by other agents, executions of any length", "why_tests_cant": "Every malformed request at every moment by any other processor.", "anchors": ["blocking_cache/units/arithmetics.py:WriteBitEnGen", "blocking_cache/units/arithmetics.py:DataReplicator", "blocking_cache/units/UpdateTagArrayUnit.py:UpdateTagArrayUnit", "blocking_cache/BlockingCacheRTL.py:BlockingCacheRTL", "test/sim_utils.py:MultiCache", "blocking_cache/BlockingCacheCtrlRTL.py:BlockingCacheCtrlRTL", "blocking_cache/BlockingCacheDpathRTL.py:BlockingCacheDpathRTL", "test/MemoryCL.py:MemoryCL"]}
{"id": "C89", "title": "Ports of the test memory that share no bytes do not notice each other", "statement": "If no request of another port changes a byte that a request of port k reads or changes, port k of MemoryCL gets exactly the responses, in order, that its requests would get from a memory of their own with the same initial contents, and the bytes only it changes end up as its requests alone would leave them. If this holds for every port, latencies, stalls and the interleaving of the ports make no difference to any response or to the final contents. Requests that read only bytes that earlier requests of their port wrote get responses that do not depend on the initial contents. So the directed tests of test/MemoryCL_test.py get the expected responses on every initial contents, with every timing.", "quantifier": "any number of ports with and without write masks, all request lists, all initial contents, all interleavings, latencies and stalls", "why_tests_cant": "The tests run a few stall probabilities and latencies with one seed on an all-zero memory; the harness of every cache test rests on this memory.", "anchors": ["test/MemoryCL.py:MemoryCL", "test/MemoryCL_test.py:TestHarness"]}
{"id": "C90", "title": "A barrier built from AMO_ADD works on non-coherent caches", "statement": "Processors behind caches of any shapes work in phases separated by a barrier: a word, 0 at first, counts arrivals; a processor that has finished its phase, whose requests are all answered and whose stores are flushed, adds 1 with AMO_ADD, waits until it sees the counter at the number of participants times the number of finished phases, and gives an INV before it touches shared words again. Then nobody goes past the end of a phase before every participant has finished it; every read of shared words returns the latest data, as if all requests of all processors had been performed on one flat memory in the order they were accepted, provided no word stored to in a phase is accessed by another processor in that phase; and once somebody has seen the end of phase m the memory holds the latest contents of all words stored to only before it.", "quantifier": "any number of processors, phases and caches of any geometry and associativity, all programs that follow the protocol, all request streams, latencies, stalls and interleavings, at the request ports and on the wires of the memory", "why_tests_cant": "The repository tests one cache at a time; a barrier fails only under particular interleavings of several caches and the memory.", "anchors": ["blocking_cache/BlockingCachePRTL.py:BlockingCachePRTL", "test/BlockingCacheFL.py:ModelCache", "test/MemoryCL.py:MemoryCL"]}
{"id": "C91", "title": "A spin lock built from AMO_SWAP does not deadlock", "statement": "Processors behind caches of any shapes that follow the lock protocol of C67, and that wait for the answer of an operation on the lock before they ask for another one, do not get stuck: in every infinite execution in which the processor ports are ready again and again and memory answers, if from some time on one processor keeps operating on the lock as long as nobody holds it, then somebody holds it later. In a finite execution: once everything asked for by some moment is answered, the next answered operation on the lock means that somebody holds it at some moment after that one. The waiting is needed: a processor that sends two attempts back to back can take the lock without ever knowing it.", "quantifier": "any number of processors and caches of any geometry and associativity, all programs that follow the protocol, all fair infinite schedules of the wires, all finite executions", "why_tests_cant": "Deadlock freedom is a statement about infinite executions of several caches; a test sees a finite prefix of one schedule.", "anchors": ["blocking_cache/BlockingCachePRTL.py:BlockingCachePRTL", "test/BlockingCacheFL.py:ModelCache", "test/MemoryCL.py:MemoryCL"]}
{"id": "C92", "title": "A barrier built from AMO_ADD opens", "statement": "With the barrier protocol of C90: when all participants have arrived m times and these arrivals are answered, any processor that looks at the counter afterwards and gets the answer has seen the end of phase m. In every infinite execution in which the ports and memory keep working, if every participant arrives m times and a processor looks again and again as long as it has not seen the end of phase m, it sees it.", "quantifier": "any number of processors, phases and caches of any geometry and associativity, all programs that follow the protocol, all fair infinite schedules of the wires, all finite executions", "why_tests_cant": "A liveness property of several caches under every fair schedule.", "anchors": ["blocking_cache/BlockingCachePRTL.py:BlockingCachePRTL", "test/BlockingCacheFL.py:ModelCache", "test/MemoryCL.py:MemoryCL"]}
{"id": "C93", "title": "A ticket lock built from AMO_ADD", "statement": "Processors behind caches of any shapes share a lock made of two words, both 0 at first and never written: a processor draws a ticket by adding 1 to the first with AMO_ADD (after it has given its last ticket back), looks at the second by adding 0, has its turn once it finds the number of its ticket there, and gives the ticket back by adding 1 to the second, only in its turn. Then different draws give different tickets, at most one processor has its turn at any moment, and whenever a processor has its turn with ticket n every smaller ticket that anybody ever draws has been given back: turns are taken in the order of the tickets. A processor that has its ticket before another one asks for its own has the smaller ticket: first come, first served.", "quantifier": "any number of processors, tickets (below 2^32) and caches of any geometry and associativity, all programs that follow the protocol, all schedules, all moments", "why_tests_cant": "The turn depends on how the atomic operations of all caches interleave in memory; a test samples a few interleavings.", "anchors": ["blocking_cache/BlockingCachePRTL.py:BlockingCachePRTL", "test/BlockingCacheFL.py:ModelCache", "test/MemoryCL.py:MemoryCL"]}
{"id": "C94", "title": "The ticket lock is free from starvation", "statement": "With the lock of C93, in every infinite execution in which the processor ports are ready again and again and memory answers: if every processor with a ticket keeps looking until it has its turn and every processor that has its turn gives its ticket back at some time, then every processor that has drawn a ticket has its turn. In a finite execution: once the ticket before its own has been given back and this is answered, a processor that looks and gets the answer finds its number.", "quantifier": "any number of processors, tickets and caches of any geometry and associativity, all programs that follow the protocol, all fair infinite schedules of the wires, all finite executions", "why_tests_cant": "Starvation freedom is a statement about infinite executions of several caches.", "anchors": ["blocking_cache/BlockingCachePRTL.py:BlockingCachePRTL", "test/BlockingCacheFL.py:ModelCache", "test/MemoryCL.py:MemoryCL"]}
{"id": "C95", "title": "Words protected by a ticket lock are coherent", "statement": "Processors use the ticket lock of C93 and access the protected words only in their turn, after an INV given since they found their number, and give the ticket back only after all their requests are answered and their stores to protected words were followed by a FLUSH. Then every READ (or AMO) of protected words, by any processor, returns the latest data: what one flat memory would return after all requests accepted before it by all caches. Whenever it is nobody's turn, memory itself holds the latest contents of every protected word.", "quantifier": "any number of processors and caches of any geometry and associativity, all programs that follow the protocol, all schedules and memory orders, all protected words", "why_tests_cant": "The caches are not coherent; whether the data arrive depends on every interleaving of the atomic operations with refills, flushes and invalidations of several caches.", "anchors": ["blocking_cache/BlockingCachePRTL.py:BlockingCachePRTL", "test/BlockingCacheFL.py:ModelCache", "test/MemoryCL.py:MemoryCL"]}
{"id": "C96", "title": "Reductions and work counters", "statement": "Processors behind caches of any shapes combine values into one word with atomic operations of one type other than SWAP (ADD, AND, OR, XOR, MIN, MAX, MINU, MAXU), and nothing else stores to the word. Once all of them are answered, memory holds the result of applying all of them, one after the other, in the order in which they were accepted, whatever the order in which they were performed. If instead processors take work items by adding 1 to a word that is 0 at first, no number is ever returned twice, every number returned is smaller than the number of operations, and once all are answered every number below it has been returned and memory holds the number of operations. An operation answered before another one is asked for returns the smaller number.", "quantifier": "any number of processors and caches of any geometry and associativity, any number of operations (below 2^32 for work counters) and operands, all schedules and memory orders", "why_tests_cant": "A lost or repeated update shows only in rare interleavings of several caches, and the claim is about any number of operations.", "anchors": ["blocking_cache/BlockingCachePRTL.py:BlockingCachePRTL", "test/BlockingCacheFL.py:ModelCache", "test/MemoryCL.py:MemoryCL"]}
