{
 "claims": [
  {
   "property": "C01",
   "status": "proved",
   "theorems": [
    "Verif.C01_responses_equal_flat_memory"
   ],
   "note": "Cycle-level RTL model, any stalls/latency; memory in order."
  },
  {
   "property": "C02",
   "status": "proved",
   "theorems": [
    "Verif.C02_one_response_per_request",
    "Verif.C02_counts",
    "Verif.C02_multi"
   ],
   "note": "C02_multi: any number of caches."
  },
  {
   "property": "C03",
   "status": "proved",
   "theorems": [
    "Verif.FL.C03_test_equals_FL_tracker",
    "Verif.C03_test_is_lru_hit"
   ],
   "note": "Any number of caches; WRITE_INIT excluded."
  },
  {
   "property": "C04",
   "status": "proved",
   "theorems": [
    "Verif.C04_initialisation"
   ],
   "note": "Any pre-reset state; exact number of cycles."
  },
  {
   "property": "C05",
   "status": "proved",
   "theorems": [
    "Verif.C05_enrdy"
   ],
   "note": "Every state, reachable or not."
  },
  {
   "property": "C06",
   "status": "proved",
   "theorems": [
    "Verif.C06_ready_nothing_outstanding",
    "Verif.C06_ready_then_silent",
    "Verif.C06_at_most_one_outstanding",
    "Verif.C06_at_most_two_unanswered",
    "Verif.C06_ready_answers_in_two_cycles"
   ],
   "note": "Any number of caches."
  },
  {
   "property": "C07",
   "status": "proved",
   "theorems": [
    "Verif.C07_writeback_exact",
    "Verif.C07_writeback_value",
    "Verif.C07_writeback_value_private"
   ],
   "note": "Any number of caches."
  },
  {
   "property": "C08",
   "status": "proved",
   "theorems": [
    "Verif.C08_flush_publishes",
    "Verif.C08_nothing_unsaved",
    "Verif.C08_flush_carries",
    "Verif.C08_flush_keeps_lines",
    "Verif.C08_hit_after_flush"
   ],
   "note": ""
  },
  {
   "property": "C09",
   "status": "proved",
   "theorems": [
    "Verif.C09_refetched",
    "Verif.C09_next_access_misses"
   ],
   "note": "Any number of caches."
  },
  {
   "property": "C10",
   "status": "proved",
   "theorems": [
    "Verif.C10_inv_invisible",
    "Verif.C10_store_inv_read",
    "Verif.C07_writeback_exact",
    "Verif.C08_flush_carries"
   ],
   "note": "Write-back part: C07_writeback_exact and C08_flush_carries do not mention INVs, so they hold across INVs."
  },
  {
   "property": "C11",
   "status": "proved",
   "theorems": [
    "Verif.C11_amo_executed_once",
    "Verif.C11_amo_word",
    "Verif.C11_next_access_misses",
    "Verif.C01_responses_equal_flat_memory",
    "Verif.C18_synchronised_response"
   ],
   "note": "Up-to-date value: the C01/C18 theorems applied to the AMO response."
  },
  {
   "property": "C12",
   "status": "proved",
   "theorems": [
    "Verif.C12_timing_independence",
    "Verif.C12_same_responses"
   ],
   "note": ""
  },
  {
   "property": "C13",
   "status": "proved",
   "theorems": [
    "Verif.C13_no_needed_response_lost"
   ],
   "note": "Any number of caches."
  },
  {
   "property": "C14",
   "status": "proved",
   "theorems": [
    "Verif.C14_reordering_loses_a_request"
   ],
   "note": "Existence claim: a concrete execution evaluated by the kernel. The positive side is C01/C02/C13."
  },
  {
   "property": "C15",
   "status": "proved",
   "theorems": [
    "Verif.C15_answered_in_bounded_help",
    "Verif.C15_ready_in_bounded_help",
    "Verif.C15_eventually_answered",
    "Verif.C15_eventually_ready"
   ],
   "note": "Bounded form: 3 + 5 * number of lines helpful clock edges; infinite executions under fairness."
  },
  {
   "property": "C16",
   "status": "proved",
   "theorems": [
    "Verif.C16_mshr_occupancy"
   ],
   "note": ""
  },
  {
   "property": "C17",
   "status": "proved",
   "theorems": [
    "Verif.C17_line_in_one_way"
   ],
   "note": ""
  },
  {
   "property": "C18",
   "status": "proved",
   "theorems": [
    "Verif.C18_synchronised_response",
    "Verif.C18_write_flush_inv_read",
    "Verif.C18_published_memory"
   ],
   "note": "Any number of caches; the general form covers every synchronised history, the literal scenario is a corollary."
  },
  {
   "property": "C19",
   "status": "proved",
   "theorems": [
    "Verif.C19_private_response",
    "Verif.C19_memory_changes_only_written_words"
   ],
   "note": ""
  },
  {
   "property": "C20",
   "status": "proved",
   "theorems": [
    "Verif.C20_amos_atomic",
    "Verif.C20_counter",
    "Verif.C11_amo_executed_once"
   ],
   "note": "Any number of caches; no WRITE to the word (mixing stores and AMOs is covered by C18)."
  },
  {
   "property": "C21",
   "status": "proved",
   "theorems": [
    "Verif.C21_write_exact_bytes",
    "Verif.C21_double_word"
   ],
   "note": "All widths of the supported configurations. The repository's unit-test vectors hold on the model (UnitTests.lean) except the two with len_ 3, which do not match the source."
  },
  {
   "property": "C22",
   "status": "proved",
   "theorems": [
    "Verif.C22_read_exact_bytes",
    "Verif.C22_disabled",
    "Verif.C22_amo"
   ],
   "note": ""
  },
  {
   "property": "C23",
   "status": "proved",
   "theorems": [
    "Verif.C23_muxes_agree",
    "Verif.C23_amo",
    "Verif.C23_amo32",
    "Verif.C23_amo_differs"
   ],
   "note": "Non-AMO: agree on all inputs, aligned or not. AMO: exact condition; they differ for data wider than 32 bits."
  },
  {
   "property": "C24",
   "status": "proved",
   "theorems": [
    "Verif.C24_rows_bijective",
    "Verif.C24_not_pow2_collides"
   ],
   "note": ""
  },
  {
   "property": "C25",
   "status": "proved",
   "theorems": [
    "Verif.C25_sram_read",
    "Verif.Sram.run_last"
   ],
   "note": "The vectors of sram/test assume write enables per byte; the SRAM has them per bit, as the cache uses it (UnitTests.lean)."
  },
  {
   "property": "C26",
   "status": "proved",
   "theorems": [
    "Verif.C26_stall_engine",
    "Verif.C26_transparent",
    "Verif.C26_cache_outputs_hold",
    "Verif.C26_cache_transparent"
   ],
   "note": ""
  },
  {
   "property": "C27",
   "status": "proved",
   "theorems": [
    "Verif.C27_pack_unpack",
    "Verif.FL.C27_fl_slices_as_rtl"
   ],
   "note": ""
  },
  {
   "property": "C28",
   "status": "proved",
   "theorems": [
    "Verif.C28_in_order",
    "Verif.C28_serial",
    "Verif.C28_masked_write",
    "Verif.C28_plain_write",
    "Verif.C28_read",
    "Verif.C28_amo",
    "Verif.C28_runs",
    "Verif.C28_amo_without_mask",
    "Verif.sys_exec_is_port"
   ],
   "note": "Any number of ports, any interleaving of port activity (latency and stall patterns are special cases). Exceptions are modelled (`none`): AMOs at a port without write masks, of a length other than 4, or without table entry."
  },
  {
   "property": "C29",
   "status": "proved",
   "theorems": [
    "Verif.C29_amo_functions",
    "Verif.C29_memory_agrees"
   ],
   "note": ""
  },
  {
   "property": "C30",
   "status": "proved",
   "theorems": [
    "Verif.FL.C30_fl_data_equals_flat_memory",
    "Verif.FL.C30_fl_no_exception",
    "Verif.FL.C30_rtl_equals_fl",
    "Verif.FL.C30_fl_amo_raises"
   ],
   "note": "The FL model raises KeyError for AMOs to untouched lines or upper-half addresses: the data theorem assumes no exception, the totality theorem says when there is none."
  },
  {
   "property": "C31",
   "status": "proved",
   "theorems": [
    "Verif.FL.C31_victim_is_lru",
    "Verif.FL.C31_hit_iff_stack_distance",
    "Verif.FL.C31_compulsory_miss"
   ],
   "note": "Any number of ways."
  },
  {
   "property": "C32",
   "status": "proved",
   "theorems": [
    "Verif.C32_replacement_is_lru"
   ],
   "note": ""
  },
  {
   "property": "C33",
   "status": "proved",
   "theorems": [
    "Verif.C33_wide_write_loses_words",
    "Verif.C33_wide_write_loses_words_128",
    "Verif.C33_cause"
   ],
   "note": "Refutation by executions evaluated by the kernel, cause for all inputs."
  },
  {
   "property": "C34",
   "status": "proved",
   "theorems": [
    "Verif.C34_write_init_corrupts",
    "Verif.C34_write_init_corrupts_direct"
   ],
   "note": "Refutation by executions evaluated by the kernel."
  },
  {
   "property": "C35",
   "status": "proved",
   "theorems": [
    "Verif.C35_dword_is_two_words",
    "Verif.C35_dword_flushed"
   ],
   "note": ""
  },
  {
   "property": "C36",
   "status": "proved",
   "theorems": [
    "Verif.C36_counter_exact"
   ],
   "note": "Any number of caches, each with its processor model."
  },
  {
   "property": "C37",
   "status": "proved",
   "theorems": [
    "Verif.C37_orders_respected",
    "Verif.C37_program_order"
   ],
   "note": "Any number of caches; programs of fewer than 2^32 requests without WRITE_INIT (the counters are 32 bits wide, wrap of the order counter included)."
  },
  {
   "property": "C38",
   "status": "proved",
   "theorems": [
    "Verif.C38_reset_recovers"
   ],
   "note": ""
  },
  {
   "property": "C39",
   "status": "proved",
   "theorems": [
    "Verif.C39_refill_merge"
   ],
   "note": ""
  },
  {
   "property": "C40",
   "status": "proved",
   "theorems": [
    "Verif.Config.C40_widths_consistent",
    "Verif.Config.C40_model_params",
    "Verif.C40_counter_bijective",
    "Verif.C40_other_sizes"
   ],
   "note": ""
  },
  {
   "property": "C41",
   "status": "proved",
   "theorems": [
    "Verif.C41_loop_free",
    "Verif.C41_no_response_when_idle",
    "Verif.consistent_exists"
   ],
   "note": ""
  },
  {
   "property": "C42",
   "status": "proved",
   "theorems": [
    "Verif.C42_synchronised_response",
    "Verif.C42_published_memory"
   ],
   "note": "Generalises C18 (UpToDate.two, WritesSynced.two, Published.two show that the FLUSH/INV discipline is a special case). Requests are aligned and of size 1, 2, 4.. as in C01."
  },
  {
   "property": "C43",
   "status": "proved",
   "theorems": [
    "Verif.C43_sequential_data",
    "Verif.C43_responses",
    "Verif.C43_complete",
    "Verif.C43_deterministic",
    "Verif.C43_final_memory",
    "Verif.C43_rd_wr_2c",
    "Verif.C43_amo_2c",
    "Verif.C43_inv_fl_2c",
    "Verif.C43_inv_fl_4c"
   ],
   "note": "All cores have the same size and associativity (as in the tests of the repository). check_sound is a verified checker for the hypothesis."
  },
  {
   "property": "C44",
   "status": "proved",
   "theorems": [
    "Verif.C44_disabled",
    "Verif.C44_hit",
    "Verif.C44_inval",
    "Verif.C44_way",
    "Verif.C44_way_unique",
    "Verif.C44_line_dirty",
    "Verif.C44_word_dirty"
   ],
   "note": "Unit level, for all widths, both associativities and all array contents."
  },
  {
   "property": "C45",
   "status": "proved",
   "theorems": [
    "Verif.C45_write_hit",
    "Verif.C45_write_refill",
    "Verif.C45_read_refill",
    "Verif.C45_other",
    "Verif.C45_then_dirty"
   ],
   "note": "Unit level, for all widths and all array contents."
  },
  {
   "property": "C46",
   "status": "proved",
   "theorems": [
    "Verif.C46_responses",
    "Verif.C46_test",
    "Verif.C46_deterministic",
    "Verif.C46_terminates",
    "Verif.C46_repo_tests",
    "Verif.C46_repo_tests_terminate"
   ],
   "note": "The specification expectSeq combines the flat memory of C01 and the LRU specification of C03. The 60 test lists were extracted from the sources as data. The 15 directed tests that use WRITE_INIT or 128-bit writes are outside the valid requests; they are the subject of C58."
  },
  {
   "property": "C47",
   "status": "proved",
   "theorems": [
    "Verif.C47_terminates",
    "Verif.C47_needs_sorted",
    "Verif.C47_expected",
    "Verif.C47_rd_wr_2c",
    "Verif.C47_amo_2c",
    "Verif.C47_inv_fl_2c",
    "Verif.C47_inv_fl_4c"
   ],
   "note": "Fairness: both output ports of each cache ready again and again, memory answers, the source hands a request over again and again when its order has come, the cache is ready and nothing is unanswered. MLiveEx.inf_fair shows that fair executions exist for every program."
  },
  {
   "property": "C48",
   "status": "proved",
   "theorems": [
    "Verif.Counter.C48_up_down",
    "Verif.Counter.C48_enabled",
    "Verif.Counter.C48_load_ignored"
   ],
   "note": "All widths and histories. C48_load_ignored records that the load ports of CounterEnRst are dead."
  },
  {
   "property": "C49",
   "status": "proved",
   "theorems": [
    "Verif.C49_transparent",
    "Verif.C49_bench_terminates",
    "Verif.C49_repo_tests",
    "Verif.C49_multicore_terminates",
    "Verif.C49_multicore_expected",
    "Verif.C49_rd_wr_2c",
    "Verif.C49_amo_2c",
    "Verif.C49_inv_fl_2c",
    "Verif.C49_inv_fl_4c"
   ],
   "note": "Fairness is stated at the sink behind the processor model. bench_fair and mbench_fair show that the hypotheses are met."
  },
  {
   "property": "C50",
   "status": "proved",
   "theorems": [
    "Verif.FL.C50_fl_is_spec",
    "Verif.FL.C50_no_exception",
    "Verif.FL.C50_random",
    "Verif.FL.C50_hypothesis",
    "Verif.FL.C50_random_tests",
    "Verif.FL.C50_directed_fl"
   ],
   "note": "Every draw is a parameter; the weights of random.choices and hypothesis shrinking do not matter. TestPasses spells out what passing means."
  },
  {
   "property": "C51",
   "status": "proved",
   "theorems": [
    "Verif.Net.C51_settles",
    "Verif.Net.C51_schedule_independent",
    "Verif.Net.C51_ways_exist"
   ],
   "note": "netlist of 128 wires and 93 blocks; unique settled valuation, all schedules; way numbers at every moment"
  },
  {
   "property": "C52",
   "status": "proved",
   "theorems": [
    "Verif.Net.C52_refines",
    "Verif.Net.C52_complete",
    "Verif.Net.C52_data",
    "Verif.Net.C52_order",
    "Verif.Net.C52_test"
   ],
   "note": "bisimulation between the wire-level system and the cycle model; C01-C03 on messages"
  },
  {
   "property": "C53",
   "status": "proved",
   "theorems": [
    "Verif.C53_malformed_requests_isolated",
    "Verif.C53_memory",
    "Verif.C53_harm_is_real"
   ],
   "note": "any mix of malformed and valid requests; damage confined to the addressed lines; witness that it is real"
  },
  {
   "property": "C54",
   "status": "proved",
   "theorems": [
    "Verif.C54_any_request",
    "Verif.C54_contained",
    "Verif.C54_memory",
    "Verif.C54_valid"
   ],
   "note": "exact flat-memory meaning of every read and of contained writes and AMOs; coincides with flatStep on valid requests"
  },
  {
   "property": "C55",
   "status": "proved",
   "theorems": [
    "Verif.C55_memory_never_goes_back",
    "Verif.C55_restart"
   ],
   "note": "any stop point; monotone; FLUSH and AMO durable; concrete run showing words of different moments"
  },
  {
   "property": "C56",
   "status": "proved",
   "theorems": [
    "Verif.C56_every_request_answered",
    "Verif.C56_write_init_isolated",
    "Verif.C56_memory"
   ],
   "note": "any mix of WRITE_INIT, malformed and supported requests; damage confined to the addressed sets"
  },
  {
   "property": "C57",
   "status": "proved",
   "theorems": [
    "Verif.C57_warm_up"
   ],
   "note": "any warm-up sequence without set conflicts; Ex57.fetched shows that the condition on fetches is needed"
  },
  {
   "property": "C58",
   "status": "proved",
   "theorems": [
    "Verif.C58_deterministic",
    "Verif.C58_repo_init_tests"
   ],
   "note": "15 directed tests as data; all timings"
  },
  {
   "property": "C59",
   "status": "proved",
   "theorems": [
    "Verif.C59_silent",
    "Verif.C59_stale_traffic_ignored",
    "Verif.C59_reset_at_any_time",
    "Verif.C59_late_response_corrupts"
   ],
   "note": "reset at any moment with messages in flight; the last theorem shows that the limit of nLines clock edges cannot be raised"
  },
  {
   "property": "C60",
   "status": "proved",
   "theorems": [
    "Verif.C60_hit_latency",
    "Verif.C60_read_hit_ready",
    "Verif.C60_write_hit_ready",
    "Verif.C60_stream"
   ],
   "note": "exact cycle counts; the state of the directory is that of SpecLru.lean, the dirty words are those of SpecDirty.lean"
  },
  {
   "property": "C61",
   "status": "proved",
   "theorems": [
    "Verif.C61_miss_requests",
    "Verif.C61_refill_latency",
    "Verif.C61_amo_latency"
   ],
   "note": "exact cycle counts; memory may take any time"
  },
  {
   "property": "C62",
   "status": "proved",
   "theorems": [
    "Verif.C62_maintenance_latency",
    "Verif.C62_invalidation_latency"
   ],
   "note": "exact cycle counts; memory may take any time"
  },
  {
   "property": "C63",
   "status": "proved",
   "theorems": [
    "Verif.C63_silent",
    "Verif.C63_miss",
    "Verif.C63_amo",
    "Verif.C63_flush",
    "Verif.C63_bounded",
    "Verif.C63_direct"
   ],
   "note": "complete memory traffic of each request"
  },
  {
   "property": "C64",
   "status": "proved",
   "theorems": [
    "Verif.C64_memory_model",
    "Verif.C64_same_shape"
   ],
   "note": "refinement of a word-level machine; WRITE_INIT and unsupported requests excluded (HValid)"
  },
  {
   "property": "C65",
   "status": "proved",
   "theorems": [
    "Verif.C65_responses",
    "Verif.C65_memory",
    "Verif.C65_private",
    "Verif.C65_untouched"
   ],
   "note": "on what the processors see, via C64; the discipline is a condition on the history of the word"
  },
  {
   "property": "C66",
   "status": "proved",
   "theorems": [
    "Verif.C66_amos_linearised"
   ],
   "note": "linearisability incl. real-time order, via C64"
  },
  {
   "property": "C67",
   "status": "proved",
   "theorems": [
    "Verif.C67_mutual_exclusion",
    "Verif.C67_protected_reads"
   ],
   "note": "end-to-end: lock protocol on the history implies mutual exclusion and latest data; from C65 and C66"
  },
  {
   "property": "C68",
   "status": "proved",
   "theorems": [
    "Verif.C68_same_outputs",
    "Verif.C68_same_executions",
    "Verif.C68_python_is_an_instance",
    "Verif.C68_flat_memory",
    "Verif.C68_verilog_sram",
    "Verif.C68_verilog_cache",
    "Verif.C68_same_infinite_executions",
    "Verif.C68_eventually_answered"
   ],
   "note": "simulation relation; covers the Verilog SRAM (behavioural branch) and any hard macro that writes correctly and outputs the addressed word after a read"
  },
  {
   "property": "C69",
   "status": "proved",
   "theorems": [
    "Verif.C69_same_outputs",
    "Verif.C69_same_outputs_any_sram",
    "Verif.C69_flush_opaque_is_arbitrary",
    "Verif.C69_write_init_leaks"
   ],
   "note": "noninterference by simulation (Boot, Mute, Twin); the exclusions are shown necessary by concrete runs; README.md:78 (the cache uses the opaque field of memory responses) is refuted"
  },
  {
   "property": "C70",
   "status": "proved",
   "theorems": [
    "Verif.C70_same_timing",
    "Verif.C70_timing",
    "Verif.C70_same_executions"
   ],
   "note": "erasure: the step function commutes with forgetting data; C70_timing adds the irrelevance of messages without en and of the power-up state (C69)"
  },
  {
   "property": "C71",
   "status": "proved",
   "theorems": [
    "Verif.C71_response_time",
    "Verif.C71_every_request_answered",
    "Verif.C71_ready_again",
    "Verif.C71_no_response_without_request",
    "Verif.C71_bounds_are_sharp"
   ],
   "note": "ranking function on the simulation relation; the sharpness of the bounds is shown by concrete runs only"
  },
  {
   "property": "C72",
   "status": "proved",
   "theorems": [
    "Verif.FL.C72_bank_bits_ignored",
    "Verif.FL.C72_one_bank_lru",
    "Verif.FL.C72_banks_alias"
   ],
   "note": "the aliasing of banks is a defect of the tracker for nbanks > 0, which the repository never uses"
  },
  {
   "property": "C73",
   "status": "proved",
   "theorems": [
    "Verif.Fmt.C73_request_bits",
    "Verif.Fmt.C73_response_bits",
    "Verif.Fmt.C73_request_string",
    "Verif.Fmt.C73_response_string",
    "Verif.Fmt.C73_string_length",
    "Verif.Fmt.C73_type_strings"
   ],
   "note": "PyMTL3's to_bits/from_bits and the string of a Bits object are modelled by their definition; the four strings expected by MemMsg_test.py are checked as examples"
  },
  {
   "property": "C74",
   "status": "proved",
   "theorems": [
    "Verif.C74_traffic_has_cause",
    "Verif.C74_rest_of_memory_unchanged",
    "Verif.C74_memory_never_raises",
    "Verif.C74_in_range"
   ],
   "note": ""
  },
  {
   "property": "C75",
   "status": "proved",
   "theorems": [
    "Verif.Net.C75_never_fails",
    "Verif.Net.C75_never_fails_after_reset",
    "Verif.Net.C75_marks",
    "Verif.Net.C75_identifies",
    "Verif.Net.C75_colour",
    "Verif.Net.C75_eviction",
    "Verif.Net.C75_columns",
    "Verif.Net.C75_columns_cache",
    "Verif.Net.C75_columns_aligned",
    "Verif.Net.C75_cycle_model",
    "Verif.Net.C75_example"
   ],
   "note": "on registers, ports and wires of the netlist of C51. MultiCache.line_trace (test/sim_utils.py:297-299) uses an unbound variable and would raise; nothing calls it. In M1 FLUSH_WRITE is shown as frw, elsewhere as flw."
  },
  {
   "property": "C76",
   "status": "proved",
   "theorems": [
    "Verif.Net.C76_responses_in_order",
    "Verif.Net.C76_response_time",
    "Verif.Net.C76_every_request_answered",
    "Verif.Net.C76_ready_again",
    "Verif.Net.C76_no_response_without_request",
    "Verif.Net.C76_bound_is_sharp"
   ],
   "note": "C71 on waveforms of the netlist of C51, plus the order of the responses; sharpness by a concrete waveform (READ with write-back, D = 2)"
  },
  {
   "property": "C77",
   "status": "proved",
   "theorems": [
    "Verif.Tr.C77_instance",
    "Verif.Tr.C77_other_lines",
    "Verif.Tr.C77_macro_ports",
    "Verif.Tr.C77_cells",
    "Verif.Tr.C77_hard_caches",
    "Verif.Tr.C77_default_options"
   ],
   "note": "the names PyMTL3 gives to instances are taken from the texts replace_sram looks for; the Verilog translation itself is not modelled; instance lines are assumed to contain no other capital S"
  },
  {
   "property": "C78",
   "status": "proved",
   "theorems": [
    "Verif.C78_coherent",
    "Verif.C78_bytes_lost"
   ],
   "note": "invariant on the word machine of C64: a common sequence plus the unsaved accesses of each dirty copy; C78_bytes_lost is a concrete execution for which no order exists"
  },
  {
   "property": "C79",
   "status": "proved",
   "theorems": [
    "Verif.C79_no_thin_air"
   ],
   "note": "invariant on the word machine of C64"
  },
  {
   "property": "C80",
   "status": "proved",
   "theorems": [
    "Verif.C80_crash_consistent"
   ],
   "note": "same hypothesis as C78 (whole-word WRITEs to the word); the invariant of C78 is carried from the first crash point to the second"
  },
  {
   "property": "C81",
   "status": "proved",
   "theorems": [
    "Verif.C81_message_passing",
    "Verif.C81_flush_needed",
    "Verif.C81_inv_needed"
   ],
   "note": "the flag byte must be one that only a request of the producer after its FLUSH can have made (not Could, SpecAir.lean); concrete executions show that FLUSH and INV are needed"
  },
  {
   "property": "C82",
   "status": "proved",
   "theorems": [
    "Verif.Net.C82_refines",
    "Verif.Net.C82_complete",
    "Verif.Net.C82_memory_model",
    "Verif.Net.C82_responses",
    "Verif.Net.C82_memory",
    "Verif.Net.C82_private",
    "Verif.Net.C82_untouched",
    "Verif.Net.C82_amos_linearised",
    "Verif.Net.C82_mutual_exclusion",
    "Verif.Net.C82_protected_reads",
    "Verif.Net.C82_coherent",
    "Verif.Net.C82_no_thin_air",
    "Verif.Net.C82_crash_consistent",
    "Verif.Net.C82_message_passing",
    "Verif.Net.C82_example_passing",
    "Verif.Net.C82_flush_needed"
   ],
   "note": "C64-C67 and C78-C81 for the netlist of C51, one netlist per cache"
  },
  {
   "property": "C83",
   "status": "proved",
   "theorems": [
    "Verif.Net.C83_same_system",
    "Verif.Net.C83_ports",
    "Verif.Net.C83_responses_in_order",
    "Verif.Net.C83_response_time",
    "Verif.Net.C83_every_request_answered",
    "Verif.Net.C83_eventually_answered",
    "Verif.Net.C83_eventually_ready",
    "Verif.Net.C83_example",
    "Verif.Net.fair_extension"
   ],
   "note": "C15, C71 and C76 for each cache of a heterogeneous system on the wires; WRITE_INIT requests excluded as in C01"
  },
  {
   "property": "C84",
   "status": "proved",
   "theorems": [
    "Verif.C84_new_cache",
    "Verif.C84_crash_model",
    "Verif.C84_recovers",
    "Verif.C84_silent",
    "Verif.C84_private",
    "Verif.C84_disciplined",
    "Verif.C84_amos_linearised",
    "Verif.C84_coherent",
    "Verif.C84_no_thin_air"
   ],
   "note": "the limit on the drain of the memory port is the one of C59, where it is shown sharp"
  },
  {
   "property": "C85",
   "status": "proved",
   "theorems": [
    "Verif.Net.C85_refines",
    "Verif.Net.C85_complete",
    "Verif.Net.C85_crash_model",
    "Verif.Net.C85_recovers",
    "Verif.Net.C85_silent",
    "Verif.Net.C85_private",
    "Verif.Net.C85_disciplined",
    "Verif.Net.C85_amos_linearised",
    "Verif.Net.C85_coherent",
    "Verif.Net.C85_no_thin_air"
   ],
   "note": "the limit on the drain of the memory port is the one of C59"
  },
  {
   "property": "C86",
   "status": "proved",
   "theorems": [
    "Verif.Net.C86_same_system",
    "Verif.Net.C86_ports",
    "Verif.Net.C86_seen",
    "Verif.Net.C86_responses_in_order",
    "Verif.Net.C86_response_time",
    "Verif.Net.C86_every_request_answered",
    "Verif.Net.C86_ready_after_reset",
    "Verif.Net.C86_ready_again",
    "Verif.Net.C86_eventually_answered",
    "Verif.Net.C86_eventually_ready",
    "Verif.Net.C86_example",
    "Verif.Net.served_extension"
   ],
   "note": "late responses from before a reset are left out of the waveform of a life; WRITE_INIT requests excluded as in C01"
  },
  {
   "property": "C87",
   "status": "proved",
   "theorems": [
    "Verif.C87_responses_match",
    "Verif.C87_test_is_lru_hit",
    "Verif.C87_test_equals_FL_tracker",
    "Verif.C87_ready_nothing_outstanding",
    "Verif.C87_ready_then_silent",
    "Verif.C87_at_most_one_outstanding",
    "Verif.C87_writeback_exact",
    "Verif.C87_flush_carries",
    "Verif.C87_nothing_unsaved",
    "Verif.C87_request_served",
    "Verif.C87_amo_executed_once",
    "Verif.C87_refetched",
    "Verif.C87_silent",
    "Verif.C87_miss",
    "Verif.C87_amo",
    "Verif.C87_flush",
    "Verif.C87_traffic_has_cause",
    "Verif.C87_line_in_one_way",
    "Verif.C87_private",
    "Verif.C87_private_memory",
    "Verif.C87_changes_only_written_words",
    "Verif.C87_every_cache",
    "Verif.C87_wires",
    "Verif.C87_private_system"
   ],
   "note": "atomic operations must not reach beyond the end of the address space (an aligned one never does); WRITE_INIT requests excluded as in C01"
  },
  {
   "property": "C88",
   "status": "proved",
   "theorems": [
    "Verif.C88_changes_only_addressed",
    "Verif.C88_isolated",
    "Verif.C88_memory",
    "Verif.C88_others_irrelevant",
    "Verif.C88_isolated_wires"
   ],
   "note": "atomic operations must not reach beyond the end of the address space; WRITE_INIT requests excluded as in C01"
  },
  {
   "property": "C89",
   "status": "proved",
   "theorems": [
    "Verif.MemPorts.C89_responses",
    "Verif.MemPorts.C89_all_responses",
    "Verif.MemPorts.C89_contents",
    "Verif.MemPorts.C89_timing",
    "Verif.MemPorts.C89_any_contents",
    "Verif.MemPorts.C89_regions",
    "Verif.MemPorts.C89_test_20port",
    "Verif.MemPorts.C89_read_back"
   ],
   "note": "MemoryCL without its line trace; the seeded random list of the test is not instantiated"
  },
  {
   "property": "C90",
   "status": "proved",
   "theorems": [
    "Verif.C90_everybody_came",
    "Verif.C90_reads",
    "Verif.C90_memory",
    "Verif.Net.C90_everybody_came_wires",
    "Verif.Net.C90_reads_wires",
    "Verif.Net.C90_memory_wires"
   ],
   "note": "safety (C92 has liveness); the counter does not wrap around"
  },
  {
   "property": "C91",
   "status": "proved",
   "theorems": [
    "Verif.C91_progress",
    "Verif.Net.C91_deadlock_free",
    "Verif.ExL.C91_example",
    "Verif.ExL.C91_waiting_needed"
   ],
   "note": "deadlock freedom, not freedom from starvation; the processors are represented by the protocol on the history"
  },
  {
   "property": "C92",
   "status": "proved",
   "theorems": [
    "Verif.C92_opens",
    "Verif.Net.C92_eventually_opens",
    "Verif.ExBar.C92_example"
   ],
   "note": "the processors are represented by the protocol on the history"
  },
  {
   "property": "C93",
   "status": "proved",
   "theorems": [
    "Verif.C93_in_order",
    "Verif.C93_mutual_exclusion",
    "Verif.C93_tickets_differ",
    "Verif.Net.C93_in_order_wires",
    "Verif.Net.C93_mutual_exclusion_wires",
    "Verif.C93_first_come",
    "Verif.Net.C93_first_come_wires"
   ],
   "note": "fewer than 2^32 tickets; the processors are represented by the protocol on the history"
  },
  {
   "property": "C94",
   "status": "proved",
   "theorems": [
    "Verif.C94_turn_comes",
    "Verif.Net.C94_starvation_free",
    "Verif.ExTk.C94_example"
   ],
   "note": "the processors are represented by the protocol on the history; fewer than 2^32 tickets"
  },
  {
   "property": "C95",
   "status": "proved",
   "theorems": [
    "Verif.C95_protected_reads",
    "Verif.C95_memory",
    "Verif.Net.C95_protected_reads_wires",
    "Verif.Net.C95_memory_wires"
   ],
   "note": "the processors are represented by the protocol on the history; fewer than 2^32 tickets"
  },
  {
   "property": "C96",
   "status": "proved",
   "theorems": [
    "Verif.C96_reduction",
    "Verif.C96_nothing_twice",
    "Verif.C96_nothing_left_out",
    "Verif.Net.C96_reduction_wires",
    "Verif.Net.C96_nothing_twice_wires",
    "Verif.Net.C96_nothing_left_out_wires",
    "Verif.C96_first_come",
    "Verif.Net.C96_first_come_wires"
   ],
   "note": "the processors are represented by the protocol on the history"
  }
 ]
}