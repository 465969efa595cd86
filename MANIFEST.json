{
 "claims": [
  {
   "property": "C01",
   "status": "proved",
   "theorems": [
    "Wrtstat.C01_total_count",
    "Wrtstat.C01_detach_count"
   ],
   "note": ""
  },
  {
   "property": "C02",
   "status": "proved",
   "theorems": [
    "Wrtstat.C02_balance",
    "Wrtstat.C02_balance_count"
   ],
   "note": ""
  },
  {
   "property": "C03",
   "status": "proved",
   "theorems": [
    "Wrtstat.C03_samples"
   ],
   "note": ""
  },
  {
   "property": "C04",
   "status": "proved",
   "theorems": [
    "Wrtstat.C04_lossless"
   ],
   "note": ""
  },
  {
   "property": "C05",
   "status": "proved",
   "theorems": [
    "Wrtstat.C05_minmax"
   ],
   "note": ""
  },
  {
   "property": "C06",
   "status": "partial",
   "theorems": [
    "Wrtstat.Reducer.C06_refuted",
    "Wrtstat.Reducer.C06_overflow",
    "Wrtstat.Reducer.C06_double_range_partial",
    "Wrtstat.Reducer.C06_double_error",
    "Wrtstat.C06_avg_exact",
    "Wrtstat.C06_avg_range"
   ],
   "note": "The mean in exact arithmetic is proved as stated. The range with rounding disagrees for values above 2^53 in size, which are not representable (C06_refuted), and a value of INT64_MAX makes the conversion of the average undefined (C06_overflow). Proved between representable bounds (C06_avg_range), for IEEE double between the rounded extremes and exactly up to 2^53 (C06_double_range_partial), with a bound of the error (C06_double_error)."
  },
  {
   "property": "C07",
   "status": "proved",
   "theorems": [
    "Wrtstat.Reducer.C07_double_no_fault",
    "Wrtstat.C07_memory",
    "Wrtstat.C07_no_fault",
    "Wrtstat.C07_reduce_no_fault"
   ],
   "note": ""
  },
  {
   "property": "C08",
   "status": "proved",
   "theorems": [
    "Wrtstat.C08_detach",
    "Wrtstat.C08_empty_clear"
   ],
   "note": ""
  },
  {
   "property": "C09",
   "status": "proved",
   "theorems": [
    "Wrtstat.C09_look"
   ],
   "note": ""
  },
  {
   "property": "C10",
   "status": "proved",
   "theorems": [
    "Wrtstat.C10_lossy_count",
    "Wrtstat.C10_filled"
   ],
   "note": ""
  },
  {
   "property": "C11",
   "status": "proved",
   "theorems": [
    "Wrtstat.C11_sorting"
   ],
   "note": ""
  },
  {
   "property": "C12",
   "status": "proved",
   "theorems": [
    "Wrtstat.C12_windows",
    "Wrtstat.C12_complete",
    "Wrtstat.C12_current"
   ],
   "note": ""
  },
  {
   "property": "C13",
   "status": "proved",
   "theorems": [
    "Wrtstat.C13_order",
    "Wrtstat.C13_polling",
    "Wrtstat.C13_handler"
   ],
   "note": ""
  },
  {
   "property": "C14",
   "status": "partial",
   "theorems": [
    "Wrtstat.C14_exact_partial",
    "Wrtstat.C14_refuted",
    "Wrtstat.C14_late_partial"
   ],
   "note": "The code disagrees: an event whose aligned time is 0 is rejected although its window is open, and completed windows are flushed up to the wall clock (C14_refuted). Proved for all other events. C14_exact_partial: such an event is treated as claimed exactly if the wall clock is still in the current window or in the first of all."
  },
  {
   "property": "C15",
   "status": "proved",
   "theorems": [
    "Wrtstat.C15_aggregator",
    "Wrtstat.C15_counts"
   ],
   "note": ""
  },
  {
   "property": "C16",
   "status": "proved",
   "theorems": [
    "Wrtstat.C16_align",
    "Wrtstat.C16_mono",
    "Wrtstat.C16_fixed",
    "Wrtstat.C16_now"
   ],
   "note": ""
  },
  {
   "property": "C17",
   "status": "proved",
   "theorems": [
    "Wrtstat.C17_separate",
    "Wrtstat.C17_total",
    "Wrtstat.C17_range"
   ],
   "note": ""
  },
  {
   "property": "C18",
   "status": "partial",
   "theorems": [
    "Wrtstat.C18_refuted",
    "Wrtstat.C18_force_partial",
    "Wrtstat.C18_publish_partial"
   ],
   "note": "The code disagrees: force changes only the returned flag, it does not close the window (C18_refuted). The partial theorems say what separate(force) and publishing do."
  },
  {
   "property": "C19",
   "status": "proved",
   "theorems": [
    "Wrtstat.C19_rank_mono",
    "Wrtstat.C19_calc_perc"
   ],
   "note": ""
  },
  {
   "property": "C20",
   "status": "partial",
   "theorems": [
    "Wrtstat.C20_refuted",
    "Wrtstat.C20_small_partial",
    "Wrtstat.C20_any_partial",
    "Wrtstat.C20_large_refuted",
    "Wrtstat.C20_exact_partial"
   ],
   "note": "The code disagrees above 200 samples (C20_refuted, with a conforming nth_element). Proved up to 200 samples; in general perc100 is a sample not below perc99. C20_exact_partial: for different samples, right for every conforming nth_element exactly up to 200 samples."
  },
  {
   "property": "C21",
   "status": "partial",
   "theorems": [
    "Wrtstat.C21_refuted",
    "Wrtstat.C21_sublist",
    "Wrtstat.C21_size_partial",
    "Wrtstat.C21_exact_partial"
   ],
   "note": "The code disagrees on the size bound (C21_refuted). Subsequence and non-emptiness proved as stated; the size bound is proved when N < 2R or R divides N, and R + R/2 otherwise. C21_exact_partial: the bound holds exactly in these cases."
  },
  {
   "property": "C22",
   "status": "proved",
   "theorems": [
    "Wrtstat.C22_fifo",
    "Wrtstat.C22_complete",
    "Wrtstat.C22_total",
    "Wrtstat.C22_exactly_once"
   ],
   "note": ""
  },
  {
   "property": "C23",
   "status": "proved",
   "theorems": [
    "Wrtstat.C23_disabled",
    "Wrtstat.C23_returns_true",
    "Wrtstat.C23_pause"
   ],
   "note": ""
  },
  {
   "property": "C24",
   "status": "partial",
   "theorems": [
    "Wrtstat.C24_clear",
    "Wrtstat.C24_fresh",
    "Wrtstat.C24_old_pushers",
    "Wrtstat.C24_new_pushers_refuted",
    "Wrtstat.C24_pusher_partial"
   ],
   "note": "The code disagrees for pushers made after clear: they never have any effect (C24_new_pushers_refuted). The other parts are proved as stated."
  },
  {
   "property": "C25",
   "status": "partial",
   "theorems": [
    "Wrtstat.C25_refuted",
    "Wrtstat.C25_null_refuted",
    "Wrtstat.C25_force_pop_partial",
    "Wrtstat.C25_exact_partial"
   ],
   "note": "The code disagrees: completed windows taken out of the separator are skipped (C25_refuted, C25_null_refuted). Proved when no completed window is waiting. C25_exact_partial: right exactly if no completed window is waiting."
  },
  {
   "property": "C26",
   "status": "partial",
   "theorems": [
    "Wrtstat.C26_delivered",
    "Wrtstat.C26_current",
    "Wrtstat.C26_force_pop",
    "Wrtstat.C26_separate_refuted"
   ],
   "note": "The code disagrees for the handler of separate (C26_separate_refuted). Proved for pop, push handlers, aggregate_current and force_pop."
  },
  {
   "property": "C27",
   "status": "proved",
   "theorems": [
    "Wrtstat.C27_equivalent",
    "Wrtstat.C27_same_records"
   ],
   "note": ""
  },
  {
   "property": "C28",
   "status": "proved",
   "theorems": [
    "Wrtstat.Registry.C28_bijection",
    "Wrtstat.Registry.C28_create",
    "Wrtstat.Registry.C28_stable",
    "Wrtstat.Registry.C28_step_zero"
   ],
   "note": "For positive id_step and as long as the 64-bit ids are not exhausted. With id_step 0 creation divides by zero (C28_step_zero)."
  },
  {
   "property": "C29",
   "status": "partial",
   "theorems": [
    "Wrtstat.Registry.C29_exact_partial",
    "Wrtstat.Registry.C29_isolated_partial",
    "Wrtstat.Registry.C29_step_partial",
    "Wrtstat.Registry.C29_refuted"
   ],
   "note": "The code disagrees for ids that were never given out when id_step > 1: they are answered for by another aggregator (C29_refuted). Proved for names, pushers and ids of the form the registry gives out; no restriction with the default id_step 1. C29_exact_partial: which aggregator answers for any id, and when the call is as claimed."
  },
  {
   "property": "C30",
   "status": "partial",
   "theorems": [
    "Wrtstat.Registry.C30_exact_partial",
    "Wrtstat.Registry.C30_unknown_partial",
    "Wrtstat.Registry.C30_default_step",
    "Wrtstat.Registry.C30_refuted"
   ],
   "note": "The code disagrees when id_step > 1 (C30_refuted). Proved for ids of the form the registry gives out, hence for all ids with the default id_step 1 (C30_default_step). C30_exact_partial: which of the ids never given out are answered for by which aggregator."
  },
  {
   "property": "C31",
   "status": "partial",
   "theorems": [
    "Wrtstat.Registry.C31_refuted",
    "Wrtstat.Registry.C31_removed_partial",
    "Wrtstat.Registry.C31_fresh"
   ],
   "note": "The code disagrees on the return value: del always returns false (C31_refuted). Everything else is proved."
  },
  {
   "property": "C32",
   "status": "proved",
   "theorems": [
    "Wrtstat.Registry.C32_pop_all",
    "Wrtstat.Registry.C32_complete"
   ],
   "note": ""
  },
  {
   "property": "C33",
   "status": "proved",
   "theorems": [
    "Wrtstat.Registry.C33_disabled",
    "Wrtstat.Registry.C33_any_id",
    "Wrtstat.Registry.C33_enabled"
   ],
   "note": ""
  },
  {
   "property": "C34",
   "status": "partial",
   "theorems": [
    "Wrtstat.Registry.C34_exact_partial",
    "Wrtstat.Registry.C34_refuted",
    "Wrtstat.Registry.C34_first_partial"
   ],
   "note": "The code disagrees for events aligned to time 0 (C34_refuted). Proved for all other summaries. C34_exact_partial: such a summary is accepted exactly if the clock is still in the first window of all."
  },
  {
   "property": "C35",
   "status": "partial",
   "theorems": [
    "Wrtstat.Wrt.C35_exact_partial",
    "Wrtstat.Wrt.C35_refuted",
    "Wrtstat.Wrt.C35_destruction_partial",
    "Wrtstat.Wrt.C35_polled_partial"
   ],
   "note": "The code disagrees: a window that has ended at destruction, or completed windows still waiting, are lost (C35_refuted). Proved when neither is the case, which is so after a pushout that returned 0 (C35_polled_partial). C35_exact_partial: everything is reported exactly if no completed window waits and the current one is empty or not over."
  },
  {
   "property": "C36",
   "status": "partial",
   "theorems": [
    "Wrtstat.Wrt.C36_exact_partial",
    "Wrtstat.Wrt.C36_handler",
    "Wrtstat.Wrt.C36_no_handler_partial",
    "Wrtstat.Wrt.C36_refuted"
   ],
   "note": "The code disagrees: without handler the null function is called as soon as there is a record (C36_refuted). Proved with a handler, and without handler when there is nothing to report. C36_exact_partial: without handler, no fault exactly if there is nothing to hand over."
  },
  {
   "property": "C37",
   "status": "partial",
   "theorems": [
    "Wrtstat.PClass.C37_once_partial",
    "Wrtstat.PClass.C37_value_refuted",
    "Wrtstat.PClass.C37_value_partial",
    "Wrtstat.PClass.C37_first_report",
    "Wrtstat.PClass.C37_time_report",
    "Wrtstat.PClass.C37_size_report",
    "Wrtstat.PClass.C37_composite_report",
    "Wrtstat.PClass.C37_assign_refuted",
    "Wrtstat.PClass.C37_program_partial",
    "Wrtstat.PClass.C37_each_once_partial"
   ],
   "note": "The code disagrees for value_point, which reports on every push and again at destruction (C37_value_refuted), and for move assignment, which drops the measurement of the overwritten point (C37_assign_refuted). Proved for time, size and composite points and for programs without those assignments."
  },
  {
   "property": "C38",
   "status": "proved",
   "theorems": [
    "Wrtstat.Wrt.C38_composite",
    "Wrtstat.Wrt.C38_none",
    "Wrtstat.Wrt.C38_sizes",
    "Wrtstat.Wrt.C38_multi",
    "Wrtstat.Wrt.C38_multi_simple"
   ],
   "note": ""
  },
  {
   "property": "C39",
   "status": "proved",
   "theorems": [
    "Wrtstat.C39_sharded",
    "Wrtstat.C39_unobservable",
    "Wrtstat.C39_total",
    "Wrtstat.C39_no_shards",
    "Wrtstat.C39_size"
   ],
   "note": "For positive hash_size. With hash_size 0 every push divides by zero (C39_no_shards)."
  },
  {
   "property": "C40",
   "status": "partial",
   "theorems": [
    "Wrtstat.C40_refuted",
    "Wrtstat.C40_push_partial"
   ],
   "note": "The code disagrees: percentiles are dropped from the records handed to the push handler (C40_refuted). Name, samples, counters and exactly-once accounting are proved."
  },
  {
   "property": "C41",
   "status": "partial",
   "theorems": [
    "Wrtstat.C41_pushout_partial",
    "Wrtstat.C41_refuted",
    "Wrtstat.C41_force_pushout",
    "Wrtstat.C41_force_once",
    "Wrtstat.C41_null_handler"
   ],
   "note": "The code disagrees for pushout, which never finds anything to deliver, even when the window of a name has ended (C41_refuted, C41_pushout_partial). Proved for force_pushout."
  },
  {
   "property": "C42",
   "status": "proved",
   "theorems": [
    "Wrtstat.C42_roundtrip",
    "Wrtstat.C42_compact"
   ],
   "note": "For a legend of at most 2^64 words (the code reads positions as size_t)."
  },
  {
   "property": "C43",
   "status": "proved",
   "theorems": [
    "Wrtstat.C43_conserved",
    "Wrtstat.C43_total"
   ],
   "note": "multi_push, pop_by_json_size and pushout are included. Legends of at most 2^64 words."
  },
  {
   "property": "C44",
   "status": "partial",
   "theorems": [
    "Wrtstat.C44_refuted",
    "Wrtstat.C44_refuted_compact",
    "Wrtstat.C44_plain_partial",
    "Wrtstat.C44_compact_partial",
    "Wrtstat.C44_limit_partial"
   ],
   "note": "The code disagrees: the room is computed with the default separator (C44_refuted), and with compaction of names it counts one digit per word even in batches of more than ten words (C44_refuted_compact). Proved without compaction when the separator takes at most four characters in JSON, and with compaction for batches of at most ten words."
  },
  {
   "property": "C45",
   "status": "proved",
   "theorems": [
    "Wrtstat.C45_batch"
   ],
   "note": ""
  },
  {
   "property": "C46",
   "status": "partial",
   "theorems": [
    "Wrtstat.C46_refuted",
    "Wrtstat.C46_bounded_partial",
    "Wrtstat.C46_no_effect"
   ],
   "note": "The code disagrees: the samples are counted after the request has been moved away, so data_limit has no effect at all (C46_refuted, C46_no_effect). The number of samples is bounded only through json_limit."
  },
  {
   "property": "C47",
   "status": "proved",
   "theorems": [
    "Wrtstat.C47_best_fit",
    "Wrtstat.C47_recorded"
   ],
   "note": ""
  },
  {
   "property": "C48",
   "status": "proved",
   "theorems": [
    "Wrtstat.C48_pushout",
    "Wrtstat.C48_no_handler"
   ],
   "note": ""
  },
  {
   "property": "C49",
   "status": "proved",
   "theorems": [
    "Wrtstat.C49_safe",
    "Wrtstat.C49_range"
   ],
   "note": ""
  },
  {
   "property": "C50",
   "status": "partial",
   "theorems": [
    "Wrtstat.C50_exact_partial",
    "Wrtstat.C50_diverges",
    "Wrtstat.C50_refuted",
    "Wrtstat.C50_push_partial"
   ],
   "note": "The code disagrees: with name_compact and an empty separator push never returns (C50_refuted, C50_diverges). Proved for all other options. C50_exact_partial: push returns exactly if names are not compacted or the separator is not empty."
  },
  {
   "property": "C51",
   "status": "partial",
   "theorems": [
    "Wrtstat.C51_refuted",
    "Wrtstat.C51_merge_partial",
    "Wrtstat.C51_weighted_mean",
    "Wrtstat.C51_conversion",
    "Wrtstat.C51_large_count",
    "Wrtstat.C51_first",
    "Wrtstat.C51_total"
   ],
   "note": "The code disagrees: the merged max is the smaller one (C51_refuted). The rest is proved."
  },
  {
   "property": "C52",
   "status": "proved",
   "theorems": [
    "Wrtstat.C52_percentiles",
    "Wrtstat.C52_info",
    "Wrtstat.C52_total"
   ],
   "note": ""
  },
  {
   "property": "C53",
   "status": "proved",
   "theorems": [
    "Wrtstat.Rw.C53_exclusive",
    "Wrtstat.Rw.C53_no_abort",
    "Wrtstat.Rw.C53_holds"
   ],
   "note": ""
  },
  {
   "property": "C54",
   "status": "partial",
   "theorems": [
    "Wrtstat.LockState.C54_refuted",
    "Wrtstat.LockState.C54_no_handler_partial",
    "Wrtstat.LockState.C54_no_enable_partial",
    "Wrtstat.LockState.C54_ends_partial",
    "Wrtstat.LockState.C54_completes_partial"
   ],
   "note": "The code disagrees: a push whose handler was made for an id asks the registry for the name while holding the mutex of its aggregator, and enable asks for that mutex while holding the registry lock (C54_refuted). That is the only deadlock (C182). Proved without such handlers and, with them, without enable."
  },
  {
   "property": "C55",
   "status": "partial",
   "theorems": [
    "Wrtstat.Pool.C55_refuted",
    "Wrtstat.Pool.C55_unbounded",
    "Wrtstat.Pool.C55_clean_partial",
    "Wrtstat.Pool.C55_serial_partial",
    "Wrtstat.Pool.C55_single_partial",
    "Wrtstat.Pool.C55_zero_partial"
   ],
   "note": "The code disagrees: the test for emptiness and the pop are two critical sections (C55_refuted), and so are the test for room and the push, which makes the pool grow without bound (C55_unbounded). Proved for calls that do not overlap, for one thread and for pool_size 0; buffers handed out are always empty."
  },
  {
   "property": "C56",
   "status": "proved",
   "theorems": [
    "Wrtstat.C56_linearizable",
    "Wrtstat.C56_bodies"
   ],
   "note": ""
  },
  {
   "property": "C57",
   "status": "proved",
   "theorems": [
    "Wrtstat.C57_counts",
    "Wrtstat.C57_balance"
   ],
   "note": ""
  },
  {
   "property": "C58",
   "status": "proved",
   "theorems": [
    "Wrtstat.C58_accepted",
    "Wrtstat.C58_rejected",
    "Wrtstat.C58_unreadable"
   ],
   "note": "wjson is an abstract parser; the file system an abstract partial function."
  },
  {
   "property": "C59",
   "status": "proved",
   "theorems": [
    "Wrtstat.Spin.C59_exclusive",
    "Wrtstat.Spin.C59_try",
    "Wrtstat.Spin.C59_lock",
    "Wrtstat.Spin.C59_unlock"
   ],
   "note": ""
  },
  {
   "property": "C60",
   "status": "partial",
   "theorems": [
    "Wrtstat.Reducer.C60_exact_partial",
    "Wrtstat.C60_merge_extremes_partial",
    "Wrtstat.C60_merge_extremes_refuted",
    "Wrtstat.C60_min_le_max_refuted",
    "Wrtstat.C60_min_le_max_partial"
   ],
   "note": "Extremes of merged summaries: refuted as stated with concrete witnesses; the partial theorems give the conditions under which it holds. C60_exact_partial: min <= max exactly if a sample or non-zero extreme was received; a merged extreme of 0 is covered exactly if something received reaches 0."
  },
  {
   "property": "C61",
   "status": "proved",
   "theorems": [
    "Wrtstat.Wrt.C61_named_by_name",
    "Wrtstat.Wrt.C61_named_by_id",
    "Wrtstat.Wrt.C61_named_composite"
   ],
   "note": ""
  },
  {
   "property": "C62",
   "status": "proved",
   "theorems": [
    "Wrtstat.Wrt.C62_pushout"
   ],
   "note": ""
  },
  {
   "property": "C63",
   "status": "partial",
   "theorems": [
    "Wrtstat.C63_refuted",
    "Wrtstat.C63_symmetric_partial",
    "Wrtstat.C63_exact_partial"
   ],
   "note": "The code disagrees: weights of the left operand use the sum of the counts (C63_refuted). C63_exact_partial: below 2^60 events it holds for exactly those counts that are at most one in all."
  },
  {
   "property": "C64",
   "status": "partial",
   "theorems": [
    "Wrtstat.C64_exact_partial",
    "Wrtstat.C64_refuted",
    "Wrtstat.C64_limits_partial"
   ],
   "note": "The code disagrees: what does not fit goes out in one batch without limits (C64_refuted). Proved for all other batches. C64_exact_partial: the limit is kept exactly if no more than push_limit requests are left over."
  },
  {
   "property": "C65",
   "status": "partial",
   "theorems": [
    "Wrtstat.C65_refuted",
    "Wrtstat.C65_count_partial"
   ],
   "note": "The code disagrees: the last batch, of what did not fit, is not counted (C65_refuted). Proved when there is none, and the exact difference otherwise."
  },
  {
   "property": "C66",
   "status": "partial",
   "theorems": [
    "Wrtstat.C66_exact_partial",
    "Wrtstat.C66_refuted",
    "Wrtstat.C66_plain_partial"
   ],
   "note": "The code disagrees: the legend is ignored (C66_refuted). Proved for requests without legend. C66_exact_partial: right exactly if the batch, up to order, reads the same without its legend."
  },
  {
   "property": "C67",
   "status": "partial",
   "theorems": [
    "Wrtstat.C67_exact_partial",
    "Wrtstat.C67_refuted",
    "Wrtstat.C67_progress_partial"
   ],
   "note": "The code disagrees with compaction of names: multi_pop gives up at the first request that does not fit with its words (C67_refuted). Proved without compaction. C67_exact_partial: exactly when multi_pop returns no batch."
  },
  {
   "property": "C68",
   "status": "proved",
   "theorems": [
    "Wrtstat.C68_accessors"
   ],
   "note": ""
  },
  {
   "property": "C69",
   "status": "partial",
   "theorems": [
    "Wrtstat.C69_exact_partial",
    "Wrtstat.C69_refuted",
    "Wrtstat.C69_rest_partial"
   ],
   "note": "The code disagrees: names before the bad one are already rewritten (C69_refuted). Proved for the legend, the data, and all requests from the bad one on. C69_exact_partial: what is changed, and that nothing is exactly if the names before the bad one are written as they are restored."
  },
  {
   "property": "C70",
   "status": "proved",
   "theorems": [
    "Wrtstat.Rw.C70_no_lost_wakeup",
    "Wrtstat.Rw.C70_reader_wakeup",
    "Wrtstat.Rw.C70_progress"
   ],
   "note": ""
  },
  {
   "property": "C71",
   "status": "partial",
   "theorems": [
    "Wrtstat.Rw.C71_refuted",
    "Wrtstat.Rw.C71_free_partial"
   ],
   "note": "The code disagrees: readers that overlap keep a writer asleep for ever (C71_refuted). Proved: once the lock is free the writer gets it by its own steps (C71_free_partial)."
  },
  {
   "property": "C72",
   "status": "proved",
   "theorems": [
    "Wrtstat.Rw.C72_read_again"
   ],
   "note": ""
  },
  {
   "property": "C73",
   "status": "partial",
   "theorems": [
    "Wrtstat.Aggregator.C73_refuted",
    "Wrtstat.Aggregator.C73_no_clear_partial"
   ],
   "note": "The code disagrees: the token is tested before the mutex is taken, so a clear in between is followed by data of an old pusher (C73_refuted). Proved when clear is not among the operations in between."
  },
  {
   "property": "C75",
   "status": "proved",
   "theorems": [
    "Wrtstat.C75_push",
    "Wrtstat.C75_multi",
    "Wrtstat.C75_text",
    "Wrtstat.C75_del"
   ],
   "note": "For every parser that reads back what the writer writes; a concrete writer and parser meet this."
  },
  {
   "property": "C76",
   "status": "partial",
   "theorems": [
    "Wrtstat.C76_exact_partial",
    "Wrtstat.C76_refuted",
    "Wrtstat.C76_partial"
   ],
   "note": "The code disagrees: members before the bad one stay assigned (C76_refuted). Proved: nothing changes when the file cannot be read or the first member is bad, and otherwise each setting has its old value or one of the text (C76_partial). C76_exact_partial: the members before the first bad one are applied and no other, so nothing changes exactly if they say what was there."
  },
  {
   "property": "C77",
   "status": "partial",
   "theorems": [
    "Wrtstat.C77_settings_partial",
    "Wrtstat.C77_refuted",
    "Wrtstat.C77_packer_partial",
    "Wrtstat.C77_multi_partial"
   ],
   "note": "The code disagrees: the reducer modes, ids and functions are not written (C77_refuted). Proved for everything that is written, also of packer_options and multi_aggregator_options."
  },
  {
   "property": "C78",
   "status": "proved",
   "theorems": [
    "Wrtstat.C78_accepted",
    "Wrtstat.C78_values",
    "Wrtstat.C78_order"
   ],
   "note": "On the level of parsed members; the member semantics of wjson is an assumption of DESIGN.md."
  },
  {
   "property": "C79",
   "status": "proved",
   "theorems": [
    "Wrtstat.C79_push",
    "Wrtstat.C79_multi",
    "Wrtstat.C79_limit"
   ],
   "note": "Names and digits are written unescaped (WritesAs), met by a concrete writer."
  },
  {
   "property": "C80",
   "status": "proved",
   "theorems": [
    "Wrtstat.C80_delivered"
   ],
   "note": ""
  },
  {
   "property": "C74",
   "status": "partial",
   "theorems": [
    "Wrtstat.Registry.C74_refuted",
    "Wrtstat.Registry.C74_partial"
   ],
   "note": "The code disagrees: creating the id and looking the aggregator up are two critical sections; if the name is deleted in between, its id may already belong to another name (C74_refuted). Proved when the name is not deleted in between (C74_partial)."
  },
  {
   "property": "C81",
   "status": "proved",
   "theorems": [
    "Wrtstat.PClass.C81_composite",
    "Wrtstat.PClass.C81_size",
    "Wrtstat.PClass.C81_value",
    "Wrtstat.PClass.C81_time",
    "Wrtstat.PClass.C81_now",
    "Wrtstat.PClass.C81_fresh"
   ],
   "note": ""
  },
  {
   "property": "C82",
   "status": "partial",
   "theorems": [
    "Wrtstat.Wrt.C82_exact_partial",
    "Wrtstat.Wrt.C82_refuted",
    "Wrtstat.Wrt.C82_partial"
   ],
   "note": "The code disagrees: with id_step > 1 a meter of an id that was never given out records in the aggregator of another id, and its records are dropped (C82_refuted). Proved: only completed records are delivered, never under an empty name, and all of them if the id had a name when the meter was made (C82_partial). C82_exact_partial: with records to deliver, they are delivered exactly if the id had a name when the meter was made."
  },
  {
   "property": "C84",
   "status": "partial",
   "theorems": [
    "Wrtstat.Registry.C84_witness",
    "Wrtstat.Registry.C84_add_refuted",
    "Wrtstat.Registry.C84_pop_all_refuted",
    "Wrtstat.Registry.C84_enable_refuted",
    "Wrtstat.Registry.C84_del_refuted",
    "Wrtstat.Registry.C84_partial"
   ],
   "note": "The code disagrees for add by name (C84_add_refuted), pop_all (C84_pop_all_refuted), enable together with pushers (C84_enable_refuted) and pushers together with del (C84_del_refuted): each is several critical sections. Proved for all other calls: create_aggregator, add, pop, force_pop, pushers and operations by id, get_name, set_initializer, with calls of pushers or with del and enable (C84_partial)."
  },
  {
   "property": "C83",
   "status": "proved",
   "theorems": [
    "Wrtstat.Registry.C83_serial",
    "Wrtstat.Registry.C83_calls",
    "Wrtstat.Registry.C83_names",
    "Wrtstat.Registry.C83_pop_all",
    "Wrtstat.Registry.C83_enable",
    "Wrtstat.Registry.C83_once"
   ],
   "note": ""
  },
  {
   "property": "C86",
   "status": "partial",
   "theorems": [
    "Wrtstat.C86_alone",
    "Wrtstat.C86_short_partial",
    "Wrtstat.C86_push_del_partial",
    "Wrtstat.C86_one_shard_partial",
    "Wrtstat.C86_witness",
    "Wrtstat.C86_pushout_refuted",
    "Wrtstat.C86_size_refuted",
    "Wrtstat.C86_multi_push_refuted",
    "Wrtstat.C86_refuted"
   ],
   "note": "The code disagrees for pushout and force_pushout (C86_pushout_refuted), size (C86_size_refuted) and multi_push (C86_multi_push_refuted): each is several critical sections. Proved for push and del (C86_push_del_partial), for everything but multi_push with one shard (C86_one_shard_partial), and in general for calls of one critical section (C86_short_partial)."
  },
  {
   "property": "C87",
   "status": "proved",
   "theorems": [
    "Wrtstat.C87_sections",
    "Wrtstat.C87_bodies",
    "Wrtstat.C87_made_of_sections",
    "Wrtstat.C87_names",
    "Wrtstat.C87_no_fault",
    "Wrtstat.C87_no_deadlock"
   ],
   "note": ""
  },
  {
   "property": "C85",
   "status": "partial",
   "theorems": [
    "Wrtstat.C85_fixed_mode_partial",
    "Wrtstat.C85_info_partial",
    "Wrtstat.C85_small_partial",
    "Wrtstat.C85_refuted"
   ],
   "note": "The code disagrees in adapt mode: clone does not copy the current mode, so the look may reduce by another method and show another median (C85_refuted). Proved: equality when the mode is fixed (C85_fixed_mode_partial); in every mode equal time, count, loss, extremes, average, number of samples and failures (C85_info_partial); equal percentiles 50-99 when the window holds no more samples than the limit (C85_small_partial)."
  },
  {
   "property": "C89",
   "status": "proved",
   "theorems": [
    "Wrtstat.PClass.C89_create",
    "Wrtstat.PClass.C89_clone",
    "Wrtstat.PClass.C89_as_single",
    "Wrtstat.PClass.C89_program",
    "Wrtstat.PClass.C89_each_once"
   ],
   "note": ""
  },
  {
   "property": "C90",
   "status": "proved",
   "theorems": [
    "Wrtstat.C90_alloc",
    "Wrtstat.C90_pool",
    "Wrtstat.C90_fresh"
   ],
   "note": ""
  },
  {
   "property": "C91",
   "status": "partial",
   "theorems": [
    "Wrtstat.Registry.C91_refuted",
    "Wrtstat.Registry.C91_count_partial",
    "Wrtstat.Registry.C91_enough",
    "Wrtstat.Registry.C91_ids"
   ],
   "note": "The code disagrees: aggregators_count is the size of the array of positions, 2 after the first name is created (C91_refuted). Proved: it is determined by the largest number of aggregators there has been at a time (C91_count_partial), is never less than their number (C91_enough), and ids are used again before new ones are made (C91_ids)."
  },
  {
   "property": "C88",
   "status": "partial",
   "theorems": [
    "Wrtstat.C88_accept_refuted",
    "Wrtstat.C88_windows_refuted",
    "Wrtstat.C88_once_refuted",
    "Wrtstat.C88_refuted",
    "Wrtstat.C88_exactly_once_partial",
    "Wrtstat.C88_counts_partial",
    "Wrtstat.C88_quiet_partial",
    "Wrtstat.C88_ends",
    "Wrtstat.C88_windows_partial",
    "Wrtstat.C88_once_partial",
    "Wrtstat.C88_accept_partial"
   ],
   "note": "The code disagrees: separator::separate calls the handler before it advances _next_time, so an event recorded by the handler is counted in another window, a window may be reported twice, and the event pushed may be rejected (C88_refuted, C88_windows_refuted, C88_once_refuted, C88_accept_refuted). Proved for every handler: every recorded call is counted in exactly one record or in the current window (C88_exactly_once_partial, C88_counts_partial). Proved for handlers that only read (pop, aggregate_current): all the claims, and equality with the runs of the other properties up to who has taken which record (C88_quiet_partial, C88_windows_partial, C88_once_partial, C88_accept_partial), termination included (C88_ends)."
  },
  {
   "property": "C92",
   "status": "partial",
   "theorems": [
    "Wrtstat.Registry.C92_refuted",
    "Wrtstat.Registry.C92_initialized_partial",
    "Wrtstat.Registry.C92_stale_partial",
    "Wrtstat.Registry.C92_none"
   ],
   "note": "The code disagrees: create_aggregator ignores the answer of add, so that a record older than the window in which the name appears is lost without trace (C92_refuted, C92_stale_partial). Proved for records that are not older (C92_initialized_partial); without initializer the aggregator starts empty (C92_none)."
  },
  {
   "property": "C93",
   "status": "proved",
   "theorems": [
    "Wrtstat.Registry.C93_pusher",
    "Wrtstat.Registry.C93_empty"
   ],
   "note": ""
  },
  {
   "property": "C94",
   "status": "partial",
   "theorems": [
    "Wrtstat.Reducer.C94_refuted",
    "Wrtstat.Reducer.C94_extremes_partial",
    "Wrtstat.Reducer.C94_empty"
   ],
   "note": "The code disagrees: the values that stand for \"nothing yet\" are told as 0 (C94_refuted). Proved: min() is right exactly when some value differs from the largest 64-bit value, max() exactly when some value differs from the smallest (C94_extremes_partial); 0 when empty (C94_empty)."
  },
  {
   "property": "C95",
   "status": "proved",
   "theorems": [
    "Wrtstat.Aggregator.C95_pop",
    "Wrtstat.Aggregator.C95_clear",
    "Wrtstat.Aggregator.C95_bound",
    "Wrtstat.Aggregator.C95_force_pop",
    "Wrtstat.Aggregator.C95_waiting"
   ],
   "note": ""
  },
  {
   "property": "C96",
   "status": "proved",
   "theorems": [
    "Wrtstat.C96_filled",
    "Wrtstat.C96_size",
    "Wrtstat.C96_kept",
    "Wrtstat.C96_lossy"
   ],
   "note": ""
  },
  {
   "property": "C97",
   "status": "partial",
   "theorems": [
    "Wrtstat.C97_plain",
    "Wrtstat.C97_compact",
    "Wrtstat.C97_refuted",
    "Wrtstat.C97_compact_partial",
    "Wrtstat.C97_forms",
    "Wrtstat.C97_push",
    "Wrtstat.C97_replies"
   ],
   "note": "The code disagrees: the compact form of a record does not tell its type, and a reduced_info is accepted as an aggregated_info with min as perc50 (C97_refuted). Proved: which pairs of types are read correctly or rejected, for all records, and that the others are not (C97_compact_partial); the plain form for all pairs (C97_plain), reading back in the compact form (C97_compact), forms are not mixed up (C97_forms), a push is a name and a record (C97_push), replies (C97_replies)."
  },
  {
   "property": "C98",
   "status": "partial",
   "theorems": [
    "Wrtstat.Dict.C98_refuted",
    "Wrtstat.Dict.C98_free_refuted",
    "Wrtstat.Dict.C98_free_name_refuted",
    "Wrtstat.Dict.C98_clear_refuted",
    "Wrtstat.Dict.C98_agrees_partial",
    "Wrtstat.Dict.C98_create",
    "Wrtstat.Dict.C98_free_partial",
    "Wrtstat.Dict.C98_collision",
    "Wrtstat.Dict.C98_clear_partial",
    "Wrtstat.Dict.C98_clear_exact_partial",
    "Wrtstat.C98_shared"
   ],
   "note": "The code disagrees: ids wrap around, so that with a large id_step two names get the same id (C98_refuted) and in a registry share an aggregator (C98_shared); free always returns false (C98_free_refuted, C98_free_name_refuted; right if nothing is held, C98_free_partial); clear forgets the initial id (C98_clear_refuted). Proved as long as ids do not run out (C98_agrees_partial, C98_create), and for clear with initial id 0 (C98_clear_partial). C98_clear_exact_partial: clear makes the dictionary as new exactly if the initial id is 0."
  },
  {
   "property": "C99",
   "status": "partial",
   "theorems": [
    "Wrtstat.C99_refuted",
    "Wrtstat.C99_run_partial",
    "Wrtstat.C99_summary_partial",
    "Wrtstat.C99_count_partial",
    "Wrtstat.C99_exact_partial",
    "Wrtstat.Aggregator.C99_aggregator_partial",
    "Wrtstat.Aggregator.C99_aggregator_exact_partial",
    "Wrtstat.Aggregator.C99_received_partial"
   ],
   "note": "The code disagrees: counters have 64 bits and a call may stand for up to 2^64 - 1 events, so that the count of a summary wraps (C99_refuted). Proved, for fewer than 2^64 values: the machine does what the model does with counts modulo 2^64 (C99_run_partial, C99_summary_partial, C99_count_partial with an iff, C99_aggregator_partial, C99_received_partial), and exactly that below 2^64 events (C99_exact_partial, C99_aggregator_exact_partial)."
  },
  {
   "property": "C100",
   "status": "partial",
   "theorems": [
    "Wrtstat.Rw.C100_refuted",
    "Wrtstat.Rw.C100_unlock_partial",
    "Wrtstat.Rw.C100_unlock_r_partial",
    "Wrtstat.Rw.C100_breaks_partial"
   ],
   "note": "Refuted (C100_refuted): while another thread holds the lock the stray release goes through, and a writer gets in while a thread reads (C100_breaks_partial). C100_unlock_partial and C100_unlock_r_partial tell exactly when the process is stopped, and what is left otherwise."
  },
  {
   "property": "C101",
   "status": "partial",
   "theorems": [
    "Wrtstat.C101_data",
    "Wrtstat.C101_multi",
    "Wrtstat.C101_packer",
    "Wrtstat.C101_refuted",
    "Wrtstat.C101_exact_partial"
   ],
   "note": "Refuted for the capacity (C101_refuted): for the records in _ag_list the size is added instead of the capacity. C101_exact_partial tells when this makes no difference. The sizes are proved (C101_data, C101_multi)."
  },
  {
   "property": "C102",
   "status": "partial",
   "theorems": [
    "Wrtstat.C102_refuted",
    "Wrtstat.C102_recorded",
    "Wrtstat.C102_exact_partial",
    "Wrtstat.C102_plain_partial",
    "Wrtstat.C102_near"
   ],
   "note": "The code disagrees with the claim: with soiled_start_ts windows do not begin at multiples of the step while times are rounded to them, so an event may be recorded in the window before its own (C102_refuted). C102_exact_partial tells exactly which events; without soiled_start_ts the claim holds (C102_plain_partial); C102_near bounds the error by one step."
  },
  {
   "property": "C103",
   "status": "proved",
   "theorems": [
    "Wrtstat.Spin.C103_spinlock",
    "Wrtstat.Rw.C103_rwlock"
   ],
   "note": ""
  },
  {
   "property": "C104",
   "status": "partial",
   "theorems": [
    "Wrtstat.Reducer.C104_refuted",
    "Wrtstat.Reducer.C104_exact_partial",
    "Wrtstat.Reducer.C104_same"
   ],
   "note": "The code disagrees with the claim: the allocator is bound to the pool of the registry, which is destroyed with it (C104_refuted). C104_exact_partial tells exactly which calls are undefined then; C104_same tells that calls return the same otherwise."
  },
  {
   "property": "C105",
   "status": "partial",
   "theorems": [
    "Wrtstat.SpinMv.C105_refuted",
    "Wrtstat.SpinMv.C105_exact_partial",
    "Wrtstat.SpinMv.C105_free_partial",
    "Wrtstat.SpinMv.C105_lost"
   ],
   "note": "The code disagrees with the claim: a move copies the flag (C105_refuted). C105_exact_partial tells when the target goes on working; locks moved only while free work (C105_free_partial); C105_lost: the target of a move from a held lock is never had by anybody."
  },
  {
   "property": "C106",
   "status": "partial",
   "theorems": [
    "Wrtstat.SpinN.C106_refuted",
    "Wrtstat.SpinN.C106_exact_partial",
    "Wrtstat.SpinN.C106_exclusive",
    "Wrtstat.SpinN.C106_shared",
    "Wrtstat.SpinN.C106_pigeonhole"
   ],
   "note": "The code disagrees with the claim: keys whose hashes have the same remainder share a lock (C106_refuted). C106_exact_partial tells exactly when try_lock succeeds; exclusion for a key is proved (C106_exclusive); C106_pigeonhole: of more than N keys two share."
  },
  {
   "property": "C107",
   "status": "partial",
   "theorems": [
    "Wrtstat.Aggregator.C107_refuted",
    "Wrtstat.Aggregator.C107_exact_partial",
    "Wrtstat.Aggregator.C107_room_partial",
    "Wrtstat.Aggregator.C107_new_partial",
    "Wrtstat.Aggregator.C107_clear_partial"
   ],
   "note": "The code disagrees with the claim near the largest representable time (C107_refuted). C107_exact_partial, C107_new_partial and C107_clear_partial tell exactly when the calls are defined; C107_room_partial: it is enough that all times leave room for a step."
  },
  {
   "property": "C108",
   "status": "partial",
   "theorems": [
    "Wrtstat.Multi.C108_refuted",
    "Wrtstat.Multi.C108_lost",
    "Wrtstat.Multi.C108_exact_partial",
    "Wrtstat.Multi.C108_moved_from_partial",
    "Wrtstat.Multi.C108_lineage_partial"
   ],
   "note": "The code disagrees with the claim: push and del on an object moved from (a self-move included) index an empty vector (C108_refuted), and a move assignment destroys what waits in the target (C108_lost). C108_exact_partial tells exactly what is lost, C108_moved_from_partial what every call on an object moved from does; C108_lineage_partial proves that contents behave as if never moved."
  },
  {
   "property": "C109",
   "status": "partial",
   "theorems": [
    "Wrtstat.MxState.C109_refuted",
    "Wrtstat.MxState.C109_crossing",
    "Wrtstat.MxState.C109_exact_partial",
    "Wrtstat.MxState.C109_none_partial",
    "Wrtstat.MxState.C109_cascade_partial",
    "Wrtstat.MxState.C109_same_object",
    "Wrtstat.MxState.C109_completes_partial"
   ],
   "note": "The code disagrees with the claim: a handler that pushes to its own shard locks the mutex it has (C109_refuted), two handlers that push to the shards of each other deadlock (C109_crossing). C109_exact_partial: the claim holds exactly when the mutexes taken under others form no cycle, as in cascades (C109_cascade_partial); then all calls complete (C109_completes_partial)."
  },
  {
   "property": "C110",
   "status": "partial",
   "theorems": [
    "Wrtstat.LockState.C110_refuted",
    "Wrtstat.LockState.C110_exact_partial",
    "Wrtstat.LockState.C110_completes_partial",
    "Wrtstat.LockState.C110_levels_partial"
   ],
   "note": "The code disagrees with the claim: an initializer that looks at the registry waits for itself (C110_refuted). C110_exact_partial tells exactly when no execution deadlocks: by what handlers and initializers lock and whether enable and pop_all are called; then all calls complete (C110_completes_partial)."
  },
  {
   "property": "C111",
   "status": "partial",
   "theorems": [
    "Wrtstat.C111_refuted",
    "Wrtstat.C111_exactly_once_partial",
    "Wrtstat.C111_counts_partial",
    "Wrtstat.C111_throws_partial",
    "Wrtstat.C111_again_partial",
    "Wrtstat.C111_returned_partial",
    "Wrtstat.C111_again_run_partial",
    "Wrtstat.C111_once_partial"
   ],
   "note": "The code disagrees with the last part of the claim: the window whose handler threw stays open and may be reported a second time (C111_refuted); only such windows are (C111_once_partial). The rest holds: C111_exactly_once_partial and C111_counts_partial for every handler, C111_again_partial and C111_again_run_partial for calls made again, C111_returned_partial for calls that return."
  },
  {
   "property": "C112",
   "status": "partial",
   "theorems": [
    "Wrtstat.C112_refuted",
    "Wrtstat.C112_pushout_partial",
    "Wrtstat.C112_exact_partial",
    "Wrtstat.C112_destroy_partial",
    "Wrtstat.C112_multi_partial",
    "Wrtstat.C112_multi_stop_partial",
    "Wrtstat.C112_multi_again_partial"
   ],
   "note": "The code disagrees with the claim for wrtstat: pushout_ pops all records before the first is handed over, those left are lost when the handler throws (C112_refuted), exactly when it throws before the last (C112_exact_partial); what is done otherwise is C112_pushout_partial, and C112_destroy_partial for the destructor. multi_aggregator satisfies the claim (C112_multi_partial, C112_multi_again_partial)."
  },
  {
   "property": "C113",
   "status": "partial",
   "theorems": [
    "Wrtstat.C113_refuted",
    "Wrtstat.C113_push_partial",
    "Wrtstat.C113_returned_partial",
    "Wrtstat.C113_resume_partial",
    "Wrtstat.C113_stop_partial",
    "Wrtstat.C113_first_partial",
    "Wrtstat.C113_meter_throws_partial",
    "Wrtstat.C113_meter_partial",
    "Wrtstat.C113_composite_refuted",
    "Wrtstat.C113_composite_resume_partial"
   ],
   "note": "The code disagrees with the claim for multi_push (C113_refuted) and composite meters (C113_composite_refuted): parts before the one that threw are recorded again. It holds for push (C113_push_partial), simple meters (C113_meter_partial) and when the first request threw (C113_first_partial); otherwise the call is completed by the parts from the one that threw on (C113_resume_partial, C113_composite_resume_partial)."
  },
  {
   "property": "C114",
   "status": "partial",
   "theorems": [
    "Wrtstat.C114_refuted",
    "Wrtstat.C114_kept_partial",
    "Wrtstat.C114_again_partial",
    "Wrtstat.C114_returned_partial",
    "Wrtstat.C114_rest_partial",
    "Wrtstat.C114_exact_partial"
   ],
   "note": "The code disagrees with the claim (C114_refuted): an exception on the last batch, of requests that exceed the limits, leaves moved-from requests in the packer. The claim holds exactly if it is not this batch (C114_exact_partial, C114_kept_partial, C114_again_partial); what is left in that case is told by C114_rest_partial."
  },
  {
   "property": "C115",
   "status": "partial",
   "theorems": [
    "Wrtstat.C115_add_partial",
    "Wrtstat.C115_laps_partial",
    "Wrtstat.C115_separate_partial",
    "Wrtstat.C115_count_partial",
    "Wrtstat.C115_exact_partial",
    "Wrtstat.C115_refuted",
    "Wrtstat.C115_total_partial",
    "Wrtstat.C115_shortcut_partial"
   ],
   "note": "The code disagrees with the claim (C115_refuted): separate walks window by window. The number of rounds is exactly the number of steps the window moves (C115_laps_partial, C115_count_partial, C115_total_partial), bounded exactly as C115_exact_partial says; one assignment would do the same (C115_shortcut_partial)."
  },
  {
   "property": "C116",
   "status": "partial",
   "theorems": [
    "Wrtstat.C116_refuted",
    "Wrtstat.C116_larger_first_partial",
    "Wrtstat.C116_rest_partial",
    "Wrtstat.C116_spaced_partial"
   ],
   "note": "The code disagrees with the claim (C116_refuted): the larger request leaves first (C116_larger_first_partial), in the last batch of pushout the smaller (C116_rest_partial). The order is kept for names of which the packer never holds two requests (C116_spaced_partial)."
  },
  {
   "property": "C117",
   "status": "partial",
   "theorems": [
    "Wrtstat.C117_name_partial",
    "Wrtstat.C117_counts_partial",
    "Wrtstat.C117_exact_partial",
    "Wrtstat.C117_spaced_partial",
    "Wrtstat.C117_refuted"
   ],
   "note": "The code disagrees with the claim (C117_refuted): the packer sends the larger record first, and the second multi_aggregator refuses the one overtaken. The books of the whole relay are C117_counts_partial; the claim holds exactly if the second refuses nothing (C117_exact_partial), for instance for names of which the packer never holds two records (C117_spaced_partial). C117_name_partial gives the books of one multi_aggregator for every history."
  },
  {
   "property": "C118",
   "status": "partial",
   "theorems": [
    "Wrtstat.C118_refuted",
    "Wrtstat.C118_refuted_object",
    "Wrtstat.C118_object_partial",
    "Wrtstat.C118_array_partial",
    "Wrtstat.C118_range_partial",
    "Wrtstat.C118_multi_range_partial",
    "Wrtstat.C118_exact_partial",
    "Wrtstat.C118_exact_array_partial"
   ],
   "note": "The code disagrees with the claim (C118_refuted): [] and {} are accepted. What is accepted exactly is C118_exact_partial and C118_exact_array_partial; the values of the members are C118_object_partial and C118_array_partial; the range is C118_range_partial and C118_multi_range_partial."
  },
  {
   "property": "C119",
   "status": "partial",
   "theorems": [
    "Wrtstat.C119_samples_partial",
    "Wrtstat.C119_complete_partial",
    "Wrtstat.C119_percentiles_partial",
    "Wrtstat.C119_low_partial",
    "Wrtstat.C119_never_high_partial",
    "Wrtstat.C119_unbounded",
    "Wrtstat.C119_refuted",
    "Wrtstat.C119_refuted_nth",
    "Wrtstat.C119_refuted_dropped",
    "Wrtstat.C119_aggregator_partial",
    "Wrtstat.C119_aggregator_low_partial"
   ],
   "note": "The code disagrees with the claim: with a last row that is short the samples beyond it come from the first row only, and no tolerance is enough (C119_refuted, C119_unbounded); in nth mode large values may be missed (C119_refuted_nth); values beyond limit times levels are not told (C119_refuted_dropped). With rows sorted the number of samples below a bound is given up to n(n-1)/2 (C119_samples_partial), so that percentiles are right up to this for complete rows (C119_complete_partial, C119_percentiles_partial). In every mode and for every nth_element small values are not missed (C119_low_partial), so that percentiles are not too high (C119_never_high_partial). C119_aggregator_partial and C119_aggregator_low_partial say the same of every record of an aggregator with steady options."
  },
  {
   "property": "C120",
   "status": "partial",
   "theorems": [
    "Wrtstat.C120_thinned",
    "Wrtstat.C120_remains",
    "Wrtstat.C120_loss_partial",
    "Wrtstat.C120_balance_partial",
    "Wrtstat.C120_unthinned_partial",
    "Wrtstat.C120_refuted"
   ],
   "note": "Refuted (C120_refuted): the samples removed by outgoing_reduced_size are not told. C120_loss_partial and C120_balance_partial tell exactly what every record tells and carries and when it balances."
  },
  {
   "property": "C121",
   "status": "partial",
   "theorems": [
    "Wrtstat.C121_windows_partial",
    "Wrtstat.C121_steady_partial",
    "Wrtstat.C121_refuted"
   ],
   "note": "Refuted (C121_refuted): in adapt mode the current mode of a reducer survives clear and detach, so a window of 35 events changes the median of the next one. C121_windows_partial: only the current mode can come from earlier windows; with steady options (C121_steady_partial) nothing does."
  },
  {
   "property": "C122",
   "status": "partial",
   "theorems": [
    "Wrtstat.C122_refuted",
    "Wrtstat.C122_refuted_counts",
    "Wrtstat.C122_same_partial",
    "Wrtstat.C122_exact_partial",
    "Wrtstat.C122_list_partial",
    "Wrtstat.C122_forms_partial",
    "Wrtstat.C122_cut_partial",
    "Wrtstat.C122_push_partial",
    "Wrtstat.C122_push_list_partial"
   ],
   "note": "Refuted: a call with nothing makes a summary of nothing (C122_refuted), and counts smaller than the number of values are told as loss elsewhere (C122_refuted_counts). C122_same_partial: same state whenever weights and extremes agree as well, in every state of a reducer; C122_exact_partial: for a new reducer exactly then. C122_list_partial, C122_forms_partial, C122_cut_partial: the forms of add in terms of each other; C122_push_partial: the same for an aggregator."
  },
  {
   "property": "C123",
   "status": "partial",
   "theorems": [
    "Wrtstat.C123_refuted",
    "Wrtstat.C123_refuted_avg",
    "Wrtstat.C123_reducer_partial",
    "Wrtstat.C123_double_partial",
    "Wrtstat.C123_records_partial"
   ],
   "note": "Refuted: the samples kept of a window with more than limit values depend on the order (C123_refuted), and with double so does the average, even of 0, 2, 5, 0, 3 (C123_refuted_avg). C123_reducer_partial and C123_records_partial: count, loss, extremes and number of samples never depend on the order, the average not in exact arithmetic, samples and percentiles (perc100 excepted, see C20) not while there are no more than limit values. C123_double_partial: with double the averages differ by no more than 1."
  },
  {
   "property": "C124",
   "status": "partial",
   "theorems": [
    "Wrtstat.C124_refuted",
    "Wrtstat.C124_refuted_shift",
    "Wrtstat.C124_records_partial",
    "Wrtstat.C124_average_partial"
   ],
   "note": "Refuted for the average, which is a whole number: 1 and 2 have the average 1, 10 and 20 have 15 (C124_refuted). A change that moves zero changes which extremes of a summary handed over count (C124_refuted_shift). C124_records_partial: everything but the average changes as claimed, for every function of the values that keeps zero and the order, with every rounding. C124_average_partial: in exact arithmetic the average is off by less than the factor."
  },
  {
   "property": "C125",
   "status": "partial",
   "theorems": [
    "Wrtstat.C125_refuted",
    "Wrtstat.C125_history_partial",
    "Wrtstat.C125_start_partial"
   ],
   "note": "Refuted: an event of the first step after time 0 is aligned to 0 and lost (see C14), the same event one step later is not (C125_refuted). C125_history_partial: from one step after time 0 on it holds, for all calls, faults included. C125_start_partial: of making and clearing an aggregator too."
  },
  {
   "property": "C126",
   "status": "partial",
   "theorems": [
    "Wrtstat.Rw.C126_refuted",
    "Wrtstat.Rw.C126_free_partial",
    "Wrtstat.Rw.C126_returns_partial",
    "Wrtstat.Rw.C126_overtaken_partial"
   ],
   "note": "Refuted: one writer that takes the lock again each time before the reader it has woken runs keeps the reader out for ever (C126_refuted). C126_free_partial: while no writer holds the lock a reader gets it by four steps of its own. C126_returns_partial: c calls of n threads take at most (12n+6)c+6k steps with k spurious wake-ups, and in the end every thread is out of its call or sleeps because of a holder. C126_overtaken_partial: so in an execution without end there are always further calls (or spurious wake-ups): waiting for ever means being overtaken for ever. The last two hold of writers as well (see C71)."
  },
  {
   "property": "C127",
   "status": "partial",
   "theorems": [
    "Wrtstat.C127_stalls",
    "Wrtstat.C127_refuted",
    "Wrtstat.C127_refuted_ts",
    "Wrtstat.C127_refuted_order",
    "Wrtstat.C127_sum_partial"
   ],
   "note": "Refuted: the average is rounded at every addition and may stall: of m zeros and then j times m the average is told as 0 (C127_stalls, C127_refuted), in the reverse order not (C127_refuted_order); a summary without time, as a reducer gives it, is overwritten by the next (C127_refuted_ts). C127_sum_partial: for summaries with a time, events, losses, minimum and time are right and the average is off by at most the number of additions."
  },
  {
   "property": "C128",
   "status": "partial",
   "theorems": [
    "Wrtstat.C128_refuted",
    "Wrtstat.C128_refuted_cascade",
    "Wrtstat.C128_equal_partial",
    "Wrtstat.C128_range_partial",
    "Wrtstat.C128_cascade_partial"
   ],
   "note": "Refuted: add(v, count) enters the average once, whatever the count (C128_refuted); add(reduced_data) ignores avg and takes the samples left (C128_refuted_cascade). C128_equal_partial: right if all calls stand for as many events. C128_range_partial: off by no more than the values differ. C128_cascade_partial: right in a second tier if no sample was dropped on the way."
  },
  {
   "property": "C129",
   "status": "proved",
   "theorems": [
    "Wrtstat.C129_times",
    "Wrtstat.C129_accepted"
   ],
   "note": "C129_times for whole histories, C129_accepted for the answer of the next call. Both runs are assumed to end without fault."
  },
  {
   "property": "C130",
   "status": "proved",
   "theorems": [
    "Wrtstat.C130_counted",
    "Wrtstat.C130_monotone",
    "Wrtstat.C130_lossless"
   ],
   "note": "C130_counted, C130_monotone, C130_lossless. The rounding is the same in both runs, and both end without fault. perc100 is excepted (see C20)."
  },
  {
   "property": "C131",
   "status": "partial",
   "theorems": [
    "Wrtstat.C131_refuted",
    "Wrtstat.C131_records_partial"
   ],
   "note": "Refuted for samples of thinned windows (C131_refuted: other samples and so other percentiles). C131_records_partial: times, counts, extremes, averages, losses and numbers of samples are the same in all modes, and so are percentiles of records that tell no loss."
  },
  {
   "property": "C132",
   "status": "partial",
   "theorems": [
    "Wrtstat.C132_refuted",
    "Wrtstat.C132_rollup_partial",
    "Wrtstat.C132_in_order",
    "Wrtstat.C132_ordered_partial"
   ],
   "note": "Refuted for events out of order (C132_refuted): the fine aggregator refuses as late what the coarse one still counts. C132_rollup_partial: if both recorded the same calls (histories, moments of polling, other options and machines may differ), records add up. C132_ordered_partial: events in order of time are recorded by both (C132_in_order), so their records add up."
  },
  {
   "property": "C133",
   "status": "proved",
   "theorems": [
    "Wrtstat.C133_fetching",
    "Wrtstat.C133_returns",
    "Wrtstat.C133_polled"
   ],
   "note": "C133_fetching (any history, any state), C133_polled (order), C133_returns (removing fetching calls adds no fault)."
  },
  {
   "property": "C134",
   "status": "partial",
   "theorems": [
    "Wrtstat.C134_refuted",
    "Wrtstat.C134_ticks_partial"
   ],
   "note": "Refuted in general (C134_refuted: a tick past a later event makes that event late). C134_ticks_partial: true if no tick is past an event recorded after it; force does not matter. Events aligned to time 0 excepted (C14)."
  },
  {
   "property": "C135",
   "status": "proved",
   "theorems": [
    "Wrtstat.C135_names"
   ],
   "note": "C135_names, through talk_renamed (equality of whole runs, faults included). The choice of a free id and the initializer's answers are parameters of the calls, the same in both runs."
  },
  {
   "property": "C136",
   "status": "partial",
   "theorems": [
    "Wrtstat.C136_witnesses",
    "Wrtstat.C136_refuted",
    "Wrtstat.C136_sorting_partial"
   ],
   "note": "Refuted (C136_refuted, C136_witnesses): percentiles of windows thinned in nth mode, perc100 of more than 200 samples, and the samples left by outgoing_reduced_size depend on the library. C136_sorting_partial: if rows are always sorted all else is the same, perc100 if reducer_limit is at most 200, the samples if they are not thinned on delivery. In nth mode see C131_records_partial."
  },
  {
   "property": "C137",
   "status": "partial",
   "theorems": [
    "Wrtstat.C137_witnesses",
    "Wrtstat.C137_refuted",
    "Wrtstat.C137_exact_partial"
   ],
   "note": "Refuted (C137_refuted, C137_witnesses): windows with counts or extremes but no values or no room for samples have percentiles and average 0 outside the extremes. C137_exact_partial: samples always lie between the extremes; percentiles are in order and between them exactly if a value was recorded and there was room for one, or 0 lies between; the average too, for extremes that are doubles, exactly if a value was recorded or 0 lies between."
  },
  {
   "property": "C138",
   "status": "partial",
   "theorems": [
    "Wrtstat.C138_refuted",
    "Wrtstat.C138_sizes_partial",
    "Wrtstat.C138_distinct_partial"
   ],
   "note": "Refuted (C138_refuted): of different requests of the same JSON size the order decides which leaves first. C138_distinct_partial: with no two different requests recorded with the same size, batches, single requests and the packer left are the same, for all options. C138_sizes_partial: without compaction of names sizes alone decide: whatever is pushed, if the sizes of each round are the same in some order, as many batches come out, each with requests of the same sizes in the same order."
  },
  {
   "property": "C139",
   "status": "partial",
   "theorems": [
    "Wrtstat.C139_refuted",
    "Wrtstat.C139_refuted_compact",
    "Wrtstat.C139_filled_partial",
    "Wrtstat.C139_pairs_partial"
   ],
   "note": "Refuted (C139_refuted): the room is computed with the separator ~~, too small for shorter ones; C139_refuted_compact: with compaction of names multi_pop stops at a request that does not fit with its words though another would. C139_filled_partial: without compaction true up to the difference in length between the separator and ~~. C139_pairs_partial: then no two of the batches pushout counts fit in one, unless the first has push_limit requests, which bounds their number by the total length."
  },
  {
   "property": "C140",
   "status": "partial",
   "theorems": [
    "Wrtstat.C140_refuted",
    "Wrtstat.C140_times_partial"
   ],
   "note": "Refuted (C140_refuted): six requests that fit in two batches make three. C140_times_partial: without compaction of names fewer than three times as many as any division, and fewer than twice with no push_limit."
  },
  {
   "property": "C141",
   "status": "partial",
   "theorems": [
    "Wrtstat.C141_refuted",
    "Wrtstat.C141_times_partial"
   ],
   "note": "Refuted (C141_refuted): ten requests make three batches with a limit of 491 and four with 499. C141_times_partial: without compaction of names fewer than three times as many, and fewer than twice with no push_limit."
  },
  {
   "property": "C142",
   "status": "partial",
   "theorems": [
    "Wrtstat.C142_witnesses",
    "Wrtstat.C142_refuted",
    "Wrtstat.C142_count_partial",
    "Wrtstat.C142_extremes_partial",
    "Wrtstat.C142_all_partial"
   ],
   "note": "Refuted (C142_refuted; C142_witnesses has three ways). A part that has counts but no values delivers min = 2^63-1 and max = -2^63, which are not 0 and so are taken over; the merged record then tells min = -2^63 and max = 2^63-1 (full range). An extreme of 0 whose sample was thinned away is not taken over. Loss, average and percentiles are of the samples that arrive. C142_count_partial: the count is always the same. C142_extremes_partial: the extremes are the same if every part saw a value and no extreme of 0 is missing among the samples. C142_all_partial: with room for all values everywhere the samples, loss, percentiles and, in exact arithmetic, the average are the same."
  },
  {
   "property": "C143",
   "status": "partial",
   "theorems": [
    "Wrtstat.C143_witnesses",
    "Wrtstat.C143_refuted",
    "Wrtstat.C143_refuted_avg",
    "Wrtstat.C143_refuted_min",
    "Wrtstat.C143_records_partial"
   ],
   "note": "Refuted in three ways (C143_refuted, C143_refuted_avg, C143_refuted_min, C143_witnesses). With double the average falls by 128 when the first of the values 127 and -2^60 rises to 129. A merged minimum that rises from 0, which is not taken, to 1 lowers the minimum. In mode nth an nth_element that leaves larger values in another order may pass over a sample. C143_records_partial, for all histories: times, counts, losses and numbers of samples are the same; extremes do not fall unless merged extremes become or cease to be 0; averages do not fall in exact arithmetic; percentiles do not fall if rows are always sorted, thinning included, or if nothing was lost."
  },
  {
   "property": "C144",
   "status": "partial",
   "theorems": [
    "Wrtstat.C144_thinned",
    "Wrtstat.C144_thirds",
    "Wrtstat.C144_thirds_partial",
    "Wrtstat.C144_unthinned_partial",
    "Wrtstat.C144_witnesses",
    "Wrtstat.C144_refuted",
    "Wrtstat.C144_refuted_size"
   ],
   "note": "Refuted: with outgoing_reduced_size 2 a reducer_limit of 5 delivers three samples of eleven values and a limit of 6 delivers two (C144_refuted); of nine samples five are delivered with outgoing_reduced_size 4 and four with 5 (C144_refuted_size, C144_witnesses). C144_thirds_partial, for all histories: at least two thirds as many, and this is reached. C144_unthinned_partial: the claim holds if the larger room is not thinned on the way out. C144_thinned: of more than R samples at least three quarters of R remain."
  },
  {
   "property": "C145",
   "status": "partial",
   "theorems": [
    "Wrtstat.C145_witness",
    "Wrtstat.C145_refuted",
    "Wrtstat.C145_step",
    "Wrtstat.C145_exact_partial",
    "Wrtstat.C145_polled_partial"
   ],
   "note": "Refuted: force_pop on an aggregator without events dereferences a null pointer in the older sources and returns null now (C145_refuted, C145_witness). C145_exact_partial, for all histories and from any state: a history runs in the older sources iff it runs in the current ones and no force_pop in it finds nothing, and then everything observable is the same. C145_step: operation by operation, faults included. C145_polled_partial: without force_pop there is no difference; in particular the abort at the end of the older reduce_ cannot be reached."
  },
  {
   "property": "C146",
   "status": "proved",
   "theorems": [
    "Wrtstat.C146_sharded",
    "Wrtstat.C146_report",
    "Wrtstat.C146_silent",
    "Wrtstat.C146_stranded",
    "Wrtstat.C146_no_shards"
   ],
   "note": "C146_sharded: name by name it is one aggregator, pushes with their own handlers. C146_report: every record handed over or waiting is the report of its window. C146_silent, C146_stranded, C146_no_shards: pushes without handlers and a map of no shards."
  },
  {
   "property": "C147",
   "status": "proved",
   "theorems": [
    "Wrtstat.Wrt.C147_orderly"
   ],
   "note": "C147_orderly. It needs no condition on the clock, which C35_destruction_partial does. exShutdown: the window of one of two names ends before force_pushout; the forced call reports the other, the call after it reports this one. The examples beside it show that neither the first nor the last call can be left out."
  },
  {
   "property": "C148",
   "status": "proved",
   "theorems": [
    "Wrtstat.Wrt.C148_polling"
   ],
   "note": "C148_polling: with polls, the calls one after the other; Registry.owed counts the records owed."
  },
  {
   "property": "C149",
   "status": "partial",
   "theorems": [
    "Wrtstat.C149_exact_partial",
    "Wrtstat.C149_refused",
    "Wrtstat.C149_refuted",
    "Wrtstat.C149_forward",
    "Wrtstat.C149_defaults"
   ],
   "note": "Refuted: the older sources always write the member prefixes, which today's strict mode refuses, so no such text is ever accepted (C149_refused, C149_refuted); the overload with a pointer has by then assigned all the settings. C149_exact_partial: for every argument, what is loaded today is exactly what was loaded and has no member prefixes, with the same result. C149_forward: the older sources load everything written today."
  },
  {
   "property": "C150",
   "status": "partial",
   "theorems": [
    "Wrtstat.Spin.C150_progress_partial",
    "Wrtstat.Spin.C150_overtaken_partial",
    "Wrtstat.Spin.C150_exact_partial",
    "Wrtstat.Spin.C150_returns_partial",
    "Wrtstat.Spin.C150_refuted"
   ],
   "note": "Refuted: one thread can take the lock again and again while the other looks only when it is taken (C150_refuted, a fair run of two threads). Proved for all fair runs: while any thread waits the lock is got by some thread (C150_progress_partial), a call never returns iff it is overtaken for ever (C150_exact_partial), and it returns when the others get the lock only finitely often (C150_returns_partial)."
  },
  {
   "property": "C151",
   "status": "proved",
   "theorems": [
    "Wrtstat.Aggregator.C151_windows",
    "Wrtstat.Aggregator.C151_time",
    "Wrtstat.Aggregator.C151_events"
   ],
   "note": "C151_windows gives the beginnings of the windows as a permutation, so the records are exactly these; C151_time bounds their number by the time passed, C151_events by the recorded calls, whatever is called. The second example shows that force_pop may report a window twice."
  },
  {
   "property": "C152",
   "status": "proved",
   "theorems": [
    "Wrtstat.C152_clock",
    "Wrtstat.C152_start",
    "Wrtstat.C152_history",
    "Wrtstat.C152_resolution"
   ],
   "note": "C152_clock for the readings, C152_history for any factor between the units, C152_resolution for the resolutions of the library, C152_start for construction and clear. Construction needs soiled_start_ts = 0: the random beginning of the first window is not scaled. The last example shows why moments of the first second are left out: told in seconds they are 0, which means now."
  },
  {
   "property": "C153",
   "status": "proved",
   "theorems": [
    "Wrtstat.C153_window",
    "Wrtstat.C153_add",
    "Wrtstat.C153_push"
   ],
   "note": "C153_window says where the window is after any history, C153_add and C153_push whether the next event is recorded, in terms of the times of the calls alone."
  },
  {
   "property": "C154",
   "status": "partial",
   "theorems": [
    "Wrtstat.C154_loses",
    "Wrtstat.C154_refuted",
    "Wrtstat.C154_exact_partial",
    "Wrtstat.C154_past_partial"
   ],
   "note": "Refuted: after one event with a time ahead all events before its window are lost (C154_refuted). C154_loses gives the exact loss of any event or tick: the later events recorded without it that are before its window, and no others; so nothing is lost iff there are none (C154_exact_partial), in particular when it is in the current window or in the past (C154_past_partial)."
  },
  {
   "property": "C155",
   "status": "partial",
   "theorems": [
    "Wrtstat.Legacy.C155_registry",
    "Wrtstat.Legacy.Manager.C155_manager",
    "Wrtstat.C155_witness",
    "Wrtstat.C155_refuted",
    "Wrtstat.C155_exact_partial",
    "Wrtstat.C155_polled_partial",
    "Wrtstat.C155_end"
   ],
   "note": "Refuted: a force_pop of a meter without events is undefined in the older sources and answers nothing now (C155_refuted, C155_witness). C155_exact_partial: a history runs in the older class iff it runs in the current one and no force_pop in it finds an aggregator with nothing in it, and then the client is told the same. C155_registry and C155_manager: call by call, from any state, faults included. C155_polled_partial: without force_pop there is no difference. C155_end: only wrtstat hands over the open windows when it is destroyed. The older pool, dict and locks are the same text as the current ones."
  },
  {
   "property": "C156",
   "status": "proved",
   "theorems": [
    "Wrtstat.C156_step",
    "Wrtstat.C156_push",
    "Wrtstat.C156_del",
    "Wrtstat.C156_again"
   ],
   "note": "C156_push is the criterion, C156_del that of del, C156_again what follows for a name deleted and pushed again."
  },
  {
   "property": "C157",
   "status": "proved",
   "theorems": [
    "Wrtstat.C157_add",
    "Wrtstat.C157_pop_all"
   ],
   "note": "C157_add is the criterion for add by id and by name, C157_pop_all what follows after pop_all."
  },
  {
   "property": "C158",
   "status": "partial",
   "theorems": [
    "Wrtstat.C158_ends_partial",
    "Wrtstat.C158_none",
    "Wrtstat.C158_not_none",
    "Wrtstat.C158_refuted",
    "Wrtstat.C158_exact_partial",
    "Wrtstat.C158_no_clock"
   ],
   "note": "The claim for all resolutions is refuted by C158_refuted. C158_exact_partial: it holds for a resolution if and only if it is not none. C158_none says what happens without one, C158_no_clock what now() tells for numbers that are no resolution."
  },
  {
   "property": "C159",
   "status": "proved",
   "theorems": [
    "Wrtstat.C159_ledger"
   ],
   "note": "C159_ledger: ledger is a fold over the client operations that mentions neither separators nor reducers; Entry.Says allows exactly the Report of the pushes (without percentiles when handed over by a push, which is the finding of C40)."
  },
  {
   "property": "C160",
   "status": "proved",
   "theorems": [
    "Wrtstat.C160_daybook",
    "Wrtstat.C160_look",
    "Wrtstat.C160_registry"
   ],
   "note": "C160_daybook: daybook is a fold over the calls that mentions neither separators nor reducers; C160_look is aggregate_current; C160_registry applies it name by name to a registry. The order of force_pop before queued records is the finding of C25."
  },
  {
   "property": "C161",
   "status": "proved",
   "theorems": [
    "Wrtstat.C161_fullbook",
    "Wrtstat.C161_look",
    "Wrtstat.C161_registry",
    "Wrtstat.C161_timely"
   ],
   "note": "C161_fullbook has no hypothesis on the calls; C161_timely shows that it is C160 if no event is aligned to zero; C161_look is aggregate_current and C161_registry is the registry."
  },
  {
   "property": "C162",
   "status": "proved",
   "theorems": [
    "Wrtstat.C162_account"
   ],
   "note": "C162_account: the account of a name is a fold over the calls that mentions neither aggregators nor shards. It extends C159 by dropping the conditions on times, clocks and the start, and by the answers."
  },
  {
   "property": "C163",
   "status": "proved",
   "theorems": [
    "Wrtstat.C163_desk",
    "Wrtstat.C163_names"
   ],
   "note": "C163_desk: linearizability (C56) with respect to the books, a specification that mentions neither separators nor reducers; desk_step is the refinement. C163_names is the multi aggregator."
  },
  {
   "property": "C164",
   "status": "proved",
   "theorems": [
    "Wrtstat.C164_folio",
    "Wrtstat.C164_answers"
   ],
   "note": "C164_folio is the state, C164_answers every answer; filed_step is the refinement. The folio is a fold over the operations and mentions neither maps, positions, separators nor reducers. Ids of another form are the finding of C29 and C30."
  },
  {
   "property": "C165",
   "status": "proved",
   "theorems": [
    "Wrtstat.C165_total",
    "Wrtstat.C165_no_ids",
    "Wrtstat.C165_no_step"
   ],
   "note": "C165_total; C165_no_ids and C165_no_step show that both steps must be positive. That ids are left is Room; without it C98 is about what happens."
  },
  {
   "property": "C166",
   "status": "proved",
   "theorems": [
    "Wrtstat.C166_total",
    "Wrtstat.C166_no_handler"
   ],
   "note": "C166_total with a handler, C166_no_handler without. C36 was about single calls after histories that ran; here the histories themselves run, for ids of any form and any clocks."
  },
  {
   "property": "C167",
   "status": "proved",
   "theorems": [
    "Wrtstat.C167_answers",
    "Wrtstat.C167_end"
   ],
   "note": "C167_answers and C167_end; with C166 every such operation has an answer. Multi meters are lists of these meters (C38_multi, C38_multi_simple)."
  },
  {
   "property": "C168",
   "status": "proved",
   "theorems": [
    "Wrtstat.C168_step",
    "Wrtstat.C168_history",
    "Wrtstat.C168_answers",
    "Wrtstat.C168_folio"
   ],
   "note": "C168_step and C168_history are the reading of ids, C168_answers and C168_folio the folio; with id_step 1 every id but 0 is regular. That events for ids never given out are recorded at all is the finding of C29 and C30."
  },
  {
   "property": "C169",
   "status": "proved",
   "theorems": [
    "Wrtstat.Registry.C169_books"
   ],
   "note": "C169_books, from the log of C83 and the books of C161."
  },
  {
   "property": "C170",
   "status": "proved",
   "theorems": [
    "Wrtstat.Registry.C170_waits",
    "Wrtstat.Registry.C170_ends",
    "Wrtstat.Registry.C170_drain"
   ],
   "note": "C170_waits, C170_ends, C170_drain. A critical section of an aggregator is one move, so waiting for the mutex of an aggregator is not seen; C54 has the locks one by one, and the deadlock of handlers that call the registry. Fairness of the scheduler is not assumed."
  },
  {
   "property": "C171",
   "status": "proved",
   "theorems": [
    "Wrtstat.C171_total",
    "Wrtstat.C171_exact",
    "Wrtstat.C171_accounts",
    "Wrtstat.C171_no_fault"
   ],
   "note": "C171_total, C171_exact, C171_accounts, C171_no_fault. Strengthens C39_total and C87_names, which ask for clocks that are not negative, and C162, which has one thread. What a call that throws leaves behind is not described here."
  },
  {
   "property": "C172",
   "status": "proved",
   "theorems": [
    "Wrtstat.C172_books",
    "Wrtstat.C172_throws",
    "Wrtstat.C172_again",
    "Wrtstat.C172_total"
   ],
   "note": "C172_books, C172_throws, C172_again, C172_total. C111 says what an exception does to one call; here whole histories with exceptions are described in full."
  },
  {
   "property": "C173",
   "status": "proved",
   "theorems": [
    "Wrtstat.C173_account",
    "Wrtstat.C173_stop",
    "Wrtstat.C173_total"
   ],
   "note": "C173_account, C173_stop, C173_total. Extends C162 and C171 to exceptions; C112 and C113 describe one call. A call without a handler is one whose handler always throws (bad_function_call), the request being lost."
  },
  {
   "property": "C174",
   "status": "proved",
   "theorems": [
    "Wrtstat.C174_composite",
    "Wrtstat.C174_answers",
    "Wrtstat.C174_end",
    "Wrtstat.C174_total",
    "Wrtstat.C174_calm"
   ],
   "note": "C174_answers, C174_end, C174_total, C174_composite, C174_calm. Extends C166 and C167 to exceptions; C112 and C113 describe one call, and refute that nothing is lost or recorded twice. What a handler does in a composite call depends on the record at hand."
  },
  {
   "property": "C175",
   "status": "proved",
   "theorems": [
    "Wrtstat.C175_total",
    "Wrtstat.C175_books",
    "Wrtstat.C175_events",
    "Wrtstat.C175_clean",
    "Wrtstat.C175_calm"
   ],
   "note": "C175_total, C175_books, C175_events, C175_clean, C175_calm. Extends C43 and C114 to histories that go on after exceptions; C114 refutes that nothing is handed over twice. Restoring the requests assumes legends of at most 2^64 words."
  },
  {
   "property": "C176",
   "status": "proved",
   "theorems": [
    "Wrtstat.C176_desk",
    "Wrtstat.C176_bodies",
    "Wrtstat.C176_calm",
    "Wrtstat.C176_threw"
   ],
   "note": "C176_desk, C176_bodies (bodies in steps), C176_threw, C176_calm. Joins C163 and C172. As in C163 a handler does not call the aggregator again."
  },
  {
   "property": "C177",
   "status": "proved",
   "theorems": [
    "Wrtstat.C177_accounts",
    "Wrtstat.C177_bodies",
    "Wrtstat.C177_made_of_sections",
    "Wrtstat.C177_no_fault",
    "Wrtstat.C177_no_deadlock",
    "Wrtstat.C177_calm",
    "Wrtstat.C177_alone"
   ],
   "note": "C177_accounts, C177_bodies (bodies in steps), C177_made_of_sections, C177_no_fault, C177_no_deadlock, C177_calm. Joins C171 and C173. As in C171 calls have handlers, and handlers do not call the object."
  },
  {
   "property": "C178",
   "status": "proved",
   "theorems": [
    "Wrtstat.Registry.C178_books",
    "Wrtstat.Registry.C178_threw",
    "Wrtstat.Registry.C178_calm",
    "Wrtstat.Registry.C178_no_fault"
   ],
   "note": "C178_books, C178_threw, C178_calm (without exceptions: the steps of C169), C178_no_fault (values within the bounds of the reducer). Joins C169 and C172."
  },
  {
   "property": "C179",
   "status": "proved",
   "theorems": [
    "Wrtstat.Registry.C179_waits",
    "Wrtstat.Registry.C179_ends",
    "Wrtstat.Registry.C179_drain",
    "Wrtstat.Registry.C179_throws_iff",
    "Wrtstat.Registry.C179_throws_separate"
   ],
   "note": "C179_waits, C179_ends, C179_drain, C179_throws_iff (pushers), C179_throws_separate. Room for the names and bounds for the values are assumed, as in C170."
  },
  {
   "property": "C180",
   "status": "partial",
   "theorems": [
    "Wrtstat.Legacy.C180_refuted",
    "Wrtstat.Legacy.C180_member_partial",
    "Wrtstat.Legacy.C180_exact_partial",
    "Wrtstat.Legacy.C180_never_partial",
    "Wrtstat.Legacy.C180_lineage_partial",
    "Wrtstat.Legacy.C180_moved_from_partial"
   ],
   "note": "Refuted (C180_refuted): the move assignment copies _hash_size, which no constructor initializes. C180_member_partial tells when the member has a value (it is 0 then), C180_exact_partial tells exactly which moves are defined, C180_never_partial: without objects in static or thread storage no assignment is. C180_lineage_partial: in every program that is defined the contents go on as if they had never been moved; C180_moved_from_partial: a push to a map moved from is a fault."
  },
  {
   "property": "C181",
   "status": "partial",
   "theorems": [
    "Wrtstat.SpinNew.C181_refuted",
    "Wrtstat.SpinNew.C181_exact_partial",
    "Wrtstat.SpinNew.C181_others_partial",
    "Wrtstat.SpinNew.C181_same_partial"
   ],
   "note": "Refuted (C181_refuted): the move constructor exchanges an atomic it does not initialize, which until C++20 is undefined. C181_exact_partial tells exactly when a lock is built by a move, and how; C181_others_partial: nothing else is undefined; C181_same_partial: a program that is defined does what it does in C++20. What the flag of a moved lock is good for is told in C105."
  },
  {
   "property": "C182",
   "status": "proved",
   "theorems": [
    "Wrtstat.LockState.C182_exact",
    "Wrtstat.LockState.C182_for_ever",
    "Wrtstat.LockState.C182_free",
    "Wrtstat.LockState.C182_blocks"
   ],
   "note": "Proved. C182_exact tells which calls of threads can reach a deadlock; C182_for_ever, C182_blocks: the two threads stay blocked. C182_free, C182_blocks: the same for infinitely many threads. It contains C54_no_handler_partial and C54_no_enable_partial, and says what C54 is short of. The locks of the calls are those of Model/RegistryLocks."
  },
  {
   "property": "C183",
   "status": "partial",
   "theorems": [
    "Wrtstat.LockState.C183_exact_partial",
    "Wrtstat.LockState.C183_ends_partial",
    "Wrtstat.LockState.C183_refuted"
   ],
   "note": "Refuted (C183_refuted): as in the current registry, a handler that asks for the name holds the mutex of the aggregator that enable waits for. C183_exact_partial: finitely many threads can deadlock exactly if one pushes to an aggregator whose handler asks for the name and another calls enable with that aggregator in the registry. C183_ends_partial: otherwise all calls end."
  }
 ]
}