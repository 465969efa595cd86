{"id": "C01", "title": "Summary count is the sum of the counts added", "statement": "For a reducer built with any options, after any sequence of add calls, total_count() and the count of the summary returned by detach() equal the sum of the count arguments of those calls.", "quantifier": "every option set, every finite sequence of add calls (single value, vector, initializer list, reduced_data)", "why_tests_cant": "the sequence length, the options and the arguments are unbounded; tests try a few fixed sizes", "anchors": ["wrtstat/aggregator/reducer.cpp:add", "wrtstat/aggregator/reducer.cpp:total_count", "wrtstat/aggregator/reducer.cpp:detach"]}
{"id": "C02", "title": "Loss accounting balances", "statement": "In the summary returned by detach(), lossy plus the number of returned samples equals the sum over all add calls of max(count, number of values in the call); in particular lossy + data.size() = count whenever every call has count >= its number of values.", "quantifier": "every option set, every finite sequence of add calls, every std::nth_element implementation", "why_tests_cant": "depends on how many levels are filled, where the last level stops and on thinning; infinitely many combinations", "anchors": ["wrtstat/aggregator/reducer.cpp:lossy_count", "wrtstat/aggregator/reducer.cpp:add_", "wrtstat/aggregator/reducer.cpp:reduce", "wrtstat/aggregator/reducer.cpp:detach"]}
{"id": "C03", "title": "Samples are never invented", "statement": "The samples returned by detach() form a sub-multiset of the values that were added: every sample was added, and no value is returned more often than it was added. There are never more than reducer_limit samples.", "quantifier": "every option set (sorting, nth and adaptive modes), every sequence of add calls, every conforming std::nth_element", "why_tests_cant": "the thinning loop moves values between levels in place while partially sorting them; only specific sizes are tested", "anchors": ["wrtstat/aggregator/reducer.cpp:reduce", "wrtstat/aggregator/reducer.cpp:nth_element_", "wrtstat/aggregator/reducer.cpp:get_nth_"]}
{"id": "C04", "title": "No thinning below the limit", "statement": "If at most reducer_limit values were added (and reducer_levels >= 1), detach() returns exactly the added values as a multiset and lossy counts only the excess of count over values.", "quantifier": "every option set with at least one level, every sequence of add calls with at most reducer_limit values", "why_tests_cant": "needs all lengths up to an arbitrary limit and all values", "anchors": ["wrtstat/aggregator/reducer.cpp:add_", "wrtstat/aggregator/reducer.cpp:reduce", "wrtstat/aggregator/reducer.cpp:detach"]}
{"id": "C05", "title": "min and max are exact, even for dropped values", "statement": "The min and max of the summary are the minimum and maximum over every value ever added in the window, including the values later dropped, together with the non-zero min/max of merged summaries.", "quantifier": "every option set, every sequence of add calls containing at least one value", "why_tests_cant": "must hold for all values and all drop patterns", "anchors": ["wrtstat/aggregator/reducer.cpp:minmax", "wrtstat/aggregator/reducer.cpp:add", "wrtstat/aggregator/reducer.cpp:detach"]}
{"id": "C06", "title": "avg is the truncated mean of the values", "statement": "In exact arithmetic avg is the arithmetic mean of all the values added (each once, whatever its count), truncated toward zero; with any monotone nearest rounding of the floating point operations avg still lies between the smallest and the largest value.", "quantifier": "every sequence of add calls; every rounding function satisfying the laws of round-to-nearest", "why_tests_cant": "all value sequences; rounding errors accumulate over unbounded histories", "anchors": ["wrtstat/aggregator/reducer.cpp:add_", "wrtstat/aggregator/reducer.cpp:detach"]}
{"id": "C07", "title": "Bounded memory and no fault in the reducer", "statement": "Whatever is added, a reducer never stores more than reducer_limit*reducer_levels values, and neither adding, reducing nor detaching ever indexes out of range or throws.", "quantifier": "every option set including zero limit or levels, every sequence of public operations", "why_tests_cant": "absence of out-of-range access for all shapes of the level table", "anchors": ["wrtstat/aggregator/reducer.cpp:add_", "wrtstat/aggregator/reducer.cpp:reduce", "wrtstat/aggregator/reducer.cpp:filled", "wrtstat/aggregator/reducer.cpp:size"]}
{"id": "C08", "title": "detach empties the reducer, and yields a summary exactly when something was added", "statement": "detach() returns null iff no add call happened since construction, the last detach() or clear(). Afterwards every counter and accessor of the reducer equals that of a freshly built one.", "quantifier": "every option set, every history of add/detach/clear", "why_tests_cant": "history quantifier", "anchors": ["wrtstat/aggregator/reducer.cpp:detach", "wrtstat/aggregator/reducer.cpp:clear", "wrtstat/aggregator/reducer.cpp:empty"]}
{"id": "C09", "title": "Looking at the current window does not disturb it", "statement": "get_reduced()/get_current()/aggregate_current() leave the object unchanged, and report the count, lossy, min, max, avg and number of samples that a real detach would report at that moment.", "quantifier": "every reachable reducer state and option set", "why_tests_cant": "every state; the clone is built by hand, field by field", "anchors": ["wrtstat/aggregator/reducer.cpp:clone", "wrtstat/aggregator/reducer.cpp:get_reduced", "wrtstat/aggregator/separator.cpp:get_current", "wrtstat/aggregator/basic_aggregator.cpp:aggregate_current"]}
{"id": "C10", "title": "Predicted loss equals actual loss", "statement": "lossy_count() queried at any time equals the lossy field of the summary that detach() would return at that moment.", "quantifier": "every reachable reducer state", "why_tests_cant": "all level fill patterns", "anchors": ["wrtstat/aggregator/reducer.cpp:lossy_count", "wrtstat/aggregator/reducer.cpp:reduce"]}
{"id": "C11", "title": "Retained samples are order statistics of their chunk (sorting mode)", "statement": "In sorting mode, with the values of a window cut in arrival order into chunks of reducer_limit, the i-th returned sample is the i-th smallest value of chunk i mod n (n chunks), until the last, shorter chunk is exhausted; from there on the i-th smallest of the first chunk.", "quantifier": "every sorting-mode option set, every sequence of values", "why_tests_cant": "all chunk counts and lengths", "anchors": ["wrtstat/aggregator/reducer.cpp:reduce", "wrtstat/aggregator/reducer.cpp:add_"]}
{"id": "C12", "title": "Windows: every accepted event is reported in the window that contains it", "statement": "Every published summary carries ts = origin + k*step, and summarises exactly the accepted events whose aligned timestamp lies in [ts, ts+step).", "quantifier": "every positive step, every origin, every sequence of add/push/separate calls with arbitrary timestamps", "why_tests_cant": "arbitrary timestamp sequences including gaps, ties and regressions", "anchors": ["wrtstat/aggregator/separator.cpp:add", "wrtstat/aggregator/separator.cpp:push", "wrtstat/aggregator/separator.cpp:separate", "wrtstat/aggregator/separator.cpp:get_ts"]}
{"id": "C13", "title": "Published windows are strictly ordered and unique", "statement": "The ts of the summaries published by one separator/aggregator (without force_pop or clear) are strictly increasing, so no window is published twice.", "quantifier": "every sequence of add/push/separate/pop calls", "why_tests_cant": "history quantifier", "anchors": ["wrtstat/aggregator/separator.cpp:separate"]}
{"id": "C14", "title": "Late events are rejected without effect, others are accepted", "statement": "add/push returns false exactly when the aligned timestamp lies before the start of the current window, and a rejected event changes nothing; it returns true otherwise and the event is recorded.", "quantifier": "every state and timestamp", "why_tests_cant": "every state and timestamp, including timestamps that align to zero", "anchors": ["wrtstat/aggregator/separator.cpp:add", "wrtstat/aggregator/separator.cpp:push"]}
{"id": "C15", "title": "Counts are conserved across windows", "statement": "At any time the counts of all published summaries plus the count pending in the current window equal the sum of the counts of the accepted events.", "quantifier": "every sequence of add/push/separate/pop operations", "why_tests_cant": "unbounded histories", "anchors": ["wrtstat/aggregator/separator.cpp:separate", "wrtstat/aggregator/reducer.cpp:detach"]}
{"id": "C16", "title": "Timestamp alignment", "statement": "get_ts returns a multiple of the step, at distance less than one step of its argument, toward zero; it is monotone and leaves aligned non-zero timestamps unchanged; 0 means now unless resolution is none.", "quantifier": "every timestamp, step and clock value", "why_tests_cant": "all integers", "anchors": ["wrtstat/aggregator/separator.cpp:get_ts"]}
{"id": "C17", "title": "Separation terminates just after the requested time and stays in range", "statement": "For a positive step separate() always terminates; afterwards next_time() is greater than the requested aligned time, and at most max(old next_time, aligned time + step); hence no time arithmetic leaves the 64-bit range if timestamps do not.", "quantifier": "every positive step, state and timestamp", "why_tests_cant": "termination and arithmetic range for every timestamp", "anchors": ["wrtstat/aggregator/separator.cpp:separate", "wrtstat/aggregator/separator.cpp:separator"]}
{"id": "C18", "title": "force separation", "statement": "separate(ts, handler, force=true) publishes the current window even if it is not complete.", "quantifier": "every state and timestamp", "why_tests_cant": "every state", "anchors": ["wrtstat/aggregator/separator.cpp:separate", "wrtstat/aggregator/basic_aggregator.cpp:separate"]}
{"id": "C19", "title": "Percentiles are exact order statistics", "statement": "perc50, perc80, perc95 and perc99 of a published summary are the order statistics of rank floor(n*p/100) (0-based) of its n samples before outgoing thinning, and perc50<=perc80<=perc95<=perc99<=perc100.", "quantifier": "every sample list, every conforming std::nth_element", "why_tests_cant": "in-place partial sorting with a running offset, for every size and implementation", "anchors": ["wrtstat/aggregator/basic_aggregator.cpp:nth_", "wrtstat/aggregator/basic_aggregator.cpp:aggregate2_", "wrtstat/aggregator/basic_aggregator.cpp:calc_perc"]}
{"id": "C20", "title": "perc100 is the largest sample", "statement": "perc100 of a published summary is the maximum of its samples.", "quantifier": "every sample list, every conforming std::nth_element", "why_tests_cant": "depends on unspecified behaviour of nth_element, for every size", "anchors": ["wrtstat/aggregator/basic_aggregator.cpp:aggregate2_"]}
{"id": "C21", "title": "Outgoing thinning respects outgoing_reduced_size", "statement": "With outgoing_reduced_size = R > 0, a published summary carries at most R samples; thinning keeps a subsequence of the samples and never empties a non-empty list.", "quantifier": "every R and every sample list", "why_tests_cant": "all sizes and limits", "anchors": ["wrtstat/aggregator/basic_aggregator.cpp:reduce_"]}
{"id": "C22", "title": "pop is an exactly-once FIFO", "statement": "The sequence of summaries returned by pop() is the sequence of completed windows in the order of completion, each once; nothing is lost or duplicated.", "quantifier": "every interleaving of add and pop calls", "why_tests_cant": "history quantifier", "anchors": ["wrtstat/aggregator/basic_aggregator.cpp:pop", "wrtstat/aggregator/basic_aggregator.cpp:aggregate0_"]}
{"id": "C23", "title": "A disabled aggregator records nothing", "statement": "While disabled, add and push return true and change nothing; re-enabling resumes with all earlier data intact.", "quantifier": "every state, every sequence of operations while disabled", "why_tests_cant": "history quantifier", "anchors": ["wrtstat/aggregator/basic_aggregator.cpp:enable", "wrtstat/aggregator/basic_aggregator.cpp:add", "wrtstat/aggregator/basic_aggregator.cpp:push"]}
{"id": "C24", "title": "clear empties the aggregator and cuts off its pushers", "statement": "After clear(ts) the aggregator publishes nothing recorded before, starts a window at the aligned ts, and pushers created before no longer reach it; pushers created afterwards work.", "quantifier": "every state", "why_tests_cant": "every state and history", "anchors": ["wrtstat/aggregator/basic_aggregator.cpp:clear", "wrtstat/aggregator/basic_aggregator.hpp:create_simple_pusher"]}
{"id": "C25", "title": "force_pop returns the oldest unreported window", "statement": "force_pop() returns null iff the aggregator holds no unreported data; otherwise it returns the oldest unreported window, completed or not.", "quantifier": "every state", "why_tests_cant": "every state and history", "anchors": ["wrtstat/aggregator/basic_aggregator.cpp:force_pop", "wrtstat/aggregator/separator.cpp:force_pop"]}
{"id": "C26", "title": "Every published summary carries its percentiles", "statement": "Whatever the path by which a summary is delivered (pop, force_pop, aggregate_current, push handler, separate handler), its percentiles are those of its samples.", "quantifier": "every state and delivery path", "why_tests_cant": "all paths and states", "anchors": ["wrtstat/aggregator/basic_aggregator.cpp:separate", "wrtstat/aggregator/basic_aggregator.cpp:push_handler_", "wrtstat/aggregator/basic_aggregator.cpp:aggregate0_"]}
{"id": "C27", "title": "Handler and polling delivery are equivalent", "statement": "Feeding events with push and a handler delivers to the handler exactly the summaries, in the same order, that add followed by pop would return.", "quantifier": "every sequence of events", "why_tests_cant": "history quantifier", "anchors": ["wrtstat/aggregator/basic_aggregator.cpp:push", "wrtstat/aggregator/basic_aggregator.cpp:add", "wrtstat/aggregator/separator.cpp:push"]}
{"id": "C28", "title": "Names and ids are in bijection", "statement": "create_aggregator returns the same id for the same live name and different ids for different live names; get_name(id) returns the name of the live aggregator; this stays true across deletions and id reuse.", "quantifier": "every sequence of create/del operations, every choice of recycled id", "why_tests_cant": "history quantifier and unspecified iteration order of unordered_set", "anchors": ["wrtstat/system/dict.hpp:create_id", "wrtstat/system/dict.hpp:free", "wrtstat/system/dict.hpp:get_name", "wrtstat/aggregator/aggregator_registry.cpp:create_aggregator"]}
{"id": "C29", "title": "Aggregators are isolated", "statement": "An operation on one name or id never changes the data recorded for another live name.", "quantifier": "every registry state, every operation", "why_tests_cant": "every state", "anchors": ["wrtstat/aggregator/aggregator_registry.cpp:add", "wrtstat/aggregator/aggregator_registry.cpp:get_aggregator", "wrtstat/system/dict.hpp:id2pos"]}
{"id": "C30", "title": "Unknown ids are rejected", "statement": "add/pop/force_pop with an id that is not the id of a live aggregator return false/null and change nothing.", "quantifier": "every registry state, every id", "why_tests_cant": "every id", "anchors": ["wrtstat/aggregator/aggregator_registry.cpp:get_aggregator", "wrtstat/system/dict.hpp:id2pos"]}
{"id": "C31", "title": "del removes a name", "statement": "del(name) returns true iff the name was live; afterwards the name has no aggregator, its data is gone, and pushers made for it do nothing even if the id is recycled.", "quantifier": "every registry state and history", "why_tests_cant": "history quantifier, weak pointers", "anchors": ["wrtstat/aggregator/aggregator_registry.cpp:del", "wrtstat/system/dict.hpp:free"]}
{"id": "C32", "title": "pop_all reports every aggregator once under its own name", "statement": "pop_all returns at most one summary per live name, each paired with the name it was recorded under, and one for every aggregator that has a completed window.", "quantifier": "every registry state, every id_init/id_step", "why_tests_cant": "every registry shape including holes left by deletion and non-zero id origins", "anchors": ["wrtstat/aggregator/aggregator_registry.cpp:pop_", "wrtstat/system/dict.hpp:pos2id", "wrtstat/system/dict.hpp:id2pos"]}
{"id": "C33", "title": "Registry-wide enable", "statement": "After enable(false) no add or push through any existing or later created aggregator records anything until enable(true).", "quantifier": "every registry state and history", "why_tests_cant": "history quantifier", "anchors": ["wrtstat/aggregator/aggregator_registry.cpp:enable", "wrtstat/aggregator/aggregator_registry.cpp:create_aggregator"]}
{"id": "C34", "title": "The event that creates an aggregator is accepted", "statement": "add(name, data) for a new name always creates the aggregator and records the data (registry enabled, no initializer, non-empty name).", "quantifier": "every registry state, every summary", "why_tests_cant": "every state and timestamp, soiled start offset", "anchors": ["wrtstat/aggregator/aggregator_registry.cpp:add", "wrtstat/aggregator/separator.cpp:separator"]}
{"id": "C35", "title": "Destruction reports everything", "statement": "When a wrtstat object with a handler is destroyed, every accepted and not yet reported event has been delivered to the handler.", "quantifier": "every history", "why_tests_cant": "history quantifier", "anchors": ["wrtstat/wrtstat.cpp:~wrtstat", "wrtstat/wrtstat.cpp:pushout_", "wrtstat/aggregator/aggregator_registry.cpp:force_pop_all"]}
{"id": "C36", "title": "No handler, no crash", "statement": "pushout, force_pushout and destruction of a wrtstat object without handler do not fault.", "quantifier": "every history", "why_tests_cant": "history quantifier", "anchors": ["wrtstat/wrtstat.cpp:pushout_", "wrtstat/wrtstat.cpp:~wrtstat"]}
{"id": "C37", "title": "A measuring point reports exactly once", "statement": "From creation to destruction each time, size, value or composite point calls its meter exactly once, whatever explicit push calls are made in between.", "quantifier": "every sequence of operations on a point", "why_tests_cant": "history quantifier", "anchors": ["wrtstat/meters/time_meter.hpp:time_point", "wrtstat/meters/size_meter.hpp:size_point", "wrtstat/meters/value_meter.hpp:value_point", "wrtstat/meters/composite_meter.hpp:composite_point"]}
{"id": "C38", "title": "Composite meters feed the right aggregators", "statement": "A composite point records its span under the time name and its read/written sizes under the read/write names, with count equal to the size when summary_size is set and to the point's count otherwise; empty names record nothing.", "quantifier": "every name combination, count and size", "why_tests_cant": "all combinations of names and registry states", "anchors": ["wrtstat/aggregator/aggregator_registry.cpp:make_composite_handler_", "wrtstat/aggregator/aggregator_registry.cpp:create_composite_pusher", "wrtstat/wrtstat.cpp:create_composite_multi_meter"]}
{"id": "C39", "title": "Sharding is unobservable", "statement": "multi_aggregator with any positive hash_size and any hash function reports, per name, exactly what a separate aggregator per name would report.", "quantifier": "every hash function, hash_size > 0, every sequence of push/multi_push/del/force_pushout", "why_tests_cant": "all hash functions and histories", "anchors": ["wrtstat/multi_aggregator/multi_aggregator.cpp:push", "wrtstat/multi_aggregator/multi_aggregator.cpp:get_pos_", "wrtstat/multi_aggregator/basic_multi_aggregator.cpp:push"]}
{"id": "C40", "title": "Summaries delivered by multi_aggregator push are complete", "statement": "The summary delivered to the push handler carries the name, samples, counters and percentiles of the completed window.", "quantifier": "every state and pushed summary", "why_tests_cant": "every state", "anchors": ["wrtstat/multi_aggregator/basic_multi_aggregator.cpp:push"]}
{"id": "C41", "title": "pushout and force_pushout", "statement": "pushout delivers every completed window not yet delivered; force_pushout delivers the pending window of every name exactly once.", "quantifier": "every state", "why_tests_cant": "history quantifier", "anchors": ["wrtstat/multi_aggregator/basic_multi_aggregator.cpp:pushout", "wrtstat/multi_aggregator/basic_multi_aggregator.cpp:force_pushout", "wrtstat/multi_aggregator/multi_aggregator.cpp:pushout"]}
{"id": "C42", "title": "Name compaction round-trips", "statement": "recompact(compact(m)) restores every name of m, clears the legend, and leaves the data unchanged, for every non-empty separator.", "quantifier": "every multi_push request, every non-empty separator", "why_tests_cant": "all strings, including names containing separators, tildes and digits", "anchors": ["wrtstat/multi_packer/basic_packer.cpp:compact", "wrtstat/multi_packer/basic_packer.cpp:compact_", "wrtstat/multi_packer/basic_packer.cpp:findorcre_", "wrtstat/multi_packer/basic_packer.cpp:recompact"]}
{"id": "C43", "title": "Packing loses nothing", "statement": "Every push given to the packer is, after any sequence of multi_pop calls, either still in the packer or in exactly one returned batch, with name (after recompaction) and data unchanged.", "quantifier": "every option set, every sequence of push/multi_pop", "why_tests_cant": "history quantifier", "anchors": ["wrtstat/multi_packer/basic_packer.cpp:multi_pop", "wrtstat/multi_packer/basic_packer.cpp:push", "wrtstat/multi_packer/basic_packer.cpp:pop_by_json_size"]}
{"id": "C44", "title": "A batch respects json_limit", "statement": "The JSON text of every batch returned by multi_pop() is at most json_limit characters long.", "quantifier": "every option set, every content", "why_tests_cant": "all strings, numbers and option combinations", "anchors": ["wrtstat/multi_packer/basic_packer.cpp:multi_pop", "wrtstat/multi_packer/basic_packer.cpp:calc_json_size", "wrtstat/multi_packer/basic_packer.cpp:compact"]}
{"id": "C45", "title": "A batch respects push_limit", "statement": "A batch returned by multi_pop() is non-empty and contains at most push_limit pushes when push_limit is non-zero.", "quantifier": "every option set and content", "why_tests_cant": "all contents", "anchors": ["wrtstat/multi_packer/basic_packer.cpp:multi_pop"]}
{"id": "C46", "title": "A batch respects data_limit", "statement": "A batch returned by multi_pop() contains at most data_limit samples in total when data_limit is non-zero.", "quantifier": "every option set and content", "why_tests_cant": "all contents", "anchors": ["wrtstat/multi_packer/basic_packer.cpp:multi_pop"]}
{"id": "C47", "title": "pop_by_json_size is best fit", "statement": "pop_by_json_size(n) removes and returns a push of the greatest recorded size not exceeding n, and returns null, changing nothing, iff every recorded size exceeds n.", "quantifier": "every packer content", "why_tests_cant": "all contents; relies on the order kept by every insertion", "anchors": ["wrtstat/multi_packer/basic_packer.cpp:pop_by_json_size", "wrtstat/multi_packer/basic_packer.cpp:push"]}
{"id": "C48", "title": "Packer pushout drains", "statement": "pushout() with a handler terminates, leaves the packer empty and delivers each push in exactly one batch.", "quantifier": "every option set and content", "why_tests_cant": "termination and exactly-once for all contents", "anchors": ["wrtstat/multi_packer/basic_packer.cpp:pushout", "wrtstat/multi_packer/basic_packer.cpp:multi_pop"]}
{"id": "C49", "title": "recompact is safe on hostile input", "statement": "recompact on any request either succeeds, or returns false with an error; it never reads the legend out of range.", "quantifier": "every request", "why_tests_cant": "all strings", "anchors": ["wrtstat/multi_packer/basic_packer.cpp:recompact"]}
{"id": "C50", "title": "Compaction terminates", "statement": "Pushing into a packer terminates for every option set and name.", "quantifier": "every option set and name", "why_tests_cant": "termination", "anchors": ["wrtstat/multi_packer/basic_packer.cpp:compact_", "wrtstat/multi_packer/basic_packer.cpp:push"]}
{"id": "C51", "title": "Merging reduced_info", "statement": "a += b adds count and lossy, takes the smaller min and the larger max, and puts avg between the two averages.", "quantifier": "every pair of infos with ts != 0", "why_tests_cant": "all integers", "anchors": ["wrtstat/aggregator/api/reduced_info.hpp:operator +="]}
{"id": "C52", "title": "Merging aggregated_info percentiles", "statement": "After a += b the percentiles are in non-decreasing order and each of them is one of the ten percentiles of a and b.", "quantifier": "every pair of infos, with ts != 0 on the left or the percentiles of b in order already", "why_tests_cant": "all integers", "anchors": ["wrtstat/aggregator/api/aggregated_info.hpp:operator+="]}
{"id": "C53", "title": "rwlock excludes writers", "statement": "At no time do two writers, or a writer and a reader, hold the lock; the internal abort() checks never fire for well bracketed use.", "quantifier": "every number of threads, every interleaving", "why_tests_cant": "all schedules", "anchors": ["wrtstat/system/rwlock.hpp:rwlock", "wrtstat/system/rwlock.hpp:read_lock"]}
{"id": "C54", "title": "The registry never deadlocks", "statement": "No interleaving of the public operations of the registry and of pushers by any number of threads reaches a state in which every unfinished thread is blocked.", "quantifier": "every number of threads, every interleaving", "why_tests_cant": "all schedules", "anchors": ["wrtstat/aggregator/aggregator_registry.cpp:pop_", "wrtstat/aggregator/aggregator_registry.cpp:enable", "wrtstat/aggregator/aggregator_registry.cpp:get_name", "wrtstat/wrtstat.cpp:make_handler_", "wrtstat/aggregator/aggregator_mt.cpp"]}
{"id": "C55", "title": "The shared buffer pool is safe and bounded", "statement": "Under any interleaving the pool never pops from an empty deque, never exceeds pool_size buffers, and hands out only empty buffers.", "quantifier": "every number of threads, every interleaving of create/free", "why_tests_cant": "all schedules", "anchors": ["wrtstat/system/pool.hpp:create", "wrtstat/system/pool.hpp:free"]}
{"id": "C56", "title": "aggregator_mt is linearizable", "statement": "Every concurrent execution of aggregator_mt operations has the same results as some sequential execution of the same operations that respects each thread's program order.", "quantifier": "every number of threads, every program, every interleaving", "why_tests_cant": "all schedules", "anchors": ["wrtstat/aggregator/aggregator_mt.cpp"]}
{"id": "C57", "title": "Cascaded aggregation conserves counts", "statement": "Feeding the published summaries of one aggregator into another preserves the total count, and lossy + samples = count again holds at the second tier.", "quantifier": "every pair of option sets, every history", "why_tests_cant": "two unbounded histories", "anchors": ["wrtstat/aggregator/reducer.cpp:add(reduced_data)", "wrtstat/aggregator/basic_aggregator.cpp:reduce_"]}
{"id": "C58", "title": "load_options is all or nothing", "statement": "The value-returning load_options returns the parsed options iff the text is accepted, and default options otherwise; an unreadable path is reported as an error.", "quantifier": "every input text, every parser outcome", "why_tests_cant": "all inputs", "anchors": ["wrtstat/options/load_options.cpp:load_options"]}
{"id": "C59", "title": "spinlock excludes", "statement": "At most one thread holds a spinlock; try_lock succeeds iff it was free.", "quantifier": "every number of threads, every interleaving", "why_tests_cant": "all schedules", "anchors": ["wrtstat/system/spinlock.hpp:spinlock"]}
{"id": "C60", "title": "A merged summary keeps its extremes", "statement": "Adding a reduced_data with min m and max M (its samples lying in [m,M]) makes the window minimum at most m and the window maximum at least M, and min <= max in every published summary.", "quantifier": "every summary", "why_tests_cant": "all integers, including zero and the sentinels", "anchors": ["wrtstat/aggregator/reducer.cpp:add(reduced_data)", "wrtstat/aggregator/reducer.cpp:detach"]}
{"id": "C61", "title": "Records handed over by meters carry the right name", "statement": "Whatever happens between the creation of a meter (by name, by id or composite) and its use, every record it hands to the handler carries the name the meter was made for and comes from the aggregator that has this name at that moment, even if the id has been freed and given to another name.", "quantifier": "every history before and after the creation of the meter, every id and name", "why_tests_cant": "needs id reuse after deletion at every possible moment", "anchors": ["wrtstat/wrtstat.cpp:make_handler_", "wrtstat/aggregator/aggregator_registry.cpp:create_simple_pusher", "wrtstat/aggregator/aggregator_registry.cpp:create_composite_pusher"]}
{"id": "C62", "title": "pushout hands over at most one record per name", "statement": "pushout and force_pushout return the number of records handed to the handler; there is at most one record per name, every such name is live, and the record is the one its aggregator answers with to separate followed by pop (force_pop).", "quantifier": "every history, every clock reading", "why_tests_cant": "history quantifier", "anchors": ["wrtstat/wrtstat.cpp:pushout_", "wrtstat/aggregator/aggregator_registry.cpp:pop_"]}
{"id": "C63", "title": "Merging percentiles is symmetric", "statement": "For infos a and b with ts != 0, a += b and b += a give the same percentiles.", "quantifier": "every pair of infos", "why_tests_cant": "all integers", "anchors": ["wrtstat/aggregator/api/aggregated_info.hpp:operator+="]}
{"id": "C64", "title": "Every batch handed over by pushout respects push_limit", "statement": "Each batch handed to the handler by packer pushout() has at most push_limit pushes when push_limit is non-zero, and respects json_limit under the conditions under which multi_pop does.", "quantifier": "every option set and content", "why_tests_cant": "all contents", "anchors": ["wrtstat/multi_packer/basic_packer.cpp:pushout", "wrtstat/multi_packer/basic_packer.cpp:multi_pop"]}
{"id": "C65", "title": "Packer pushout returns the number of batches", "statement": "pushout() returns the number of batches it handed to the handler.", "quantifier": "every option set and content", "why_tests_cant": "all contents", "anchors": ["wrtstat/multi_packer/basic_packer.cpp:pushout"]}
{"id": "C66", "title": "multi_push takes over what the batch means", "statement": "After multi_push(m) the packer holds, besides what it held, the requests that recompact(m) gives.", "quantifier": "every packer content, every request m", "why_tests_cant": "all strings", "anchors": ["wrtstat/multi_packer/basic_packer.cpp:multi_push"]}
{"id": "C67", "title": "multi_pop makes progress", "statement": "multi_pop() returns a batch whenever some request in the packer would fit into a batch alone.", "quantifier": "every option set and content", "why_tests_cant": "all contents and sizes", "anchors": ["wrtstat/multi_packer/basic_packer.cpp:multi_pop"]}
{"id": "C68", "title": "Packer accessors tell the content", "statement": "empty(), size(), data_size() count what was pushed and not yet popped; min_val() and max_val() are the smallest and largest recorded size.", "quantifier": "every history", "why_tests_cant": "history quantifier", "anchors": ["wrtstat/multi_packer/basic_packer.cpp:size", "wrtstat/multi_packer/basic_packer.cpp:data_size", "wrtstat/multi_packer/basic_packer.cpp:max_val", "wrtstat/multi_packer/basic_packer.cpp:min_val", "wrtstat/multi_packer/basic_packer.cpp:empty"]}
{"id": "C69", "title": "A failed recompact changes nothing", "statement": "If recompact(m) returns false, m is unchanged.", "quantifier": "every request", "why_tests_cant": "all strings", "anchors": ["wrtstat/multi_packer/basic_packer.cpp:recompact"]}
{"id": "C70", "title": "rwlock loses no wake-up", "statement": "Whenever nobody holds the lock and nobody is inside its critical section, no thread sleeps in lock() or lock_r(); without a writer holding it no thread sleeps in lock_r(); and while nobody holds it some thread in a call can go on.", "quantifier": "every number of threads, every interleaving", "why_tests_cant": "all schedules", "anchors": ["wrtstat/system/rwlock.hpp:rwlock"]}
{"id": "C71", "title": "Writers are not starved", "statement": "A thread inside rwlock::lock() gets the lock in every execution in which every holder eventually releases it and every runnable thread eventually runs.", "quantifier": "every number of threads, every fair interleaving", "why_tests_cant": "infinite schedules", "anchors": ["wrtstat/system/rwlock.hpp:lock"]}
{"id": "C72", "title": "The read lock can be taken again", "statement": "A thread holding the lock for reading is never blocked by another lock_r(), even when writers wait.", "quantifier": "every number of threads, every interleaving", "why_tests_cant": "all schedules", "anchors": ["wrtstat/system/rwlock.hpp:lock_r"]}
{"id": "C73", "title": "A pusher call is atomic", "statement": "A call of a pusher of aggregator_mt has the effect of the whole call at one moment between its start and its end: data is recorded only if the aggregator was not cleared before that moment.", "quantifier": "every operation of other threads between the steps of the call", "why_tests_cant": "all schedules", "anchors": ["wrtstat/aggregator/basic_aggregator.hpp:create_simple_pusher", "wrtstat/aggregator/aggregator_mt.cpp:push"]}
{"id": "C75", "title": "Requests survive JSON", "statement": "A push, multi_push or del request written as JSON, in the plain or the compact form, is read back as the same request, whatever the object it is read into held before.", "quantifier": "every request whose numbers fit their C++ types, both forms", "why_tests_cant": "all requests", "anchors": ["wrtstat/api/push_json.hpp", "wrtstat/api/push_json_compact.hpp", "wrtstat/api/multi_push_json.hpp", "wrtstat/api/multi_push_json_compact.hpp", "wrtstat/api/del_json.hpp", "wrtstat/api/del_json_compact.hpp"]}
{"id": "C76", "title": "A failed load changes nothing", "statement": "If load_options(path_or_json, opt, err) returns false, *opt is unchanged.", "quantifier": "every argument, every options object", "why_tests_cant": "all inputs", "anchors": ["wrtstat/options/load_options.cpp:load_options"]}
{"id": "C77", "title": "Options survive JSON", "statement": "load_options(serialize_options(o)) is o; packer_options and multi_aggregator_options written as JSON are read back as the same options.", "quantifier": "every options object whose numbers fit their C++ types", "why_tests_cant": "all options", "anchors": ["wrtstat/options/load_options.cpp:serialize_options", "wrtstat/wrtstat_options_json.hpp", "wrtstat/multi_packer/packer_options_json.hpp", "wrtstat/multi_aggregator/multi_aggregator_options_json.hpp"]}
{"id": "C78", "title": "Meaning of an options text", "statement": "The members of an options object are accepted iff each has a known name and a value of the right kind and range; each setting then has the value given last, or keeps its value if none is given, and members with different names may come in any order.", "quantifier": "every list of members, every options object", "why_tests_cant": "all inputs", "anchors": ["wrtstat/wrtstat_options_json.hpp", "wrtstat/aggregator/options/resolution_json.hpp"]}
{"id": "C79", "title": "The computed JSON size is the length of the text", "statement": "The sizes the packer computes for a push and a multi_push request are the lengths of their JSON texts, so that without compaction and with a separator no longer than the default the text of a batch is no longer than json_limit.", "quantifier": "every request, both forms, every history of the packer", "why_tests_cant": "all requests", "anchors": ["wrtstat/multi_packer/basic_packer.cpp:calc_json_size", "wrtstat/multi_packer/basic_packer.cpp:multi_pop"]}
{"id": "C80", "title": "End-to-end delivery", "statement": "If every batch a packer hands out is sent as JSON text, parsed and recompacted by a receiver, then what the receivers get, what was popped one by one and what is still in the packer are together exactly the requests pushed, with names and data unchanged.", "quantifier": "every history of calls of a packer, every option, both forms", "why_tests_cant": "all histories", "anchors": ["wrtstat/multi_packer/basic_packer.cpp:push", "wrtstat/multi_packer/basic_packer.cpp:multi_pop", "wrtstat/multi_packer/basic_packer.cpp:recompact", "wrtstat/api/multi_push_json.hpp"]}
{"id": "C74", "title": "A call by name reaches the aggregator of that name", "statement": "add(name, ...) and create_*_pusher(name, ...) reach the aggregator registered under that name, whatever other threads do to the registry in the meantime.", "quantifier": "every history before, every sequence of registry operations between the two critical sections of the call", "why_tests_cant": "all interleavings", "anchors": ["wrtstat/aggregator/aggregator_registry.cpp:add", "wrtstat/aggregator/aggregator_registry.cpp:create_simple_pusher", "wrtstat/aggregator/aggregator_registry.cpp:get_aggregator"]}
{"id": "C81", "title": "What a measuring point reports", "statement": "A point reports, at the time given to push, the value of each field that was given last by a setter or by its constructor, and the time since its start; clone and reset give points that behave like new ones.", "quantifier": "every sequence of setter calls, every clock", "why_tests_cant": "all sequences", "anchors": ["wrtstat/meters/composite_meter.hpp:composite_point", "wrtstat/meters/size_meter.hpp:size_point", "wrtstat/meters/value_meter.hpp:value_point", "wrtstat/meters/time_meter.hpp:time_point"]}
{"id": "C82", "title": "Completed records reach the handler", "statement": "Every record completed by a call of a meter created for an id is delivered to the handler of the wrtstat object.", "quantifier": "every history of the wrtstat object, every id, every call", "why_tests_cant": "all histories", "anchors": ["wrtstat/wrtstat.cpp:make_handler_", "wrtstat/wrtstat.cpp:create_time_meter"]}
{"id": "C84", "title": "Calls on a shared registry are linearizable", "statement": "Whatever calls several threads make on one aggregator_registry, their results are those of the same calls made one after the other, in an order that respects which call returned before which was made.", "quantifier": "every number of threads, every interleaving of the critical sections, every sequence of calls", "why_tests_cant": "all interleavings", "anchors": ["wrtstat/aggregator/aggregator_registry.cpp", "wrtstat/aggregator/aggregator_mt.cpp", "wrtstat/aggregator/basic_aggregator.hpp:create_simple_pusher"]}
{"id": "C83", "title": "Concurrent calls on a registry are explained aggregator by aggregator", "statement": "Whatever calls several threads make on one aggregator_registry, every aggregator goes through one sequence of operations and hands each record out once, to one thread; every call asks the aggregators created for its id or name exactly the operations that it stands for and answers what these give; pop_all names each record after the aggregator it came from; pop_all and enable reach every aggregator that is registered from the call to the return; the events recorded with an aggregator by all threads are reported exactly once.", "quantifier": "every number of threads, every interleaving of the critical sections, every sequence of calls", "why_tests_cant": "all interleavings", "anchors": ["wrtstat/aggregator/aggregator_registry.cpp", "wrtstat/aggregator/aggregator_mt.cpp", "wrtstat/aggregator/basic_aggregator.hpp"]}
{"id": "C86", "title": "Calls on a shared multi_aggregator are linearizable", "statement": "Whatever calls several threads make on one multi_aggregator, their results are those of the same calls made one after the other, in an order that respects which call returned before which was made.", "quantifier": "every number of threads and shards, every interleaving of the small steps of the critical sections, every sequence of calls", "why_tests_cant": "all interleavings", "anchors": ["wrtstat/multi_aggregator/multi_aggregator.cpp:push", "wrtstat/multi_aggregator/multi_aggregator.cpp:multi_push", "wrtstat/multi_aggregator/multi_aggregator.cpp:force_pushout", "wrtstat/multi_aggregator/multi_aggregator.cpp:size"]}
{"id": "C87", "title": "A shared multi_aggregator treats every name as if it were alone", "statement": "Whatever calls several threads make on one multi_aggregator, the critical sections of all calls can be put in one order, respecting the order in each thread and in real time, in which each changes its own shard only; in this order the requests handed over and the answers given about any name are those of one aggregator of its own, built by the first push and destroyed by del. What a call returns is made of what its sections return. With a handler and representable values no call faults, and the threads never wait for each other in a circle.", "quantifier": "every number of threads and shards, every hash function, every interleaving of the small steps of the critical sections, every sequence of calls", "why_tests_cant": "all interleavings", "anchors": ["wrtstat/multi_aggregator/multi_aggregator.cpp", "wrtstat/multi_aggregator/basic_multi_aggregator.cpp"]}
{"id": "C85", "title": "A look at the current window shows what reporting it would show", "statement": "While no completed window waits inside the separator, aggregate_current() returns exactly the record that force_pop() would return in its place: the same time, count, loss, extremes, average, samples and percentiles; and it fails exactly when force_pop() fails.", "quantifier": "every options, every history from a new or cleared aggregator, every conforming nth_element", "why_tests_cant": "all histories, every conforming nth_element", "anchors": ["wrtstat/aggregator/basic_aggregator.cpp:aggregate_current", "wrtstat/aggregator/basic_aggregator.cpp:force_pop", "wrtstat/aggregator/reducer.cpp:clone"]}
{"id": "C89", "title": "A multi point reports once to every meter", "statement": "multi_meter::create makes one point for each of its meters, as the meter would; setters reach all of them; clone starts one new measurement for each point; and in every program that creates, extends, sets, resets, clones, moves, assigns and destroys multi points, once all are destroyed, every measurement started has called its meter function exactly once, with the values of a separate point of that meter.", "quantifier": "all four kinds of points, every number of meters (with or without function), every program over any number of multi points, every clock", "why_tests_cant": "all programs; destructions of moved-from elements are invisible unless they report", "anchors": ["wrtstat/meters/multi_meter.hpp:create", "wrtstat/meters/multi_meter.hpp:clone", "wrtstat/meters/multi_meter.hpp:~multi_point"]}
{"id": "C90", "title": "A shared pool of buffers is unobservable", "statement": "Whatever reducers that get their buffers from one pool are made to do, in any order, their summaries, their states and their failures are those of the same reducers with new vectors; the pool never holds more than pool_size buffers, and none that is not empty.", "quantifier": "every number of reducers, every sequence of constructions and calls on them by one thread at a time, every item_size and pool_size; also every other allocator that hands out empty buffers", "why_tests_cant": "all sequences; a buffer that comes back with contents shows only in a later window of another aggregator", "anchors": ["wrtstat/system/pool.hpp:create", "wrtstat/system/pool.hpp:free", "wrtstat/system/allocator.hpp", "wrtstat/aggregator/reducer.cpp:add_", "wrtstat/aggregator/reducer.cpp:reduce"]}
{"id": "C91", "title": "aggregators_count tells the number of aggregators, and ids are used again", "statement": "aggregators_count() is the number of aggregators in the registry. Ids of removed names are used again before new ones are made, so that names that come and go make neither the ids nor the registry grow.", "quantifier": "every options, every history of the registry", "why_tests_cant": "all histories", "anchors": ["wrtstat/aggregator/aggregator_registry.cpp:aggregators_count", "wrtstat/aggregator/aggregator_registry.cpp:create_aggregator", "wrtstat/system/dict.hpp:create_id", "wrtstat/system/dict.hpp:id2pos"]}
{"id": "C88", "title": "A handler may use the aggregator it is called from", "statement": "A handler given to push or separate that itself calls the aggregator leaves the guarantees of the aggregator intact: every record counts the events recorded for its window, no window is reported twice, an event pushed for the current window or a later one is recorded, and every event recorded is counted exactly once.", "quantifier": "every handler: any operations for any record, with handlers again, to any depth; every history; every clock", "why_tests_cant": "all handlers and all histories; the order of the call of the handler and of the change of the window is invisible to handlers that do not call back", "anchors": ["wrtstat/aggregator/separator.cpp:separate", "wrtstat/aggregator/basic_aggregator.cpp:push", "wrtstat/aggregator/basic_aggregator.cpp:push_handler_", "wrtstat/aggregator/basic_aggregator.cpp:separate"]}
{"id": "C92", "title": "The initializer's record is recorded", "statement": "In an enabled registry with an initializer, the aggregator created for a new name starts with the record the initializer supplies for the name; without one, or if it supplies none, it starts empty.", "quantifier": "every history before and after set_initializer, every name, time and record", "why_tests_cant": "all records and times", "anchors": ["wrtstat/aggregator/aggregator_registry.cpp:create_aggregator", "wrtstat/aggregator/aggregator_registry.cpp:set_initializer"]}
{"id": "C93", "title": "A pusher made for a name is push on its aggregator", "statement": "A pusher made for a name with a handler, called at any later time at which the name has not been removed, hands over what push with that handler on the aggregator of the name hands over, changes that aggregator as push does and no other.", "quantifier": "every history before the pusher is made and between that and the call", "why_tests_cant": "all histories", "anchors": ["wrtstat/aggregator/aggregator_registry.cpp:create_simple_pusher", "wrtstat/aggregator/basic_aggregator.hpp:create_simple_pusher"]}
{"id": "C94", "title": "A reducer tells its extremes", "statement": "reducer min() and max() are the smallest and largest value added since the reducer was last emptied, and 0 if there is none.", "quantifier": "every history of a reducer", "why_tests_cant": "all values", "anchors": ["wrtstat/aggregator/reducer.cpp:min", "wrtstat/aggregator/reducer.cpp:max"]}
{"id": "C95", "title": "The sizes told by an aggregator", "statement": "size and data size of an aggregator count the records waiting and all samples held: pop takes the popped record off both, clear leaves 0, samples held and delivered are no more than those recorded, and the data size is at most reducer_limit per waiting record plus reducer_limit*reducer_levels.", "quantifier": "every history of an aggregator", "why_tests_cant": "all histories", "anchors": ["wrtstat/aggregator/basic_aggregator.cpp:size", "wrtstat/aggregator/separator.cpp:size"]}
{"id": "C96", "title": "How full a reducer is", "statement": "filled() is true exactly when size() is reducer_limit*reducer_levels. Without reduce(), size() is the number of values added since the reducer was last emptied, up to that. A summary has min(reducer_limit, number of values) samples (none if reducer_levels is 0), and its loss is the number of units without a sample.", "quantifier": "every options, every history of a reducer", "why_tests_cant": "all limits, levels and histories", "anchors": ["wrtstat/aggregator/reducer.cpp:filled", "wrtstat/aggregator/reducer.cpp:size", "wrtstat/aggregator/reducer.cpp:add_", "wrtstat/aggregator/reducer.cpp:detach"]}
{"id": "C97", "title": "JSON forms of records and replies", "statement": "A record of any of the five types is read back from its plain or compact form as it was written. Read as another type, the common members are taken over and the others are left alone, or it is rejected. A form is never read as the other. A push is a name and a record. Replies are read back; a reply to a batch can be read as a reply to a push in the plain form.", "quantifier": "every record with values of the C++ types, every pair of record types, every reply", "why_tests_cant": "all values and pairs of types; the tests write zero records only", "anchors": ["wrtstat/aggregator/api/json/reduced_info_json_compact.hpp", "wrtstat/aggregator/api/json/aggregated_info_json.hpp", "wrtstat/aggregator/api/json/aggregated_data_json_compact.hpp", "wrtstat/api/push_json.hpp", "wrtstat/api/multi_push_json.hpp", "wrtstat/api/del_json.hpp"]}
{"id": "C98", "title": "A dictionary assigns ids one to one", "statement": "After every history of create_id, free and clear, get_id tells the id a name holds and -1 if it holds none, get_name the name that holds an id and the empty string if none does, and no two names hold the same id: a name holds the id create_id returned for it until the id or the name is freed or the dictionary is cleared. create_id returns the id a name holds, and one that nobody holds for a new name. free returns whether the id was held. After clear the dictionary is as new.", "quantifier": "every initial id and step, every history", "why_tests_cant": "all histories and parameters; no test covers dict", "anchors": ["wrtstat/system/dict.hpp"]}
{"id": "C99", "title": "Counts are right on 64-bit counters", "statement": "With counters of 64 bits, the count of a summary is the number of events recorded since the last one, and lossy plus the number of samples makes them up. Whatever the counts, the samples, the extremes, the average, the percentiles, the windows and the hand-over of records are those of a run with unbounded counters, the counts are right modulo 2^64, and below 2^64 events they are right.", "quantifier": "all platforms, options, histories of reducers and aggregators with fewer than 2^64 values, all counts a call can carry", "why_tests_cant": "The suite never passes a count above a few thousand; the wrap-around needs counts near 2^64, which a meter with a negative size passes, and the independence of everything else from the counters is a statement about all runs.", "anchors": ["wrtstat/aggregator/reducer.cpp:44-50", "wrtstat/aggregator/reducer.cpp:124-166", "wrtstat/aggregator/reducer.cpp:270-296", "wrtstat/aggregator/separator.cpp:26-167", "wrtstat/aggregator/basic_aggregator.cpp:33-140"]}
{"id": "C100", "title": "A release by a thread that does not hold the lock is stopped", "statement": "A thread that calls unlock() or unlock_r() of rwlock without holding the lock in that way stops the process.", "quantifier": "every number of threads, every history, every thread", "why_tests_cant": "all interleavings; no test releases a lock it does not hold", "anchors": ["wrtstat/system/rwlock.hpp:unlock", "wrtstat/system/rwlock.hpp:unlock_r"]}
{"id": "C101", "title": "size(data_size, capacity) adds up samples and capacities", "statement": "size(data_size, capacity) of an aggregator, multi_aggregator or packer returns the number of waiting records (of names, of requests), adds the number of samples held to *data_size and the capacity of all vectors held to *capacity, whatever these held before, and leaves a null pointer alone.", "quantifier": "every history of an aggregator, every capacity of its vectors, every content of the counters", "why_tests_cant": "all histories and capacities; no test calls it", "anchors": ["wrtstat/aggregator/basic_aggregator.cpp:167-181", "wrtstat/aggregator/separator.cpp:216-231", "wrtstat/aggregator/reducer.cpp:83-92", "wrtstat/multi_aggregator/basic_multi_aggregator.cpp:71-78", "wrtstat/multi_aggregator/multi_aggregator.cpp:92-103", "wrtstat/multi_packer/basic_packer.cpp:181-203"]}
{"id": "C102", "title": "An accepted event lies in the window it is recorded in", "statement": "If add or push accepts an event, its time (its timestamp, or the reading of the clock if that is 0) lies in [current_time(), next_time()) afterwards, the window in which it is recorded and under whose start it will be reported.", "quantifier": "all options with a positive step, all origins and values of rand(), all histories, all events with times that are not negative", "why_tests_cant": "soiled_start_ts shifts the windows by a random amount; no test sets it and looks at the window of an event", "anchors": ["wrtstat/aggregator/separator.cpp:5-18", "wrtstat/aggregator/separator.cpp:26-96", "wrtstat/aggregator/separator.cpp:139-167"]}
{"id": "C103", "title": "Data guarded by the locks is free of data races", "statement": "Under the happens-before relation of the C++ memory model, with the atomic operations and the mutex as the only synchronisation: every access to the guarded data made so far happens before whatever the holder of a spinlock, or of a rwlock for writing, does next, and every write happens before whatever a holder of the rwlock for reading does next. So no two conflicting accesses made under the lock are a data race.", "quantifier": "any number of threads, every reachable state of the lock, every interleaving of lock, try_lock, unlock and of the shared operations with accesses to the data", "why_tests_cant": "a data race shows, if at all, on some machines and some schedules; tests run few schedules on one machine", "anchors": ["wrtstat/system/spinlock.hpp:16-51", "wrtstat/system/rwlock.hpp:20-119"]}
{"id": "C104", "title": "An aggregator can be used as long as somebody has a pointer to it", "statement": "get_aggregator returns a shared_ptr: every call on the aggregator is defined while the caller keeps the pointer, also when the registry is destroyed.", "quantifier": "all options, all histories of the aggregator before the registry goes, all calls afterwards", "why_tests_cant": "the use of a destroyed pool often goes unnoticed; no test lets an aggregator outlive its registry", "anchors": ["wrtstat/system/pool.hpp:25-31", "wrtstat/aggregator/aggregator_registry.cpp:84-99", "wrtstat/aggregator/reducer.cpp:222-296"]}
{"id": "C105", "title": "A spinlock that is moved works", "statement": "However spinlocks are moved, by construction or by assignment, every lock works: at most one thread holds it, and try_lock() succeeds iff nobody holds it.", "quantifier": "any number of locks and threads, every interleaving of the two accesses of a move with the calls of the other threads", "why_tests_cant": "all interleavings; no test moves a spinlock", "anchors": ["wrtstat/system/spinlock.hpp:19-28"]}
{"id": "C106", "title": "spinlock_n has a lock for each key", "statement": "get(key) of a spinlock_n gives a lock for this key: at most one thread has it, and try_lock() on it succeeds iff no thread has the lock of this key.", "quantifier": "every number of locks, every hash function, any number of threads and keys, every interleaving", "why_tests_cant": "all hash functions and interleavings; no test uses spinlock_n", "anchors": ["wrtstat/system/spinlock.hpp:57-77"]}
{"id": "C107", "title": "The times an aggregator computes are representable", "statement": "Whatever timestamps of 64 bits are passed, no computation with times in the constructor, add, push, separate, pop, force_pop, aggregate_current or clear leaves the range of time_type, and everything is as with unbounded times.", "quantifier": "all options with a positive step, all clock readings, all histories of calls with any representable timestamps", "why_tests_cant": "signed overflow is undefined and rarely visible; no test uses timestamps near the limits", "anchors": ["wrtstat/aggregator/separator.cpp:5-18", "wrtstat/aggregator/separator.cpp:139-167", "wrtstat/aggregator/separator.cpp:233-239"]}
{"id": "C108", "title": "Moving a multi_aggregator", "statement": "A multi_aggregator may be moved like a value: the contents behave after any number of moves as those of an object that was never moved, the object moved from may go on being used, and no move loses samples.", "quantifier": "every number of objects, every program of constructions, moves (self-moves included) and calls, every hash function, all options", "why_tests_cant": "all programs; no test moves a multi_aggregator", "anchors": ["wrtstat/multi_aggregator/multi_aggregator.cpp:18-33", "wrtstat/multi_aggregator/multi_aggregator.cpp:107-110"]}
{"id": "C109", "title": "Handlers of a multi_aggregator may call multi_aggregators", "statement": "A handler given to push, multi_push, pushout or force_pushout of a multi_aggregator may call multi_aggregators, the one it is called from included: no execution deadlocks, and no thread locks a mutex that it has.", "quantifier": "any number of objects, shards and threads, all nestings of handler calls, every interleaving", "why_tests_cant": "deadlocks need particular interleavings; all call trees; no test has a handler that calls back", "anchors": ["wrtstat/multi_aggregator/multi_aggregator.cpp:35-103", "wrtstat/multi_aggregator/basic_multi_aggregator.cpp:18-92"]}
{"id": "C110", "title": "Handlers and initializers may call the registry", "statement": "User code that the registry or its aggregators call (handlers of pushers, the initializer) may call the registry and use its aggregators: no execution deadlocks.", "quantifier": "any number of aggregators and threads, all nestings of calls by user code, every interleaving", "why_tests_cant": "deadlocks need particular interleavings; all call trees; no test has a handler that calls back", "anchors": ["wrtstat/aggregator/aggregator_registry.cpp:77-106", "wrtstat/aggregator/aggregator_registry.cpp:242-282", "wrtstat/aggregator/aggregator_mt.cpp:28-44", "wrtstat/wrtstat.cpp:321-354"]}
{"id": "C111", "title": "Handlers that throw", "statement": "If the handler given to an aggregator throws, the exception reaches the caller and the aggregator stays consistent: no event is lost or counted twice, the event of the interrupted call is not recorded, the same call made again completes it with the effect of a call without exception, and no window is reported twice.", "quantifier": "all option values, all sequences of calls, all handlers (for the last two parts: that do not use the aggregator), all choices of when they throw", "why_tests_cant": "no test has a handler that throws; all points of a run at which an exception may occur", "anchors": ["wrtstat/aggregator/basic_aggregator.cpp:45-52", "wrtstat/aggregator/basic_aggregator.cpp:106-111", "wrtstat/aggregator/separator.cpp:66-96", "wrtstat/aggregator/separator.cpp:147-167"]}
{"id": "C112", "title": "An exception costs no other record", "statement": "If the handler throws while records are pushed out (wrtstat::pushout, wrtstat::force_pushout, multi_aggregator::pushout and force_pushout), every record it has not been given is still in the object; called again, the function hands over what is missing.", "quantifier": "all histories, all handlers that may throw on any record, all hash functions and orders of iteration", "why_tests_cant": "no test has a handler that throws; all positions of the exception", "anchors": ["wrtstat/wrtstat.cpp:58-61", "wrtstat/wrtstat.cpp:356-365", "wrtstat/multi_aggregator/basic_multi_aggregator.cpp:57-92", "wrtstat/multi_aggregator/multi_aggregator.cpp:70-90"]}
{"id": "C113", "title": "A call left by an exception may be made again", "statement": "If the handler throws during push, multi_push or a call of a meter, the same call made again completes it: the effect of both is that of one call without exception.", "quantifier": "all states, all requests, all handlers that may throw on any record", "why_tests_cant": "no test has a handler that throws; every request of every batch may be the one that throws", "anchors": ["wrtstat/multi_aggregator/multi_aggregator.cpp:35-58", "wrtstat/multi_aggregator/basic_multi_aggregator.cpp:18-40", "wrtstat/aggregator/aggregator_registry.cpp:135-145", "wrtstat/aggregator/basic_aggregator.hpp:101-147"]}
{"id": "C114", "title": "A packer left by an exception keeps exactly what was not handed over", "statement": "If the handler throws during pushout of a packer, the packer holds exactly the requests that were not in a batch given to the handler, so that pushout called again hands over the rest, each request once.", "quantifier": "all sequences of pushes, all options, all handlers that may throw on any batch", "why_tests_cant": "no test has a handler that throws; every batch of every partition may be the one that throws, and what a moved-from request looks like is not seen by tests", "anchors": ["wrtstat/multi_packer/basic_packer.cpp:24-50"]}
{"id": "C115", "title": "A call takes a bounded number of steps whatever the timestamp", "statement": "The number of rounds that a call of an aggregator makes through its loop over windows is bounded by the options alone, whatever the timestamp it is given.", "quantifier": "all states, all timestamps, all arguments", "why_tests_cant": "a test that measures rounds needs a far timestamp and a stopwatch; tests use timestamps a few windows apart", "anchors": ["wrtstat/aggregator/separator.cpp:66-96", "wrtstat/aggregator/separator.cpp:147-167", "wrtstat/aggregator/basic_aggregator.cpp:33-111"]}
{"id": "C116", "title": "Requests of a name leave a packer in order", "statement": "The requests of a name leave a packer, batch after batch and within a batch, in the order in which they were pushed.", "quantifier": "all sequences of operations, all options, all names", "why_tests_cant": "tests push requests of different names or of one size; the order depends on the sizes of all requests held and on the limit", "anchors": ["wrtstat/multi_packer/basic_packer.cpp:24-50", "wrtstat/multi_packer/basic_packer.cpp:65-81", "wrtstat/multi_packer/basic_packer.cpp:176-300"]}
{"id": "C117", "title": "Events survive the relay", "statement": "If the records handed over by a multi_aggregator are packed, sent as JSON and pushed into another multi_aggregator, then for every name no event accepted by the first is lost: it is counted in what the second delivers or holds, in the packer, or in what the first holds.", "quantifier": "all histories of both multi_aggregators and of the packer, all options, all names", "why_tests_cant": "no test connects the parts; what is lost depends on the sizes of the records in the packer at the same time", "anchors": ["wrtstat/multi_aggregator/basic_multi_aggregator.cpp:18-92", "wrtstat/multi_packer/basic_packer.cpp:24-50", "wrtstat/multi_packer/basic_packer.cpp:217-300", "wrtstat/aggregator/separator.cpp:66-96"]}
{"id": "C118", "title": "A request accepted from JSON is complete", "statement": "If a JSON value is accepted as a push request, as an object or as an array, then it tells every member of the request; each member has the value told, and the numbers are in the range of their types.", "quantifier": "every JSON value, every request read into, both forms", "why_tests_cant": "all values with any members missing, doubled, unknown, too many or out of range", "anchors": ["wrtstat/api/push_json.hpp:17-31", "wrtstat/api/push_json_compact.hpp:17-31", "wrtstat/api/multi_push_json.hpp:17-32", "wrtstat/api/multi_push_json_compact.hpp:17-28"]}
{"id": "C119", "title": "Percentiles of a thinned window tell the values of the window", "statement": "Let a new reducer be given any values and be detached, and the record be finished. Then each percentile of the record has, among all the values given, the rank its name says, up to the square of the number of levels.", "quantifier": "every conforming nth_element and rounding, all options and modes, every sequence of values and of ways to give them", "why_tests_cant": "any number of values in any order, any number of rows with a last row of any length, every choice nth_element may make", "anchors": ["wrtstat/aggregator/reducer.cpp:222-268", "wrtstat/aggregator/reducer.cpp:270-296", "wrtstat/aggregator/reducer.cpp:192-220", "wrtstat/aggregator/basic_aggregator.cpp:142-153"]}
{"id": "C120", "title": "The loss told by the records of an aggregator", "statement": "What a record delivered by an aggregator tells as lost and the samples it carries are together the units (the larger of count and number of values of each call) of the events it stands for.", "quantifier": "every options, every history of an aggregator, every record received or waiting", "why_tests_cant": "all histories and all combinations of reducer_limit and outgoing_reduced_size", "anchors": ["wrtstat/aggregator/basic_aggregator.cpp:reduce_", "wrtstat/aggregator/basic_aggregator.cpp:aggregate0_", "wrtstat/aggregator/basic_aggregator.cpp:push_handler_", "wrtstat/aggregator/reducer.cpp:detach"]}
{"id": "C121", "title": "A window is summarised as if it were the first", "statement": "Every record of an aggregator is what a new reducer with the same options gives for the calls accepted during the window of the record, in order of acceptance; the events accepted are the events of the windows closed, one after the other, and then those of the current window. So what came before a window does not matter for its record.", "quantifier": "every options, every history of an aggregator, every record received, waiting or inside the separator, every nth_element", "why_tests_cant": "all histories before a window, in every mode; a dependence shows only after a window that changed the state that is not cleared", "anchors": ["wrtstat/aggregator/reducer.cpp:clear", "wrtstat/aggregator/reducer.cpp:detach", "wrtstat/aggregator/reducer.cpp:reduce", "wrtstat/aggregator/separator.cpp:separate", "wrtstat/aggregator/basic_aggregator.cpp:add", "wrtstat/aggregator/basic_aggregator.cpp:force_pop"]}
{"id": "C122", "title": "How values are handed over does not matter", "statement": "Sequences of calls of add that carry the same values in the same order and stand for as many events give the same summary, however the values are spread over calls: one by one, in lists, as initializer lists, or as summaries. The same holds of the calls of an aggregator with the same time.", "quantifier": "every options, every state of a reducer or aggregator, every two sequences of calls, every nth_element, every rounding", "why_tests_cant": "all ways of cutting all sequences of values into calls, in every state", "anchors": ["wrtstat/aggregator/reducer.cpp:add", "wrtstat/aggregator/reducer.cpp:add_", "wrtstat/aggregator/separator.cpp:add", "wrtstat/aggregator/separator.cpp:separate", "wrtstat/aggregator/basic_aggregator.cpp:add", "wrtstat/aggregator/basic_aggregator.cpp:push"]}
{"id": "C123", "title": "The order of events within a window does not matter", "statement": "The same calls of add, in any order, give the same summary, but for the order of its samples: the same count, loss, extremes, average and samples. So the record of a window does not depend on the order in which its events arrived.", "quantifier": "every options, every two histories with the same calls pending up to order, every nth_element, every rounding", "why_tests_cant": "n! orders of every window; with rounding of double the average of small integers differs only for few orders", "anchors": ["wrtstat/aggregator/reducer.cpp:add", "wrtstat/aggregator/reducer.cpp:add_", "wrtstat/aggregator/reducer.cpp:reduce", "wrtstat/aggregator/reducer.cpp:detach", "wrtstat/aggregator/separator.cpp:separate", "wrtstat/aggregator/basic_aggregator.cpp:calc_perc"]}
{"id": "C124", "title": "A change of the unit changes nothing but the unit", "statement": "If every value handed to an aggregator is multiplied by the same positive number, then the same events are recorded and the same records come out, with samples, percentiles, extremes and average multiplied by that number; counts, loss and times stay.", "quantifier": "every history of every aggregator, every factor (more: every change of values that keeps zero and their order), every rounding, every nth_element that compares only", "why_tests_cant": "every history with every factor; the paths of the compression of levels and of the percentiles are many", "anchors": ["wrtstat/aggregator/reducer.cpp:add_", "wrtstat/aggregator/reducer.cpp:reduce", "wrtstat/aggregator/reducer.cpp:get_nth_", "wrtstat/aggregator/reducer.cpp:detach", "wrtstat/aggregator/separator.cpp:separate", "wrtstat/aggregator/basic_aggregator.cpp:calc_perc", "wrtstat/aggregator/basic_aggregator.cpp:reduce_"]}
{"id": "C125", "title": "Only differences of time matter", "statement": "Whatever is done with an aggregator, done later by a multiple of the step, gives the same: the same events are recorded, the same records come out, all times later by that much, and a fault occurs in the one history if it does in the other.", "quantifier": "every options, every history, every multiple of the step (also negative), every resolution, every nth_element and rounding", "why_tests_cant": "every history at every time; the first step after time 0 differs from all others", "anchors": ["wrtstat/aggregator/separator.cpp:get_ts", "wrtstat/aggregator/separator.cpp:separate", "wrtstat/aggregator/separator.cpp:push", "wrtstat/aggregator/separator.cpp:clear", "wrtstat/aggregator/basic_aggregator.cpp:add", "wrtstat/aggregator/basic_aggregator.cpp:push", "wrtstat/aggregator/basic_aggregator.cpp:separate", "wrtstat/aggregator/basic_aggregator.cpp:force_pop"]}
{"id": "C126", "title": "Readers are not starved, and calls of the lock return", "statement": "A thread inside rwlock::lock_r() gets the lock in every execution in which every holder eventually releases it and every runnable thread runs again and again. Calls of the rwlock take a bounded number of steps together, and when nothing more can happen every thread has returned from its call or sleeps because another thread holds the lock.", "quantifier": "every number of threads, every interleaving, infinite ones included", "why_tests_cant": "infinite schedules; all interleavings of any number of threads", "anchors": ["wrtstat/system/rwlock.hpp:lock_r", "wrtstat/system/rwlock.hpp:unlock", "wrtstat/system/rwlock.hpp:lock", "wrtstat/system/rwlock.hpp:unlock_r"]}
{"id": "C127", "title": "Adding up summaries one by one", "statement": "Adding summaries one by one to an empty reduced_info with += gives the number of events and of losses of all of them, and their mean up to less than one, in whatever order they are added.", "quantifier": "every list of summaries whose counts fit in 64 bits", "why_tests_cant": "the error of the average grows with the number of additions and depends on the order", "anchors": ["wrtstat/aggregator/api/reduced_info.hpp:operator+=", "wrtstat/aggregator/reducer.cpp:detach"]}
{"id": "C128", "title": "The average weighs events", "statement": "The average of a summary is the mean of its events: a value added for several events counts as often, and a summary handed on to a second aggregator enters the average there with all its events.", "quantifier": "every options, every sequence of calls, every nth_element, exact arithmetic", "why_tests_cant": "all counts with all values; with counts of one the tests cannot tell", "anchors": ["wrtstat/aggregator/reducer.cpp:add", "wrtstat/aggregator/reducer.cpp:add_", "wrtstat/aggregator/reducer.cpp:detach"]}
{"id": "C129", "title": "What is recorded and when it is reported depends on times only", "statement": "Two aggregators with the same step, resolution and beginning, to which the same operations are applied at the same times, accept the same calls, deliver and hold records of the same windows in the same order and have the same current window, whatever values and counts the calls carry and whatever the other options are.", "quantifier": "every two histories with the same operations and times, every options but step and resolution, every nth_element and rounding", "why_tests_cant": "relates every pair of histories that differ in values and options", "anchors": ["wrtstat/aggregator/separator.cpp:add", "wrtstat/aggregator/separator.cpp:separate", "wrtstat/aggregator/basic_aggregator.cpp:add", "wrtstat/aggregator/basic_aggregator.cpp:push"]}
{"id": "C130", "title": "How many samples are kept does not matter for what is counted", "statement": "The same history, run with other values of reducer_limit, reducer_levels, reducing_mode and outgoing_reduced_size, gives records with the same times, counts, extremes and averages. A larger limit never tells a larger loss, and records that tell no loss have the same percentiles.", "quantifier": "every history, every two option sets with the same step and resolution, every two nth_element algorithms, every rounding", "why_tests_cant": "all pairs of options with all histories", "anchors": ["wrtstat/aggregator/reducer.cpp:add_", "wrtstat/aggregator/reducer.cpp:detach", "wrtstat/aggregator/basic_aggregator.cpp:reduce_", "wrtstat/aggregator/options/reducer_options.hpp:reducer_options"]}
{"id": "C131", "title": "The reducing mode is a matter of speed", "statement": "Reducers that differ in reducing_mode and adapt_initial_mode only keep the same samples of the same values, and so tell the same of every window.", "quantifier": "every conforming nth_element, all options, every sequence of calls; every history of an aggregator", "why_tests_cant": "with the nth_element of one library the modes may agree; the standard allows others", "anchors": ["wrtstat/aggregator/reducer.cpp:reduce", "wrtstat/aggregator/reducer.cpp:nth_element_", "wrtstat/aggregator/reducer.cpp:get_nth_"]}
{"id": "C132", "title": "Coarse windows add up fine ones", "statement": "Of two aggregators fed with the same events, one with a step k times as long, every record of the coarse one tells the number of events, the minimum and the maximum told by the records of the fine one whose windows lie in its window, once the fine one is past it: charts of different steps agree.", "quantifier": "every step, every factor k, every conforming nth_element and rounding (of each aggregator its own), all other options, every history of recording and polling", "why_tests_cant": "agreement of windows of different lengths over all histories; tests use one step", "anchors": ["wrtstat/aggregator/separator.cpp:separate", "wrtstat/aggregator/separator.cpp:add", "wrtstat/aggregator/separator.cpp:get_ts_", "wrtstat/aggregator/basic_aggregator.cpp:add", "wrtstat/aggregator/reducer.cpp:detach"]}
{"id": "C133", "title": "When records are fetched does not matter", "statement": "Two histories of an aggregator that differ only in when and how often pop and aggregate_current are called record the same events and report the same records: those received and those waiting are the same together, in the same order if no handler and no force_pop is used, and the object is the same but for the records waiting.", "quantifier": "every conforming nth_element and rounding, every state of an aggregator, every pair of histories with the same other calls", "why_tests_cant": "compares all placements of fetching calls in all histories", "anchors": ["wrtstat/aggregator/basic_aggregator.cpp:pop", "wrtstat/aggregator/basic_aggregator.cpp:aggregate_current", "wrtstat/aggregator/basic_aggregator.cpp:add", "wrtstat/aggregator/basic_aggregator.cpp:separate", "wrtstat/aggregator/basic_aggregator.cpp:force_pop"]}
{"id": "C134", "title": "When one ticks does not matter", "statement": "Two histories of an aggregator with the same recording calls, which differ in when separate is called without handler and when records are fetched, record the same events and, after a last tick past all others, report the same records in the same order and leave the same separator.", "quantifier": "every conforming nth_element and rounding, all options with a positive step, every pair of histories of recording, switching, ticking and fetching", "why_tests_cant": "compares all placements of ticks in all histories", "anchors": ["wrtstat/aggregator/separator.cpp:separate", "wrtstat/aggregator/separator.cpp:add", "wrtstat/aggregator/basic_aggregator.cpp:separate", "wrtstat/aggregator/basic_aggregator.cpp:add", "wrtstat/aggregator/basic_aggregator.cpp:pop"]}
{"id": "C135", "title": "Names are only names", "statement": "The same calls of a registry under other names (different names staying different, the empty one empty) get the same answers under these names: ids, flags, records and their order, pushers and faults. Nothing depends on how names are spelt.", "quantifier": "every registry_options, every conforming nth_element and rounding, every injective change of names, every history of calls", "why_tests_cant": "all names and all histories", "anchors": ["wrtstat/aggregator/aggregator_registry.cpp:create_aggregator", "wrtstat/aggregator/aggregator_registry.cpp:add", "wrtstat/aggregator/aggregator_registry.cpp:pop_all", "wrtstat/aggregator/aggregator_registry.cpp:del", "wrtstat/system/dict.hpp:create_id", "wrtstat/system/dict.hpp:free"]}
{"id": "C136", "title": "The standard library does not matter", "statement": "The same history of an aggregator, run with another conforming implementation of std::nth_element, gives the same records: times, counts, losses, extremes, averages, percentiles and, up to their order, samples.", "quantifier": "every pair of conforming nth_element, every rounding, all options with a positive step, every history", "why_tests_cant": "tests run with one library; the standard allows others", "anchors": ["wrtstat/aggregator/basic_aggregator.cpp:nth_", "wrtstat/aggregator/basic_aggregator.cpp:aggregate2_", "wrtstat/aggregator/basic_aggregator.cpp:reduce_", "wrtstat/aggregator/reducer.cpp:nth_element_", "wrtstat/aggregator/reducer.cpp:reduce"]}
{"id": "C137", "title": "The figures of a record are in order", "statement": "In every record an aggregator delivers or holds, min <= perc50 <= perc80 <= perc95 <= perc99 <= perc100 <= max, all samples lie between min and max, and so does avg.", "quantifier": "every conforming nth_element and rounding, all options with a positive step, every history of recording, polling and forced polling, every record", "why_tests_cant": "all histories, with thinning twice on the way and extremes that are kept apart from the samples", "anchors": ["wrtstat/aggregator/reducer.cpp:add", "wrtstat/aggregator/reducer.cpp:minmax", "wrtstat/aggregator/reducer.cpp:detach", "wrtstat/aggregator/basic_aggregator.cpp:aggregate2_", "wrtstat/aggregator/basic_aggregator.cpp:reduce_"]}
{"id": "C138", "title": "The order of pushing requests into a packer does not matter", "statement": "Run a packer through rounds, each of pushing some requests one by one and then one call of pop_by_json_size, multi_pop or pushout. If in a second run every round pushes the same requests in another order, the same batches come out.", "quantifier": "all packer options, all JSON string lengths, all rounds and requests, every reordering within rounds", "why_tests_cant": "all reorderings of all sequences of requests, under all limits, with state kept between rounds", "anchors": ["wrtstat/multi_packer/basic_packer.cpp:push", "wrtstat/multi_packer/basic_packer.cpp:multi_pop", "wrtstat/multi_packer/basic_packer.cpp:pop_by_json_size", "wrtstat/multi_packer/basic_packer.cpp:pushout"]}
{"id": "C139", "title": "Batches are filled", "statement": "When multi_pop returns a batch that has fewer requests than push_limit allows, none of the requests left in the packer could have been added to it: with any of them the text of the batch would be longer than json_limit.", "quantifier": "all packer options, all JSON string lengths, all sequences of calls before, every request left", "why_tests_cant": "all sets of requests of all sizes and names; the batch that might have been is never built", "anchors": ["wrtstat/multi_packer/basic_packer.cpp:multi_pop", "wrtstat/multi_packer/basic_packer.cpp:pop_by_json_size", "wrtstat/multi_packer/basic_packer.cpp:pushout"]}
{"id": "C140", "title": "pushout makes as few batches as possible", "statement": "If the requests in a packer can be divided into k lists, each of which makes a batch within json_limit and push_limit, then pushout counts at most k batches.", "quantifier": "all packer options, all JSON string lengths, all sequences of calls before, every division of the requests", "why_tests_cant": "all divisions of all sets of requests; the best division is hard to compute", "anchors": ["wrtstat/multi_packer/basic_packer.cpp:pushout", "wrtstat/multi_packer/basic_packer.cpp:multi_pop", "wrtstat/multi_packer/basic_packer.cpp:pop_by_json_size"]}
{"id": "C141", "title": "A larger json_limit makes no more batches", "statement": "Push the same requests into two packers that differ only in json_limit. If pushout of the one with the smaller limit leaves nothing over, pushout of the other counts no more batches.", "quantifier": "all packer options, all JSON string lengths, all limits, all requests", "why_tests_cant": "comparison of two runs over all limits and sets of requests; the anomaly needs ten requests of particular sizes", "anchors": ["wrtstat/multi_packer/basic_packer.cpp:pushout", "wrtstat/multi_packer/basic_packer.cpp:multi_pop", "wrtstat/multi_packer/packer_options.hpp:json_limit"]}
{"id": "C142", "title": "Recording in two tiers tells what recording in one tells", "statement": "Let the calls of a window be split over several aggregators, and let the records they deliver for it be merged by a further aggregator in one window. The merged record has the same count, loss, minimum, maximum, average and percentiles as the record of one aggregator that gets all the calls in one window.", "quantifier": "all splits of all calls over any number of aggregators, all options, all histories around the windows", "why_tests_cant": "two-tier runs against one-tier runs for all splits and options; tests merge a few hand-written records", "anchors": ["wrtstat/aggregator/basic_aggregator.cpp:add", "wrtstat/aggregator/reducer.cpp:add", "wrtstat/aggregator/reducer.cpp:minmax", "wrtstat/aggregator/reducer.cpp:detach"]}
{"id": "C143", "title": "Larger values lower nothing that is told of them", "statement": "Take two histories of an aggregator that are the same except that the values recorded in the second are larger than or equal to those in the first. Then the records come at the same times with the same counts, losses and numbers of samples, and no minimum, maximum, average or percentile of a record of the second is lower than that of the first.", "quantifier": "all options, platforms, histories and values, merged records included", "why_tests_cant": "comparison of pairs of runs; the average falls only for values whose difference is rounded", "anchors": ["wrtstat/aggregator/reducer.cpp:add_", "wrtstat/aggregator/reducer.cpp:reduce", "wrtstat/aggregator/reducer.cpp:add", "wrtstat/aggregator/basic_aggregator.cpp:calc_perc"]}
{"id": "C144", "title": "More room for samples, no fewer samples", "statement": "Run the same history twice, the second time with a larger or equal reducer_limit and a larger or equal outgoing_reduced_size (0, no thinning, being the largest). Then every record of the second run, received or held, carries at least as many samples as that of the first.", "quantifier": "all histories, platforms, modes and sizes", "why_tests_cant": "comparison of pairs of configurations; the number of samples falls only for particular pairs of sizes", "anchors": ["wrtstat/aggregator/basic_aggregator.cpp:reduce_", "wrtstat/aggregator/reducer.cpp:detach"]}
{"id": "C145", "title": "The older aggregator does what the current one does", "statement": "The sources keep an older aggregator (wrtstat/aggregator.cpp over wrtstat/separator.cpp) beside the one that is compiled. Given the same options and the same history of add, push, separate, pop, force_pop, aggregate_current and enable, the older one answers, delivers and accepts exactly what the current one does.", "quantifier": "all platforms, options, histories, values, times and clock readings", "why_tests_cant": "the older sources are no longer compiled, and equality is over all histories", "anchors": ["wrtstat/aggregator.cpp:add", "wrtstat/aggregator.cpp:push", "wrtstat/aggregator.cpp:force_pop", "wrtstat/aggregator.cpp:reduce_", "wrtstat/separator.cpp:force_pop"]}
{"id": "C146", "title": "The older hash map hands over whole reports, name by name", "statement": "In the older aggregator_hashmap, whatever the hash function and the number of shards (at least one), what handlers are given under a name is, in order, what a single aggregator of that name, built at its first push, gives to the handlers of the pushes under that name; each record is the whole report of the accepted data of one window, its percentiles included. Under a name whose pushes have no handlers nothing is handed over, and a record completed by a push without a handler is neither handed over nor dropped by any later push. With no shards any push divides by zero.", "quantifier": "all platforms, hash functions, options and histories of pushes", "why_tests_cant": "all interleavings of names and handlers and all hash functions; the file is no longer compiled", "anchors": ["wrtstat/manager/aggregator_hashmap.cpp:push", "wrtstat/manager/aggregator_map.cpp:push", "wrtstat/aggregator.cpp:push"]}
{"id": "C147", "title": "Shutting down in order loses nothing", "statement": "If pushout is called and returns 0, then force_pushout is called, then pushout once more, and nothing is recorded in between, then everything any live name accepted has been handed over in records that report it, no aggregator keeps anything, and the destruction of the object hands over nothing. This holds whatever the clock says at each of the calls and for each aggregator, so also if windows end between the calls.", "quantifier": "all platforms, options, histories, names, values and clock readings, which may differ from aggregator to aggregator", "why_tests_cant": "the order of windows ending and of calls is over all clock readings; a test would have to hit the moment between two calls", "anchors": ["wrtstat/wrtstat.cpp:pushout", "wrtstat/wrtstat.cpp:~wrtstat", "wrtstat/aggregator/aggregator_registry.cpp:pop_"]}
{"id": "C148", "title": "Polling ends", "statement": "As long as nothing is recorded, the records handed over by any calls of pushout and force_pushout, together with those that are still owed afterwards, are exactly as many as were owed before: the records waiting and one for each current window in which something was recorded. So, whatever the clock says, among more calls than records owed there is one that returns 0.", "quantifier": "all platforms, options, histories, sequences of calls and clock readings", "why_tests_cant": "the number of calls needed depends on the history and on the clock", "anchors": ["wrtstat/wrtstat.cpp:pushout", "wrtstat/aggregator/aggregator_registry.cpp:pop_", "wrtstat/aggregator/basic_aggregator.cpp:force_pop"]}
{"id": "C149", "title": "Options written by the older sources can be loaded", "statement": "A text of options written by dump of the older sources (wrtstat/json/load.cpp) is accepted by today's load_options, and gives the settings it was written from.", "quantifier": "all options, texts, files and lawful JSON parsers", "why_tests_cant": "the older sources are not compiled, so no test can write such a text, and the claim is over all options", "anchors": ["wrtstat/json/load.cpp:dump", "wrtstat/json/load.cpp:load", "wrtstat/json/wrtstat_options_json.hpp:wrtstat_options_json", "wrtstat/wrtstat_options_json.hpp:wrtstat_options_json", "wrtstat/options/load_options.cpp:load_options"]}
{"id": "C150", "title": "lock() of a spinlock returns", "statement": "When every thread that waits in lock() keeps running, and every thread that has the lock lets it go some time, every call of lock() returns.", "quantifier": "every number of threads, every infinite fair interleaving", "why_tests_cant": "a liveness claim over infinite executions", "anchors": ["wrtstat/system/spinlock.hpp:lock", "wrtstat/system/spinlock.hpp:unlock", "wrtstat/system/spinlock.hpp:try_lock"]}
{"id": "C151", "title": "How many records an aggregator makes", "statement": "Without force_pop the records an aggregator has made, handed over or waiting, are exactly one for each window that has ended and has a recorded event; there are no more of them than steps have passed. With force_pop too there are no more than recorded calls, counting the open window.", "quantifier": "all options with a positive step, all histories of calls, also after clear", "why_tests_cant": "an exact count over unbounded histories", "anchors": ["wrtstat/aggregator/separator.cpp:separate", "wrtstat/aggregator/basic_aggregator.cpp:add", "wrtstat/aggregator/basic_aggregator.cpp:push", "wrtstat/aggregator/basic_aggregator.cpp:force_pop"]}
{"id": "C152", "title": "The unit of time does not matter", "statement": "A coarse reading of the clock is a fine one truncated, and now(number) and now(resolution) agree. An aggregator with a finer resolution and a step of the same duration, used at the same moments, accepts the same events and makes the same records, their times told in its unit.", "quantifier": "all resolutions other than none, all histories of calls (also clear) at moments at least a second after the epoch or now, all clock readings", "why_tests_cant": "a relation between two executions over all histories and clock readings", "anchors": ["wrtstat/aggregator/separator.cpp:now", "wrtstat/aggregator/separator.hpp:now_t", "wrtstat/aggregator/separator.cpp:get_ts", "wrtstat/aggregator/separator.cpp:separate", "wrtstat/aggregator/separator.cpp:clear"]}
{"id": "C153", "title": "An event is recorded unless an earlier call lies in a later window", "statement": "The window of an aggregator is the latest of the windows of its calls: the one it began with, that of a tick, or that of an event handed over while it was switched on. An event handed to an aggregator that is switched on is recorded if and only if it is not before the first window and no earlier such call lies in a later window.", "quantifier": "all options with a positive step, all histories of calls, force_pop included, also after clear; events aligned to time 0 excepted (C14)", "why_tests_cant": "an exact criterion over all orders of timestamps of unbounded histories", "anchors": ["wrtstat/aggregator/separator.cpp:separate", "wrtstat/aggregator/separator.cpp:add", "wrtstat/aggregator/basic_aggregator.cpp:add", "wrtstat/aggregator/basic_aggregator.cpp:push", "wrtstat/aggregator/basic_aggregator.cpp:separate"]}
{"id": "C154", "title": "An event with a wrong time harms only itself", "statement": "Whatever the time of one event, the other events of the history that are recorded without it are recorded with it.", "quantifier": "all options with a positive step, all histories, the event at any place in it", "why_tests_cant": "compares two unbounded histories for every timestamp", "anchors": ["wrtstat/aggregator/separator.cpp:separate", "wrtstat/aggregator/separator.cpp:add", "wrtstat/aggregator/basic_aggregator.cpp:add", "wrtstat/aggregator/basic_aggregator.cpp:push"]}
{"id": "C155", "title": "The older meter manager does what wrtstat does", "statement": "The sources keep an older registry (wrtstat/manager/aggregator_registry.cpp) and an older top-level class (wrtstat/meter_manager.cpp) beside the compiled ones. Given the same options without an initializer, and the configured prefixes (or the empty prefix) with every call that makes several meters, a history of calls of the older class gives the client the same answers and hands the same named records to the handler as the same history of a wrtstat object.", "quantifier": "all platforms, options, prefixes, histories, names, ids, values, times and clock readings", "why_tests_cant": "the older sources are no longer compiled, and equality is over all histories", "anchors": ["wrtstat/manager/aggregator_registry.cpp:create_aggregator", "wrtstat/manager/aggregator_registry.cpp:force_pop", "wrtstat/manager/aggregator_registry.cpp:create_composite_pusher", "wrtstat/meter_manager.cpp:create_time_multi_meter", "wrtstat/meter_manager.cpp:create_composite_multi_meter", "wrtstat/meter_manager.cpp:make_handler_"]}
{"id": "C156", "title": "A push to a multi aggregator is refused only if it comes after a later one", "statement": "Without a random start, push(name, v) to a multi aggregator answers true if and only if no push of the same name since the name was last deleted (or ever, if it was not), with or without answer and accepted or not, has a later aligned time. Pushes of other names, pushout with and without force, the hash function and the number of shards have no influence. del answers true if and only if the name was pushed since it was last deleted, and the first push after del is accepted whatever its time.", "quantifier": "all options with a positive step, a positive number of shards and no random start, all histories of push, multi_push, del and pushout; clocks that are not negative and do not run backwards between the construction of an aggregator and its first push; pushes aligned to time 0 excepted (C14)", "why_tests_cant": "an exact criterion over all interleavings of names and all orders of timestamps", "anchors": ["wrtstat/multi_aggregator/multi_aggregator.cpp:push", "wrtstat/multi_aggregator/multi_aggregator.cpp:del", "wrtstat/multi_aggregator/basic_multi_aggregator.cpp:push", "wrtstat/aggregator/separator.cpp:add"]}
{"id": "C157", "title": "An event given to a registry is refused only if it comes after a later call for the same name", "statement": "Without a random start, add by id or by name for a live name answers false if and only if the aggregator of the name is switched on and the aligned time of the event is before the aligned time at which the aggregator was built or before that of an earlier call made to it: an event by id, by name or through a pusher while it was switched on, a pop_all, or a tick. In particular after pop_all every event before the aligned time of the call is refused, whatever name it is for, although the aggregator may never have had an event. While the aggregator is switched off every event is answered with true and none is recorded.", "quantifier": "all options with a positive step and no random start, enough ids, ids of the right form, all histories of registry calls, pushers and deletions included; events aligned to time 0 excepted (C14)", "why_tests_cant": "an exact criterion over all interleavings of names and all orders of timestamps", "anchors": ["wrtstat/aggregator/aggregator_registry.cpp:add", "wrtstat/aggregator/aggregator_registry.cpp:pop_all", "wrtstat/aggregator/basic_aggregator.cpp:add", "wrtstat/aggregator/separator.cpp:add"]}
{"id": "C158", "title": "A window ends when its time is over", "statement": "Whatever is recorded by those who take the time from the clock (meters finish their points with now(resolution), pushout ticks with time 0), there is a time from which on a tick ends the windows of everything recorded so far, so that it is reported. This is so for the resolutions seconds to nanoseconds. With resolutions::none, which the meters of a wrtstat accept, now() is 0: every event is recorded at time 0, no tick ever ends the window, and unless force is used no record is ever made, however long the program runs.", "quantifier": "all options with a positive step, all histories of events, ticks, pop, force_pop and enable with times read from the clock, all readings", "why_tests_cant": "that no tick at any time ends a window is a statement about all futures", "anchors": ["wrtstat/aggregator/separator.cpp:now", "wrtstat/aggregator/separator.cpp:get_ts", "wrtstat/meters/time_meter.hpp:push", "wrtstat/wrtstat.cpp:create_time_meter"]}
{"id": "C159", "title": "A multi aggregator keeps the books one could keep by hand", "statement": "For every name, the requests handed to handlers by push, multi_push, pushout and force_pushout are, one by one and in order, the entries of a ledger kept by hand: a page is open for the time of the latest push; a push of the same (aligned) time is noted on it, one of an earlier time is refused, one of a later time hands the page over and opens the next; force_pushout hands over the open page and leaves it empty; del throws the page away; pushout does nothing; an empty page is never handed over. A request handed over has the time of its page and is a summary of the pushes on it, all of them and nothing else.", "quantifier": "for all options with step, hash_size > 0 and soiled = 0, all hash functions and iteration orders, all histories of push, multi_push, del, pushout and force_pushout whose clock does not run backwards within a push and whose pushes are not of time zero, and all names", "why_tests_cant": "The ledger is compared with every interleaving of operations on every set of names; tests try a few histories.", "anchors": ["wrtstat/multi_aggregator/basic_multi_aggregator.cpp:push", "wrtstat/multi_aggregator/basic_multi_aggregator.cpp:pushout", "wrtstat/multi_aggregator/basic_multi_aggregator.cpp:del", "wrtstat/multi_aggregator/multi_aggregator.cpp:multi_push", "wrtstat/aggregator/basic_aggregator.cpp:push", "wrtstat/aggregator/separator.cpp:separate"]}
{"id": "C160", "title": "An aggregator keeps the books one could keep by hand", "statement": "The records an aggregator hands over (to the handlers of push and separate, by pop and by force_pop) are, one by one and in order, the slips of a daybook kept by hand: a page is open for the current window; an event is refused if it is of a time before the page; an event or a tick of a time at or after the end of the window turns the page to the window of that time, and what was on the old page becomes a slip, handed over at once if the call has a handler and put at the end of a queue otherwise; an accepted event is noted on the open page; pop hands over the first slip of the queue; force_pop hands over what is on the open page, whatever is in the queue, and the window goes on; an aggregator that is switched off notes nothing but ticks; an empty page makes no slip. A record has the time of its slip and is a summary of the events on it, all of them and nothing else, with percentiles unless the handler of separate received it. size() is the length of the queue, current_time() the time of the open page, and aggregate_current() shows what is on it.", "quantifier": "for all options with a positive step (random start included), all aggregators newly built or cleared, all histories of add, push, separate, pop, force_pop, aggregate_current and enable without an event aligned to time zero (C14)", "why_tests_cant": "a complete description of what is handed over, in which order and when, over all interleavings of all calls", "anchors": ["wrtstat/aggregator/basic_aggregator.cpp:add", "wrtstat/aggregator/basic_aggregator.cpp:push", "wrtstat/aggregator/basic_aggregator.cpp:separate", "wrtstat/aggregator/basic_aggregator.cpp:force_pop", "wrtstat/aggregator/basic_aggregator.cpp:aggregate_current", "wrtstat/aggregator/separator.cpp:separate"]}
{"id": "C161", "title": "The books of an aggregator hold without exception, events of time zero included", "statement": "The description of C160 holds for every history once a tray is added to the books. An event whose time is aligned to zero, where zero means now, turns the page at the time of the clock but is itself refused if the new page begins after zero. What was on the old page is then handed over at once if the call has a handler, and otherwise lies in a tray: pop does not find it and size() does not count it. force_pop hands over what lies in the tray first, one slip at a time, before the open page; the next event accepted without a handler, or the next tick, moves the tray to the end of the queue, before the slip it makes itself. Nothing else differs, and without such events the tray stays empty.", "quantifier": "for all options with a positive step (random start included), all aggregators newly built or cleared, all histories of add, push, separate, pop, force_pop, aggregate_current and enable, with no condition on times or clocks; for registries, name by name", "why_tests_cant": "a complete description of what is handed over, in which order and when, over all calls and all times", "anchors": ["wrtstat/aggregator/basic_aggregator.cpp:add", "wrtstat/aggregator/basic_aggregator.cpp:push", "wrtstat/aggregator/basic_aggregator.cpp:separate", "wrtstat/aggregator/basic_aggregator.cpp:force_pop", "wrtstat/aggregator/separator.cpp:separate", "wrtstat/aggregator/separator.cpp:pop"]}
{"id": "C162", "title": "The books of a multi aggregator hold without exception, and give its answers", "statement": "All that a multi aggregator tells of a name is in books kept for that name by hand. The first push of a name opens a page for the window of its time, moved back by a remainder of the random number if starts are at random. A push whose time is at or after the end of the window turns the page to the window of that time, counted in steps from the first page, and what was on the old page is handed over; it is then noted and answered yes if its time is not before the open page, and answered no otherwise. If the time is aligned to zero and zero means now, the page is turned by the clock and the push is judged by zero. force_pushout hands over the open page and leaves it open, pushout does nothing, del throws the page away and says whether there was one. The requests handed over for the name are, one by one and in order, the entries of the books; the answers of push and del about the name are those of the books; the name is known just if it has a page, and current_time() is its beginning.", "quantifier": "for all histories of push, multi_push, del, pushout and force_pushout without a fault, all names, all times, clocks (running back included) and random numbers, all hash functions and numbers of shards above zero, all options with a positive step", "why_tests_cant": "a complete description of requests and answers over all histories, with no condition on times and clocks", "anchors": ["wrtstat/multi_aggregator/basic_multi_aggregator.cpp:push", "wrtstat/multi_aggregator/basic_multi_aggregator.cpp:del", "wrtstat/multi_aggregator/basic_multi_aggregator.cpp:force_pushout", "wrtstat/multi_aggregator/multi_aggregator.cpp:multi_push", "wrtstat/aggregator/separator.cpp:separator"]}
{"id": "C163", "title": "An aggregator shared by threads is a desk where the books are kept", "statement": "Whatever calls several threads make on one aggregator_mt, the calls can be put in one order, respecting the order in each thread and which call returned before which was made, in which every answer and every record handed over is that of the books of C161 kept at one desk: add and push answer yes just if the aggregator is switched off or the event is not before the page that is open once it turned the page; push and separate hand their handlers, and pop and force_pop return, records that tell of the slips the books hand over at this call; separate says whether it was forced or the window was over; aggregate_current shows the open page; size is the length of the queue; clear opens an empty page for its time, throws away queue and tray, keeps the switch and ends the making of working pushers. No call faults if the values lie between bounds that are 64-bit integers and doubles. For a multi_aggregator, the critical sections can be put in such an order in which the requests and the answers about every name are those of its account (C162).", "quantifier": "every number of threads, every interleaving of the small steps of the critical sections, all calls with values in the bounds, all times and clocks, all options with a positive step, random start included", "why_tests_cant": "a complete description of all results over all interleavings", "anchors": ["wrtstat/aggregator/aggregator_mt.cpp", "wrtstat/aggregator/basic_aggregator.cpp:clear", "wrtstat/aggregator/basic_aggregator.cpp:push", "wrtstat/multi_aggregator/multi_aggregator.cpp:push"]}
{"id": "C164", "title": "A registry is a folio with one leaf for every name", "statement": "Keep by hand a folio with a leaf for every live name: on it the id, which of the aggregators ever created it is, and the books of C161. create_aggregator, add by name and the making of a pusher by name open a leaf if the name is not empty and has none: its id is one that was given back, or else the last new id plus id_step, its first page is the window of the time of the call (moved back by the random start), its books are closed if the registry is disabled, and otherwise begin with the record of the initializer if it gives one. An operation on an id, a name or a pusher is told to the leaf with this id, this name, or of this aggregator; enable and pop_all are told to every leaf; del tears the leaf out and gives the id back. Then every answer is the one the folio gives: the ids of create_aggregator, whether add is accepted, the records of pop, force_pop, pushers and direct calls (none if there is no leaf), the pushers, the names of get_name, false for del, and pop_all reports for every leaf what its books hand over, in ascending order of the ids and nothing else. And the live names, what was received from each, what waits and the open pages are those of the folio.", "quantifier": "all histories of operations of a registry and its pushers, all times, clocks and random starts, all options with a positive step, all answers of the initializer, as long as there are ids left; ids given by the client have the form of those the registry gives out, which is no condition if id_step is 1", "why_tests_cant": "a complete description of a registry with any number of names over all histories", "anchors": ["wrtstat/aggregator/aggregator_registry.cpp:create_aggregator", "wrtstat/aggregator/aggregator_registry.cpp:pop_all", "wrtstat/aggregator/aggregator_registry.cpp:del", "wrtstat/system/dict.hpp:create_id"]}
{"id": "C165", "title": "No operation of a registry faults", "statement": "Take two 64-bit numbers that a double represents, and a history of a registry in which every value (of the additions by id and by name, of the records of the initializer, of calls of pushers and of direct calls of an aggregator) lies between them. Then no operation of the history divides by zero, reads or writes outside of a vector, or converts an average that overflows: the history runs to its end. Ids may be of any form, known or not, names empty or deleted, pushers outdated, times and clocks arbitrary. If id_step or the step is zero, already the first create_aggregator divides by zero.", "quantifier": "all histories of operations of a registry and its pushers, all times, clocks, ids, names and random starts, all options with a positive step, as long as there are ids left", "why_tests_cant": "absence of undefined behaviour over all histories", "anchors": ["wrtstat/aggregator/aggregator_registry.cpp:create_aggregator", "wrtstat/aggregator/aggregator_registry.cpp:pop_all", "wrtstat/aggregator/aggregator_registry.cpp:get_aggregator", "wrtstat/system/dict.hpp:id2pos"]}
{"id": "C166", "title": "No operation of a wrtstat object faults, but for reports without a handler", "statement": "Take two 64-bit numbers that a double represents, and a history of a wrtstat object (registry operations, meters and composite meters by id and by name, calls of their functions, pushout and force_pushout) in which every value lies between them. With a handler the history runs to its end, and the destructor after it does, too: no division by zero, no access outside of a vector, no conversion that overflows, no exception. Without a handler the only possible fault is the call of the null handler, and it happens in the first pushout or force_pushout that has something to report.", "quantifier": "all histories of a wrtstat object, all ids, names, times, clocks and random starts, all values between the bounds, all options with a positive step, as long as there are ids left", "why_tests_cant": "absence of undefined behaviour over all histories", "anchors": ["wrtstat/wrtstat.cpp:pushout_", "wrtstat/wrtstat.cpp:~wrtstat", "wrtstat/wrtstat.cpp:create_composite_meter", "wrtstat/aggregator/aggregator_registry.cpp:create_composite_pusher"]}
{"id": "C167", "title": "A wrtstat object is described in full by the folio", "statement": "Keep by hand the folio of C164 for a wrtstat object. Then every answer and everything that reaches the handler of the user is told by it. A meter made from an id has a null function if no leaf has the id, and otherwise pushes to this leaf; a meter made by name first opens the leaf; a composite meter has the three parts, each null or pushing to its leaf, and is null itself if all three are. A call hands over the records the books of the leaf (at the time of the call, even if the name was deleted and created again: then none) hand over, under the name that has the id at that time, or for composite meters made by name under the name it was made with; the three parts of a composite call follow each other: time, read, write, and with summary_size the sizes are the counts. pushout and force_pushout return the number of reports and hand over what pop_all reports of the leaves; so does the destructor. Without a handler nothing is handed over.", "quantifier": "all histories of a wrtstat object, all times, clocks and random starts, all options with a positive step, as long as there are ids left; ids given by the client have the form of those given out, which is no condition if id_step is 1", "why_tests_cant": "a complete description of the top-level object over all histories", "anchors": ["wrtstat/wrtstat.cpp:make_handler_", "wrtstat/wrtstat.cpp:pushout_", "wrtstat/wrtstat.cpp:create_composite_meter", "wrtstat/aggregator/aggregator_registry.cpp:create_composite_pusher"]}
{"id": "C168", "title": "The folio of a registry holds whatever the ids", "statement": "For an id given by a client read its regular id: of the id_step consecutive ids, counted from 1, among which it lies, the one of the form id_init plus a multiple of id_step; bad_id for 0 and beyond the last block. Then every operation with an id does the same as the operation with the regular id: the same answer, the same state, the same fault. So the folio of C164, kept with regular ids, gives all answers of all histories and its leaves are the aggregators of the registry, whatever the ids of the client.", "quantifier": "all histories of operations of a registry and its pushers, all 64-bit ids, all times, clocks and random starts, all options with a positive step, as long as there are ids left", "why_tests_cant": "a complete description of a registry with any number of names over all histories and ids", "anchors": ["wrtstat/aggregator/aggregator_registry.cpp:get_aggregator", "wrtstat/system/dict.hpp:id2pos"]}
{"id": "C169", "title": "Threads sharing a registry: every aggregator keeps the books of its log", "statement": "Let threads use a registry at the same time, in any way: by id, by name, by pushers, with pop_all, enable and del. Take any aggregator ever created, in the registry or removed from it, and the operations done to it by whichever thread, in the order of its mutex. Keep books by hand as for one thread (C161): a page for the open window, slips for the closed ones, a tray and a queue. Then the records that the aggregator has handed out to the threads together are exactly the slips handed over, in this order, each saying what its events say; the records that wait are the slips in the queue and in the tray; the open window and the flag are those of the books. No assumption is made on clocks, times or values.", "quantifier": "all finite sets of threads, all interleavings of all calls, all aggregators, all times and clocks, all options with a positive step", "why_tests_cant": "all interleavings of any number of threads and calls", "anchors": ["wrtstat/aggregator/aggregator_registry.cpp:pop_all", "wrtstat/aggregator/aggregator_registry.cpp:add", "wrtstat/aggregator/aggregator_mt.hpp", "wrtstat/aggregator/aggregator.cpp:push"]}
{"id": "C170", "title": "Threads sharing a registry: no call faults or hangs", "statement": "Let threads use a registry at the same time with values between bounds that a double represents, none of them calling the registry from a handler. In every state they can bring it to, a thread that is in a call can go on, without division by zero, access outside of a vector or overflow, unless it is about to take the registry lock; then some other thread has the lock, is in pop_all or enable, and can go on. A thread that has the lock, or whom no one else keeps from it, comes to the end of its call by itself within twice as many moves as there are positions in the registry, and four more. From every state some order of moves ends all calls of all threads.", "quantifier": "all finite sets of threads, all interleavings of all calls, all times, clocks, ids, names and random starts, all options with positive steps, as long as there are ids left", "why_tests_cant": "absence of undefined behaviour and of deadlock over all interleavings", "anchors": ["wrtstat/aggregator/aggregator_registry.cpp:create_aggregator", "wrtstat/aggregator/aggregator_registry.cpp:pop_all", "wrtstat/aggregator/aggregator_registry.cpp:enable", "wrtstat/aggregator/aggregator_registry.cpp:get_aggregator", "wrtstat/system/dict.hpp:id2pos"]}
{"id": "C171", "title": "A multi aggregator does not fault, whatever its clocks show, and threads sharing it keep the accounts", "statement": "Let all values be between bounds that a double represents. With a handler no history of push, multi_push, del, pushout and force_pushout on a multi aggregator faults, whatever the clocks show (before 1970, running back), whatever the times of the events are and whatever rand gives. Without a handler a call runs exactly if it makes no entry in the books (C162) of any name, and otherwise throws bad_function_call. Threads that share the object with handlers get no fault from any call either, and there is one order of all critical sections, respecting the order in each thread and in real time, such that for every name the requests handed over and the answers given are those of its account, entry by entry.", "quantifier": "all histories, all interleavings of any number of threads, all clocks, times, random starts, hash functions, numbers of shards and orders of iteration", "why_tests_cant": "absence of faults over all clocks, and agreement with the books over all interleavings", "anchors": ["wrtstat/multi_aggregator/multi_aggregator.cpp:push", "wrtstat/multi_aggregator/multi_aggregator.cpp:multi_push", "wrtstat/multi_aggregator/multi_aggregator.cpp:force_pushout", "wrtstat/multi_aggregator/basic_multi_aggregator.cpp:push"]}
{"id": "C172", "title": "The books of an aggregator whose handlers throw", "statement": "Let the handler only take the record and throw or not. A client that goes on after exceptions and notes which of its calls threw can keep the books by hand: a call that threw has given the record of the open window, has emptied that window, has not closed it and has recorded nothing; any other call enters what C161 says. Received records, records waiting, the open window and the switch are those of the books. A call throws exactly if by the books it has a record to give and the handler throws on that record. By the books, making a call that threw once more gives nothing and leaves what the call would have left had it not thrown. With values between bounds that a double represents no history faults or hangs, whenever the handler throws.", "quantifier": "all histories, all handlers that do not use the aggregator, all clocks and times, all settings with a positive step", "why_tests_cant": "exceptions at every subset of the handler's calls in every history", "anchors": ["wrtstat/aggregator/separator.cpp:separate", "wrtstat/aggregator/basic_aggregator.cpp:push", "wrtstat/aggregator/basic_aggregator.cpp:separate"]}
{"id": "C173", "title": "The books of a multi aggregator whose handlers throw", "statement": "Let every call of a multi aggregator have a handler of its own that may throw at any request, and let the client go on after exceptions. For every name the books of C162 can be kept by hand: a push that threw enters the open window of its name, empties it and leaves it open, and records and answers nothing; a multi_push that threw enters its requests before the one being pushed, and that one as a push that threw; a pushout or force_pushout that threw enters the names of which the handler was given requests and no others. The requests handed over of each name are the entries of its books, the answers are those in its books, and the name is known if it has a page. A call hands over request after request until its handler throws for the first time, and throws exactly then. With values between bounds that a double represents no history faults.", "quantifier": "all histories, all handlers that do not use the object and all their exceptions, all clocks, times, random starts, hash functions, numbers of shards and orders of iteration", "why_tests_cant": "exceptions at every subset of the handler calls in every history", "anchors": ["wrtstat/multi_aggregator/basic_multi_aggregator.cpp:push", "wrtstat/multi_aggregator/basic_multi_aggregator.cpp:force_pushout", "wrtstat/multi_aggregator/multi_aggregator.cpp:multi_push", "wrtstat/aggregator/separator.cpp:separate"]}
{"id": "C174", "title": "Whole histories of a wrtstat object whose handler throws", "statement": "Let the handler of a wrtstat object throw at any record of any call, and let the client go on after exceptions. The folio of C167 can be kept by hand: the call of a meter that threw empties the page of its aggregator, leaves the page open and records nothing; a composite call that threw has made its parts before the one that threw, and none after it; a pushout or force_pushout that threw has taken all records out of the registry, handed over those up to the one thrown at, and lost the others. Every answer, every record handed over and every record lost is what the folio before the call says. The end of the object terminates the program exactly if the handler throws at one of the records it is given. With values between bounds that a double represents no history faults. Without exceptions this is C167.", "quantifier": "all histories, all handlers that do not use the object and all their exceptions, all clocks, times, random starts, ids of the form given out and options", "why_tests_cant": "exceptions at every subset of the handler calls in every history", "anchors": ["wrtstat/wrtstat.cpp:pushout_", "wrtstat/wrtstat.cpp:~wrtstat", "wrtstat/aggregator/aggregator_registry.cpp:135-145", "wrtstat/aggregator/separator.cpp:separate"]}
{"id": "C175", "title": "Whole histories of a packer whose handler throws", "statement": "Let the handler of a packer throw in any calls of pushout, at any batches, and let the client go on to push, pop and call pushout. No call goes wrong. What came out in batches, what was popped and what is in the packer is, as a multiset of requests restored by the receiver, what was pushed and, for every exception on a batch of what is left and every request of that batch, one request without name and data but with its numbers. So by the counts on the wire the events of such a batch are handed over once more for each such exception. Without exceptions on batches of what is left nothing is lost and nothing is handed over twice, whatever else was thrown.", "quantifier": "all histories, all handlers and all their exceptions, all options whose separator is not empty if names are compacted, all JSON string sizes", "why_tests_cant": "exceptions at every subset of the handler calls in every history; the recorded sizes are wrong after the first", "anchors": ["wrtstat/multi_packer/basic_packer.cpp:24-50", "wrtstat/multi_packer/basic_packer.cpp:pushout"]}
{"id": "C176", "title": "An aggregator shared by threads whose handlers throw", "statement": "Let threads call the operations of an aggregator_mt, each call with a handler that throws on whatever records it likes. The mutex is released by an exception as by a return. Their calls, answers, records and exceptions can be explained by calls at a desk that keeps the books of C161, one at a time, respecting each thread's order and real time: a call that returns did what C163 says and its handler threw on nothing it was given; a call that threw had one slip to give, its handler was given the one record of that slip and threw on it, and it leaves the page open and empty, everything else as it was, the event not noted. No call faults.", "quantifier": "all thread schedules, all calls, all handlers and all their exceptions, all options with positive step, all times and values within the reducer's bounds", "why_tests_cant": "all interleavings of all calls with exceptions at any of them", "anchors": ["wrtstat/aggregator/aggregator_mt.cpp:28-32", "wrtstat/aggregator/aggregator_mt.cpp:push", "wrtstat/aggregator/basic_aggregator.cpp:106-111", "wrtstat/aggregator/separator.cpp:147-167"]}
{"id": "C177", "title": "A multi aggregator shared by threads whose handlers throw", "statement": "Let threads call push, multi_push, del, pushout, force_pushout and size of a multi_aggregator, with handlers that throw whenever they like. An exception releases the mutex of the shard and ends the call; sections made before it stay made. There is one order of the critical sections, respecting each thread's order and real time, in which no section faults, every section hands over request after request until its handler throws for the first time, and for every name the requests handed over and the answers given are those of the books of C173: a push that throws tears out the page and notes nothing, a pushout that throws has turned in the pages of the names it came to. No call faults, and as long as some thread is in a call some thread in a call can go on.", "quantifier": "all thread schedules, all calls with handlers, all exceptions, all numbers of shards and hash functions, all options with positive step, all times and values within the reducer's bounds", "why_tests_cant": "all interleavings of all calls with exceptions at any of them", "anchors": ["wrtstat/multi_aggregator/multi_aggregator.cpp:35-103", "wrtstat/multi_aggregator/basic_multi_aggregator.cpp:18-92"]}
{"id": "C178", "title": "The books of a registry used by threads whose handlers throw", "statement": "Let threads create and delete aggregators of a registry, add to them, pop them, enable them and push through pushers at the same time, with handlers that throw whenever they like. An exception ends the call and releases the mutex of the aggregator; the registry lock, the names, the other aggregators and the other threads are not affected. For every aggregator, in the registry or removed from it, the records given to threads, including those given to handlers that threw, are the slips made in the books kept by hand over what was asked of it, in the order of its mutex: a call that threw had exactly one slip to give, gave it, emptied the page without turning it, and noted nothing. The records that wait are the slips in the queue and in the tray. No operation of an aggregator faults, whatever threw before.", "quantifier": "all thread schedules, all calls, all handlers and exceptions, all options with positive step, all clocks and times", "why_tests_cant": "all interleavings of all calls with exceptions at any of them", "anchors": ["wrtstat/aggregator/aggregator_registry.cpp:77-284", "wrtstat/aggregator/aggregator_mt.cpp:1-115", "wrtstat/aggregator/basic_aggregator.cpp:45-111"]}
{"id": "C179", "title": "No thread of a registry faults or hangs, whenever handlers throw", "statement": "Let threads use a registry at the same time, with values within the bounds of the reducer and fewer names than the registry has room for, and with handlers that throw whenever they like. A thread that can not go on is in no call, or it waits for the registry lock while another thread that has the lock can go on, whatever the handler of that one does. A thread that goes on alone comes to the end of its call, by a return or by an exception, within twice the number of positions and four more steps, unless it needs the registry lock and another thread has it; the other threads stay where they are. From every state there is an order in which the threads go on that ends all their calls, whatever the handlers do. A push through a pusher with a handler, and a separate of the aggregator, throws exactly when the handler throws on a record that the call would give if it returned.", "quantifier": "all thread schedules, all calls, all handlers and exceptions, all options with positive step, all clocks and times", "why_tests_cant": "absence of deadlock and of faults under all interleavings with exceptions at any call", "anchors": ["wrtstat/aggregator/aggregator_registry.cpp:77-284", "wrtstat/aggregator/aggregator_mt.cpp:1-115", "wrtstat/aggregator/basic_aggregator.cpp:45-111"]}
{"id": "C180", "title": "An older hash map can be moved", "statement": "A map of the older sources can be moved to a new map and to an existing one, and what is recorded goes on there as if nothing had been moved.", "quantifier": "all programs that build, use and move any number of older hash maps, all options, all storage durations", "why_tests_cant": "the behaviour is undefined for almost all programs that assign, and tests see whatever the compiler made of it", "anchors": ["wrtstat/manager/aggregator_hashmap.cpp:12-28", "wrtstat/manager/aggregator_hashmap.hpp:31-37"]}
{"id": "C181", "title": "A spinlock can be built by moving another one", "statement": "A spinlock built by moving another one has the flag of that one and can be used as any other.", "quantifier": "all programs that build, move, lock and unlock any number of spinlocks, all storage durations, before and since C++20", "why_tests_cant": "whether an uninitialized atomic is read depends on the version of the language and the storage of the object, and tests see whatever the compiler made of it", "anchors": ["wrtstat/system/spinlock.hpp:16-51", "wrtstat/manager/mutex/spinlock.hpp:16-51"]}
{"id": "C182", "title": "Which threads of the registry can deadlock", "statement": "Finitely many threads that call the registry and pushers can come to a state where every unfinished thread is blocked if, and only if, one of them pushes to an aggregator whose handler asks the registry for the name, and another one calls enable while that aggregator is in the registry. The two then stay blocked whatever the others do.", "quantifier": "every number of threads, every list of calls for each, every interleaving", "why_tests_cant": "all schedules of all programs; the deadlock needs two threads to meet within a few instructions", "anchors": ["wrtstat/aggregator/aggregator_registry.cpp:242-252", "wrtstat/aggregator/aggregator_registry.cpp:65-69", "wrtstat/wrtstat.cpp:make_handler_", "wrtstat/aggregator/aggregator_mt.cpp:28-44"]}
{"id": "C183", "title": "The older registry never deadlocks", "statement": "No interleaving of the public operations of the older registry (wrtstat/manager/aggregator_registry.cpp) and of the pushers of the older meter_manager by any number of threads reaches a state in which every unfinished thread is blocked.", "quantifier": "every number of threads, every list of calls for each, every interleaving", "why_tests_cant": "the older sources are no longer compiled, and the claim is over all schedules", "anchors": ["wrtstat/manager/aggregator_registry.cpp:54-94", "wrtstat/manager/aggregator_registry.cpp:201-224", "wrtstat/meter_manager.cpp:237-257", "wrtstat/aggregator.cpp:318-420"]}
