# Formal model of wrtstat: design

The code in `/repo` is C++; the model in `/verif/lean/Verif` is Lean 4. The C++ is
read as text and never built. `properties.jsonl` lists the claims (C01, C02, ...),
`MANIFEST.json` maps each claim to theorems.

## Layout

* `Verif/Model/*`: the code, function by function, each definition citing file and lines.
* `Verif/Spec/*`: small independent vocabulary used to state claims.
* `Verif/Lemmas/*`: auxiliary facts.
* `Verif/Props/*`: the property theorems, with a concrete non-trivial instance beside each.
* `Verif/Suite/*`: the unit tests of the repository, transcribed and run on the model.

## Trusted base

* Lean's kernel, and at most the axioms `propext`, `Classical.choice`, `Quot.sound`.
  No axiom is added; no `sorry`, no `native_decide`, no `bv_decide`.
* The reading of the C++ into the model. There is no mechanical link. As a check, the unit tests in `/repo/tests` that do not
  measure the clock are transcribed in `Verif/Suite` and pass on the model, the templates of `reducer_suite.cpp` for all
  parameters (`nonFilledReducer_all`, `arrayReducer_all`, `filledReducer_all`; exact arithmetic).
* Assumptions on the C++ library, each visible in a definition:
  * `std::nth_element` is an arbitrary function satisfying its standard contract
    (`NthElement`): a permutation of the range, partitioned around the n-th place.
    Theorems quantify over every such function; refutations exhibit one.
  * `std::sort` on integers is the sorted permutation (unique).
  * `unordered_set::begin()` is an arbitrary choice function.
  * `std::remove_if` applies its predicate to the elements in order, once each.
  * `double` arithmetic is exact rational arithmetic followed by an arbitrary rounding
    function `rnd`; `rnd = id` gives the exact reading, and the range theorem assumes
    the laws of round-to-nearest. `Spec/Double.lean` defines IEEE rounding to 53 bits, with an unbounded range of
    exponents, and `double_laws` proves these laws for it; bounds of the error are proved for it too.
  * a moved-from `std::function` is null and a moved-from `std::vector` is empty (libstdc++).
* Assumptions on wjson, the external JSON library, in the structures `Json` and `Wjson`: numbers are
  printed in decimal and arrays and objects without blanks (checked against the texts in
  `tests/json_suite.cpp`); a string takes at least its characters and two quotes, and no more if it
  consists of digits and tildes; the integer parser stays inside its input and reads back a decimal
  number of 64 bits followed by a tilde or the end. `Json.Additive`, where assumed, says that
  characters are escaped one by one.
* Further assumptions on wjson for the texts themselves (`Model/JsonCodec.lean`), from its documented use,
  since its source is absent: an object is written in the order of its members and read in any order,
  assigning each member as it is met; an unknown member is skipped, or an error under `strict_mode`;
  `object_array` is positional, surplus elements are an error and missing ones are not; members of a base are inlined; a number out
  of range is an error and leaves the member alone; an error is never cleared. Parsing a text that was written
  gives the value written (`JsonText.parse_text`, `LoadEnv.Lawful`; a concrete writer and parser in
  `Model/JsonInstances.lean` have this).
* Counters (`size_t`) are natural numbers. C99 proves what that means on the machine (`Model/Machine.lean`, the counters of the
  reducer modulo 2^64): the same runs with the counts modulo 2^64, and exactly the same below 2^64 events. Timestamps are
  unbounded integers. C107 proves what that means on the machine (`Model/MachineTime.lean`, where every computation with times is
  checked): a history is defined, and the same, iff the end of the last window is representable.
* Wall-clock readings and `std::rand()` are parameters of each operation: theorems hold for
  every reading.
* Callbacks are modelled by the list of records handed to them. Callbacks that re-enter the aggregator that calls
  them are modelled in `Model/Reentrant.lean` (C88; `aggregator` without mutex: under `aggregator_mt` such a call locks
  a `std::mutex` its thread holds, which is undefined); they are outside the model of the other objects, but what locks they
  may take is told in C109 and C110. Callbacks return, except in C111–C114 and C172–C179, where they may throw.
* Undefined behaviour, exceptions and divergence are outcomes (`Fault`), not defaults.
* Concurrency: memory is sequentially consistent. For data guarded by the locks this is no assumption: C103 shows that
  accesses under the locks are ordered by the happens-before relation of the standard, kept in vector clocks
  (`Model/HappensBefore.lean`), so there are no data races. `std::mutex`, `std::condition_variable` (with spurious
  wake-ups and broadcast) and `std::atomic_flag` behave as in the standard; counts of readers stay below
  2^31. In the model of the registry locks only the locks are kept, a thread may make any list of calls,
  the rwlock is taken for what C53 and C70 show, and user handlers and initializers take none of its
  locks (C109 and C110: they may). The capacities of pooled buffers are not modelled. `std::hash` is any function.
* `reducer::_opt` is declared `const` (reducer.hpp:72) and its constructor assigns to it through a `const_cast` (reducer.cpp:17),
  which the standard leaves undefined. The model takes the assignment as made, as compilers do.
* Memory allocation always succeeds; `capacity()` of a vector is given from outside, at least its size (`Model/Capacity.lean`).

## Not modelled

* Sources not compiled by `wrtstat/CMakeLists.txt`, which are an older state of the library, are modelled apart: the older aggregator
  (`wrtstat/{aggregator,reducer,separator}.cpp`) and hash map (`manager/aggregator_{map,hashmap}.cpp`) in `Model/Legacy.lean` (C145, C146),
  the moving of hash maps in `Model/LegacyMove.lean` (C180), the older options (`json/`) in `Model/LegacyOptions.lean` (C149), and the older registry and top-level
  class (`manager/aggregator_registry.*`, `meter_manager.*`) in `Model/LegacyRegistry.lean` (C155), their locks in `Model/LegacyLocks.lean` (C183).
  The older pool (`manager/pool.hpp`) is the current one but for its includes.
* `wjson` (external, absent): see the trusted base. Positions in texts and messages of errors are opaque.
* `std::chrono` beyond the readings of the wall clock (`Model/WallClock.lean`, C152), thread creation, memory orderings weaker than sequential consistency (the code uses none).

## Findings: where the code disagrees with the claims

Each is proved on a concrete witness; the theorem is named.  A theorem `Cxx_exact_partial` beside it tells exactly when
the claim holds, so that nothing between the witness and the proved cases is left open.

* C06 (`C06_refuted`, `C06_overflow`): the average is a `double`: a value above `2^53` in size may be rounded, so that
  the average of one event is not its value; the average of `INT64_MAX` is `2^63`, and its conversion back is undefined.
* C14 (`C14_refuted`): with a resolution set, an event whose time is aligned to 0 (a timestamp
  smaller than one step) is taken for "now" by the separation inside `add`: windows up to the
  wall clock are closed and the event is rejected although its window was open.
* C18 (`C18_refuted`): `separate(force = true)` before the end of the window closes nothing; only
  the returned flag changes.
* C20 (`C20_refuted`): `nth_` sets `off` to a distance instead of a position, so above 200 samples
  a standard-conforming `nth_element` can leave percentiles that are not order statistics.
* C21 (`C21_refuted`): `reduce_` may leave more than `outgoing_reduced_size` samples.
* C24 (`C24_new_pushers_refuted`): `clear` drops `_id` for ever: pushers made later do nothing.
* C25 (`C25_refuted`): `force_pop` does not look at the queue of completed windows.
* C26 (`C26_separate_refuted`): records handed to the handler of `separate` have no percentiles.
* C28 (`C28_step_zero`): `id_step = 0` makes `create_aggregator` divide by zero.
* C29, C30 (`C29_refuted`, `C30_refuted`): with `id_step > 1` an id never given out shares the
  position of a live one, so events for it are recorded in somebody else's aggregator.
* C31 (`C31_refuted`): `del` returns false even when it removed the name.
* C34 (`C34_refuted`): the C14 corner hits the event that creates an aggregator too.
* C35 (`C35_refuted`): `~wrtstat` calls `force_pop_all` once; `separate` moves an ended window to the
  queue that `force_pop` does not look at, and completed windows already waiting stay there too.
* C36 (`C36_refuted`): without handler `pushout_` calls the null `std::function` for every record:
  `bad_function_call`, which in the destructor terminates the program.
* C37 (`C37_value_refuted`, `C37_assign_refuted`): a `value_point` reports on every push and once
  more when destroyed; assigning over a live point drops its measurement.
* C39 (`C39_no_shards`): `hash_size = 0` makes every push divide by zero.
* C40 (`C40_refuted`): the request made by `basic_multi_aggregator::push` copies only the
  `reduced_data` part of the record: percentiles are lost.
* C41 (`C41_refuted`): pushes always use a handler, so the queue read by `pushout` is always empty:
  `pushout` never delivers anything, not even windows that have ended.
* C44 (`C44_refuted`, `C44_refuted_compact`): a batch may be longer than `json_limit`: its room is
  computed with the default separator, and with compaction the recorded size of a name assumes the
  indices it would have alone.
* C46 (`C46_refuted`, `C46_no_effect`): `data_limit` is compared with the size of a moved-from vector
  and has no effect.
* C50 (`C50_refuted`): with `name_compact` and an empty separator `push` does not return.
* C51 (`C51_refuted`): `reduced_info::operator+=` takes the smaller of the two `max`.
* C63 (`C63_refuted`): `aggregated_info::operator+=` weighs the left operand by the sum of both counts. The order is without effect exactly for at most one event in all (`C63_exact_partial`).
* C64, C65 (`C64_refuted`, `C65_refuted`): `pushout` sends what fits in no batch as one more batch,
  without limits and without counting it.
* C66 (`C66_refuted`): `multi_push` ignores the legend of the request.
* C67 (`C67_refuted`): with compaction `multi_pop` returns null when the largest request that seems to
  fit does not fit with its words, even if a smaller one would.
* C69 (`C69_refuted`): a failed `recompact` has already rewritten the names before the bad one.
* C54 (`C54_refuted`): `push` holds the mutex of the aggregator while a handler made by `make_handler_`
  takes the registry lock for reading (`get_name`); `enable` holds the registry lock for writing while it
  takes the mutexes of the aggregators: deadlock.
* C88 (`C88_refuted`): `separate` calls the handler before it advances `_next_time`. What the handler adds is counted in
  a later window, or again in the window just reported if the handler closes it, and the event whose `push` completed
  the window may be rejected as late.
* C91 (`C91_refuted`): `aggregators_count` is the size of the array of positions: 2 after the first name is created with
  the default options, never less after removals, and with a large `id_init` as large as that.
* C92 (`C92_refuted`): `create_aggregator` ignores the answer of `add` for the record of the initializer. A record of an
  earlier window, which is what a store of past data supplies, is lost.
* C94 (`C94_refuted`): `reducer::max()` is 0 when all values are the smallest 64-bit one, `min()` likewise.
* C97 (`C97_refuted`): the compact form of a record does not tell its type: a `reduced_info` is accepted as an
  `aggregated_info`, with its least sample as the median. `C97_compact_partial` gives exactly the pairs of types concerned.
* C98 (`C98_refuted`, `C98_free_refuted`, `C98_clear_refuted`): ids are computed modulo 2^64, and with a large `id_step` a
  new name gets the id of another (`C98_shared`: and its aggregator); `dict::free` always returns false (see C31);
  `dict::clear` forgets the initial id.
* C99 (`C99_refuted`): a call may stand for up to 2^64 - 1 events, so that two calls wrap the count of a summary.
* C100 (`C100_refuted`): `rwlock` notices a release without hold only while nobody holds the lock. `unlock_r()` by a stranger takes
  away the hold of a reader, and a writer gets in beside it (`C100_breaks_partial`); the reader then stops the process.
* C101 (`C101_refuted`): `basic_aggregator::size(data_size, capacity)` adds the sizes of the waiting records to the capacity,
  where `separator::size` adds their capacities.
* C102 (`C102_refuted`): `soiled_start_ts` shifts the windows, but times are still rounded down to multiples of the step: an
  event from the end of a step is recorded in the window before its own. `C102_exact_partial` tells which events.
* C104 (`C104_refuted`): the allocator of an aggregator is bound to the pool of its registry. An aggregator that outlives its
  registry calls a destroyed object as soon as a value opens a row of samples, which the first one of a window does.
  `C104_exact_partial` tells exactly which calls do.
* C105 (`C105_refuted`): moving a spinlock copies its flag. The target of a move from a held lock is locked for ever, for
  nobody holds it (`C105_lost`); a held lock that a free one is moved to is free. A move is harmless iff it does not change
  the flag of the target (`C105_exact_partial`).
* C106 (`C106_refuted`): `spinlock_n` chooses one of `N` locks by the hash of the key: two keys may share their lock, and of
  more than `N` keys two do (`C106_pigeonhole`); a thread that locks both waits for itself.
* C107 (`C107_refuted`): an event less than a step before the largest representable time makes `separate` compute the end of its
  window, which overflows. `C107_exact_partial` tells exactly when; it is enough that every time leaves room for a step.
* C108 (`C108_refuted`, `C108_lost`): a `multi_aggregator` moved from keeps its `hash_size` but has no shards, so that `push` and
  `del` on it index an empty vector; a move assignment destroys the samples waiting in the target without handing them over.
* C109 (`C109_refuted`, `C109_crossing`): handlers of a `multi_aggregator` run under the mutex of the shard; one that calls the
  same object locks this mutex again, or waits for a thread whose handler waits for it. `C109_exact_partial`: safe exactly
  when the mutexes can be put in order, as when handlers only call objects of a higher level.
* C110 (`C110_refuted`): the initializer runs under the write lock of the registry and handlers under the mutex of their
  aggregator. `C110_exact_partial`: no deadlock exactly when the initializer does not touch the registry, handlers take
  mutexes in order, do not touch the registry where `enable` is used, and do not change it where `pop_all` is used.
* C111 (`C111_refuted`): the handler is called after the window has been detached and before `_next_time` is advanced: if it
  throws, the window stays open, and a late event is reported in a second record of it. Nothing is lost or counted twice, and
  the same call made again completes what was interrupted.
* C112 (`C112_refuted`): `wrtstat::pushout_` pops the records of all names into a local list and then calls the handler: an
  exception loses the records not handed over yet, unless it comes at the last. In the destructor it terminates the program.
  `multi_aggregator` hands over name by name and loses nothing.
* C113 (`C113_refuted`, `C113_composite_refuted`): `multi_push` and the functions of composite meters do several pushes; when the
  handler throws in a later one, making the call again records the earlier ones twice.
* C114 (`C114_refuted`): the last batch of `basic_packer::pushout`, of requests that exceed the limits, is built by moving the
  requests out of `_top`, which is cleared only after the handler returns: after an exception the packer holds requests with
  empty names and no data, but with their counts, and hands them over with the next `pushout`. An exception on any other batch
  costs nothing (`C114_exact_partial`, `C114_again_partial`).
* C115 (`C115_refuted`): `separator::separate` walks from the current window to the timestamp window by window, under the lock.
  One event with a far timestamp (a push request from outside; an aggregator created at 0 with `resolution` none) costs
  (ts − next) / step + 1 rounds, with no bound from the options.  At most one of the rounds does anything: one assignment gives
  the same (`C115_shortcut_partial`).
* C116 (`C116_refuted`): `basic_packer` fills a batch with the largest request that fits, again and again, so that of two
  requests for one name the larger leaves first.  A receiver that aggregates them sees timestamps out of order.
* C117 (`C117_refuted`): multi aggregator → packer → JSON → multi aggregator loses events: the packer lets a later, larger
  record of a name overtake an earlier one (C116), and the receiver refuses what belongs to a window that is over (C14).
* C118 (`C118_refuted`, under the assumptions on wjson): `{}` and, compact, `[]` are accepted as a push request of the empty name, with
  timestamp 0 and all members at their defaults. No member is required; a member told twice has the last value, an
  unknown one is skipped, an array may be shorter than the list of members but not longer.
* C119 (`C119_refuted`): the percentiles of a thinned window need not be those of its values.  `reduce` takes its samples from the
  rows in turn, but once the last row is exhausted its loop variable stays at the last row and all remaining samples are those of the
  first row (`C119_unbounded`: a row of zeros, a row of ones and one more 1; the 80th percentile is 0, however long the rows).  In
  `nth` mode only the smallest values of each row are put in order, and large ones may be missed even with complete rows
  (`C119_refuted_nth`).  With sorted, complete rows the percentiles are right up to `n (n - 1) / 2` in rank.
* C120 (`C120_refuted`): a record delivered by an aggregator does not tell the samples removed by
  `outgoing_reduced_size` as lost: `reduce_` (basic_aggregator.cpp:204-240) shortens `data` and leaves `lossy` alone.
  Four values with `outgoing_reduced_size` 3 are delivered as three samples and no loss.  Exactly
  (`C120_balance_partial`): a record balances if and only if `outgoing_reduced_size` is 0 or the reducer kept no more
  samples than it; `thinned` says how many are missing otherwise.
* C121 (`C121_refuted`): a window may be summarised otherwise than if it were the first.  `_current_mode` of a reducer in `adapt`
  mode survives `clear` and `detach` (reducer.cpp:106-116, 222-268): after a window of 35 events the median of the next 68 values
  is 35, without it 22.  Nothing else survives (`C121_windows_partial`), and in every other mode, with one row, with rows
  longer than 16, or with rows so short that `adapt` never changes the mode, nothing does (`C121_steady_partial`).
* C122 (`C122_refuted`, `C122_refuted_counts`): how values are handed over may matter.  `add(data_type(), 0)` makes the reducer
  deliver a summary of nothing, where no call would give none; and the lists `{5,7}` as one event and `{8}` as two tell a loss of 1,
  where `{5,7,8}` as three events tells none.  With each call counting no fewer events than it has values, and at least one call,
  nothing but the values, their order and the number of events matters (`C122_same_partial`, `C122_exact_partial`).
* C123 (`C123_refuted`, `C123_refuted_avg`): the order of the events of a window matters.  Which samples are kept of more than
  `limit` depends on it: of 1, 2, 3, 4 two samples are 1 and 4, of 1, 4, 2, 3 they are 1 and 3.  With `double` the average does even
  when nothing is dropped: the average of 0, 2, 5, 0, 3 is told as 1, though their mean is 2 exactly, as told for 0, 0, 2, 3, 5.
  Count, loss, extremes and the number of samples never depend on the order (`C123_records_partial`), and the averages of two orders
  differ by no more than 1 (`C123_double_partial`).
* C124 (`C124_refuted`, `C124_refuted_shift`): the average of 1 and 2 is told as 1 but that of 10 and 20 as 15, so the unit of the
  values matters to the average.  It is off by less than the factor (`C124_average_partial`); samples, percentiles and extremes are not
  off at all (`C124_records_partial`).  Adding one to all values is not harmless: a minimum 0 of a merged summary stands for none, a
  minimum 1 does not.
* C125 (`C125_refuted`): not only differences of time matter: an event of the first step after time 0 is lost (see C14), the same
  event one step later is recorded.  From there on a history moved by a multiple of the step gives the same records, moved
  (`C125_history_partial`).
* C126 (`C126_refuted`): readers starve too: `unlock()` wakes the reader, but a single writer that takes the lock again before the
  reader runs keeps it out for ever.  Only ever new calls can do this (`C126_returns_partial`, `C126_overtaken_partial`).
* C127 (`C127_refuted`, `C127_stalls`, `C127_refuted_order`, `C127_refuted_ts`): `reduced_info::operator+=` rounds the average at every
  addition.  With a summary of 1000 zeros, adding the value 1000 one by one, a thousand times, leaves the average at 0; the mean is 500.
  A summary with `ts == 0`, as `reducer::detach` gives it, counts as none and is overwritten by the next.
* C128 (`C128_refuted`, `C128_refuted_cascade`): the average does not weigh: `add(10, 9)` and `add(0, 1)` have the average 5, the mean
  of the ten events is 9.  A second tier ignores the average of the summaries it gets and takes that of the samples left: 0 instead of
  66 for 0, 0, 100, 100, 100, 100 thinned to two samples.
* C131 (`C131_refuted`): in mode `nth` the first row is not sorted before its positions are taken: with an `nth_element` that leaves
  the upper part in descending order 1, 5, 2 are kept of 1 to 6 in rows of three, in mode `sorting` 1, 5, 3: the median told is 2
  in one mode and 3 in the other.
* C132 (`C132_refuted`): an event that is late for a window of ten seconds may be in time for one of twenty: after events at 1012
  and 1008 the record of 1000 to 1020 of the coarse aggregator tells two events, the records of the fine one together one.
* C134 (`C134_refuted`): a tick is not only a question: `separate` at 1030 makes an event at 1001 that comes afterwards late.
* C136 (`C136_refuted`, `C136_witnesses`): what is told depends on the library: in mode `nth` the percentiles of thinned windows, in every mode `perc100` above 200 samples and the samples that `outgoing_reduced_size` leaves, since `reduce_` takes every n-th sample in the order in which `nth_element` left them.
* C137 (`C137_refuted`, `C137_witnesses`): a window in which only counts were recorded tells the largest 64-bit number as its minimum and the smallest as its maximum; one with the extremes of a summary but no samples tells percentiles and an average of 0 outside of its extremes.
* C138 (`C138_refuted`): which of two different requests of the same JSON size leaves a packer first depends on the order in which they were pushed.
* C139 (`C139_refuted`, `C139_refuted_compact`): `multi_pop` leaves requests behind that would have fitted: with a separator shorter than `~~`, and with compaction of names, where it stops at the first request that does not fit together with its words.
* C140 (`C140_refuted`): `pushout` may make more batches than necessary, three instead of two.
* C141 (`C141_refuted`): raising `json_limit` from 491 to 499 makes four batches of ten requests instead of three.
* C142 (`C142_refuted`, `C142_witnesses`): a record of counts without values has `min = 2^63-1` and `max = -2^63`. Merged into another window it makes the merged record tell `min = -2^63`, `max = 2^63-1`, since only 0 stands for "no extreme".
* C143 (`C143_refuted_avg`): the running average is not monotone. The average of 127 and -2^60 is -2^59+128, that of 129 and -2^60 is -2^59. `C143_refuted`, `C143_refuted_min`: percentiles in mode `nth` and merged minima that rise from 0 to 1.
* C144 (`C144_refuted`, `C144_refuted_size`): more room may deliver fewer samples, since `reduce_` rounds its step: with `outgoing_reduced_size` 2, five kept samples are delivered as three and six as two; nine are delivered as five with size 4 and as four with size 5. Never fewer than two thirds (`C144_thirds_partial`).
* C145 (`C145_refuted`): the older `separator::force_pop` and `aggregator_base::force_pop` use the record without asking whether there is one, so a `force_pop` that finds nothing is undefined behaviour there. That is the only difference between the two aggregators (`C145_exact_partial`).
* C146 (`C146_stranded`): the older hash map has no `pop`, so a record completed by a push without a handler can never be had. Unlike the newer one (C40), it hands over the percentiles.
* C149 (`C149_refuted`, `C149_refused`): `prefixes` was taken out of `wrtstat_options_json`, which is read in strict mode, and the older `dump` always writes it: no options file written by the older sources can be loaded.
* C150 (`C150_refuted`): the spinlock is not fair. A thread in `lock()` can be overtaken for ever, although it keeps running and every owner lets the lock go.
* C154 (`C154_refuted`): nothing bounds how far ahead an event may be. One event with a time far in the future is accepted, and until that time every other event is refused.
* C155 (`C155_refuted`): a `force_pop` of the older registry that finds an aggregator with nothing in it is undefined behaviour. That is the only difference between the older `meter_manager` and `wrtstat` while they live (`C155_exact_partial`); when they end, only `wrtstat` hands over what is still in the windows (`C155_end`).
With resolutions::none meters work but their events are all recorded at time 0 and are never reported before force_pushout (C158).
* C180 (`C180_refuted`): `aggregator_hashmap::_hash_size` of the older sources is in no initializer list, and the move assignment copies it. For an object outside static and thread storage this reads an indeterminate value, which is undefined; since nothing else gives the member a value, no program without static objects may assign an older hash map (`C180_never_partial`). The member has no use, and the current `multi_aggregator` does not have it.
* C181 (`C181_refuted`): `spinlock(const spinlock&&)` does not initialize `value` and exchanges it. Until C++20 a default-initialized `std::atomic` may only be initialized, so this is undefined but in static or thread storage (`C181_exact_partial`). Compilers exchange what is there and do not use it, as in C++20 (`C181_same_partial`).
* C182 (`C182_exact`): the deadlock of C54 is the only one. It is reached by some interleaving whenever one thread pushes to an aggregator with a handler that asks for the name and another calls `enable` with that aggregator in the registry, whatever else the threads do.
* C183 (`C183_refuted`): the older registry has the deadlock of C54, and no other (`C183_exact_partial`).
* C55 (`C55_refuted`, `C55_unbounded`): `pool::create` tests and pops in two critical sections (undefined
  behaviour on an empty deque); `pool::free` likewise exceeds `pool_size`, without bound.
* C71 (`C71_refuted`): `rwlock` prefers readers: overlapping readers starve a writer.
* C73 (`C73_refuted`): a pusher tests its token before taking the mutex: after a `clear` in between, an
  event of an invalidated pusher is recorded.
* C74 (`C74_refuted`): `add(name, ..)` creates the id and looks the aggregator up in two critical sections: if
  another thread deletes the name and creates another one in between, the data is recorded under the other name.
* C82 (`C82_refuted`): with `id_step > 1` a meter of an id never given out records in the aggregator of another id;
  its handler finds no name and drops the records.
* C84 (`C84_add_refuted`, `C84_pop_all_refuted`, `C84_enable_refuted`, `C84_del_refuted`): these calls are not atomic:
  `add(name, ..)` shows an empty aggregator before the data, `pop_all` misses an event and reports a later one,
  `enable(false)` stops one pusher before another, and a pusher still delivers after `del` returned while some other
  thread has a pointer to the aggregator.
* C86 (`C86_pushout_refuted`, `C86_size_refuted`, `C86_multi_push_refuted`): `multi_aggregator` locks shard after shard:
  `force_pushout` misses an event and reports a later one, `size` counts names that never were there together,
  `multi_push` can be seen half done.
* C85 (`C85_refuted`): `reducer::clone` does not copy `_current_mode`, so in `adapt` mode `aggregate_current` may
  reduce the window by another method than `force_pop` and show another median.
* C76 (`C76_refuted`): a failed `load_options(text, &opt)` leaves the members before the bad one assigned.
* C77 (`C77_refuted`): `reducer_mode`, `reducer_initial_mode`, the ids and the functions are not in the JSON of
  the options, so serializing and loading gives the defaults for them.
* C60: extremes of merged summaries are wrong when a summary without samples is merged.

## Properties

Status words: P = proved as stated; D = the code disagrees with the claim: the negation is
proved on a concrete witness (`..._refuted`) and what does hold is proved as `..._partial`.

| id | how modelled and proved |
|----|----|
| C01 | `Reducer.add*` folded over arbitrary argument lists; invariant on `totalCount` |
| C02 | invariant: lossy + retained = weight added; preserved by `reduce` |
| C03 | invariant on multisets, then a loop invariant of `reduce` tracking, per level, the positions already harvested |
| C04 | one-level case of the invariant |
| C05, C60 | invariant on the min/max pair; sentinel and zero corner cases are D |
| C06 | invariant on the running mean with `rnd = id`; range invariant for general `rnd` ; IEEE rounding (`Spec/Double.lean`) and the accumulated error of the running average; D above 2^53 |
| C07 | shape invariant of the level table; no-fault theorem of the loop |
| C08, C09, C10 | state equalities after detach/clone |
| C11 | loop invariant of `reduce` in sorting mode |
| C12-C15, C17 | the separator simulates a list of (window index, accepted adds); induction over histories |
| C16 | integer arithmetic |
| C18 | D: `force` changes only the returned flag |
| C19 | order statistic uniqueness, for every `NthElement` |
| C20 | D above 200 samples (adversarial `NthElement`), P up to 200 |
| C21 | D: the bound can be exceeded by half; sublist and 3R/2 bound proved |
| C22, C23, C27 | induction over histories of aggregator operations |
| C24 | D: pushers created after `clear` never work |
| C25 | D: completed windows are skipped by `force_pop` |
| C85 | the reducer invariant of C09 for the object and its clone side by side; D in `adapt` mode |
| C26 | D for `separate(ts, handler)`, P for the other paths |
| C28-C34 | registry invariant, induction over operations; C30 D for id_step > 1; C31 D (returns false) |
| C35, C36 | wrtstat object over the registry; both D |
| C37, C38 | points as state machines; C37 D for value_point |
| C89 | vectors of points with every destruction, also of moved-from points; conservation over programs as in C37 |
| C61, C62 | identity of aggregators followed through histories; induction over the loop of `pop_` |
| C74 | the operations of other threads between the two critical sections of a call by name; D |
| C81 | fold over the setters of a point |
| C82 | the handler of a meter by id through the histories of C61; D |
| C39-C41 | refinement of the sharded map to a per-name map; C40, C41 D |
| C42-C50, C64-C69 | packer over character lists and an abstract JSON size; books over histories of calls; C44, C46, C50, C64-C67, C69 D |
| C51, C52, C63 | arithmetic; C51 (max) and C63 D |
| C53, C59, C70-C72 | `spinlock` and `rwlock` statement by statement, any number of threads; invariants over reachable states; C71 D (a lasso) |
| C54 | the lock sequences of the registry operations, any calls by any threads; a wait-for argument; D with handlers by id and `enable` |
| C88 | operations and handlers as mutually recursive functions with a bound on depth; the invariant of C22 with the times of the events chosen anew; simulation for handlers that only read; D |
| C90 | the reducer with the contents of its buffers explicit, over any allocator: simulation by the reducer of C01-C11 |
| C91 | counting ids in use and free along a history; D for `aggregators_count` |
| C92 | the first event of a new aggregator, for an event of any time; flag of the initializer along a history; D for older records |
| C93 | P: identity of the aggregator of a name along histories without its removal |
| C94 | invariant of the reducer; D for the sentinels |
| C95 | P: partition of the recorded events (C22) and the bounds of C07 |
| C96 | P: invariant of the reducer; the first row is full before a second is begun |
| C97 | one codec for all types of records, members chosen by type; D for the compact form |
| C98 | the dictionary against the trace of its calls, under the assumption that ids do not run out; D without it, for the answer of `free` and for `clear` |
| C99 | the reducer and the aggregator with 64-bit counters against those with natural numbers: the same modulo 2^64, and the same below 2^64 events; D beyond |
| C100 | the invariants of C53 and the steps of one thread; D while another thread holds the lock |
| C101 | folds over the records, names and shards; capacities given from outside; D for the records waiting |
| C102 | the invariant of C12 and modular arithmetic; D with `soiled_start_ts` |
| C103 | vector clocks beside the steps of the locks; the view carried by the lock dominates all accesses made so far |
| C104 | the reducer over an abstract allocator (C90) that remembers being called; D |
| C105 | the steps of C59 for many locks, and the two accesses of a move; D |
| C106 | the steps of C59 for `N` locks, with the keys each thread has locked; D when keys share a lock |
| C107 | the operations with checked arithmetic against those without, by a relation closed under sequencing; D near the end of time |
| C108 | programs over any number of objects; every address carries the operations made on what it holds; D a push after a move |
| C109 | call trees of sections under mutexes; mutex order against cycles, both directions; D a handler that pushes its own name |
| C110 | call trees over the rwlock and the mutexes with a policy of what user code locks; four ways to deadlock, otherwise none; D an initializer that looks |
| C111 | runs with handlers that throw, nested or not; partition of the events; interrupted call plus repetition = call; D a window reported twice |
| C112 | pushing out with a handler that throws: what is handed over, kept and lost; D `wrtstat` loses the rest, `multi_aggregator` does not |
| C113 | recording calls left by an exception: made again, or resumed; D `multi_push` and composite meters made again |
| C114 | packer left by an exception: what is kept, `pushout` again; D last batch |
| C115 | rounds of the window loop counted: exact number, total over a history, the loop in one assignment; D |
| C116 | order of requests in batches: larger first, rest smaller first, kept for spaced names; D |
| C117 | two multi aggregators with packer and JSON between them: books per name, order, no refusal for spaced names; D |
| C118 | JSON values accepted as requests: exactly which, with which members; range of the numbers; D |
| C119 | ranks of the percentiles of a thinned window among its values: sorted rows, complete rows, every `nth_element`; D |
| C120 | the loss told by the records of an aggregator: what is told, what is carried, when it balances; D |
| C121 | windows do not depend on each other: every record is what a new reducer gives for the calls of its window; D |
| C122 | how values are handed over - one by one, in lists, as summaries - does not matter; D |
| C123 | the order of the events of a window does not matter; D |
| C124 | a change of the unit of the values changes nothing but the unit; D |
| C125 | only differences of time matter; D |
| C126 | cyclic schedule against readers; a potential bounds all steps of finitely many calls, sleepers at the end wait for a holder; D |
| C127 | `+=` folded over a list: sums exact, average off by at most the number of additions, and that is possible; D |
| C128 | the average of calls that stand for several events, and of a second tier; D |
| C129 | acceptance and windows depend on times only (two runs side by side); P |
| C130 | memory settings touch samples, loss and percentiles only; P |
| C131 | the modes keep other samples; D |
| C132 | late events are in time for the coarse aggregator only; D |
| C133 | fetching calls can be left out; P |
| C134 | a tick past an event makes it late; D |
| C135 | calls and renaming commute; P |
| C136 | percentiles of windows thinned in mode `nth`, `perc100` and thinned samples depend on the library; D |
| C137 | percentiles and average 0 outside the extremes if there are no samples; D |
| C138 | of requests of the same size the order of pushing decides which leaves first; D |
| C139 | separators shorter than `~~`; with compaction `multi_pop` stops too early; D |
| C140 | best fit makes more batches than necessary; D |
| C141 | raising `json_limit` may make more batches; D |
| C142 | two tiers tell what one tells; D |
| C143 | larger values lower no figure; D the average with `double`, mode `nth`, merged zeros |
| C144 | more room delivers no fewer samples; D thinning rounds, at least two thirds |
| C145 | the older aggregator does what the current one does; D an empty `force_pop` is undefined there |
| C146 | the older hash map hands over whole reports, name by name; P |
| C147 | `pushout` to 0, `force_pushout`, `pushout`: nothing is lost whatever the clock says; P |
| C148 | the records handed over by pushouts and those owed afterwards are those owed before, so polling to 0 ends; P |
| C149 | options written by the older sources can be loaded; D never, they contain `prefixes` |
| C150 | lock() of a spinlock returns; D it can be overtaken for ever, but some thread always gets the lock |
| C151 | one record for each ended window with an event, never more than steps passed or calls recorded; P |
| C152 | an aggregator of a finer resolution and a step of the same duration does the same; P |
| C153 | an event is recorded unless an earlier call lies in a later window; P |
| C154 | an event with a wrong time harms only itself; D one ahead of time silences the aggregator until that time, exactly |
| C155 | the older meter manager does what `wrtstat` does; D an empty `force_pop` is undefined there |
| C156 | a push to a multi aggregator is refused only if it comes after a later one of the same name since del; P |
| C157 | an event given to a registry is refused only if it comes after a later call for the same name; P |
| C158 | a window ends when its time is over: not with resolutions::none; D |
| C159 | the requests handed over for a name are the entries of a ledger kept by hand; P |
| C160 | the records handed over by an aggregator are the slips of a daybook kept by hand; P |
| C161 | the daybook of C160 with a tray describes every history, events of time zero included; P |
| C162 | requests and answers of a multi aggregator are those of an account kept by hand, for all times, clocks and starts; P |
| C163 | an aggregator shared by threads is linearizable with respect to the books of C161; P |
| C164 | registries described in full by a folio kept by hand: ids, answers, pushers, reports; P |
| C165 | no history of a registry faults, whatever the ids; P |
| C166 | no history of a wrtstat object faults, except by the null handler; P |
| C167 | wrtstat objects described in full by the folio, with all that reaches the handler; P |
| C168 | the folio for ids of any form; P |
| C169 | the books of C161 for each aggregator of a registry used by threads, over the log of C83; P |
| C170 | every thread in a call can move unless another has the registry lock, which can; a measure on the moves left; P |
| C171 | every aggregator of a shard is at a desk (C161); without a handler compared with the same call with one; sections in the order of C87; P |
| C172 | the books of C161 with one more kind of entry, a page torn out; exceptions by C111; P |
| C173 | the books of C162 with pages torn out (C172); name by name; exceptions by C112 and C113; P |
| C174 | the folio of C167 with leaves torn (C172); what threw is noted by the client; exceptions by C112 and C113; P |
| C175 | packer histories with exceptions; beside pushed, popped and batches the torn batches are noted; conserved up to shells of requests; P |
| C176 | an aggregator shared by threads whose handlers throw is linearizable with respect to the books of C161; a call that throws empties the page and leaves it open; P |
| C177 | a multi aggregator shared by threads whose handlers throw: one order of the sections in which every name has the books of C173; no fault, no deadlock; P |
| C178 | the books of C172 for each aggregator of a registry used by threads whose handlers throw; an exception touches one aggregator and no lock; P |
| C179 | no deadlock, no fault and an end to every call of C178, whatever the handlers do; when exactly a call throws; P |
| C180 | the older hash map can be moved; D the move assignment copies a member that has no value |
| C181 | a spinlock can be built by moving another one; D until C++20 its flag is not initialized |
| C182 | threads deadlock exactly by a handler that asks for a name against `enable` of the same aggregator; P |
| C183 | the older registry never deadlocks; D by a handler that asks for a name against `enable` |
| C55 | pool with test and change as separate steps; D |
| C56, C73 | any object behind one mutex is linearizable (`Linearizable`), applied to `aggregator_mt`; C73 D |
| C83 | the same threads, any calls: a ghost log of the operations on each aggregator, of the records each thread got and of the name and id each aggregator was created for; inductions over reachable states; the records of an aggregator by C22 applied to its log; calls by name and id under `Room` (ids do not run out) |
| C84 | threads over the critical sections of registry and aggregators, removed aggregators included; calls on a removed aggregator are put before the removal, calls that a running `enable` has not reached before that `enable`; D for calls of several critical sections |
| C86, C87 | any object in parts, each behind its own mutex: the critical sections are linearizable together (`Sharded.sections`); calls of one section follow; every name by the refinement of C39 applied to its shard; C86 D for calls of several sections |
| C57 | composition of C01-C03 |
| C58, C76-C78 | abstract parser and file system over parsed members; laws of each field; C76, C77 D |
| C75, C79 | codecs as lists of fields, written and read by the rules of wjson; texts over an abstract quoting of strings |
| C80 | composition of C43 and C75 |
