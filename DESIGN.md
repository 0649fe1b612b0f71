# Lintel in Lean 4: design and trusted base

Subject: the C++ library in `/repo` (dataseries/Lintel), read as text, never built or run.
Model and proofs: `/verif/lean/Verif/`, Lean 4.33.0 with the installed Mathlib.

## Method

* Each C++ component gets a *model* (`Verif/<Name>/Model.lean`): total, computable
  functions that follow the C++ function by function. Every definition cites file and lines.
* Each has a *spec* (`Spec.lean`, or a few definitions at the head of `Props.lean` when it is
  small): definitions that do not use helpers of the model. From the model a spec uses
  only the types of calls and values.
* Helper lemmas live in `Lemmas*.lean`; the property theorems in `Props*.lean` and in the
  few other files named in the table below.
* Outcomes (`Verif/Res.lean`): `ok a`, `abort` (an `INVARIANT`, `SINVARIANT`, `FATAL_ERROR`
  or `CHECKED` fired) and `ub` (out-of-bounds access, use after free, uninitialised
  read, division by zero, signed overflow, undefined conversion). A theorem that says an
  operation returns `ok` thereby says the code neither aborts nor does anything undefined.
* Loops that are not structurally recursive carry fuel, and running out is `ub`; so
  a theorem that gives `ok` includes termination.
* Where a property is false of the code, its negation is proved with a concrete witness
  (names ending in `_false`, `_bug`, `_overflow`, ...) and the strongest true part is proved as
  `..._partial`.
* Beside each theorem an `example` shows a non-trivial case that meets its hypotheses.
* The theorems are tested against wrong programs: `seeded/LOG.jsonl` has one line per
  edit of the model that imitates a bug, with the theorems that then failed, and those that
  were tightened because they did not.

## Trusted base

* The Lean kernel. No axioms of our own, no `sorry`, no `native_decide`, no `bv_decide`.
  Every theorem of the manifest depends on a subset of `propext`, `Classical.choice` and
  `Quot.sound`; `AXIOMS.md` lists the subset for each.
* That the model says what the C++ says. The definitions are short and cite their lines for
  this reason. Compilers, the C++ library, boost, pthreads, the operating system and the processor are
  outside: library functions are modelled by their documented meaning, named in each model.
* Sizes: `int`, `uint32_t` and `int32_t` have 32 bits, `size_t`, `long` and `int64_t` 64 bits, two's
  complement, little endian. Containers of more than 2^63 elements do not exist. Memory does not run out.
* Floating point (`Verif/Flt/Round.lean`): a double operation is the exact rational result rounded
  to a nearest number of 53 bits. Theorems about doubles hold for every rule for ties
  (`Rounding`), witnesses use the IEEE rule (`ieee`) unless they hold for every rule. The range of exponents,
  infinities, NaN and signed zeros are not modelled. Models of statistics take the rounding
  as a parameter `r : Rat → Rat`; `r = id` is exact arithmetic. Claims that are only about exact
  arithmetic say so in the table.
* Concurrency: any number of threads take indivisible steps (one machine instruction on the shared word, or one
  critical section) in any order. Memory is sequentially consistent; the ordering of other data is not modelled.

## Property by property

Generated from `properties.jsonl` and `MANIFEST.json`. `P` proved, `p` partial. Theorem names are relative to `Verif.`; the component sections below say what is modelled.

| id | property | status | main theorems | scope, and what is missing |
|----|----------|--------|---------------|----------------------------|
| C01 | HashMap behaves as a finite map under every history | P | `Hash.hashmap_is_map`, `Hash.hashmap_no_ub`, `Hash.hashmap_lookup_last_stored`, `Hash.hashmap_size_distinct` | all histories, hash functions, equalities and growth tests, while at most Fits-many entries are stored at once (int32 slot index, largest prime) |
| C02 | Hash table iteration visits every entry exactly once | P | `Hash.hashtable_is_multimap`, `Hash.hashtable_no_ub`, `Hash.walk_total` | all reachable states |
| C03 | Removal during iteration with partialReset visits everything exactly once | P | `Hash.prune_exact`, `Hash.hashmap_is_map` | all reachable HashMap states and predicates |
| C04 | HashTable with duplicate keys is a multimap; size and remove account for one entry each | P | `Hash.hashtable_is_multimap`, `Hash.hashtable_no_ub` | all histories including duplicates |
| C05 | addOrReplace stores the new value | p | `Hash.addOrReplace_keeps_old`, `Hash.addOrReplace_partial` | false of the code: an existing entry is never overwritten (witness addOrReplace_keeps_old); the report and the absent case are proved |
| C06 | HashUnique is a set | P | `Hash.hashunique_is_set`, `Hash.hashunique_exists_iff`, `Hash.hashunique_add_iff`, `Hash.hashunique_size` | all histories |
| C07 | RotatingHashMap keeps recently used keys and forgets keys untouched for two rotations | P | `Hash.rotating_is_aged_map`, `Hash.accessed_survives_rotate`, `Hash.unused_gone_after_two_rotates` | all histories; rotation callbacks are observers |
| C08 | PriorityQueue returns elements in importance order and loses nothing | P | `PQ.pq_is_priority_queue`, `PQ.pq_total`, `PQ.pq_sorts` | Every history from an empty queue with room for at least one element; comparator may be strict or reflexive on ties. |
| C09 | pop via the bottom-up heuristic is interchangeable with plain pop | P | `PQ.pops_interchangeable`, `PQ.replaceTop_is_pop_push`, `PQ.pq_is_priority_queue`, `PQ.popBU_needs_reflexive`, `PQ.popBU_needs_ties` | The bottom-up pop needs a comparator that says yes on every tie; without it the code aborts or reads outside the array (witnesses). |
| C10 | Deque is a FIFO queue under every history | P | `Deque.deque_fifo`, `Deque.deque_ctor_rejects`, `Deque.deque_empty_access_ub`, `Deque.deque_reserve_no_realloc`, `Deque.deque_reserve_rejects` | For arguments outside the deque; push of a reference to its own element is C58. size_t is Nat in container operations. |
| C11 | Deque iterators enumerate the queue and support random access | p | `Deque.deque_iteration`, `Deque.deque_iterator_random_access_partial`, `Deque.deque_iterator_add_negative_bug` | False as stated: it + n with negative n crossing the buffer start is wrong unless the buffer size divides 2^64; everything else holds. |
| C12 | A write through one ByteBuffer never changes another | P | `BB.bytebuffer_values`, `BB.bytebuffer_isolated`, `BB.misuse_never_ok` | any number of buffers, any sharing, arbitrary fresh memory; undefined calls excluded (none completes) |
| C13 | ByteBuffer contents are exactly appended bytes minus consumed bytes | P | `BB.bytebuffer_is_text`, `BB.bytebuffer_values` | contents of any completed history are those of plain byte strings |
| C14 | Base64 encode/decode round trip | P | `Base64.encode32_reads_back`, `Base64.encode64_reads_back`, `Base64.encode32_lossless`, `Base64.encode64_lossless`, `Base64.decode_encode`, `Base64.encodeBytes_injective`, `Base64.encodeBytes_digits`, `Base64.decode_bad_char` | The library has no numeric decoder; the number is read back by the specification's Horner rule over the literal alphabet. Byte strings below 2^28 bytes (int32_t digit count). |
| C15 | Base64 encoding preserves order | p | `Base64.encodeBytes_order`, `Base64.encode32_order`, `Base64.encode64_order`, `Base64.encode32_order_default`, `Base64.encode64_order_default`, `Base64.signed_order_partial`, `Base64.signed_order_bug` | Proved for unsigned numbers and byte strings. False for signed numbers of opposite sign (signed_order_bug). |
| C16 | split and join are inverse | P | `Str.split_join`, `Str.split_separable`, `Str.join_split_iff`, `Str.join_split_byte`, `Str.join_is_intercalate`, `Str.split_empty_sep`, `Str.split_2GiB_bug` | For strings below 2 GiB; above, positions are truncated to int and separators are missed (split_2GiB_bug). |
| C17 | Hexadecimal conversion round trip | p | `Str.hex_round_trip`, `Str.hex2raw_accepts`, `Str.maybehex_round_trip_bug`, `Str.maybehex_round_trip_partial`, `Str.hexstring_4GiB_bug` | The maybehex2raw/maybehexstring law is false for printable hex strings such as "ab"; exact scope proved. The hexstring/hex2raw laws are fully proved below 2 GiB. |
| C18 | mysqlEscape and escapeUnprintable are lossless and safe | P | `Str.mysqlEscape_safe`, `Str.mysqlEscapeS_safe`, `Str.mysqlEscape_chars`, `Str.escapeUnprintable_lossless`, `Str.escapeUnprintable_printable` | The std::string overload of mysqlEscape below 4 GiB. isprint on negative char taken as glibc answers. |
| C19 | toCSVform output is read back as one field with the original text | p | `Str.csv_field_iff_partial`, `Str.csv_row_partial`, `Str.csv_bug` | False as stated: strings with a quote or line break but no comma are not quoted. Exact scope (iff) proved, strings below 1 GiB. |
| C20 | IPv4 dotted text round trip | p | `Str.ipv4_round_trip_partial`, `Str.ipv4_broadcast_bug` | False for 255.255.255.255 only. |
| C21 | Boyer-Moore-Horspool finds the first occurrence | P | `BMH.find_first`, `BMH.matches_iff`, `BMH.first_unique`, `BMH.empty_needle_aborts` | every needle and haystack |
| C22 | Interpolation search equals lower_bound | P | `Interp.search_is_lower_bound`, `Interp.interpolation_search_sorted`, `Interp.no_steps_never_ends` | Every partitioned range, every in-range estimator, all step counts not both zero; both zero never ends. |
| C23 | Atomic operations lose no updates under any schedule | P | `Atomic.atomic_linearizable`, `Atomic.atomic_real_time`, `Atomic.no_lost_increment`, `Atomic.alone_finishes` | Any programs of any number of threads, any schedule of single indivisible instructions; memory ordering of other data is not modelled. |
| C24 | ConstantString interning: equal text iff equal object, comparison consistent with equality | p | `CStr.interning_partial`, `CStr.compare_partial`, `CStr.compare_no_zero_partial`, `CStr.compare_not_equality`, `CStr.huge_is_empty` | Interning down to the bytes of the pool, over the model of the hash table: == iff equal texts, texts never change. compare()==0 differs from == for texts with zero bytes (witness), and std::strings of 4 GiB are cut (witness). Up to 283301878 strings. |
| C25 | StringId is a stable bijection between strings and ids | P | `StrId.stringId_numbers`, `StrId.stringId_round_trip`, `StrId.stringId_injective` | On top of the model of the hash table, for any hash of strings. Up to 283301878 calls, the most strings the tables can take. |
| C26 | Tuple hashing and ordering are consistent with equality | P | `Tuple.anyTuple_eq_iff`, `Tuple.anyTuple_hash`, `Tuple.anyTuple_order`, `Tuple.anyTuple_any_last`, `Tuple.anyPair_tuples`, `Tuple.representations_agree`, `Tuple.tuple_hash`, `Tuple.assign_view` | Tuples of any length over any field type whose operations are consistent. |
| C27 | A cube entry aggregates exactly the matching rows | P | `Cube.cube_meets_spec`, `Cube.cube_totals` | Entries that the optional function rejects are left out; its default rejects tuples without wildcard. Holds while the tables fit the prime list. |
| C28 | Zero-filled walk covers the cross product | P | `Cube.walkZeros_all_combinations`, `Cube.cube_meets_spec`, `Cube.zeroCube_columns_partial` | The order of the calls is that of the hash sets; callbacks that change the statistic are not modelled. |
| C29 | StatsQuantile never loses or invents weight | P | `Quantile.sketch_weight` | For every history of construction (with n<=k, see C88), adds, merges, resets and queries. |
| C30 | StatsQuantile answers are exact until the first collapse and within the guaranteed rank error afterwards | P | `Quantile.quantile_exact`, `Quantile.quantile_error`, `Quantile.quantile_empty` | Exact m-th smallest while the buffers suffice; with the paper's bound the position is within D*eps of the one asked for, D-1 the depth of merges. Value comparisons in any linear order (no NaN). Double arithmetic by an arbitrary round-to-nearest without exponent limits. |
| C31 | Merging Stats equals adding all values | P | `Stats.stats_values`, `Stats.stats_grouping`, `Stats.stats_merge`, `Stats.stats_moments`, `Stats.stats_ranges` | Exact arithmetic, as the property says; doubles are C91. |
| C32 | Uniform histogram counts each value in the bin containing it | p | `Histo.histogram_counts_partial`, `Histo.histogram_grow_false`, `Histo.histogram_grow_ub`, `Histo.histogram_empty_range` | Proved in exact arithmetic for all fixed and scalable histograms, and for growable ones that meet values up to 10^8 bins away; false of growable ones beyond (32-bit number of bins wraps) and of scalable ones with an empty range (endless loop). Doubles are C92. |
| C33 | Histogram percentile lies in the bin holding that rank | p | `Histo.percentile_rank_partial`, `Histo.percentile_any_partial`, `Histo.percentile_monotone_partial`, `Histo.percentile_zero_false`, `Histo.percentile_monotone_false`, `Histo.percentile_safe_partial` | Proved for p > 0 up to the tolerance of Double::gt in exact arithmetic, and that no access leaves the bins with doubles; percentile(0) with an empty first bin and monotonicity within the tolerance are false. |
| C34 | Accumulating histogram keeps per-bin sums in step with counts | p | `Histo.accum_sums_partial`, `Histo.accum_odd_false` | Proved in exact arithmetic for even numbers of bins; for every odd number the constructor writes past the array of values. |
| C35 | StatsHistogramGroup routes every value to exactly one part | P | `Histo.group_routes`, `Histo.group_counts` | Routing for every kind of sub-histogram and rounding; the complete count for uniform sub-histograms in exact arithmetic (their bins in doubles are C92). NaN is not modelled. |
| C36 | StatsSequence keeps a bounded, evenly merged summary | p | `Series.sequence_buckets_partial`, `Series.sequence_max_false`, `Series.sequence_overflow_false`, `Series.sequence_mode_fixed` | buckets proved while the int points_per_bucket does not overflow; false of MergeMax with negative values (starts at 0) and after limit*2^30 points |
| C37 | StatsSeries autocovariance is the textbook estimator | p | `Series.series_autocovariance_partial`, `Series.series_lag_false`, `Series.series_empty`, `Series.series_max_false` | exact arithmetic, lag below the number of values; false for larger lags (unsigned wrap) and max_lag = 2^32-1 |
| C38 | StatsSeriesGroup puts each value in its time bucket | p | `Series.series_group_partial`, `Series.series_group_reset_false`, `Series.series_group_empty_ub`, `Series.series_group_order`, `Series.series_group_zero_false`, `Series.series_group_double_false` | exact arithmetic, positive interval; false: reset keeps the overall statistics, an empty interval is a null reference, interval <= 0 or absorbed in doubles never ends |
| C39 | Weighted least squares returns the minimiser | P | `Lsq.lsq_defined`, `Lsq.lsq_minimal`, `Lsq.lsq_points`, `Lsq.lsq_vertical_false`, `Lsq.lsq_abort_false` | exact arithmetic as stated; counterexamples in doubles kept beside |
| C40 | Gaussian elimination preserves the solutions and solves full-rank systems | p | `Matrix.gauss_solutions_partial`, `Matrix.gauss_identity`, `Matrix.gauss_unique`, `Matrix.gauss_rank_partial`, `Matrix.gauss_default`, `Matrix.gauss_tolerance_false`, `Matrix.gauss_zero_ub`, `Matrix.gauss_past_ub` | proved for 1 <= maxcolumn <= columns in exact arithmetic (the identity block also in doubles); false: eliminating no columns is undefined, and the absolute tolerance reports regular systems as singular |
| C41 | Approximate comparison is a consistent trichotomy | P | `Histo.compare_trichotomy`, `Histo.compare_symmetric`, `Histo.compare_meaning`, `Histo.compare_zero_tolerance` | For any positive tolerance; setEpsilonBits(1075 or more) makes it 0 and then it is false. Overflow and NaN are not modelled. |
| C42 | Clock fixed-point conversion round trips | P | `Clock.micro_round_trip`, `Clock.nano_round_trip`, `Clock.micro_is_ceiling`, `Clock.nano_is_ceiling`, `Clock.extraction_exact` | Every value, every round-to-nearest of the doubles in between. |
| C43 | secondsToTfrac is within half a unit for every time | p | `Clock.secondsToTfrac_partial`, `Clock.secondsToTfrac_bug`, `Clock.secondsToTfrac_range`, `Clock.tfracOffset_partial`, `Clock.tfracOffset_bug` | False in the last half unit before each whole second (undefined conversion) and for the offset -2^31 s (signed overflow); proved elsewhere. |
| C44 | Mersenne Twister output follows the MT19937 recurrence for ever | P | `Rng.mt_follows_recurrence`, `Rng.mt_follows_recurrence_from_array` | In-place reload, seeding and tempering modelled word by word; the sequence is characterised (and unique) by the published recurrence. |
| C45 | Output tempering is a bijection | P | `Rng.temper_bijective`, `Rng.temper_separates` | in full |
| C46 | MT_random_shuffle produces every permutation from exactly one choice sequence | P | `Rng.shuffle_permutes`, `Rng.shuffle_reaches_each_order_once`, `Rng.randInt_is_choice` | The slight bias of randInt(max) itself is documented and not part of the claim. Ranges below 2^31 elements. |
| C47 | randIntUnbiased is unbiased and in range | P | `Rng.randIntUnbiased_uniform`, `Rng.randIntUnbiased_in_range` | UINT32_MAX as in the standard headers; the header's own fallback is C72. max = 0 divides by zero. |
| C48 | Re-seeding makes the generator reproducible | p | `Rng.reseed_reproducible_partial`, `Rng.reseed_reproducible_when_drained_partial`, `Rng.mt_seed_forgets`, `Rng.reseed_not_reproducible` | False of randBoolFast, which keeps up to 63 old bits across init; proved for every other call, and for all calls when no old bits are left. |
| C49 | Spin locks provide mutual exclusion | p | `Spin.atomic_spin_partial`, `Spin.atomic_spin_undefined`, `Spin.atomic_spin_two_holders`, `Spin.spin_mutual_exclusion`, `Spin.spin_progress` | False for AtomicSpinLock: 2^31 tries while the lock is held overflow, and where the machine wraps 2^32 tries let a second thread in. Proved for it up to 2^31 tries per hold, and for the other locks without bound on waiting. |
| C50 | Lock ordering groups exclude deadlock | p | `LockOrd.no_deadlock_partial`, `LockOrd.someone_can_move_partial`, `LockOrd.out_of_order_aborts_partial`, `LockOrd.all_released_partial`, `LockOrd.unlocked_twice_deadlock` | False when a scoped unlock is made of a lock that is already unlocked (witness). Proved for all programs that do not do that. |
| C51 | Log levels follow the configuration, whenever categories are first used | p | `Log.log_level_partial`, `Log.log_level_actual`, `Log.log_order_false`, `Log.log_truncate_false`, `Log.log_category_id`, `Log.log_id_order`, `Log.log_defined`, `Log.log_warning` | False as stated: among patterns set before a category's first use the first match wins, afterwards the last one does (log_order_false). Proved: the exact rule for every call sequence, the stated property when the patterns matching before the first use agree, that Category ids stay valid, and when the calls abort. |
| C52 | Help text wrapping bounds line length and preserves the text | P | `Wrap.wordWrap_spec`, `Wrap.wordWrap_breaks`, `Wrap.wordWrap_fits`, `Wrap.wordWrap_idem`, `Wrap.wordWrap_narrow_false` | For every width and every text of fewer than 10/11 * 2^32 bytes (positions are 32-bit). wordWrap_narrow_false: COLUMNS below 10 is not honoured. |
| C53 | The hash mixing step is reversible | P | `HashFn.mix_bijective` | in full |
| C54 | bobJenkinsHash reads exactly the given bytes | P | `HashFn.bobJenkinsHash_spec`, `HashFn.bobJenkinsHash_in_bounds`, `HashFn.mixULL_halves` | in bounds for every length; equals the block specification below 2^32 bytes |
| C55 | iteratorRangeEqual is list equality | P | `Stl.rangeEqual_iff_same`, `Stl.rangeEqual_eq` | Any two containers, any valid ranges, any inequality operator. |
| C56 | Condition-variable timeouts are normalised | p | `Cond.deadline_partial`, `Cond.deadline_not_nearest`, `Cond.deadline_undefined`, `Cond.deadline_negative` | The deadline is normalised and within half a nanosecond plus 2^-23 ns of the request. Not the nearest nanosecond in general: a witness is proved. Durations of 2^63 seconds or more are undefined. |
| C57 | StatsRW splits operations and totals consistently | p | `Series.rw_counts_partial`, `Series.rw_groups_partial`, `Series.rw_groups_false`, `Series.rw_stale_false`, `Series.rw_null_ub` | proved for Stats or null components, and for three groups when the first call is a read or a write; false: three groups abort after add(All) first, and keep counting what All should forget |
| C58 | Pushing a reference to the deque's own element works | p | `Deque.deque_self_push_full_ub`, `Deque.deque_self_push_bug`, `Deque.deque_self_push_partial` | False as stated: undefined behaviour when full; correct with spare capacity. |
| C59 | prefixequal and suffixequal decide prefixes and suffixes | P | `Str.prefixequal_iff`, `Str.suffixequal_iff` | in full |
| C60 | Base64 backward encoding writes the low bits of the big-endian value | P | `Base64.encodeBackward_value`, `Base64.encodeBackward_underrun`, `Base64.encodeBackward_default_digits` | The header does not state the precondition 6*digits <= 8*size; without it the read before the buffer is proved to happen. |
| C61 | randomlookup returns only stored entries and can return every one | P | `Hash.randomlookup_spec` | all reachable states and random numbers |
| C62 | PriorityQueue::selfVerify accepts every valid queue | p | `PQ.selfVerify_rejects_ties`, `PQ.selfVerify_partial`, `PQ.selfVerify_exact` | False for std::less_equal (the default) with two equal elements; proved for strict comparators. |
| C63 | A default-constructed PriorityQueue accepts pushes | p | `PQ.default_room_zero_overflows`, `PQ.default_room_partial` | False for every element type larger than 1024 bytes; proved for the others. |
| C64 | PriorityQueue calls given a reference to the queue's own top are safe | p | `PQ.replaceTop_own_top_loses`, `PQ.push_own_top_dangles`, `PQ.replaceTop_own_top_partial` | False: witnesses for both calls; proved for replaceTop under strict comparators. |
| C65 | The room a ByteBuffer reports can be written | p | `BB.room_not_honoured_when_copied`, `BB.room_honoured_partial` | false for copied buffers (witness); proved for unique ones |
| C66 | Appending or assigning a ByteBuffer to itself | p | `BB.self_append_and_assign`, `BB.self_append_partial` | false (witnesses); self-append proved with room or when shared |
| C67 | Reading a stream into a ByteBuffer appends the bytes read | p | `BB.stream_into_copied_buffer_overflows`, `BB.stream_appends_partial` | false for copied buffers with room (heap overflow); proved for unique buffers |
| C68 | BobJenkinsHashMix3 separates arguments that differ in one word | p | `HashFn.mix3_not_injective`, `HashFn.mix3_distinct_partial` | false: collisions in every argument position |
| C69 | bobJenkinsHash loses no key information before the final word | P | `HashFn.short_keys_distinct`, `HashFn.one_block_distinct` | in full |
| C70 | bobJenkinsHash takes every byte of the key into account | p | `HashFn.long_buffers_are_cut`, `HashFn.four_gigabytes_hash_alike`, `HashFn.every_byte_counts_partial`, `HashFn.tail_distinct` | false from 2^32 bytes on; below, changing any byte is proved to change the state |
| C71 | A seeded Mersenne Twister never dies | P | `Rng.mt_never_all_zero`, `Rng.mt_array_never_all_zero`, `Rng.initArray_empty` | An empty seed array is undefined behaviour and shown to be. |
| C72 | randIntUnbiased stays unbiased with the header's own UINT32_MAX | p | `Rng.fallback_limit_partial`, `Rng.fallback_limit_is_biased` | The fallback 0xFFFFFFF lacks one digit: biased for max above it; uniform up to it. |
| C73 | MarsagliaRNGMicro is Marsaglia's xorshift128 | p | `Rng.micro_two_term_partial`, `Rng.micro_not_xorshift128` | x=y; y=z; x=w loses the shift; the code is a two-term recurrence with 64 bits of state. |
| C74 | The Marsaglia multiply-with-carry generators follow their documented recurrence inside their array | p | `Rng.mars_sequence_partial`, `Rng.mars_init_partial`, `Rng.mars_not_documented_step` | The step differs exactly when A X + C is a positive multiple of 2^32-1, and the carry can reach A; everything else proved for all sequences. |
| C75 | A Marsaglia multiply-with-carry generator is determined by its seed | p | `Rng.mars_reseed_partial`, `Rng.mars_reseed_not_reproducible` | The index i is neither initialised nor reset. |
| C76 | The hash values are those of the published function | P | `HashFn.bobJenkinsHash_published`, `HashFn.mix_is_published` | lookup2 is written over numbers, without definitions of the model. |
| C77 | The default interpolation estimator is safe on integer keys | p | `Interp.default_search_partial`, `Interp.default_search_overflow` | False when last - first exceeds the signed type: undefined behaviour (default_search_overflow). Holds when all differences fit and the range has at most 2^53 elements, for every round-to-nearest. |
| C78 | The cycle-counter clock does not lose bits or run backwards between recalibrations | P | `Clock.readings_monotone`, `Clock.readings_defined`, `Clock.calibrates_1000` | Calibration results and counter readings are arbitrary inputs. |
| C79 | Clocks told to use the time of day do | p | `Clock.useTod_partial`, `Clock.useTod_uncalibrated`, `Clock.slow_partial`, `Clock.slow_bug` | False: AUFSO_UseTod without calibrateClock() is undefined though isCalibrated() holds; slow modes read 1970 until the cycle counter passes the interval. Proved otherwise. |
| C80 | TfracToDouble is the nearest double and keeps the order of times | P | `Clock.tfracToDouble_nearest`, `Clock.tfracToDouble_order` | in full |
| C81 | Random doubles keep to their documented ranges | P | `Rng.randDoubleOpen_range`, `Rng.randDoubleClosed_range`, `Rng.randDoubleOpen53_range`, `Rng.randDoubleClosed53_range`, `Rng.doubles_of_words` | in full |
| C82 | Every operation of an atomic counter is defined for every value | p | `Atomic.unsigned_defined_partial`, `Atomic.signed_fetch_partial`, `Atomic.signed_undefined`, `Atomic.signed_exact_partial` | False for signed T: prefix ++ at the largest value and fetch_sub of the smallest operand are undefined. Proved: unsigned T always, the signed fetch functions that do no arithmetic of their own. |
| C83 | The spin locks in assembly exclude and make progress | P | `Spin.spin_mutual_exclusion`, `Spin.spin_progress` | Up to 2^31 threads, every schedule. |
| C84 | Any text can be interned, whatever was interned before | p | `CStr.short_always_partial`, `CStr.long_first_aborts`, `CStr.long_later_works` | True up to 8183 bytes. False beyond: the same text aborts or works depending on the history. |
| C85 | operator< on ConstantString is a strict weak order | p | `CStr.order_partial`, `CStr.compare_not_equality` | True for texts without zero bytes; false otherwise, by a witness of three texts. |
| C86 | Clearing a column's set makes zeroCube treat it as any | p | `Cube.zeroCube_columns_partial`, `Cube.zeroCube_emptied_column`, `Cube.emptied_column_not_any` | True for filled sets. The claim about cleared sets is false: nothing is added. |
| C87 | A cube's statistics objects live exactly as long as their entries | P | `Cube.cube_objects_freed`, `Cube.cube_meets_spec` | Holds while the tables fit the prime list. |
| C88 | A sketch from the public constructor never leaves its arrays | p | `Quantile.default_sketch_safe_partial`, `Quantile.sketch_safe_partial`, `Quantile.collapse_pos_overflow` | False: StatsQuantile(0.1, 5000) has 13 buffers of 11 values, and collapse_pos has 11 entries. Proved for sizes with nbuffers <= buffer_size, which include the default arguments. |
| C89 | Merging an empty sketch changes nothing | p | `Quantile.merge_empty_partial`, `Quantile.merge_empty_ub` | False for an empty sketch with lazy allocation, the default: all_buffers[-1] is read. Proved for one that allocated its buffers. |
| C90 | The documented error of quantiles | p | `Quantile.documented_error`, `Quantile.documented_error_partial` | Proved in full for 2*eps*N <= 1.5e9 with 2e-15 added to the error on the lower side (the code subtracts 1e-15) and eps per level of merges; above that limit the search of the constructor may stop at height 40, and twice the error is proved. |
| C91 | Stats in double arithmetic keep their order | p | `Stats.stats_double_partial`, `Stats.stats_integer_partial`, `Stats.stats_double_false` | Count, min, max, an error bound of the sum, and exactness of small integers are proved; the order of mean and max and the sign of the variance are false (0.1 added three times). |
| C92 | A uniform histogram of doubles never leaves its bins | p | `Histo.histogram_double_partial`, `Histo.histogram_integers_partial`, `Histo.histogram_double_false` | False: 2 bins from -3 to 1 and the largest double below 1, whatever the rounding of ties. Proved: at most one bin off, right bin away from edges, and exact for integers. |
| C93 | Correlation is found whichever its sign | p | `Series.correlated_negative_false`, `Series.correlated_monotone_partial` | false: negative correlation is never reported; one-sided part proved |
| C94 | Exponential moving averages | P | `Ema.ema_rates`, `Ema.ema_average`, `Ema.ema_range`, `Ema.ema_step`, `Ema.ema_extremes`, `Ema.ema_double_false`, `Ema.ema_reset_false` | exact arithmetic; counterexample in doubles kept beside |
| C95 | Statistics are made by the longest registered name | P | `Maker.maker_longest`, `Maker.maker_history` | names below 2^31 characters |
| C96 | stringToInteger converts numerals and nothing else | p | `Num.stringToInteger_signed`, `Num.stringToInteger_unsigned_partial`, `Num.stringToInteger_onto`, `Num.stringToInteger_defined`, `Num.stringToInteger_radix_partial`, `Num.stringToInteger_hex_partial`, `Num.stringToInteger_base`, `Num.stringToInteger_negative_false`, `Num.stringToInteger_char_false`, `Num.stringToInteger_trailing_false` | Proved for signed types in base 10. False for unsigned types (negative numbers wrap), for 8-bit types (converted as characters) and for bases 16 and 8 (trailing characters ignored); each with a witness and the part that holds. stringToInteger_radix_partial says exactly what bases 16 and 8 accept and return. Rests on the modelled meaning of lexical_cast and istream extraction. |
| C97 | The debug string makes the settings it spells | P | `Log.parse_settings`, `Log.parse_truncate_false`, `Log.parse_empty_false` | For names without ',' and '=' and decimal levels below 2^32. Also: levels above 255 are cut to 8 bits, and an empty string sets the category with the empty name. |
| C98 | A hash table can be scanned a part at a time | p | `Hash.scan_sees_all_partial`, `Hash.scan_sound_partial`, `Hash.scan_count_partial`, `Hash.chain_scan_partial`, `Hash.chain_scan_removes`, `Hash.scan_finishes_partial`, `Hash.atEndOfChain_spec_partial`, `Hash.scan_stuck`, `Hash.scan_growth_false`, `Hash.scan_shrink_false`, `Hash.reset_begin_partial`, `Hash.reset_empty_false` | Proved for every scan during which the number of chains does not change, unconditionally when the calls in between only look and remove. False when an add grows the table (scan_growth_false: an entry is missed, another shown twice) or clear and reserve shrink it (scan_shrink_false); reset() is begin() only on a table that is not empty. |
| C99 | A double accepted as integral is converted to the integer it is near to | p | `MathFn.isDoubleIntegral_iff`, `MathFn.isDoubleIntegral_size`, `MathFn.isDoubleIntegral_nan`, `MathFn.accepted_converts`, `MathFn.convertDouble_eq`, `MathFn.convertDouble_not_nearest` | The acceptance test is characterised exactly (ties-to-even rounding): near an integer, at most 2^49 in size, below LONG_MAX for 4 bytes. Accepted finite doubles are converted to the right integer. False as stated: NaN is accepted; LONG_MAX itself is refused for a 4-byte long; the conversion is one too far from zero for the two doubles next to a half and for all odd 53-bit integers, proved to be the only such doubles. |
| C100 | The inverse error function inverts | p | `MathFn.inverseErf_partial`, `MathFn.inverseErf_outside`, `MathFn.inverseErf_negative`, `MathFn.inverseErf_hangs`, `MathFn.inverseUnitNormalCDF_hangs`, `MathFn.newton_ends_partial`, `MathFn.newton_ends_near_partial` | Any result for 0 <= y < 1 inverts erf up to 1.04e-14. False for every negative y: the loop's bounds are swapped, so the call never returns, whatever erf is; likewise inverseUnitNormalCDF below the median. In real arithmetic with the true erf the loop ends for every 0 < y < 1 from guesses between 0 and the solution or near above it, in particular within a thousandth of solutions in [0.001, 100]. Missing: termination with rounding, and the accuracy of the guess formula. |
| C101 | A failed assertion calls the hooks once, in order, and never goes on | p | `Assert.invariant_outcome`, `Assert.hooks_in_order`, `Assert.throw_in_before`, `Assert.throw_in_after`, `Assert.failing_hook_dies`, `Assert.message_throws`, `Assert.history_known`, `Assert.history_hooks_in_order`, `Assert.failed_levels`, `Assert.throw_std_called_twice`, `Assert.registering_hook_undefined` | Order, counts, outcomes and recovery for all hooks, texts and histories of one thread. False as stated: a hook that throws a std::exception other than AssertBoostException is called twice, the second time with another text; a hook that changes the list being gone through is undefined. Several threads failing at once: C204. |
| C102 | The message of an assertion exception is the formatted text | p | `Assert.Printf.stringPrintF_partial`, `Assert.Printf.stringPrintF_eq`, `Assert.Printf.stringPrintF_long_false` | Exact for texts of up to 1023 characters. Every longer text comes out as its first 1023 characters and NULs up to its length. What printf makes of a format is a parameter. |
| C103 | LintelLog can be used first from several threads | p | `Log.Init.init_once_partial`, `Log.Init.init_at_most_one`, `Log.Init.init_progress`, `Log.Init.init_never_back`, `Log.Init.init_early_false`, `Log.Init.init_written_partial` | Holds for all schedules where stores become visible in program order. The mutex operations in the code do not force that: an order they allow lets a thread through with an incomplete object. Initialisation of the function's static mutex is assumed. |
| C104 | Log levels given in XML | p | `Log.Xml.parseXML_sets`, `Log.Xml.parseXML_only_partial`, `Log.Xml.parseXML_255_false` | Levels 0 to 254 and the default. False as stated: 255 aborts, and negative numbers are read modulo 2^32. XML parsing is libxml's and is not modelled. |
| C105 | Logarithmic histograms count every value in its bin | p | `LogHisto.log_counts_partial`, `LogHisto.log_illegal`, `LogHisto.log_total_any`, `LogHisto.log_narrow_false`, `LogHisto.log_rescales_false`, `LogHisto.log_double_bin`, `LogHisto.log_double_partial` | Bins, edges, range and totals over the reals for all histories (log_counts_partial); in any arithmetic each value is counted once (log_total_any). A fixed histogram must not meet values 2^32 bins away: false without (log_narrow_false). With rounding to 53 bits and a logarithm right to the last bit, histograms that do not scale count each value in its bin unless it is within about n*2^-50 bins of an edge, and then nearby (log_double_partial); scaling with doubles is not covered. Equal bounds are not modelled. numRescales and isScalable do not report scaling (log_rescales_false). |
| C106 | Percentiles and modes of histograms | p | `LogHisto.log_percentile_partial`, `LogHisto.log_percentile_monotone_partial`, `LogHisto.log_percentile_zero_partial`, `LogHisto.log_percentile_zero_false`, `LogHisto.log_percentile_safe`, `LogHisto.log_mode`, `LogHisto.log_center_partial`, `Histo.mode_partial` | Rank and monotonicity in exact arithmetic for p above 0; at 0 the result is 0 if the first bin is empty (log_percentile_zero_false). In any monotone arithmetic the percentile stays within the bins (log_percentile_safe), and the mode is the center of the last of the fullest bins (log_mode). |
| C107 | Logarithmic histograms that sum up data | p | `LogHisto.log_accum_partial`, `LogHisto.log_accum_double_partial` | Counts and sums in exact arithmetic for all histories, for indexes less than 2^32 bins away. With rounding: counts agree with an assignment of bins that is right away from the edges, and the sums are within the error of adding so many doubles (log_accum_double_partial). |
| C108 | Timed locking takes the mutex or gives up at the deadline | P | `Thread.timed_lock`, `Thread.timed_sleeps`, `Thread.timed_ends`, `Thread.clock_replacement` | For normalised times; results of trylock and clock readings are arbitrary inputs. Ends when the clock advances between tries. |
| C109 | PThreadMutex counts contention exactly | P | `Thread.Mutex.mutex_contention`, `Thread.Mutex.mutex_exclusion`, `Thread.Mutex.mutex_relock_checked`, `Thread.Mutex.mutex_relock_plain`, `Thread.Mutex.mutex_unlock_free` | The system's mutex is assumed; the counter is read and written in separate steps. |
| C110 | A PThread runs once per start and join returns its result | p | `Thread.Life.thread_history`, `Thread.Life.thread_misuse`, `Thread.Life.thread_destroy`, `Thread.Life.thread_restart_false`, `Thread.Life.thread_destroy_ub` | start, join and results hold for every schedule; starting again is false for detached threads (thread_restart_false), and destruction before run is called is undefined (thread_destroy_ub). |
| C111 | PThreadNoSignals starts a thread with all signals blocked | p | `Thread.Life.signals_partial`, `Thread.Life.signals_false` | Holds when the thread is created; false when start fails with an exception (signals_false). |
| C112 | The number of processors | p | `Thread.Cpus.ncpus_first_partial`, `Thread.Cpus.ncpus_none`, `Thread.Cpus.ncpus_cached`, `Thread.Cpus.ncpus_negative_false` | Holds for numbers below 2^31; from there on the answer is negative (ncpus_negative_false). |
| C113 | Program options have the value they were given last | P | `Opt.options_value`, `Opt.options_outcome`, `Opt.options_config`, `Opt.options_destroyed_ub`, `Opt.options_comma_false`, `Opt.options_twice`, `Opt.options_hidden_config` | boost::program_options modelled by what it recognises; options_outcome and options_config for options that are still there. The witnesses show why the preconditions are needed. |
| C114 | readN and read0 fill the buffer and nothing else | p | `Posix.readN_returns_partial`, `Posix.readN_small_partial`, `Posix.readN_overflow_false`, `Posix.read0_spec` | When readN returns it returns what it should, it ends, and it does not overflow when no more than n bytes are left. False in general: each read() asks for n instead of what is left, so a short read followed by a full one writes past the buffer. |
| C115 | The 64-bit stdio replacements report success and failure | p | `Posix.fseek64_set_partial`, `Posix.fseek64_iff`, `Posix.fseek64_false`, `Posix.ftell64_spec`, `Posix.ftell_fseek`, `Posix.fopen64_modes` | Holds for SEEK_SET with offsets other than -1, and exactly for the calls fseek64_iff names. False otherwise: the result of lseek is compared with the offset. |
| C116 | Moments and density of the truncated log-normal distribution | p | `LogNormal.moment_spec`, `LogNormal.logNormal_partial`, `LogNormal.logNormal_false` | The moments are proved for all parameters. The density is right when the logarithmic mean is not positive; for positive ones it is cut off below a millionth of that mean and its integral is less than 1. Real arithmetic. |
| C117 | The equation solver's success means a solution | p | `LogNormal.solve2_partial`, `LogNormal.solve2_false`, `LogNormal.findZero_steps`, `LogNormal.findZero_linear`, `LogNormal.findZero_false`, `LogNormal.solve_partial`, `LogNormal.solve_false` | Exactly what the solvers do is proved, and that linear systems with determinant at least a millionth are solved. False: small regular systems are called singular; a small step is taken for a zero; the tolerance of a thousandth is absolute, so distributions that cannot exist are "found" when the numbers are small. Real arithmetic. |
| C118 | Drawing a truncated log-normal number | p | `LogNormal.normalRandomLimit_spec`, `LogNormal.drawn_partial`, `LogNormal.drawn_negative`, `LogNormal.main_spec` | The generator is proved right for all sequences although its condition is always true. The number printed is below the limit when the fitted sigma is positive, which is not shown of the solver. Without arguments main() is undefined. |
| C119 | Expanding bracketed numbers gives all combinations in the documented order | P | `Expand.expand_one`, `Expand.expand_many`, `Expand.expand_ends` | Numbers are natural numbers of any size; perl computes exactly up to 2^53. Texts have no newlines. |
| C120 | Every exit of a process is reported once | P | `Proc.process_life`, `Proc.reports_honest`, `Proc.wait_progress` | Small-step machine; signals, eval and other reaping code are not modelled. |
| C121 | Waiting for one process, or for all, gives their statuses | p | `Proc.waitPid_status_partial`, `Proc.quiet_waits_partial`, `Proc.signalled_waits_partial`, `Proc.waitPid_nested_false`, `Proc.reused_pid_false`, `Proc.stale_errno_false` | True if exit functions do not wait, numbers are not used again during the call, and processes may be signalled; false otherwise, with witnesses. |
| C122 | lintel-flock: one at a time | p | `FLock.exclusive_partial`, `FLock.killed_exclusive_false`, `FLock.foreign_script_false`, `FLock.released`, `FLock.script_end_releases` | Exclusion for all histories among undisturbed runs, in both modes, and release of the lock. False in general: killing lintel-flock while its command runs (the descriptor is close-on-exec), and a script owned by another user. Not modelled: reuse of process ids, removal of the lock file, the instant between fork and exec. |
| C123 | lintel-flock: waiting and exit codes | p | `FLock.exit_status`, `FLock.gave_up`, `FLock.exit_code_tells_false`, `FLock.getLock_partial`, `FLock.getLock_errors_false` | Exit codes and waiting as stated, for all histories. False: with a waiting time a failing flock is taken for a held lock (perl's flock returns 0, not undef), so getLock never dies of it; exit code 1 means both no lock and a command that ended with 1. |
| C124 | batch-parallel: running things in parallel | p | `Batch.local_sound`, `Batch.local_complete`, `Batch.local_returns`, `Batch.local_noexec`, `Batch.local_zero_false`, `Batch.local_exit_false`, `Batch.local_success_dies_false` | Everything but the two parts that are false of the code: -j 0 dies instead of being refused, and the exit code is 0 when everything failed (witnesses). |
| C125 | batch-parallel: shuffling the things | p | `Batch.shuffle_perm`, `Batch.shuffle_orders_false` | The shuffle is a permutation for all random numbers; that all orders can come out is false (cyclic permutations only). |
| C126 | batch-parallel: dividing the things among jobs of a queueing system | P | `Batch.jobs_divide`, `Batch.batch_size` | in full |
| C127 | batch-parallel: destinations are whole | p | `Batch.Files.files_whole_partial`, `Batch.Files.missing_false`, `Batch.Files.shared_dest_false`, `Batch.Files.needs_build`, `Batch.Files.changed_while_building_false` | For distinct destinations; the stronger readings are false of the code (witnesses). |
| C128 | batch-parallel compress: contents are not lost | p | `Batch.Compress.rebuild_checked`, `Batch.Compress.compress_preserves_partial`, `Batch.Compress.compress_works`, `Batch.Compress.compress_empty_fails`, `Batch.Compress.compress_ifsmaller`, `Batch.Compress.compress_always_builds`, `Batch.Compress.compress_collision_false`, `Batch.Compress.compress_corrupt_false`, `Batch.Compress.compress_existing_false` | One process at a time, sources with distinct destinations, contents defined as what the unpacker puts out; without these the claim is false (witnesses). |
| C129 | batch-parallel jobsfile: output files | p | `Batch.Jobs.names_distinct`, `Batch.Jobs.names_sorted`, `Batch.Jobs.finished_not_rerun`, `Batch.Jobs.jobs_spec`, `Batch.Jobs.finished_rerun_false`, `Batch.Jobs.documented_digits_false` | All but the parts false of the code (witnesses). |
| C130 | batch-parallel jobsfile: commands and definitions | p | `Batch.Jobs.read_lines`, `Batch.Jobs.defines_partial`, `Batch.Jobs.order_irrelevant_partial`, `Batch.Jobs.define_order_false` | For definitions that do not mention each other; false otherwise (witness). |
| C131 | batch-parallel jobsfile: the output is that of one complete run | p | `Batch.Jobs.output_whole`, `Batch.Jobs.output_alone_partial`, `Batch.Jobs.output_replaced_false` | That an output never changes is false when two processes run the same job at once. |
| C132 | batch-parallel tar: the groups | p | `Batch.Tar.groups_spec`, `Batch.Tar.groups_too_large`, `Batch.Tar.target_false` | For the estimated size; false for the real one (for every number of files). |
| C133 | batch-parallel tar: the files packed | p | `Batch.Tar.tar_reads_partial`, `Batch.Tar.tar_stored`, `Batch.Tar.tar_relative_false`, `Batch.Tar.tar_relative_twice_false`, `Batch.Tar.tar_root_false`, `Batch.Tar.tar_dash_false`, `Batch.Tar.tar_same_name_false` | Under the stated condition on the paths; false without it (witnesses). |
| C134 | Known hosts: has_host_key and clear_host_key agree | P | `KHosts.has_iff`, `KHosts.clear_spec`, `KHosts.clear_then_has`, `KHosts.unknown_dies` | The HMAC, the resolver and the version test are parameters; the file is its list of lines. |
| C135 | Known hosts: what ssh will find | p | `KHosts.clear_ssh_partial`, `KHosts.has_ssh_partial`, `KHosts.second_name_false`, `KHosts.dot_false`, `KHosts.dot_comma`, `KHosts.addr_not_last` | Proved for unhashed lines that name the host first (found, cleared) and for names without dots (found only if named). Refuted for the second name of a line and for names with dots. Wildcards of ssh are not modelled. |
| C136 | batch-parallel make: the commands run | p | `Batch.Make.runs_meaning_partial`, `Batch.Make.names_used_partial`, `Batch.Make.things_spec`, `Batch.Make.dollar_name_false` | For names without a dollar sign and commands in which other dollar signs are not followed by another dollar sign, a T or a marker; refuted for names with a marker in them. |
| C137 | batch-parallel make: -n shows what would be done | p | `Batch.Make.messages_first_partial`, `Batch.Make.messages_false` | False of the code: every message shows the commands of the first thing. |
| C138 | batch-parallel checksum: what a checksum file says | p | `Batch.Checksum.plain_content_partial`, `Batch.Checksum.compressed_content_partial`, `Batch.Checksum.new_digest`, `Batch.Checksum.trailing_space_false`, `Batch.Checksum.pipe_runs`, `Batch.Checksum.uncompress_failure_false` | For absolute paths that end in neither white space nor a bar. Digests and the output of commands are parameters. |
| C139 | batch-parallel checksum: which files have one | p | `Batch.Checksum.things_iff`, `Batch.Checksum.run_complete`, `Batch.Checksum.changed_file_false` | The run is one in which no job fails. Refuted: that a changed file gets a new checksum file. |
| C140 | Plot ticks: places | P | `Tics.places`, `Tics.fixed_has_mid`, `Tics.places_round` | Times are whole seconds; starts are not negative. The places are the absolute ones. |
| C141 | Plot ticks: labels | p | `Tics.labels_true_partial`, `Tics.labels_near`, `Tics.fixed_labels_partial`, `Tics.after_midnight_false`, `Tics.half_hour_false`, `Tics.summer_false` | Labels are kept as what they show, not as text. Refuted for clock changes with absolute places, for the hour after midnight and for zones of half hours. |
| C142 | Plot ticks: long plots | p | `Tics.weekly_ticks`, `Tics.monthly_ticks`, `Tics.before_start_false` | The comparison with an eleventh of the range is made without rounding. That the monthly ticks are found (the loop ends) depends on the calendar, a parameter. Refuted: the first tick may be before the start. |
| C143 | lintel-latex-rebuild: what success means | p | `Latex.success_stable`, `Latex.success_stable_partial`, `Latex.success_given_up_false`, `Latex.warning_name_false` | Exactly what success means is success_stable; the claim holds if no step was given up. Refuted otherwise, and for names that say warning. |
| C144 | lintel-latex-rebuild: time-outs | p | `Latex.retries`, `Latex.stops_false`, `Latex.retried_false` | The number of attempts and the result of a step for all sequences; that the build stops, and that killed attempts are tried again, is false. |
| C145 | lintel-latex-rebuild: what failure leaves | p | `Latex.failure_partial`, `Latex.failure_false` | All ends but missing convergence; that one keeps old files (witness). |
| C146 | lintel-latex-rebuild: arguments and exit code | p | `Latex.search_order`, `Latex.exit_code_partial`, `Latex.usage_false` | Search order proved for --tex; the exit code for accepted arguments. Refuted: errors in the arguments exit with 0. |
| C147 | getDeptoolInfo: the system a test runs on | p | `TestUtil.info_from_env`, `TestUtil.osVersion_env`, `TestUtil.info_from_deptool_partial`, `TestUtil.absent_false`, `TestUtil.absent_noShell`, `TestUtil.long_line_false` | Proved for set variables, and for output of deptool in lines below 200 characters without quotes in the values. Refuted: all fields empty without deptool. |
| C148 | deptool getenv for-sh: a shell gets the values | p | `TestUtil.forSh_sets_partial`, `TestUtil.forSh_sets_false` | For values without the four characters that are special between double quotes; refuted otherwise. |
| C149 | TEST_INVARIANT_MSG: what passes | p | `TestUtil.Macro.testInvariant_partial`, `TestUtil.Macro.own_text_false`, `TestUtil.Macro.hook_stays_false` | The code under test is a list of assertions. Proved if the macro's own text is not expected and no other exception leaves the code. |
| C150 | modifyTimeNanoSec: order of modification times | p | `Misc.FileTime.modifyTime_order_partial`, `Misc.FileTime.modifyTime_false` | For times from 1678 to 2261; undefined for every time before or after. |
| C151 | safeDownCast, safeCrossCast and safeRef | P | `Misc.Pointer.safeDownCast_spec`, `Misc.Pointer.safeCrossCast_spec`, `Misc.Pointer.safeCrossCast_mem`, `Misc.Pointer.safeRef_spec` | dynamic_cast is modelled after the C++ standard for public bases. |
| C152 | ProcessStatistics: fresh and cached values | P | `Misc.ProcStat.statistics_fresh`, `Misc.ProcStat.statistics_abort` | Sizes below 2^64 bytes; what the kernel's file says is a parameter. |
| C153 | splitSQL: the statements of a document | p | `DBI.split_sound`, `DBI.split_unique`, `DBI.split_returns_partial`, `DBI.split_cases`, `DBI.split_hangs`, `DBI.split_hangs_false` | What is returned is right for every document; returning is shown for documents with every string and comment closed, and is false for those of split_hangs. |
| C154 | transaction: all or nothing | p | `DBI.transaction_atomic_partial`, `DBI.transaction_nested`, `DBI.transaction_ddl_false`, `DBI.transaction_commit_false`, `DBI.transaction_rollback_false` | For functions that leave the transaction to transaction and statements that do not commit by themselves; false otherwise (witnesses). |
| C155 | setupSchema: versions of a schema | p | `DBI.setup_migrates_partial`, `DBI.setup_ends`, `DBI.setup_fresh_false`, `DBI.setup_second`, `DBI.setup_unread_false`, `DBI.setup_prepared_false`, `DBI.setup_from_false`, `DBI.setup_from_target_false`, `DBI.setup_loop_false`, `DBI.setup_ddl_false` | For a database with a recorded version that can be read and statements that do not commit by themselves; false in the other cases (witnesses). |
| C156 | setConfig and getConfig | p | `DBI.set_get`, `DBI.set_reserved_false`, `DBI.get_failed_false` | The first part is proved; the other two are false (witnesses). |
| C157 | Results of one row and one value | p | `DBI.Rows.oneRow_spec`, `DBI.Rows.atMostOneRow_spec`, `DBI.Rows.value_spec`, `DBI.Rows.requiredValue_spec`, `DBI.Rows.value_null_false` | Functions returning arrays; those that return hashes are not modelled separately. A row with NULL looks like no row to value. |
| C158 | Named queries and the rows of an execution | p | `DBI.Rows.call_runs_partial`, `DBI.Rows.load_accepts`, `DBI.Rows.call_method_false`, `DBI.Rows.call_last_false`, `DBI.Rows.rows_belong_partial`, `DBI.Rows.rows_mixed_false` | For names without another meaning and results that are read before the query is run again; false otherwise (witnesses). |
| C159 | deptool build: the order of steps | P | `Deptool.build_order` | For stamps that are not from the future (not later than the start of the program). |
| C160 | deptool build: the outcome | p | `Deptool.build_returns`, `Deptool.build_fails`, `Deptool.build_cycle`, `Deptool.build_future_false` | Proved for stamps that are not from the future; with one from the future the program dies with "internal error" (build_future_false). |
| C161 | deptool build: the loop ends | P | `Deptool.build_ends` | An iteration that only waits is one that begins with processes running of which none ends. |
| C162 | deptool build: nothing to do the second time | P | `Deptool.build_again`, `Deptool.build_fresh` | Unchanged sources: dbpFindOld finds nothing. The clock has not been set back below the last stamp. |
| C163 | deptool build: as good as a clean build | P | `Deptool.build_files`, `Deptool.build_as_clean` | A build is a function of the source and of what is installed of the directories of other sources; dependencies between variants of one source are ignored by the code and so they are here. The changed sources are those that dbpFindOld finds; see C164 for when that goes wrong. |
| C164 | deptool: changed sources are found | p | `Deptool.Old.findOld_partial`, `Deptool.Old.findOld_false` | False of the code in three ways (findOld_false); proved when nothing is edited between the start of a build and its stamp, nothing removed, and for files other than .git* and _MTN*. |
| C165 | deptool: the directories to build | p | `Deptool.Deps.collect_closed`, `Deptool.Deps.collect_complete_partial`, `Deptool.Deps.collect_ends`, `Deptool.Deps.collect_collision_false` | Everything proved but that each needed project has an entry of its own, which is false when build directories coincide. |
| C166 | deptool depWalk: every project once, dependencies first | P | `Deptool.Deps.depWalk_order`, `Deptool.Deps.depWalk_ends` | Checking out missing projects is taken to work. |
| C167 | deptool: dependency lines | P | `Deptool.Deps.parseDependency_roundtrip` | \w as ASCII. |
| C168 | deptool: from a build directory back to the project | p | `Deptool.Deps.divideDir_partial`, `Deptool.Deps.divideDir_src`, `Deptool.Deps.divideDir_false` | Proved for the source tree, for variants, and for projects whose name does not look like one with a variant; false otherwise. |
| C169 | deptool: running tests in parallel | P | `Deptool.Tests.tests_run`, `Deptool.Tests.tests_dies` | What ctest prints is not modelled: the result of a test is given. |
| C170 | lintel-disktool: which drives are used | p | `Disktool.drives_partial`, `Disktool.drives_zero_false` | If the empty text is not listed and no drive calls itself `0`. False otherwise: Perl takes the serial number `0` for none. |
| C171 | lintel-disktool partition: what is overwritten | p | `Disktool.partition_writes`, `Disktool.partition_again`, `Disktool.partition_mounted_false` | Only configured drives with wrong tables are overwritten, and a second run does nothing. False: it is not checked whether a drive is mounted. |
| C172 | lintel-disktool format: what is overwritten | p | `Disktool.format_writes`, `Disktool.format_safe_partial`, `Disktool.format_elsewhere_false`, `Disktool.format_zero_false` | Proved if the drives are only mounted directly below the mount path and not on a directory `0`; false otherwise (witnesses). |
| C173 | lintel-disktool format: labels | p | `Disktool.format_labels`, `Disktool.nextUnique_fresh`, `Disktool.nextUnique_ends`, `Disktool.format_newline_false` | Proved but that a label may end in a newline (the check uses `$`). |
| C174 | lintel-disktool mount: each drive where it belongs | p | `Disktool.mount_visible_partial`, `Disktool.mount_again_partial`, `Disktool.mount_same_label_false`, `Disktool.mount_custom_false`, `Disktool.mount_zero_false` | Proved for different labels whose directories are directly below the mount path, with only drives mounted there; false otherwise (witnesses). |
| C175 | lintel-disktool umount: what is unmounted | p | `Disktool.umount_partial`, `Disktool.umount_covered_false`, `Disktool.umount_reserved_false` | Proved if only drives are mounted below the mount path; a mount over a drive is unmounted instead of it. Also drives that are reserved are unmounted. |
| C176 | lintel-disktool fail: only the named drives | p | `Disktool.fail_partial`, `Disktool.fail_eleventh_false` | Proved if what is mounted below the mount path are first partitions; the check has no `$`, so an eleventh partition passes it. |
| C177 | lintel-disktool: recognising a correct partition table | p | `Disktool.sfdisk_partial`, `Disktool.sfdisk_words_false`, `Disktool.sfdisk_fourth_false` | Proved for tables not marked active and with one-word type names; false otherwise: such drives would be partitioned again. |
| C178 | mercury-plot: default table and condition | p | `Mercury.adjust_partial`, `Mercury.plotOrder_eq`, `Mercury.adjust_border_false`, `Mercury.adjust_upper_false`, `Mercury.adjust_string_false` | false in general: names that end with a keyword (border), keywords in upper case and keywords in strings are mistaken; proved for queries in lower case without such names and strings |
| C179 | mercury-plot: rows become points | p | `Mercury.Rows.fetch_keeps`, `Mercury.Rows.fetch_partial`, `Mercury.Rows.fetch_null_false`, `Mercury.Rows.dispatch_partial`, `Mercury.Rows.dispatch_one_false`, `Mercury.Rows.cdf_partial`, `Mercury.Rows.cdf_null_false` | false in general: after a row with a null the iterator of the hash is not reset and the next row with a null is written; one row with x and y2 is drawn without y2; nulls count in the shares of a cdf |
| C180 | mercury-plot: barplot draws every row once | p | `Mercury.Bar.barplot_partial`, `Mercury.Bar.barplot_plain`, `Mercury.Bar.place_sound`, `Mercury.Bar.barplot_zero_false`, `Mercury.Bar.barplot_mixed_false` | false in general: the name 0 makes it die, and a row without a name removes the bars of its group; the file of stacked bars is not modelled |
| C181 | mercury-plot: the list of plots | p | `Mercury.Plots.plots_partial`, `Mercury.Plots.refresh_desc`, `Mercury.Plots.plotwith_false`, `Mercury.Plots.replot_partial`, `Mercury.Plots.replot_function_false`, `Mercury.Plots.replot_fail_false` | false in general: plotwith with the number after the last makes an entry without data, and replot with functions or failing queries mixes up the list |
| C182 | mercury-plot: scripts | p | `Mercury.Cmd.script_partial`, `Mercury.Cmd.lines_spec`, `Mercury.Cmd.script_pending_false` | false in general: a sourced file that ends within a block or a continued line takes the commands after it |
| C183 | mercury-plot: errors in files | p | `Mercury.Cmd.files_partial`, `Mercury.Cmd.files_die_false` | false in general: a command that dies ends its own file only and the exit status is that of success |
| C184 | mercury-plot: import-data | p | `Mercury.Import.split_join`, `Mercury.Import.import_partial`, `Mercury.Import.import_create_false`, `Mercury.Import.import_big_false`, `Mercury.Import.import_indent_false`, `Mercury.Import.import_negative` | false in general: the old table is dropped before the new one is known to be accepted, long numbers get the type bigint, indented lines are refused |
| C185 | mercury-plot: database keys | p | `Mercury.Dsn.choose_partial`, `Mercury.Dsn.choose_password_false`, `Mercury.Dsn.choose_user_false` | false in general: a line with a password, as documented, makes the program die, and user and password of the command line are lost; keys are words without expression characters |
| C186 | mercury-plot: waiting for gnuplot | p | `Mercury.Sync.sync_partial`, `Mercury.Sync.sync_ends`, `Mercury.Sync.sync_other_false` | false with two programs of one user, which share the file |
| C187 | Plot::Mercury: experiments | p | `Mercury.Exp.create_partial`, `Mercury.Exp.create_distinct`, `Mercury.Exp.create_twice_false`, `Mercury.Exp.create_fail_false`, `Mercury.Exp.good_iff`, `Mercury.Exp.find_spec` | false in general: two experiments with one name in a second, and creations whose table fails, leave rows without tables |
| C188 | Plot::Mercury: reconnecting | p | `Mercury.Conn.reconnect_partial`, `Mercury.Conn.reconnect_gone_false`, `Mercury.Conn.reconnect_empty_false` | false in general: a connection closed by the server (gone away) is not made again, and an empty table counts as an error |
| C189 | Plot::Mercury: reload_use | p | `Mercury.Conn.reload_partial`, `Mercury.Conn.reload_during_false`, `Mercury.Conn.reload_second_false` | false in general: edits while the file is loaded, or in the same second, are missed |
| C190 | HashTable: chain statistics and raw data | P | `Hash.chain_stats`, `Hash.raw_data` | Both over all histories that fit in the table (C02). |
| C191 | stringToDouble accepts numbers and nothing else | p | `Str.Dbl.toDouble_partial`, `Str.Dbl.toDouble_nul`, `Str.Dbl.toDouble_junk_false`, `Str.Dbl.toDouble_zero_false` | False with NUL characters in the string: what follows the first one is ignored, and a string that starts with one is zero. Exact for strings without. The rounding of the number to a double is strtod's and is not modelled. |
| C192 | Blanks, case and wide strings | p | `Str.Case.blank_partial`, `Str.Case.case_partial`, `Str.Case.case_equal`, `Str.Case.case_utf8_false`, `Str.Case.wide_partial`, `Str.Case.narrow_default` | Proved for ASCII strings. On other bytes the cctype functions are called with negative arguments, which is undefined. Wide strings come back if the facet of the locale gives the single characters back. |
| C193 | deptool publish pushes only what was tested | p | `DepVC.publish_partial`, `DepVC.publish_done`, `DepVC.publish_refused`, `DepVC.publish_edit_false`, `DepVC.publish_untested_false`, `DepVC.publish_broken` | Proved if nobody edits files meanwhile and tests are on. False of the code otherwise: edits made during the run are pushed untested, and --no-tests pushes to the ordinary repository. |
| C194 | deptool commit asks about unknown files | p | `DepVC.Unknown.unknown_partial`, `DepVC.Unknown.unknown_once`, `DepVC.Unknown.ask_words`, `DepVC.Unknown.unknown_false`, `DepVC.Unknown.unknown_eof_false` | Proved for the names put together. False for the sets of names, which are joined without a separator; at the end of the input it asks for ever. |
| C195 | deptool: marks of reviewed revisions | p | `DepVC.Marks.marks_partial`, `DepVC.Marks.reviewed_comment`, `DepVC.Marks.marks_noemail_false`, `DepVC.Marks.marks_zero_false`, `DepVC.Marks.marks_name_false` | Proved if there is an address. False without one, for the comment 0, and for file names that begin with reviewed. |
| C196 | deptool: what a revision says is what git printed | p | `DepVC.Revision.revision_partial`, `DepVC.Revision.revision_lines_false`, `DepVC.Revision.revision_signed_false`, `DepVC.Revision.revision_merge_false`, `DepVC.Revision.revision_refused` | Proved but for line breaks of the message. False for signed commits and for merges. |
| C197 | deptool review-status lists the revisions that were asked for | p | `DepVC.Select.select_partial`, `DepVC.Select.printed_unreviewed`, `DepVC.Select.parseSel_ok`, `DepVC.Select.parseSels_strict`, `DepVC.Select.select_max_false`, `DepVC.Select.select_branch_false` | Proved with the last day left out. False of the code: max-date includes the day in the documentation; branch= is ignored. |
| C198 | deptool code-review goes through all files in order | p | `DepVC.Walk.walk_partial`, `DepVC.Walk.walk_auto`, `DepVC.Walk.walk_twice_false` | Proved for ordering files in which no file comes twice. False otherwise. |
| C199 | deptool code-review shows what the chosen revisions changed | p | `DepVC.Sequence.review_partial`, `DepVC.Sequence.getChanged_spec`, `DepVC.Sequence.review_dates_false`, `DepVC.Sequence.review_skip_false`, `DepVC.Sequence.review_removed_false` | Proved for revisions of different seconds, directories that are new or of the same review, and without removed files; false otherwise. |
| C200 | deptool code-review: order of the files | p | `DepVC.Sequence.order_partial`, `DepVC.Sequence.order_groups`, `DepVC.Sequence.order_all`, `DepVC.Sequence.order_between_false`, `DepVC.Sequence.order_tests_false` | False in general: other files may come between header and source, and tests at the top are not recognised. |
| C201 | deptool tar-init loses no project | p | `DepVC.Tar.tar_keeps`, `DepVC.Tar.tar_done`, `DepVC.Tar.tar_name`, `DepVC.Tar.release_lost`, `DepVC.Tar.tar_hyphen_false`, `DepVC.Tar.tar_download_false`, `DepVC.Tar.tar_release_false`, `DepVC.Tar.tar_asks`, `DepVC.Tar.tar_failed` | Proved for names without hyphens before the version and no directory with the name of the release; false otherwise. |
| C202 | deptool test: the numbers of the tests | p | `DepVC.Ctest.list_partial`, `DepVC.Ctest.list_count`, `DepVC.Ctest.list_blank_false`, `DepVC.Ctest.list_numbers_false` | Proved for build directories without blanks; false with blanks, and for outputs with numbers that skip. |
| C203 | deptool test: the verdict on a test is that of ctest | p | `DepVC.Ctest.sections_partial`, `DepVC.Ctest.verdict_partial`, `DepVC.Ctest.sections_false` | Proved for tests that print no markers; false otherwise. |
| C204 | Assertions that fail in several threads | p | `Assert.Threads.threads_orderly`, `Assert.Threads.threads_goes_on`, `Assert.Threads.threads_end`, `Assert.Threads.threads_throw_false`, `Assert.Threads.threads_skip_false`, `Assert.Threads.threads_both_false` | Order, once at most, and going on only by an own hook that throws, for all schedules with accesses to the flag one after the other. False: two threads with hooks that throw end the program, hooks before the message may be skipped while those after it are called, and two threads may be in hooks at once. |
| C205 | deptool cdsrc, cdopt and cddebug go between parallel directories | p | `DepVC.Cd.cd_partial`, `DepVC.Cd.cd_type_false`, `DepVC.Cd.cd_share_false`, `DepVC.Cd.cd_nested_false` | Proved for all sequences of commands, for types of word characters, project names that do not end like one with a type, and trees outside of each other. False otherwise: a type with a hyphen does not lead back, names that differ in punctuation share their type, and builds below the projects are taken for sources. |
| C206 | deptool pull and sync with monotone: at the head, or pinned | p | `DepVC.Pin.pull_partial`, `DepVC.Pin.setPin_false`, `DepVC.Pin.short_pin_false` | Proved for the loops over all answers; that pin makes a pin is false of the code, as is that a shortened revision holds; monotone itself is not modelled. |
| C207 | deptool cmake: the build that the directory is for | p | `Deptool.CMake.cmake_partial`, `Deptool.CMake.clean_partial`, `Deptool.CMake.cmake_prefix_false`, `Deptool.CMake.cmake_clean_false`, `Deptool.CMake.clean_source_false` | Proved where the names of the trees are apart and no directory has the name of a file; otherwise false of the code, with witnesses. |
| C208 | Double: comparing with a tolerance | p | `Dbl.compare_partial`, `Dbl.nan_unordered`, `Dbl.eq_relative`, `Dbl.eq_zero_iff`, `Dbl.eq_larger_false`, `Dbl.eq_inf_false`, `Dbl.less_weak_false`, `Dbl.setEpsilonBits_exact`, `Dbl.setEpsilonDigits_close`, `Dbl.setEpsilon_zero_false` | False of the code: the tolerance is relative to the smaller value, not the larger as said; an infinity is not equal to itself; lt is no strict weak order; more than 1074 bits set the tolerance to 0. eq_relative is for tolerances of the normal range up to 1. |
| C209 | Clock::perThread: one clock for each thread | p | `Clock.PerThread.perThread_partial`, `Clock.PerThread.perThread_early_false`, `Clock.PerThread.perThread_nokey_false`, `Clock.PerThread.perThread_race_false` | Proved after initialisation. False of the code before it: key 0 may be somebody else's. The making of keys and setting of values is taken to succeed; clocks of threads that ended are never freed. |
| C210 | Matrix keeps its numbers | p | `Matrix.Store.store_partial`, `Matrix.Store.bounds_checked`, `Matrix.Store.freed_partial`, `Matrix.Store.resize_leak_false`, `Matrix.Store.copy_false`, `Matrix.Store.overflow_false`, `Matrix.Store.alias_false` | False of the code: resize leaks, copies share and free twice, the size is computed in 32 bits; without the checks a column too large is the next row. |
| C211 | SSP::Lintel::Stats: statistics in perl | p | `Stats.Perl.stats_partial`, `Stats.Perl.same_as_cpp`, `Stats.Perl.stddev_dies_false`, `Stats.Perl.range_false` | False of the code: stddev dies for three times 0.1; values outside of +-1e100 are missed by min or max. |
| C212 | The lists that statistics print can be read, and say what the statistic says | p | `Rome.rome_partial`, `Rome.rome_rw`, `Rome.rome_null_false`, `Rome.rome_nan_false`, `Rome.sequence_printed_partial`, `Rome.sequence_mean_false` | Proved by reading the text back, for all classes and nestings. False of the code: a StatsRW with a NULL part, which the constructor allows, cannot be printed; the mean of an empty bin is printed as NaN; the last mean of a sequence divides by the number of points of a full group. How a stream prints numbers is a parameter (any words). |
| C213 | A StatsQuantile prints the quantiles asked for, and all of them | p | `Quantile.rome_rows_partial`, `Quantile.ranges_text_partial`, `Quantile.tail_text_partial`, `Quantile.print_overfull_false`, `Quantile.print_ranges_false` | Proved for up to 3000 ranges, with IEEE rounding. More ranges are not covered. Printing stops the process if more values were added than Nbound or the number of ranges is negative. |
| C214 | Logged messages reach every appender whole, once and in one order | p | `Log.Out.log_one_by_one`, `Log.Out.console_in_order`, `Log.Out.calls_return`, `Log.Out.nested_log_false`, `Log.Out.time_printed_partial`, `Log.Out.time_printed_false` | All but two parts are proved. False of the code: an appender that logs stops everything for ever, and times with less than six digits of microseconds are printed wrong. |
| C215 | Calibrating the clock rate stands up to bad measurements | p | `Clock.Cal.calibrate_robust`, `Clock.Cal.calibrate_abort`, `Clock.Cal.calibrate_steady`, `Clock.Cal.measure_close`, `Clock.Cal.measure_wrap_false`, `Clock.Cal.calibrate_ends_false`, `Clock.Cal.maxMeasure_robust`, `Clock.Cal.quanta_robust`, `Clock.Cal.latency_robust`, `Clock.Cal.first_defined`, `Clock.Cal.cyclesPerQuanta_partial`, `Clock.Cal.cyclesPerQuanta_robust_false` | Exact arithmetic instead of doubles; readings are inputs. Three parts are false and proved so. |
| C216 | Frequency scaling is excluded only if every processor excludes it | p | `Clock.Scaling.scaling_excluded_iff`, `Clock.Scaling.scaling_answers`, `Clock.Scaling.no_scaling_allowed`, `Clock.Scaling.scaling_warned`, `Clock.Scaling.scaling_stops_false` | Contents of the directory are an input. That the check always answers is false and proved so. |
| C217 | Locks that belong to a block are given back on every way out | p | `Scope.scoped_balanced`, `Scope.scoped_excludes`, `Scope.scoped_counts`, `Scope.scoped_goes_on`, `Scope.scoped_recursion_false`, `Scope.scoped_opposite_false`, `Scope.log_throw_false` | Full for code that locks by blocks. False of LintelLog::log: an exception from an appender leaves its mutex locked for ever (log_throw_false). The mutex of the C library is modelled by its specification; memory order and ordering groups (C50) are not. |
| C218 | printTabular prints a table that says what the statistic or histogram is | p | `Tab.tabular_partial`, `Tab.tabular_rw`, `Tab.tabular_counts`, `Tab.random_input`, `Tab.tabular_low_false`, `Tab.tabular_empty_false`, `Tab.tabular_series_false`, `Tab.tabular_depth_false` | Full for what is printed except the heading (tabular_low_false), empty histograms (tabular_empty_false), series (tabular_series_false) and the depth (tabular_depth_false). tabular_counts uses exact arithmetic for the bins, as C32. How a number is printed is a parameter; failing streams are not modelled. |
| C219 | another_new gives an object like this one, but fresh | p | `Another.another_uniform_partial`, `Another.another_accum_partial`, `Another.another_log_partial`, `Another.another_logaccum_partial`, `Another.another_series_partial`, `Another.another_class`, `Another.another_grown_false`, `Another.another_plain_false` | In exact arithmetic, with the preconditions of C32, C105 and C107 on the values; false for grown histograms with an odd number of bins (another_grown_false) and for classes without their own another_new (another_plain_false). Of the logarithmic histograms only the count of the inherited statistic is modelled. That the object is not changed holds because the model takes it as a value (const in the code). |
| C220 | deptool mtnserve --push-to: every change that the server got is tested | p | `Serve.serve_nothing_lost`, `Serve.serve_order`, `Serve.serve_progress`, `Serve.serve_retries`, `Serve.serve_lives_partial`, `Serve.serve_missing_false`, `Serve.serve_interrupt_false`, `Serve.serve_heads_false` | Nothing lost, order, progress and the limit on repetitions hold for all schedules. That the process does not die is false (three witnesses) and proved for calm schedules (serve_lives_partial). A signal is delivered at once and interrupts flock; copies of a database in use are taken to be whole; what the tests do is an answer. The html log (lines 2419-2440) is not modelled. |
| C221 | deptool: the top of a source tree | p | `DepVC.Root.root_nearest_partial`, `DepVC.Root.root_none_partial`, `DepVC.Root.root_build`, `DepVC.Root.root_hang_false`, `DepVC.Root.root_slash_false` | Proved for absolute paths without empty names (what getcwd gives); false with a slash at the end of $PROJECTS. File names contain no newline; directories no characters special in regular expressions (as in the model of srcDir). |
| C222 | deptool review-status: the log of a monotone repository | p | `DepVC.MtnLog.mtnlog_parse_partial`, `DepVC.MtnLog.mtnlog_whole`, `DepVC.MtnLog.mtnlog_dashes_false`, `DepVC.MtnLog.mtnlog_forged_false`, `DepVC.MtnLog.mtnlog_dies_false` | All revisions and fields, for all changelogs in which no line like `Revision: ...` follows one of dashes; the changelog up to the first line of fifty dashes. The rest is false (three witnesses). The format of the log is that of monotone from 0.45 on (and of the comments in the code); running mtn is not modelled. |
| C223 | deptool code-review: what monotone says about one revision | p | `DepVC.MtnLog.mtninfo_partial`, `DepVC.MtnLog.mtninfo_first_false`, `DepVC.MtnLog.mtninfo_empty_false`, `DepVC.MtnLog.mtninfo_three_false` | For revisions whose values have at least two characters and whose keys come at most twice; otherwise it dies (all revisions with an empty parent; a witness with three branches). |
| C224 | deptool review-status: the reviews of a revision in monotone | p | `DepVC.MtnLog.mtnreviews_partial`, `DepVC.MtnLog.mtnreviews_empty_false`, `DepVC.MtnLog.mtnreviews_signature_false` | For all certificates if reviews have a key and a comment (deptool itself asks for a comment until there is one). False without a comment; reviews with a bad signature count. |
| C225 | lintel::hash of integers, pointers, strings and pairs | p | `HashFn.hash_small_value`, `HashFn.hash_small_injective`, `HashFn.hash_same_number_partial`, `HashFn.hash_same_number_false`, `HashFn.hash_long_injective_false`, `HashFn.hash_long_value`, `HashFn.hash_key_value`, `HashFn.hash_alike`, `HashFn.hash_key_ub`, `HashFn.hash_key_injective_false` | Which overload the compiler takes is not modelled. False for eight bytes (107310 and 140082 collide), for negative numbers across types, and for strings (ejvg and ebac). |
| C226 | deptool getenv: settings last | p | `Deptool.GetEnv.getenv_eval_partial`, `Deptool.GetEnv.getenv_stable_partial`, `Deptool.GetEnv.getenv_unset`, `Deptool.GetEnv.getenv_given`, `Deptool.GetEnv.getenv_trees`, `Deptool.GetEnv.getenv_defaults`, `Deptool.GetEnv.getenv_jobs`, `Deptool.GetEnv.getenv_quote_false` | For values that double quotes keep as they are; the C shell's reading of its text is not modelled. False for values with quotes. |
| C227 | ConstantString: hash, comparison with C strings and printing | p | `CStr.cstring_ops_partial`, `CStr.cstring_ops_false`, `CStr.cstring_hash_value`, `CStr.cstring_hash_partial`, `CStr.cstring_hash_false` | For texts without zero bytes and a pool in one range of 4 GiB; false otherwise. Pointers of eight bytes. |
| C228 | deptool init for git: repositories never push or fetch by force | p | `DepVC.GitRepo.gitinit_keeps`, `DepVC.GitRepo.gitinit_safe_partial`, `DepVC.GitRepo.gitinit_works`, `DepVC.GitRepo.gitinit_stopped_false`, `DepVC.GitRepo.gitinit_hosts_false` | Safety holds if the run ends well; false after a failure between clone and repair. What git does with each command is part of the model. |
| C229 | deptool init: the user's git configuration | p | `DepVC.GitConfig.config_done`, `DepVC.GitConfig.config_unfinished`, `DepVC.GitConfig.config_mark_partial`, `DepVC.GitConfig.config_same`, `DepVC.GitConfig.config_once_partial`, `DepVC.GitConfig.config_answers_partial`, `DepVC.GitConfig.config_key_false`, `DepVC.GitConfig.config_eof_false`, `DepVC.GitConfig.config_excludes_false` | Reading is proved for plain configurations (keys of word characters and dots, values of one line); false otherwise. |
| C230 | StatsQuantile: both searches for an index find the same value | p | `Quantile.index_searches_agree_partial`, `Quantile.atIndex_unique`, `Quantile.index_unsorted_false`, `Quantile.index_new_false` | Proved after getQuantile; false for the merge before. |
| C231 | StatsQuantile: the cache of sizes changes nothing | p | `Quantile.cache_transparent_partial`, `Quantile.cache_small`, `Quantile.cache_hits`, `Quantile.cache_negative_false` | Proved for errors that are not negative; false for negative ones. |
| C232 | deptool checkout selects the branch that was meant | p | `DepVC.Checkout.select_iff_partial`, `DepVC.Checkout.select_type`, `DepVC.Checkout.git_listing`, `DepVC.Checkout.select_dot_false`, `DepVC.Checkout.select_nomaster_false`, `DepVC.Checkout.listing_detached_false`, `DepVC.Checkout.mtn_listing` | The exact selection is proved for arguments and branch names without dots; with dots it is false. Other characters that are special in a regular expression are not modelled. |
| C233 | deptool checkout checks out what is needed and touches nothing else | p | `DepVC.Checkout.checkout_keeps`, `DepVC.Checkout.checkout_all_partial`, `DepVC.Checkout.checkout_new`, `DepVC.Checkout.checkout_ends`, `DepVC.Checkout.checkout_works`, `DepVC.Checkout.checkout_samename_false`, `DepVC.Checkout.checkout_interrupted_false`, `DepVC.Checkout.checkout_branch_false`, `DepVC.Checkout.path_git`, `DepVC.Checkout.path_mtn`, `DepVC.Checkout.choose_sub`, `DepVC.Checkout.checkout_unknown` | That the directory which is there holds the branch that was meant is proved for the new ones only; for those that existed it is false. The commands of git and monotone are modelled by what they leave behind. |
| C234 | Mersenne Twister: different seeds give different sequences, without a lead-in | p | `Rng.seeds_differ`, `Rng.seed_periodic`, `Rng.array_periodic`, `Rng.arrays_differ_partial`, `Rng.ctor_seeded`, `Rng.ctor_zero_partial`, `Rng.arrays_length_false`, `Rng.arrays_full_false`, `Rng.ctor_zero_false` | For arrays of seeds proved for equal lengths up to 622, false in general; open for 623 and for more than 624. The length of the period is not proved. |
| C235 | Marsaglia generators: what results give away and when they repeat | p | `Rng.micro_two_results`, `Rng.micro_periodic`, `Rng.micro_zeros`, `Rng.mars_back_partial`, `Rng.mars_merge_false` | For the multiply-with-carry generators proved for carries below A; false for the carry A, which the code can reach. That seeding never gives the state of zeros, and exact periods, are not proved. |
| C236 | Histograms: the access functions tell what was counted | p | `Histo.access_uniform_partial`, `Histo.access_accum_partial`, `Histo.access_end_false`, `Histo.access_grows_false`, `LogHisto.access_log_partial`, `LogHisto.access_width_false` | Exact arithmetic, with the preconditions of C32, C34 and C105. False: the index that is the number of bins is read behind the array; binWidth() of a logarithmic histogram is too large by low(); numGrows() is always 0. |
| C237 | deptool pull: what is pulled and merged | p | `DepVC.Pull.pull_fair`, `DepVC.Pull.pull_all`, `DepVC.Pull.pull_dies`, `DepVC.Pull.pull_ends`, `DepVC.Pull.branches_read`, `DepVC.Pull.merges_partial`, `DepVC.Pull.pull_first_false`, `DepVC.Pull.pull_new_false`, `DepVC.Pull.detached_false`, `DepVC.Pull.named_false` | Nobody edits meanwhile and no project is missing. False: changes in one project may be found after others were pulled; dependencies that a pull brings are not pulled (a known bug); with a detached head, a second working tree or a local branch named like a remote one the program dies. |
| C238 | MarsagliaRNGMicro: after how many results it repeats | p | `Rng.micro_period`, `Rng.micro_period_all`, `Rng.micro_xorshift_false` | The exact periods of all states are proved: 2^22-1, 2^42-1 or (2^22-1)(2^42-1)/3. False: that the period is 2^128-1; because of `x=w` after `x=y; y=z` only two of the four words take part. |
| C239 | MarsagliaRNG: the constants have the property they were chosen for | p | `Rng.consts_full_partial`, `Rng.consts_full_false`, `Rng.short_orders_false`, `Rng.consts_sizes` | Proved for 16, 128, 1024 and 2048 words. False for 8, 32, 64 (the prime is one, but the order of b is at most a third, a seventeenth and a third of the documented period), 256 and 512 words (the number is not prime). Missing: 4096 words. The condition is about the documented recurrence; the code departs from it when A*x+c is a nonzero multiple of b (C74, C235). |
| C240 | deptool: the output of a command is read completely | p | `DepVC.CmdOut.output_whole`, `DepVC.CmdOut.output_ends_partial`, `DepVC.CmdOut.output_ends_false`, `DepVC.CmdOut.output_ends_iff`, `DepVC.CmdOut.output_result` | Proved: what is returned is complete and in order, and the helper ends under every fair schedule if the error output fits into a pipe. False otherwise: the command waits for the helper and the helper for the command for ever, under every schedule (the comment in the code knows). Failures of open3 and close and commands that leave processes behind are not modelled. |
| C241 | deptool: the name of the current directory leads back to it | p | `DepVC.Alias.cwd_leads_partial`, `DepVC.Alias.comes_back_partial`, `DepVC.Alias.first_name`, `DepVC.Alias.start_name`, `DepVC.Alias.start_elsewhere_false`, `DepVC.Alias.relative_false`, `DepVC.Alias.moved_link_false` | Proved if the names given to aliasChdir are absolute and the links do not change. False otherwise: a relative name is remembered as it is and leads elsewhere; a stale PWD makes the program work in another directory than it was started in; a moved link leads elsewhere. |
| C242 | deptool: the remotes of a repository are carried over | p | `DepVC.Remotes.remotes_read_partial`, `DepVC.Remotes.checkout_origin_partial`, `DepVC.Remotes.fetch_same_partial`, `DepVC.Remotes.no_origin`, `DepVC.Remotes.remotes_sound`, `DepVC.Remotes.several_pushes_false`, `DepVC.Remotes.blank_false`, `DepVC.Remotes.filter_false` | Proved for names and addresses without white space and one address to push to. False: of several addresses to push to only the last is kept; an address with a blank, which git accepts, is not understood; the filter that newer versions of git print for partial copies makes one of the two functions die. |
| C243 | mercury-plot axplusb: the best cut is found | p | `Mercury.Split.best_cut_partial`, `Mercury.Split.found_iff`, `Mercury.Split.dies_iff`, `Mercury.Split.large_false`, `Mercury.Split.few_points_false` | Proved for five points and more, and a cut is found exactly if one has a sum below 100. False: sums of 100 and more are never reported, whatever the scale of the data; with three or four points the cut that leaves both parts without a line counts as perfect and is reported instead of the line. Numbers are rationals, the fit is a parameter. |
| C244 | mercury-plot: psplot and pngplot | p | `Mercury.Png.psplot_draws`, `Mercury.Png.psplot_refuses`, `Mercury.Png.mode_false`, `Mercury.Png.args_read_partial`, `Mercury.Png.args_false`, `Mercury.Png.png_works_iff`, `Mercury.Png.png_leaves`, `Mercury.Png.scaled_false`, `Mercury.Png.silent_false`, `Mercury.Png.leftover_false` | False: modes that begin with eps, contain portrait or end with landscape are accepted (the pattern anchors only its outer alternatives); a filename that is a number behind a number is taken for a size; the size of the scaled picture is never checked (the check looks at the other file); only one kind of failure stops a script; failures leave files behind. Getopt and the programs that are run are given by their results. |
| C245 | freopen64 replaces the file of a stream | p | `Posix.Reopen.reopen_iff`, `Posix.Reopen.reopen_leads`, `Posix.Reopen.refused_keeps`, `Posix.Reopen.waiting_written_partial`, `Posix.Reopen.emptied_partial`, `Posix.Reopen.one_descriptor`, `Posix.Reopen.reopens_limited`, `Posix.Reopen.descriptor_lost_false`, `Posix.Reopen.own_file_false`, `Posix.Reopen.wrong_file_false`, `Posix.Reopen.mode_kept_false`, `Posix.Reopen.failed_false` | Holds for the result, the descriptor and files that cannot be opened. False: every call that opens the file loses a descriptor (so that a stream can be reopened only as often as there were free ones, reopens_limited); a stream reopened for writing on its own file leaves zeros and what waited; bytes that could not be written go to the new file; the direction of the stream stays; a failing fdopen or dup2 leaves the file emptied and the descriptor open. Modelled for one stream; what a reading stream read ahead is dropped. |
| C246 | deptool test: the status of one test | p | `DepVC.TestStatus.status_iff`, `DepVC.TestStatus.old_iff`, `DepVC.TestStatus.new_iff`, `DepVC.TestStatus.failed_false`, `DepVC.TestStatus.touching_false`, `DepVC.TestStatus.joined_false`, `DepVC.TestStatus.text_false` | The files that are read, and what is read from them, are characterised exactly. False: ctest 2.8 writes the status of a failing test as ***Failed without white space before it, which no pattern accepts (the program dies for every such line); a long name that touches its status in the old format dies or gives a wrong name; texts of the old format lack their newline. Simplified: lines are given without newlines. |
| C247 | deptool commit: unknown files and uncommitted changes of a git directory | p | `DepVC.GitStatus.unknown_partial`, `DepVC.GitStatus.unknown_all`, `DepVC.GitStatus.uncommitted_iff`, `DepVC.GitStatus.unknown_false` | What is reported is characterised exactly (unknown_all). False when a file whose name begins with two question marks and a space is renamed: its old name is a record of its own and is taken for an unknown file. The format of git is the specification; git itself is not modelled. |
| C248 | deptool.config: what readConfig accepts | p | `DepVC.Config.config_iff`, `DepVC.Config.valid_accepted`, `DepVC.Config.warned_iff`, `DepVC.Config.dep_type_false`, `DepVC.Config.dep_ref_false`, `DepVC.Config.untested_false`, `DepVC.Config.newline_false` | Every documented configuration is accepted, and what else is accepted is characterised exactly (config_iff). False in the other direction: the pattern for dependencies demands nothing after the separator (a wrong type becomes part of the project's name), references are accepted as dependencies, untested_repository is not checked, and strings may end with a newline. Not modelled: evaluating the file. |
| C249 | mercury-plot barplot: the styles of stacked bars | p | `Mercury.Colors.colors_iff`, `Mercury.Colors.colors_named`, `Mercury.Colors.series_cyclic`, `Mercury.Colors.refused_false`, `Mercury.Colors.empty_false` | What is accepted is characterised exactly for every option text. False: commas at the end are ignored, so commas alone are accepted and give no style; a density above 1 is accepted; a query without rows still plots one series. Digits are those of ASCII; gnuplot is not modelled. |
| C250 | lintel-config: features and paths | p | `Misc.LintelConfig.has_feature`, `Misc.LintelConfig.features_listed`, `Misc.LintelConfig.paths`, `Misc.LintelConfig.others_refused`, `Misc.LintelConfig.help_false` | Proved for names without blanks and semicolons and values without characters special to the shell. False: --help exits with 1, as a wrong option does. |
| C251 | lintel-disktool list: what is reported | p | `Disktool.list_dies`, `Disktool.list_sorts`, `Disktool.list_ids`, `Disktool.list_lost`, `Disktool.list_unknown`, `Disktool.list_info`, `Disktool.list_present_false`, `Disktool.list_unknown_false` | Proved if the empty text is not listed and no drive calls itself 0 (as in C170). False: a drive that is present but matches no pattern is reported as not present; a reserved drive with an unknown serial number is not reported. |
| C252 | mercury-plot select: the output can be read back | p | `Mercury.Output.csv_partial`, `Mercury.Output.html_partial`, `Mercury.Output.text_rows`, `Mercury.Output.csv_false`, `Mercury.Output.html_false`, `Mercury.Output.null_false` | Proved for values without commas and newlines (csv) and without < (html). False otherwise: neither format quotes or escapes, so that different results have the same output (for html a value can end its cell), and NULL looks like the empty text. The reader of html does not decode entities. Left out: the pager and the module that draws the table. |
| C253 | deptool with monotone: what is exchanged with the server | p | `DepVC.MtnOp.mtn_commands`, `DepVC.MtnOp.sync_family`, `DepVC.MtnOp.family_unique`, `DepVC.MtnOp.server_ssh`, `DepVC.MtnOp.version_dates`, `DepVC.MtnOp.family_false`, `DepVC.MtnOp.version_false` | Proved: the two commands, exactly when they are run, and that the family is unique and matches the branch. False: the pattern also matches projects whose names begin alike (no slash before the star), and version 0.28 does not get the commands meant for it, since the number behind the dot is compared with 0.28 instead of 28. Left out: what monotone does, database names that end in a slash (basename removes it), the check that _MTN exists; the choice of the server is another claim. |
| C254 | batch-parallel: exactly the files that need work | p | `Batch.Find.found_exact`, `Batch.Find.found_order`, `Batch.Find.found_once_partial`, `Batch.Find.abs_same_partial`, `Batch.Find.found_once_false`, `Batch.Find.abs_root_false` | Proved: exactly the wanted ones and the number of sources, the order, each once if the directories have no file in common, and the meaning of the absolute names. False: for a directory and one below it the same file is built twice into the same result (possibly at the same time), and a file right below the root is looked for below the working directory. Left out: symbolic links, `..`, names with newlines, names that do not exist. |
| C255 | batch-parallel tar: archives are whole and up to date | p | `Batch.TarRun.archive_whole`, `Batch.TarRun.failure_keeps`, `Batch.TarRun.start_iff`, `Batch.TarRun.rebuild_current`, `Batch.TarRun.honest_current`, `Batch.TarRun.honest_keeps_partial`, `Batch.TarRun.same_second_false`, `Batch.TarRun.while_running_false`, `Batch.TarRun.removed_false` | Proved: whole for all histories, failures, exactly when a run is started, up to date after a quiet run, and up to date when left alone if the sources change only while tar is not running and not in the second in which the archive was written. False otherwise: such changes are never noticed, and removed files stay in the archive. Left out: the list of files in /tmp, leading directories, several archives at the same time. |
| C256 | deptool with monotone: the reviews of a revision | p | `DepVC.Reviews.reviews_read_partial`, `DepVC.Reviews.lines_lost_false`, `DepVC.Reviews.signature_false` | Proved: exactly the certificates named review, in order, with the first line of the value; it dies exactly if one has nobody or an empty first line. False: further lines of a review are lost, and the state of the signature is not looked at. Assumed: the format in which monotone prints certificates. |
| C257 | mercury-plot select: the options do not change the query | p | `Mercury.Select.select_args_partial`, `Mercury.Select.unknown_refused`, `Mercury.Select.separate_value_false`, `Mercury.Select.filename_false`, `Mercury.Select.dashes_false` | Proved for options of the documented form --name=value whose values have no spaces, for queries that do not begin with --. False: a value given as an argument of its own (the format is -- then), names of files with spaces, and -- at the end of the options, which becomes part of the query and begins a comment there. Getopt::Long is modelled for these two options. Left out: the fallback to csv without Data::ShowTable, and the default table and condition, which are another claim. |
| C258 | batch-parallel: only old working directories are cleaned away | p | `Batch.Workdir.cleanup_exact_partial`, `Batch.Workdir.others_kept`, `Batch.Workdir.noexec_keeps`, `Batch.Workdir.own_never_removed_false`, `Batch.Workdir.new_removed_false`, `Batch.Workdir.half_removed_false` | That others stay is proved for all directories; that exactly the old ones go is proved if there are no directories in them. False: that the directories the program itself makes are ever removed, since their names end in the rest of the second, which the pattern does not allow (documented: cleaned out after 1 week). Also false for directories whose names do match: one just made, with no list of jobs in it yet, is removed at once; a directory inside an old one stops the cleaning half way, with the run. The pattern for lists and logs is grouped otherwise than it looks, so joblist-x and catalog.1 count too, which only keeps more. Left out: files that go away while they are looked at, names with a newline, and times less than a week after 1970. |
| C259 | deptool: a missing dependency is checked out, or the walk ends | P | `DepVC.TryCheckout.returns_iff`, `DepVC.TryCheckout.branch_wanted`, `DepVC.TryCheckout.wanted_unique`, `DepVC.TryCheckout.other_failure`, `DepVC.TryCheckout.init_failure`, `DepVC.TryCheckout.slashless_false`, `DepVC.TryCheckout.blanks_false` | What checkout and init do is arbitrary. Worth knowing: branches without a slash propose nothing, and blanks around an answer become part of the name of the branch. Left out: what is printed, and a list of branches that cannot be had (an empty list). |
| C260 | fix-install: only the blanks in the names of manual pages go | p | `Dist.ManName.page_fixed_partial`, `Dist.ManName.others_kept`, `Dist.ManName.line_lost_false`, `Dist.ManName.description_false`, `Dist.ManName.next_page_false` | Proved for pages with a name and a description without the sign between them in it; that only lines after a heading change is proved for all. False: a line without the sign is replaced by an empty one; a description with the sign in it loses blanks; and a heading at the end of one page changes the first line of the next. Left out: last lines without a newline, and the rest of the script. |
| C261 | batch-parallel: what is submitted to the batch systems | p | `Batch.Submit.lsf_words_partial`, `Batch.Submit.codine_words_partial`, `Batch.Submit.runs_iff`, `Batch.Submit.codine_width_false`, `Batch.Submit.blank_false` | Proved for names without characters that mean something to the shell, and needs without a single quote. False: with Codine the width is not given to the batch system at all, so that all tasks may run at once; and a working directory with a blank in it makes other words. Of the shell, blanks and single quotes are modelled. The number and the size of the groups are another claim. |
| C262 | check-changelogs: a release needs changelogs for its version | p | `Dist.Changelogs.check_iff`, `Dist.Changelogs.right_passes`, `Dist.Changelogs.other_version_false`, `Dist.Changelogs.longer_false` | Proved with lines that have a text like the version in them, points standing for any character. False for the version itself: changelogs of other versions, as 102.3 or 1.23 for 1.2, pass too. Of the regular expressions of grep, those made of digits and points are modelled. |
| C263 | Installed programs find the perl modules installed with them | p | `CMakeMod.Inc.setup_places_partial`, `CMakeMod.Inc.installed_first_partial`, `CMakeMod.Inc.still_found`, `CMakeMod.Inc.setup_again`, `CMakeMod.Inc.precedence_false`, `CMakeMod.Inc.blank_false` | Proved for prefixes without blanks; the precedence if the directories are not places already. False: if they are, behind others (as with PERL5LIB), they stay there, so that the modules of other installations come first, against the comment in the file; and a prefix with a blank makes other directories, one of them relative. |
| C264 | The cmake macros for headers and libraries | p | `CMakeMod.Find.with_library_partial`, `CMakeMod.Find.required_library_partial`, `CMakeMod.Find.headers_partial`, `CMakeMod.Find.vanished_false`, `CMakeMod.Find.sticky_false`, `CMakeMod.Find.twice_false`, `CMakeMod.Find.find_enabled_false` | Proved for new build directories; of several names for a library, the first that is anywhere counts more than the place. False: in an old build directory, what has been removed since is still used; a variable required once makes its optional uses end cmake too; a library without its header is twice in the list of what is missing; and LINTEL_FIND_LIBRARY does not set X_ENABLED, as documented, unless it is required. Left out: programs, messages, names that cmake takes for false, and a second call in the same run after nothing was found. |
| C265 | The cmake macros for programs and perl modules | p | `CMakeMod.Prog.with_program`, `CMakeMod.Prog.required_program`, `CMakeMod.Prog.chosen_present`, `CMakeMod.Prog.with_module`, `CMakeMod.Prog.required_module`, `CMakeMod.Prog.required_mark_false`, `CMakeMod.Prog.required_module_mark_false`, `CMakeMod.Prog.module_vanished_false` | Proved for programs. Perl modules are used exactly if not turned off and found, now or in an earlier run. False: that a module removed since is noticed, as programs are; and that what is required gets X_ENABLED, as headers and libraries do. Left out: messages (the extra message of a required program, line 281, is itself a syntax error, which ends cmake as the next line would). |
| C266 | The cmake macro for the libraries of boost | p | `CMakeMod.BoostExtra.boost_optional_partial`, `CMakeMod.BoostExtra.boost_agrees`, `CMakeMod.BoostExtra.boost_header_agrees`, `CMakeMod.BoostExtra.optional_ends_false`, `CMakeMod.BoostExtra.boost_required_partial` | Agreement is proved for all states; what an optional library does, for new build directories. False: that something optional never ends cmake: it does if its header is first found elsewhere than boost's, for instance in the installation. Left out: extra includes of the variable, and FindBoost itself. |
| C267 | The cmake macros for latex and manual pages | p | `CMakeMod.DocsMacros.latex_optional`, `CMakeMod.DocsMacros.latex_required_partial`, `CMakeMod.DocsMacros.latex_required_false`, `CMakeMod.DocsMacros.latex_requires`, `CMakeMod.DocsMacros.page_partial`, `CMakeMod.DocsMacros.page_without`, `CMakeMod.DocsMacros.empty_release_false` | Proved for arguments that are not empty and if LINTEL_LATEX_REBUILD_FIND_REQUIRED is not set. False: that LINTEL_LATEX_REBUILD_REQUIRED requires the program, as documented: it only ends cmake if the program is there and fails to check itself; and that an empty release is the release, since empty arguments are lost. Left out: doxygen, the commands of the targets, sections written like 01. |
| C268 | The paths in the documentation | p | `CMakeMod.PathFix.fix_partial`, `CMakeMod.PathFix.semicolons_false`, `CMakeMod.PathFix.build_false`, `CMakeMod.PathFix.empty_false` | Proved for paths of the source in files without semicolons. False: paths of the build directory stay, since the list of directories is split at its semicolon on the way to the script; all semicolons of a file are lost, also those of &lt; and the like; and an empty file ends cmake. Left out: square brackets and backslashes, between which cmake does not split. |
| C269 | The file Release.info of a release | p | `Dist.ReleaseInfo.release_git`, `Dist.ReleaseInfo.release_tar`, `Dist.ReleaseInfo.date_read`, `Dist.ReleaseInfo.old_project`, `Dist.ReleaseInfo.recognized_false` | The date is read back unless the output of git status has a line like it. False: that a release made by the script is recognized when its tar file is unpacked again: the script writes hours and minutes, the old deptool expects none, so that the project is always moved away. Left out: failing commands, and tar itself. |

## Component by component

For each component: what is modelled, what is not, and where model and documentation (or evident intention)
disagree. Each disagreement marked (w) is proved in Lean with a witness.

### Hash tables (`Verif/Hash`): `HashTable.hpp`, `HashMap.hpp`, `HashUnique.hpp`, `RotatingHashMap.hpp`

Modelled down to the entry-point vector, the slot vector with next links and the free list; hash function, equality and the growth test
(a comparison of doubles in the code) are arbitrary parameters. Histories are lists of calls.
Not modelled: memory statistics, iterators that outlive a change, exceptions.

* `addOrReplace` never overwrites an existing entry (w, C05).
* `add` aborts when the list of primes runs out; theorems carry `Fits`.
* `RotatingHashMap` stores the key used for lookup when it promotes an entry.
* Incremental scans (`Scan*.lean`, C98): steps of one iterator interleaved with batches of calls followed by `partialReset()`. `tabs` is a ghost list of the table states. The comments promise that updates between parts of a scan are safe;
  that holds while the number of chains stays the same. An add that grows the table makes the scan miss entries it would have come to and show others twice (w), `clear()` and `reserve()` can leave the iterator behind the last chain, not equal to `end()` (w);
  `reset()` on a table emptied meanwhile is not `end()` (w); pausing inside a chain can go on for ever, as the comments say (`scan_stuck`). One iterator only; the other iterators a client may hold are not modelled.

### PriorityQueue (`Verif/PQ`)

The array heap with its doubling storage; comparator arbitrary.

* The default size `1024/sizeof(T)` is 0 for elements over 1024 bytes: heap overflow at the first push (w, C63).
* `selfVerify` aborts on ties with the default comparator (w, C62).
* The bottom-up pop needs a comparator that says yes on ties (w, C09).
* `replaceTop(q.top())` can lose an element, `push(q.top())` on a full array reads freed memory (w, C64).

### Deque (`Verif/Deque`)

Ring buffer of cells that are raw or constructed. Iterator arithmetic modulo 2^64.

* `it + n` for negative `n` across the start of the buffer is wrong unless the buffer size divides 2^64 (w, C11).
* `push_back(d[i])` on a full deque reads a destroyed element (w, C58).

### ByteBuffer (`Verif/BB`)

Heap of reference counted representations with arbitrary fresh memory.

* `writeAvailable` is not honoured on a copied buffer (w, C65); self-append without room reads freed memory and self-assignment
  empties (w, C66); `appendFromStream`/`appendEntireStream` into a copied buffer overflow (w, C67).

### Base64, StringUtil, BoyerMooreHorspool (`Verif/Base64`, `Verif/Str`, `Verif/BMH`)

Strings are lists of bytes. `find`, `substr`, `insert`, `compare`, `<cctype>` by their standard meaning ("C" locale).

* `encode` of signed numbers of opposite sign does not keep the order (w, C15); `encodeBackward` reads before its buffer when asked for too many digits (w, C60).
* `split` misses separators beyond 2 GiB (w, C16); `maybehex2raw` decodes printable strings that look like hex (w, C17).
* `toCSVform` does not quote strings with a quote or line break but no comma (w, C19). `stringtoipv4("255.255.255.255")` aborts (w, C20).

### Integers from strings (`Verif/Num`): `StringUtil.hpp:107-140`

`lexical_cast` and stream extraction by their meaning (see the file).

* Unsigned types accept negative numbers and wrap (w, C96). For `int8_t`/`uint8_t` the string is converted as a character: "7" gives 55 (w). In bases 16 and 8
  characters after the number are ignored although the comment says the function asserts (w).

### Interpolation search (`Verif/Interp`)

Any range, any estimator; the default estimator with double rounding and the integer type's overflow.

* Both step counts 0: never ends (w, C22). The default estimator subtracts in the signed type: overflow (w, C77).

### Atomics, spin locks, lock ordering, timed wait (`Verif/Atomic`, `Verif/Spin`, `Verif/LockOrd`, `Verif/Cond`)

Interleavings of single instructions. Not modelled: pauses, ordering of other memory, fairness, what the operating system does while waiting.

* Signed prefix `++`/`+=` at the largest value and `fetch_sub` of the smallest operand are undefined (w, C82).
* `AtomicSpinLock`: 2^31 tries while the lock is held overflow; where the machine wraps, 2^32 tries let a second thread in (w, C49).
* A `ScopedUnlock` of a lock already unlocked makes the group forget its locks; a real deadlock then goes unreported (w, C50).
* `timedWait`: not always the nearest nanosecond (w); durations of 2^63 s or more are undefined (C56).

### ConstantString, StringId (`Verif/CStr`, `Verif/StrId`)

ConstantString down to the bytes of its pool. Not modelled: the counters printed by `dumpInfo`.

* `compare()==0` for "a" and "a\0b" though `!=` (w, C24); `<` is no strict weak order on such texts (w, C85); texts of 8184 bytes or more abort or work depending on history (w, C84);
  strings of 4 GiB are cut (w, C24). `operator!=(const char *)` uses `strcmp`; `nstrings` is counted twice on recursion (not modelled).

### Tuples, StatsCube, HashTupleStats (`Verif/Tuple`, `Verif/Cube`)

Lists of fields of one type (a disjoint union for different types). Statistics are an arbitrary type with `add` and `merge`.

* A zeroCube column set that was emptied adds nothing, contrary to its comment (w, C86). The default `cubeHadAny` drops tuples without wildcard. `BitsetAnyTupleHash` names a member that does not exist
  and `getCubeEntry` compiles for `StatsT = Stats` only (found by reading).

### StatsQuantile (`Verif/Quantile`)

All of add, collapse, merge, getQuantile and the search for buffer sizes; values in any linear order.

* `collapse_pos` has `buffer_size` entries but is indexed by buffer number: `StatsQuantile(0.1, 5000)` overflows the heap (w, C88).
* Merging an empty sketch with lazy allocation (the default) reads `all_buffers[-1]` (w, C89). Merging a sketch into itself corrupts its weights.
* The search for sizes may end at height 40 unchecked; for 2εN above 1.5e9 only twice the error is proved (C90). `getQuantile` subtracts 1e-15.

### Stats, histograms (`Verif/Stats`, `Verif/Histo`)

* In doubles, 0.1 added three times has a mean above its maximum and a negative variance (w, C91).
* `StatsHistogramUniform(2, -3, 1)`: adding the largest double below 1 writes `bins[2]` (w, C92, for any rounding).
* Growable histograms: the 32-bit number of bins wraps for values 2^31 bins up (w, C32); scalable ones with an empty range never end (w, C32).
* `percentile(0)` is 0 when the first bin is empty; the tolerance makes it non-monotone within itself (w, C33). `operator[]` accepts `index == num_bins`.
* `StatsHistogramUniformAccum` with an odd number of bins writes past its array in the constructor (w, C34). `add` ignores `growable`; leaks in `grow` and in `~StatsHistogramLogAccum` (not modelled).
* `Double.hpp`'s comment says the tolerance is relative to the larger number, the code takes the smaller. `setEpsilonBits(1075)` makes the tolerance 0 (w, C41).

### Logarithmic histograms (`Verif/LogHisto`)

Over the real numbers. Counts, percentiles and sums are proved in exact arithmetic (with the real `log` and `exp` of Mathlib); that each value is counted once, that percentiles stay within the array and what the mode is, in any arithmetic whatever (`Ar`: a
rounding and arbitrary `log` and `exp`). Not modelled: a histogram with equal bounds (its `bin_scaling` is infinite), infinities and NaN, the statistic besides its count.

* A histogram that does not scale converts the bin number to 32 bits before it checks it: `StatsHistogramLog(2, 1, 1 + 2^-40)` given 2 is undefined (w, C105).
* `numRescales()` and `isScalable()` of a scalable one are always 0 and false (w, C105). `percentile(0)` is 0 when the first bin is empty (w, C106). `reset` keeps the widened range.

Rounding: `Dbl.lean` assumes of an arithmetic (`Close`) that operations are right to half of the last of 53 bits and do not round below 1 what is at least 1, and that the logarithm is right to the last bit; the theorems bound how far from an edge a value may be miscounted. Exponents are unbounded, and scaling with rounding is not covered.

### Sequences, series, groups, read/write, moving averages, StatsMaker (`Verif/Series`, `Verif/Ema`, `Verif/Maker`)

* `StatsSequence` `MergeMax` starts at 0 (w, C36); `points_per_bucket` overflows after limit·2^30 points (w, C36).
* `StatsSeries`: lags beyond the number of values wrap; `max_lag = 2^32-1` writes past an empty array (w, C37). `iscorrelated95` never reports negative correlation (w, C93).
* `StatsSeriesGroup`: `reset` keeps the totals, an empty interval is a null reference, an interval ≤ 0 (or absorbed in doubles) never ends (w, C38).
* `StatsRW` of three groups aborts after `add(All)` first (w, C57). `StatsEMA::reset` and `merge` abort; in doubles an average can exceed the maximum (w, C94).

### LeastSquares, Matrix (`Verif/Lsq`, `Verif/Matrix`)

* Doubles: seven points with x = 0.1 give slope 16 instead of an abort; x = 2^27, 2^27+1 aborts (w, C39).
* `gaussEliminate(0)` wraps its column counter (w, C40); the absolute tolerance calls small regular systems singular (w, C40). `resize` leaks; implicit copies free twice (not modelled).

### Clock (`Verif/Clock`)

Integers and explicit rounding; calibration results and readings are inputs.

* `secondsToTfrac` is undefined in the last half unit before a whole second; `TfracOffsetDouble(-2^31 s)` negates `INT64_MIN` (w, C43).
* `AUFSO_UseTod` without `calibrateClock()` is undefined; slow modes read 1970 until the counter passes the interval (w, C79).

### Random numbers, hash functions (`Verif/Rng`, `Verif/HashFn`)

Bit vectors. Seeding from the clock is not modelled.

* `randBoolFast` keeps old bits across `init` (w, C48). The fallback `UINT32_MAX` is 0xFFFFFFF (w, C72). MicroRand's shift loses a word (w, C73). The multiply-with-carry step differs from its documentation when A·X+C is
  a positive multiple of 2^32-1 (w, C74). Marsaglia's index is uninitialised (w, C75). `initArray` of an empty array is undefined (w, C71).
* `BobJenkinsHashMix3` merges inputs in every argument position (w, C68); lengths are cut to 32 bits (w, C70).

### LintelLog, word wrap (`Verif/Log`, `Verif/Wrap`)

Not modelled: the log mutex, appenders, message texts, reading the environment, XML parsing.

* Patterns: the first match wins for a new category, the last for an existing one (w, C51). Levels are cut to 8 bits (w, C51, C97). The warning comes at 4/5 of the capacity, the header says 3/4 (C51 `log_warning`). An empty debug string sets the
  category with the empty name (w, C97).
* Widths below 10 are raised to 10 (w, C52).
* The double-checked initialisation is right only where stores are seen in program order; locking and unlocking the new object's mutex does not force it (w, C103).
* XML level 255 aborts; `-4294967295` is level 1 (w, C104).

### Special functions (`Verif/MathFn`)

A double is a finite rational, an infinity or NaN; IEEE operations with any rounding to nearest (`ieee`, ties to even, where the answer depends on it). `erf`, `exp`, `log`, `sqrt` are arbitrary functions. Not modelled: overflow, subnormals, signed zeros,
`unitNormalPDF`, the accuracy of the Abramowitz-Stegun guess and convergence with rounding. Convergence of the loop in real arithmetic, with the true error function as an integral, is in `MathFn/Newton.lean` (C100 `newton_ends_partial`, `newton_ends_near_partial`).

* `isDoubleIntegral(NaN)` is true (w, C99). `LONG_MAX` of 4 bytes is refused (C99 `isDoubleIntegral_iff`). `convertDoubleLongLong` returns 1 for 0.49999999999999994 and 2^52+2 for 2^52+1 (w, C99); those, their negatives and the other odd integers of 53 bits are
  the only ones.
* `inverseErf` of a negative number never returns: its upper bound is below its lower bound. So neither does `inverseUnitNormalCDF` below the median (C100 `inverseErf_hangs`, for every negative argument).

### Assertions (`Verif/Assert`)

Hooks are arbitrary lists of actions: write, assert, throw, register, clear. Texts are numbers. Not modelled: flushing, the sleep on recursion, several threads failing at the same time, `what()` and `summary()`.

* A hook throwing a `std::exception` that is not an `AssertBoostException` is called twice for one failure, with the second text "Exception evaluating ..." (C101 `throw_std_called_twice`). A hook that registers hooks for its own list or clears them changes a vector
  under its iterator (w, C101).
* `AssertExceptionT::stringPrintF` pads texts over 1023 characters with NULs to their full length instead of showing them (C102 `stringPrintF_long_false`).

### Threads (`Verif/Thread`)

The system's mutex, thread creation and joining are assumed to do what POSIX says; threads take steps in any order. `getContention` reads the counter without the lock, which is a data race when
others lock; it is modelled as reading the count. Clock readings and results of tries are inputs.

* `timed_lock` takes normalised times. A deadline with `tv_nsec` out of range is not rejected with `EINVAL` as POSIX says, and is compared as it is. The system's `pthread_mutex_timedlock`, used where it exists, is not modelled.
* `PThread.hpp.in:52-54` says `start` may be called several times; a detached thread's object never can (w, C110). The destructor does not wait; an object that goes away before its thread calls `run` is used afterwards (w, C110).
* `PThreadNoSignals::start` leaves all signals blocked in the caller when `start` fails with an exception (w, C111).
* `getNCpus` turns 2^31 and more into negative numbers, and `NCPUS=-1` into -1 (w, C112). Scheduling classes and stack sizes are not modelled.

### Program options (`Verif/Opt`)

`boost::program_options` is modelled by what it gives: items with their long name and converted value, or something else. One pass recognises the registered names; ambiguous names, names that occur twice, and unknown items in configuration files are exceptions.
Not modelled: conversion of values, short names and abbreviations, the usage text, multi-valued options.

* A destroyed option stays registered: the next parse is undefined (w, C113). A name starting with a comma makes every parse throw, after earlier options took their values (w, C113). Hidden options cannot be given in configuration files (C113 `options_hidden_config`).

### Reading and seeking (`Verif/Posix`)

The system's `read` gives some of the bytes asked for and left, at least one if it can, or fails; `lseek` moves or fails. Not modelled: `errno`, buffering inside stdio (for `freopen64` see C245).

* `readN` asks every time for all `n` bytes, and writes past the buffer when a short read is followed by a longer one (w, C114). `read0`'s message has five places and four arguments: `boost::format` throws instead of the assertion failing; modelled as not returning.
* `fseek64` compares the new position with the offset: `SEEK_CUR` and `SEEK_END` report failure after moving, and a failed seek to -1 reports success (w, C115).

### Log-normal numbers (`Verif/LogNormal`)

Real arithmetic, with infinities and NaN only in `normal_random_limit`, whose reasoning depends on them. `drand48`, `strtod`, `strtol` are inputs. Not modelled: rounding, the regression tests within the file, convergence of Newton's method.

* `logNormal` is 0 below a millionth of the logarithmic mean, which is not a linear quantity; so its integral is less than 1 for positive means (w, C116).
* `solve2` calls a system singular when its determinant is below a millionth, whatever the units (w, C117). `findZero` takes a small step for a zero (w, C117). `solveLogNormal` succeeds for impossible distributions when the numbers are small (w, C117).
* `vr > 0.0 || vr <= 1.0` is always true; harmless because of NaN (C118 `normalRandomLimit_spec`). No arguments: null pointer passed to `strcmp` (C118 `main_spec`).

### Expanding texts (`Verif/Expand`)

Texts are lists of characters without newlines, numbers are natural numbers (perl's are exact up to 2^53). A range of digits in another script (`\d`) is not modelled. The loop over `@pending` is bounded by fuel; the theorems show that enough fuel exists for every input.

* `[]` and `[,]` make the whole text vanish; `[1,]` is `[1]`; `[,1]` is an error. With several arguments the results are not in the order of the arguments: `a[0-1]`, `b` gives `b`, `a0`, `a1` (C119 `expand_many` and the examples).

### Processes (`Verif/Proc`)

A small-step machine: the program and its exit functions are lists of calls, the stack has the calls that are running, and the system's moves (a process exits, `$!` changes) come between any two steps. The specification reads only the log of events: the life of each process number, and who
reaped what. Not modelled: signals and `enableSignals`, `DESTROY`, redirection and `waitForFile` (except that a process may stay unregistered), `eval` around calls, other code that reaps processes, time (an expired limit is the environment's choice).

* An exit function that waits may reap the process an outer `waitPid` waits for: `waitPid` dies with "vanished without getting status" (w, C121).
* The results are keyed by process number: if a number is used again while `wait` runs, the earlier status is lost and `waitPid` returns the later one (w, C121).
* `wait` looks at `$!` also when `waitpid` returned 0, which does not set it. A value left from an earlier call leads to the check with `kill 0`; if the processes belong to another user, `wait` dies with an internal error although they run (w, C121).

### File locks (`Verif/FLock`)

`getLock` as a loop over the kernel's answers and clock readings; `lintel-flock` as a transition system of any number of runs on one lock file, each with its program, its command, its background process and its calling script. The kernel's lock
belongs to the open file description of a run and goes with its last descriptor. Moves include failures of `flock`, `fork` and `exec`, and kills. Not modelled: reuse of process ids (`--unlock` and `--callpid` name processes by id), removal of the lock
file, the text in it, file systems without locking, the instant between `fork` and `exec` in which a command has a descriptor.

Disagreements with what a reader expects:
* Killing lintel-flock releases the lock while its command still runs (C122 `killed_exclusive_false`).
* `kill 0` fails for a script of another user too; the background process takes that for its end (C122 `foreign_script_false`).
* With a waiting time, a failure of `flock` is never reported: it ends as a time-out, although the documentation says getLock dies (C123 `getLock_errors_false`).

### Batch jobs (`Verif/Batch`)

`Sched`: the loop of `batch-parallel` that starts and reaps processes, with the answers of `fork` and `wait` as input (which of the living processes ends, with what status, whether the module dies of it). `Shuffle`: `shuffle` over arbitrary
draws; the sizes of groups and the part each job of a queueing system takes. `Files`: the life of `<dest>-new` and `<dest>` as a transition system (start, write, exit, unlink, rename, stop). `Compress`: the module `compress`, with the packing
programs as arbitrary functions giving output and status. Not modelled: the queueing systems themselves, `mpi`, command lines, signals to children, several compressions at once.
`Jobs`: the module `jobsfile`: names of output files, definitions (in any order of the hash), and the race of processes running one job. `Tar`: the module `tar`: the groups, and how tar reads the list it is given (GNU tar: `-C` is relative to the `-C` before).

Disagreements with what a reader expects:
* `-j 0` dies waiting for a child that does not exist; the exit code is 0 when all things failed (C124 `local_zero_false`, `local_exit_false`).
* `shuffle` draws below the current index only (Sattolo's algorithm), so no thing stays at its place (C125 `shuffle_orders_false`).
* A destination is removed before the new file is renamed to it, leaving a gap that `rename` alone would not have (C127 `missing_false`).
* `compress` maps `a` and `a.gz` to one destination and loses one of them (C128 `compress_collision_false`); takes a damaged source for its readable beginning and removes it (`compress_corrupt_false`); its `destfile_out_of_date` says "out of date" for
  every existing destination (`compress_always_builds`), which overwrites an unrelated `a.bz2` (`compress_existing_false`).
* `jobsfile` names its outputs with more digits when the file reaches 1000 lines, and runs everything again (C129 `finished_rerun_false`); definitions that mention each other are replaced in a random order (C130 `define_order_false`); two
  runs at once may replace an output in spite of looking twice (C131 `output_replaced_false`).
* `tar` estimates 200 bytes per file where the format needs 512 and padding (C132 `target_false`); with `path-parts` relative directories add up (C133 `tar_relative_twice_false`), and `strip-path=1` of an absolute path is read from the working
  directory (`tar_root_false`).

### Known hosts, make and checksum (C134–C139)

`Verif/KHosts/Model.lean` is `KnownHostsFile.pm`: the two regular expressions made from the host and the address (a dot of the interpolated name matches any character), the form of hashed lines, the padding loop of `hmac_equal` and the loop that splices lines out of the array it walks. The resolver, the HMAC and the version
of ssh are parameters. `clear_spec` and `has_iff` say in terms of the text of the lines what is found and removed; the second part of `KHosts/Props.lean` compares with what ssh would find for lines made of a list of names.

`Verif/Batch/Make.lean` has the three substitutions of `make.pm` as they are made, one after the other; `MakeProps.lean` reads a command from left to right into pieces and shows that both agree under stated conditions. The alias of the loop variable is modelled by passing the changed commands on from message to message.

`Verif/Batch/Checksum.lean` has the two-argument `open` for paths that begin with `/`. Digests, contents and commands are parameters. Names with newlines are left out.

Disagreements:
* `has_host_key` misses a host that is not the first name of its line, contrary to its documentation; the dots of a name match anything (C135 `second_name_false`, `dot_false`, `dot_comma`). The address is cleared only as the last name (`addr_not_last`).
* a file name with `$@` in it is replaced again (C136 `dollar_name_false`); `make -n` shows the commands of the first file for all (C137 `messages_false`).
* `checksum` sums another file for a name that ends in a space (C138 `trailing_space_false`), runs one that ends in `|` (`pipe_runs`), takes no notice of a failing `gunzip` (`uncompress_failure_false`), and never renews a checksum (C139 `changed_file_false`).

### Plot ticks (C140–C142)

`Verif/Tics/Model.lean` is `Plot/Mercury/Tics.pm`. A time zone is a function from times to offsets and the calendar is a function from days to days of the month, so that the theorems hold for every zone; stronger statements are for zones that are a constant number of whole hours. Seeking loops have fuel and the theorems say how much is
enough (24 or 25 hours). Labels are data; hours relative to the start are kept as seconds.

Disagreements: `die "??"` fires for every tick between 0:00 and 1:00 that is not midnight (C141 `after_midnight_false`) and in zones of half hours (`half_hour_false`); after a clock change the corrected time is used for the label but not for an absolute place (`summer_false`); a weekly plot may begin with a tick before its start (C142 `before_start_false`).

### Rebuilding latex documents (C143–C146)

`Verif/Latex/Model.lean` is the shell script `lintel-latex-rebuild`. Attempt number n of the whole run is an arbitrary record: exit code, whether the watching process had fired, whether the script's `kill` of it succeeded, lines written, and the files left. The log is a list of lines that is begun anew by each `rebuild`, and `grep` is a search
in it. The lines the script itself writes to the log are cut to their beginnings. Not modelled: the lock (C122), variables inherited from the caller (`any_err`), `.bbl` and `.blg`, programs that write to the `.ps` or `.pdf` themselves.

Disagreements: a step that timed out max-retries times counts as successful, because the function ends with an `echo` (C143 `success_given_up_false`, C144 `stops_false`); a killed attempt is not tried again if `kill` still finds the watching process (`retried_false`); missing convergence keeps old output (C145 `failure_false`); wrong arguments
exit with 0 (C146 `usage_false`); a document called `early-warnings` fails with `--error-on-warnings` (C143 `warning_name_false`).

### Test utilities, pointers, file times, process statistics (C147–C152)

`Verif/TestUtil/Model.lean` is `getDeptoolInfo` with `fgets` and its buffer, and the lines that `deptool getenv for-sh` prints, so that the two are shown to fit together. `popen` starts a shell; whether the shell finds deptool shows in the output only. `Verif/TestUtil/Macro.lean` puts the test macros on top of the model of failed assertions (C101).
`Verif/Misc/Pointer.lean` has `dynamic_cast` as the standard describes it, for subobjects of one complete object with public bases; `FileTime.lean` has the signed arithmetic of `modifyTimeNanoSec`; `ProcStat.lean` has `ProcessStatistics` with the kernel's answers as a parameter.

Disagreements: without deptool `getDeptoolInfo` aborts where the header promises empty fields (C147 `absent_false`); long lines abort it (`long_line_false`); `getenv for-sh` does not quote (C148); `TEST_INVARIANT_MSG1(code, "no invariant happened")` passes for code without failure (C149 `own_text_false`).

### Lintel::DBI (C153–C158)

`Verif/DBI/Split.lean` is `splitSQL` with its two loops run for a number of iterations; "never returns" means: not after any number. The specification is the grammar of the documentation as an inductive predicate. `Verif/DBI/Schema.lean` has the connection, `transaction`, the configuration table and `setupSchema`; the database is a value, statements are partial functions on it, and the server's answer to each request is an arbitrary function of its number. `Verif/DBI/Rows.lean` has prepared statements with their cursors and the dispatch of names. The DBI's behaviour (dying on a nested `begin_work`, `commit` outside a transaction only warns, MySQL's implicit commits) is taken from its documentation and is part of the model, not proved. Not modelled: `connect`, `.my.cnf`, the functions that return hashes, false exceptions.

Disagreements: `splitSQL` loops for ever on `a; -- b` (C153 `split_hangs_false`); `setupSchema` always dies when it installs a schema for the first time, because `$db_version` is not set after `loadSchema` (C155 `setup_fresh_false`); a failing `select` is taken for "nothing installed" and `init` is run on the existing tables (`setup_unread_false`); `from_version` cannot work on a database without `lintel_dbi_config` (`setup_from_false`); with servers that check prepared statements a schema can never be installed by the object that first looked for its version (`setup_prepared_false`); `setConfig` warns where the documentation says it dies (C156 `set_reserved_false`); queries named `can`, `confess`, `__laststh` are accepted and cannot be run (C158); running a query again while reading its rows mixes the results (`rows_mixed_false`).

### deptool (C159–C169)

`Verif/Deptool/Build.lean` is `depBuildParallel` with the functions it calls: one element of the list of answers is what happens in one iteration of the main loop (which sources are found newer, which processes end and how, how late the stamps come out). The specification (`Legal`, `Done`, `files` in `BuildLemmas.lean` and `BuildProps.lean`) speaks about the log of events only; `files` says what the events do to the built and installed files, with arbitrary contents while a process is running and after it failed. `Old.lean` is `dbpFindOld` on histories of edits, `Deps.lean` has the names, the collection of dependencies, `depWalk` and `divideDir`, `Tests.lean` is `dbpDoParallelTest`.

Disagreements: a stamp from the future makes the program die with "internal error" after a good build (C160 `build_future_false`); changes during a build, removed files and `.git*` files are not noticed (C164); projects `c-x` and `c;x` share a build directory and one of them is silently not built (C165); `divideDir` takes `batch-parallel` for a variant of `batch` (C168).

### lintel-disktool (C170–C177)

`Verif/Disktool/Model.lean` has the commands partition, format, mount, umount and fail over a small world: what each drive contains (whether its table is correct, its label) and the mount table. The effect of the commands that are run on that world is modelled; whether each of them works, and what a drive is after `sfdisk`, is chosen by the environment. The specification (`Spec.lean`) says which drives may be touched (`Allowed`), what an action writes to, what is in use, and what one sees in a directory. `Sfdisk.lean` reads the output of `sfdisk` by the line; the specification there is the printer.

Disagreements: partition overwrites mounted drives (C171); with `label_to_mount_path` outside the mount path, format overwrites drives in use (C172 `format_elsewhere_false`) and mount fails when run again (C174 `mount_custom_false`); labels and serial numbers `0` are taken for none (C170, C172, C174); two drives with one label are mounted over each other (C174); umount unmounts reserved drives, and what is mounted over a drive instead of it (C175); fail accepts `/dev/sdb11` (C176); a correct table that is marked active or whose type has a name of several words is taken for wrong, so that partition overwrites the drive (C177).

### mercury-plot (C178–C189)

`Verif/Mercury`: `Sql.lean` has the regular expressions that add the default table, condition and order, on texts; the specification is a printer of structured queries. `Rows.lean` writes the data files, with the iterators of perl hashes as part of the state; `Bar.lean` is `barplot` without the file of the stacked form; `Plots.lean` is the list of plots with `replot`; `Cmd.lean` is `docmd` with continued lines, blocks and markers, and the treatment of errors in trees of sourced files. `Import.lean`, `Dsn.lean`, `Exp.lean` and `Conn.lean` are functions that talk to the database: its answers are chosen by the environment, its tables are lists. In `Exp.lean` texts are compared for equality (a database may ignore case). `Sync.lean` interleaves the program, gnuplot and the shell that gnuplot starts to write the file.

Disagreements: see the `_false` theorems of C178–C189; among them a default table or condition is put in the middle of a name such as `border` (C178), rows with nulls are written (C179), the documented form of a line with a password is refused (C185), two programs of one user mix up their waits (C186), and "server has gone away" is not taken for a lost connection (C188).

### HashTable diagnostics and the rest of StringUtil (C190–C192)

`Verif/Hash/Diag.lean` adds `chainLengthStats`, `verifyFreeListSize` and `unsafeGetRawDataVector` to the table of C01–C03; when the raw vector is handed out is specified by the sizes the table had, not by the free list. `available()` is not modelled: it calls a member that `std::vector` does not have and cannot be instantiated. `Verif/Str/Double.lean` has the scanner of `strtod` (C99, "C" locale) and, apart from it, a grammar of numbers; a number is kept exactly, as digits, base and exponent. `Verif/Str/Case.lean` makes a `<cctype>` call on a byte from 128 on undefined.

Disagreements: `stringToDouble("1.5\0junk")` and `stringToDouble("\0")` are accepted (C191); UTF-8 text is undefined behaviour in the four `<cctype>` loops (C192).

### deptool: version control, code review and tests (C193–C203)

`Verif/DepVC/Publish.lean` has `publish` with the git interface: projects have a head, files and what was last fetched; builds with tests are one step that looks at the files of all projects; before each step somebody may edit files, and what others push shows in merges and refused pushes. `Unknown.lean` is the question about unknown files with its file of SHA-1 lines (trusted: no two texts that occur collide). `Marks.lean` writes and reads the file of reviews, `Revision.lean` reads the output of `git log --format=raw`, `Select.lean` is the choice of review-status (`who=` is a predicate on authors), and `Walk.lean` the dialogue of code-review, specified by a bookmark in the list of files.

Simplified: git itself (what it prints, merges, and which pushes it refuses) is a parameter; diff viewers and the monotone interface are not modelled; the end of the input in the dialogue of code-review is `waiting`.

Disagreements: files edited while `publish` runs are committed and pushed untested, and `publish --no-tests` pushes untested versions to the ordinary repository with git (C193); once `a` and `bc` were ignored, `ab` and `c` are silently left out of commits, and the question repeats for ever at the end of the input (C194); a review without a known address makes the file of reviews unreadable for all revisions, the comment `0` is lost, and typing the beginning of a file name `reviewed.cpp` marks the revisions as reviewed (C195); messages lose their line breaks so that the first line can not be shown, signed commits make the program die, and code-review dies for merges instead of asking (C196); `max-date` leaves out the day itself, and `branch=` is ignored with git (C197); a file that comes twice in the ordering file hides all later files (C198).

`Sequence.lean` is the making of the two directories that are compared (histories are lists of revisions with the files each of them changed; the names `*.orig`, `*.rej`, `-cr-edit-me` and `-cr-version-` are left out), `OrderProps.lean` the order of the files, `Tar.lean` is `tar-init` on a directory of projects, with downloads chosen by the environment, and `Ctest.lean` reads what ctest prints; the specification there is the printer.

Disagreements: revisions of one second are taken in the order of a hash, so that an old version may be shown as the new one; a review that is left and started again with more revisions does not show those between, but marks them; files that were removed are not shown (C199); `foo-0.cpp` comes between `foo.hpp` and `foo.cpp`, and a directory `tests` at the top is not taken for tests (C200); `my-lib-1.0.tar` is taken for a release of `lib`, `lib` is renamed before a download that then fails, and a project named `lib-1.0` is deleted (C201); a build directory with a blank in its name stops the tests, and numbers that skip are accepted (C202); a failing test that prints `[HANDLER_OUTPUT] ` and `Passed` stops the whole run (C203).

### Assertions in several threads (C204)

`Verif/Assert/Threads.lean` interleaves any number of threads in `AssertBoostFail`, with one access to the flag `assert_boost_fail_recurse` to a step, in program order. The language calls such races undefined; the theorems are about machines that read and write a flag whole, the `_false` ones are schedules of such a machine.

### deptool: changing directories (C205)

`Verif/DepVC/Cd.lean` is a shell with its directory and the variables that remember build types, on which the printed commands act. It uses `divideDir` of C168. Shell quoting is left out: names have no special characters.

Disagreements: a type such as `gcc-4` is accepted but cannot be taken off again; `a.b` and `a_b` share the remembered type; with `BUILD_OPT` below `PROJECTS` the build is taken for a source (all C205).

### deptool: pull, sync and pin with monotone (C206)

Verif/DepVC/Pin.lean: the loops of pullAndMerge and pullDoUpdate over lists of answers, with a log of what was looked at, asked and done; the specification (`Good`, `Ends`, `UpdatesAsked`) is over the log. `setPin` dies always, because it calls depCommitHaveUnknown without the interface (`setPin_false`); a pin with a shortened revision, which monotone accepts, does not hold (`short_pin_false`). Not modelled: monotone itself, so that "at the head" is as of the last look.

### deptool: cmake (C207)

Verif/Deptool/CMake.lean: srcDir, the command that is run, and cleaning over a list of files and directories. False: the tree is recognised by its name without a slash (`cmake_prefix_false`), `--clean` does nothing (`cmake_clean_false`), clean takes every Makefile for cmake's (`clean_source_false`). Not modelled: Getopt::Long, symbolic links, removing that fails.

### Double and clocks per thread (C208, C209)

Verif/Dbl: doubles are NaN, two infinities and rationals of the grid of IEEE doubles, with subnormal numbers; `Rounding` is any function to the nearest number of the grid (ties either way), and results of 2^1024 and more are infinite. The two zeros are one value, which no comparison tells apart. `min` and `<` are those of C++ (NaN never less). False: see `eq_larger_false`, `eq_inf_false`, `less_weak_false`, `setEpsilon_zero_false`.

Verif/Clock/PerThread.lean: keys are numbers in the order of their making, as glibc has them; `perThreadInit` is three steps under its mutex, between which other threads act. False before initialisation: `perThread_early_false`, `perThread_nokey_false`, `perThread_race_false`.

### Matrix: storage (C210)

Verif/Matrix/Store.lean: several matrices with their blocks on a heap; the specification has functions of row and column. `unsigned int` arithmetic is modulo 2^32; setRow's missing arguments are undefined. Allocation succeeds.

### Statistics in perl (C211)

Verif/Stats/Perl.lean is related to the model of the C++ class field by field. Disagreements: `stddev_dies_false`, `range_false`.

### The lists statistics print (C212)

Verif/Rome. `render` makes the text of `printRome` of every class as a list of characters; which rows of quantiles there are is the input here. `Spec.lean` has a reader of its own: it cuts the text
into words and brackets, matches the brackets with a stack, and looks up names in the list; `Says` then states for each class which names have which values. Disagreements: `rome_null_false`,
`rome_nan_false`, `sequence_mean_false`.

### Printed quantiles (C213)

`Verif/Quantile/Print.lean` models the loops of `printRome`, `printTextRanges` and `printTextTail` in rounded doubles, on top of the model of `getQuantile` (each call may sort
buffers, so the state is passed on). The ranges: the running sum is within `k * 2.5 * 2^-53` of `k / n`, so for `n <= 3000` the last one is within the tolerance of `Double::lt` and the
others are not. The tails: the fourteen possible values of `tail_frac` are computed in the kernel, and monotonicity of rounding settles every number of values in between. How numbers
become text is a parameter. Disagreements: printing stops the process if more values were added than `Nbound`, or for a negative number of ranges.

### Output of LintelLog (C214)

`Verif/Log/Out.lean`: threads, the mutex, the vector of appenders, the buffer of `cout` and the terminal, in steps as small as one call of an appender. `log_one_by_one` is
linearizability: the order is a function of the schedule that only grows, contains each call between its call and its return, and the appenders see what they would see if the calls
were made in that order. `console_in_order` is about the characters on the terminal. What a user's appender does is not modelled except that it may call the library. Disagreements: the
deadlock (a comment in the code says so) and the time without leading zeros, which makes 5.05 s read as 5.5 s.

### Calibration of the clock (C215, C216)

`Verif/Clock/Calibrate.lean` models the loops of `calibrateClock` (tries, rounds thrown away, measurements, sorting, the mean of the middle half) and the numbers `initialMeasurements` and
`estimateTodTfracLatency` compute from their measurements. The readings of the counter and of the time of day are lists given from outside; doubles are exact; the comparison with `conf95` is a parameter
(`exactTest` is the one in exact arithmetic). Disagreements with the code's own comments and messages: the "truncated mean" of the cycles per step is taken from measurements that were never sorted
(`cyclesPerQuanta_robust_false`); "too many measurements taken, trying again" does not try again (`calibrate_ends_false`); the middle of two counts wraps from 2^63 on (`measure_wrap_false`).
`Verif/Clock/Scaling.lean` models the check for frequency scaling with the files of the directory given from outside.

### Locks of blocks (C217)

`Verif/Scope/Model.lean` has a small language of statements (sequence, choice, loop, throw, try, blocks with a scoped lock, blocks that give it back for a while, locks by hand) with a relation that
gives what a statement may do; threads are interleaved one event at a time under the rules of pthread mutexes. The specification counts locks and unlocks in the list of events. `LintelLog::log` is one statement of
the language; it locks by hand, and `log_throw_false` shows what an exception from an appender does.

### Tables (C218)

`Verif/Tab/Model.lean` writes the text of `printTabular` and `printHistogramRandomInput`. `Verif/Tab/Spec.lean` reads text as lines of words, looks up lines by their first word and sections between two lines, and
says what has to be found. `tabular_counts` joins this with the model of uniform histograms (C32): the rows are the numbers of added values in and below each bin.

### Another one, but fresh (C219)

`Verif/Another/Model.lean` has `another_new` of each class and the choice made by the virtual call. `FreshU` and `FreshL` say field by field what a fresh object is; the theorems also compare all later
calls on the new object with the same calls on the first one after `reset`. The number of bins of a grown histogram may be odd (the factors in line 116 cancel), and the constructor rounds it up:
`another_grown_false`. Sequences, quantiles and groups inherit the function of `Stats`: `another_plain_false`.

### A server for untested changes (C220)

`Verif/Serve/Model.lean` is a transition system of the monotone server, its hooks (`push_to.sh` under the lock) and `mtnServePushTo`; a run is any list of moves that are possible one after the other.
The number in `next-sync-id` is text that is written over the old text. `Verif/Serve/Spec.lean` reads the log of signals and tests. Four invariants over all moves (numbers of files, order of databases,
where the newest database is, what waits) give the theorems. The races are real: the flag is cleared before the lock is taken, so a signal in between asks for a file that does not come.

### The top of a source tree (C221)

`Verif/DepVC/Root.lean` adds the loop of `rootSrcDir` to the model of `srcDir` (C-claims on deptool cmake). The specification writes paths as lists of names; the loop works on characters. The number of rounds is a parameter,
and the theorems say how many are enough; `root_hang_false` has no number that is.

### What monotone says about revisions (C222, C223, C224)

`Verif/DepVC/MtnLog.lean` models the three parsers of monotone's output on lists of lines, with the regular expressions as functions on characters. The specification prints revisions and certificates as monotone does and says
what the parsers must return, in terms of what was printed. `s/Changelog:\s*\n//` is greedy over newlines, so it also takes away the empty lines at the start of a changelog; this is part of the statement.

### lintel::hash

`Verif/HashFn/Dispatch.lean`: `hashSmall` for integers of 1, 2 and 4 bytes, `hashLong`, `pointerHash`, and `hashType` over keys made of strings, C strings (memory from the pointer on) and pairs. The specification `Key.value` only uses the published function of C76. Overload resolution is the compiler's and is not modelled.

### deptool getenv

`Verif/Deptool/GetEnv.lean`: the eleven settings as functions of the environment and the machine, and the text printed for a shell. The specification is a small reader of shell text (words, double quotes, separators; it stops at everything else that is special), and what `export` and `unset` do. How the operating system is recognised is not part of this model.

### ConstantString: hash, != and <<

`Verif/CStr/Ops.lean` adds to the model of the pool (C24) the address of a pointer, given any placement of the buffers, `hash()`, `strcmp` and `strlen` on the memory from a pointer on (undefined past the end), and the operators built on them.

### deptool init: git repositories

`Verif/DepVC/GitRepo.lean` models initRepositories over a directory of bare repositories with four settings, with a list of outcomes of the git commands (a command that fails changes nothing). The meaning of `clone --mirror`, `config --unset`, `config remote.origin.fetch` and `remote set-url --push` is written from git's manual. `-d` is true of the path of a repository and of every directory leading to one.

### deptool init: git's configuration

`Verif/DepVC/GitConfig.lean` models initConfig and readConfig over the list of keys and values that git keeps, the lines typed and the outcomes of `git config`. A key with several values makes `git config key value` fail, as git does.

### The search by merging

`Verif/Quantile/Index.lean` models getQuantileByIndex with the priority queue of C01 on the sketches of C29. The specification says only what it means to be at an index of the weighted stored values, and that value is proved unique. The binary search for an index that does not exist, which loops forever in the code, is not covered (getQuantile never asks for one).

### The cache of sizes

`Verif/Quantile/Cache.lean` models the constructor with the cache as state, with the conversions between int32_t and uint32_t; C90's constructor, without cache, is the specification. Threads that construct at the same time are not modelled (nothing locks the cache).

### deptool checkout: selection

`Verif/DepVC/Checkout.lean` models the list of branches (depCheckoutMonotoneBranches, depCheckoutGitBranches with the parsing of `git branch`) and depCheckoutSelectBranch. The regular expression made from the argument is modelled by a matcher in which a dot matches any character; other special characters are outside the model.

### deptool checkout: the loop

`Verif/DepVC/CheckoutRun.lean` models the work list with the dependencies and both ways of checking out. The number of commands that succeed for a branch is an input, so a failure after the clone is possible at each point. deptool.config is an arbitrary function from the directory to its dependencies, or unreadable.

### Seeds of the Mersenne Twister

`Verif/Rng/SeedLemmas.lean` shows that the twist can be undone on the 19937 bits of state that matter (`same_prev`), so 624 results determine all earlier ones; seeds are recovered from word 1 of the state. For arrays, the second loop of `initArray` is undone word by word, and the first one is described by the words it leaves (`pass`). Periodicity is the pigeonhole principle on the states. `Verif/Rng/Ctor.lean` models the constructor's choice of a seed.

### Periods of the Marsaglia generators

`Verif/Rng/MicroProps.lean` works on the model of C73 to C75. The step of `MicroRandInner` on the two words that matter is undone with the triangular maps of `Verif/Rng/Bits.lean`; periodicity is the pigeonhole principle. The step of `MarsagliaInner` is undone by division by A.

### Access functions of histograms

`Verif/Histo/Access.lean` models `operator[]`, `value`, the edges, center and width of bins and the counters of rescalings, on the states of the models of C32, C34 and C105. Of indexes, `unsigned` arithmetic (`index+1`) is modelled.

### deptool pull

`Verif/DepVC/Pull.lean` models the walk with the check before and the pull after the dependencies, the versions of the projects (which say what they depend on), the parsing of `git branch -a` and the choice of the branches. The merge itself is an outcome given from outside; commits in between (`depCommitOne`) find nothing to do since nobody edits meanwhile.

### The period of MarsagliaRNGMicro

`Verif/Rng/PeriodTable.lean` holds polynomials over the field of two elements, computed outside; `Verif/Rng/PeriodLemmas.lean` proves what a check of them says (the characteristic polynomial of the step is zero at the step, powers by square and multiply with quotients, inverses, the two projections), `Verif/Rng/PeriodProps.lean` runs the checks in the kernel (`decide +kernel` on finite computations about the constants) and concludes for all states. The model of the generator is that of C73.

### The constants of the Marsaglia generators

`Verif/Rng/Consts.lean` is the table of constants, `Verif/Rng/ConstProps.lean` has the condition as specification (a prime and the order of an element, Mathlib's notions), square and multiply with its proof, the Lucas test and the verdicts for the sizes up to 512; `Verif/Rng/Const1024.lean` does 1024 words with the power computed in four parts so that the kernel needs little memory, `Verif/Rng/Const2048.lean` (with `Const2048A` and `Const2048B`) 2048 words in sixteen parts; `Verif/Rng/ConstClaims.lean` puts them together. The powers are computed by the kernel (`decide +kernel`).

### The output of a command

`Verif/DepVC/CmdOut.lean` models `getCmdOutput` as two processes with two bounded pipes; a schedule is a list of turns. `Verif/DepVC/CmdOutProps.lean` proves by an invariant that nothing is lost, by a measure that fair schedules come to the end when the error output fits into its pipe, and that no schedule does otherwise.

### Names of directories

`Verif/DepVC/Alias.lean` models aliasChdir, aliasGetCwd and the start over an abstract tree with absolute and relative names; `Verif/DepVC/AliasProps.lean` proves the claims over all histories with the invariant that remembered names lead where they should.

### The remotes of a repository

`Verif/DepVC/Remotes.lean` models the two readers of `git remote -v` with their patterns and the choice of the addresses of a new checkout; `Verif/DepVC/RemotesProps.lean` has git's lines as specification and proves the reading back and its soundness.

### Two lines through the data

`Verif/Mercury/Split.lean` models the search of axplusb over an arbitrary fitting function; `Verif/Mercury/SplitProps.lean` states what a cut costs as a relation of its own and proves that the loop finds the first smallest.

### psplot and pngplot

`Verif/Mercury/Png.lean` models the two commands with the pattern for the modes, the words of the command and the sequence of conversions with the files they leave; `Verif/Mercury/PngProps.lean` has a small gnuplot (output, terminal, what was drawn) and the condition for success as specification.

### freopen64

`Verif/Posix/Reopen.lean` models the table of descriptors, the open files behind them, the contents of the files and one stream; `fopen64` and `freopen64` work on them with the outcomes of the system calls as inputs. `Verif/Posix/ReopenProps.lean` counts used descriptors and says byte by byte what a write leaves.

### The status of a test

`Verif/DepVC/TestStatus.lean` models `dbpGetTestStatus` with its five patterns as functions that cut texts; `Verif/DepVC/TestStatusProps.lean` describes the lines as concatenations of their parts and proves that the functions accept exactly these.

### The state of a git work directory

`Verif/DepVC/GitStatus.lean` models the split at zeros and the selection; `Verif/DepVC/GitStatusProps.lean` has git's output format as specification.

### deptool.config

`Verif/DepVC/Config.lean` models Perl values (undefined, string, reference with its name and text, array) and the checks of readConfig; `Verif/DepVC/ConfigProps.lean` has the documentation (lines 3978-4019) as specification.

### The styles of a stacked bar plot

`Verif/Mercury/Colors.lean` models barplotColors with Perl's split, and the rotation of the list; `Verif/Mercury/ColorsProps.lean` has the documentation (lines 554-560) as specification.

### lintel-config

`Verif/Misc/LintelConfig.lean` models the script with the values of CMake as parameters; `Verif/Misc/LintelConfigProps.lean` has the list of features as specification.

### lintel-disktool list

`Verif/Disktool/Listing.lean` models the lists before they are printed, on the model of the drives of C170; `Verif/Disktool/ListingProps.lean` has the theorems.

### The output of select

`Verif/Mercury/Output.lean` models the three formats; `Verif/Mercury/OutputProps.lean` has programs that read csv and html as specification.

### Monotone commands

`Verif/DepVC/MtnOp.lean` models mtnOp, readMtnOptions and the choice of the log command; `Verif/DepVC/MtnOpProps.lean` states which line is in force and what the family of a branch is without the functions of the model.

### batch-parallel: the files

`Verif/Batch/Find.lean` models the search and the absolute names; `Verif/Batch/FindProps.lean` says what a name means by an inductive relation on its steps.

### batch-parallel tar: runs

`Verif/Batch/TarRun.lean` models one archive as a state machine in which tar copies file by file while the sources may change; `Verif/Batch/TarRunProps.lean` states wholeness over prefixes of the history.

### Reviews

`Verif/DepVC/Reviews.lean` models getReviews; `Verif/DepVC/ReviewsProps.lean` prints certificates as monotone does and reads them back.

### The arguments of select

`Verif/Mercury/Select.lean` models the splitting of the command, the mark before the query and what Getopt::Long does with the two options; `Verif/Mercury/SelectProps.lean` builds commands as documented and says what is to become of them.

### Old working directories

`Verif/Batch/Workdir.lean` models the two patterns, the look at the times and the removal, with directories that cannot be removed as files; `Verif/Batch/WorkdirProps.lean` says what an old working directory is by the parts of its name and the times of its files. Disagreement with the documentation: the names made by `write_joblist` end in `.` and six digits, so that the pattern of `cleanup_workdir` matches none of them and nothing is cleaned (`own_never_removed_false`).

### A missing dependency

`Verif/DepVC/TryCheckout.lean` models the two checkouts, the branch made between them and its name; checkout and init are arbitrary functions of a state. `Verif/DepVC/TryCheckoutProps.lean` says which branch is wanted by inductive rules.

### The NAME lines of manual pages

`Verif/Dist/ManName.lean` models the perl program of fix-install.sh on the lines of all pages, with its flag; `Verif/Dist/ManNameProps.lean` builds pages from their parts and says what is to become of them.

### Commands for the batch systems

`Verif/Batch/Submit.lean` builds the two command lines as the program does, as texts, and has the part of the shell that takes them apart; `Verif/Batch/SubmitProps.lean` lists the words meant. Disagreement with the documentation: the job width has no effect with Codine/SGE (`codine_width_false`).

### The check of the changelogs

`Verif/Dist/Changelogs.lean` models grep for versions and the tests of the script; `Verif/Dist/ChangelogsProps.lean` says what ready files are by the parts of their lines.

### Places of perl modules

`Verif/CMakeMod/Inc.lean` models the line that cmake puts into the programs: the words of qw and the places added. `Verif/CMakeMod/IncProps.lean` says what the places are then and where modules are found. Disagreement with the comment in the file: user-installed modules do not take precedence if their directory is in the list already (`precedence_false`).

### Finding headers and libraries

`Verif/CMakeMod/Find.lean` models the macros on the variables of one header or library, with the cache; `Verif/CMakeMod/FindProps.lean` says what the first place and the first name are by inductive rules. Disagreement with the documentation in the file: `find_enabled_false`.

### Finding programs and perl modules

`Verif/CMakeMod/Prog.lean` models the macros for one variable, with `EXISTS` and what FIND_PROGRAM takes for a program as one predicate; `Verif/CMakeMod/ProgProps.lean` says which program is to be used by an inductive rule. A variable of the makefile that hides the one of the cache is taken to be replaced by what FIND_PROGRAM finds, as in the versions of cmake of that time.

### The libraries of boost

`Verif/CMakeMod/BoostExtra.lean` models LINTEL_BOOST_EXTRA on top of `Verif.CMakeMod.Find`; `Verif/CMakeMod/BoostExtraProps.lean` says by an inductive rule which directory of libraries is right.

### Macros for latex and manual pages

`Verif/CMakeMod/DocsMacros.lean` models the macros of LintelDocs.cmake on top of `Verif.CMakeMod.Prog`; `Verif/CMakeMod/DocsMacrosProps.lean` states type, name and input of a page by inductive rules. Disagreements with the documentation in the file: `latex_required_false`, `empty_release_false`.

### Paths in the documentation

`Verif/CMakeMod/PathFix.lean` models how cmake splits unquoted arguments at semicolons, drops empty ones, joins those of SET by semicolons and those of STRING(REPLACE) and FILE(WRITE) without; this is from the documentation of cmake, not from this project. `Verif/CMakeMod/PathFixProps.lean` states replacing by an inductive rule. Disagreements: `semicolons_false`, `build_false`, `empty_false`.

### Release.info

`Verif/Dist/ReleaseInfo.lean` models the release script and the reader in src/deptool-old; `Verif/Dist/ReleaseInfoProps.lean` says which date a file has, and proves that what is written is read back. Disagreement between the two: `recognized_false`.

### Not modelled at all

`Uncompress`, host queries, printing of statistics as tables,
the other perl and python scripts. They are I/O, platform calls or presentation, with little state to reason about; they may be added later.

### Claims without wrong programs

The log `seeded/LOG.jsonl` has no wrong program for these claims, so it does not speak for the strength of their theorems: C205, C206, C207, C208, C209, C210, C211, C212, C213, C214, C215, C216, C217, C236, C237, C238, C239, C255, C256, C257, C260, C261, C262, C263, C264, C266, C267, C268, C269. Of C265, twelve of seventeen planned were tried; the others, for perl modules that are required or turned off, were not.
