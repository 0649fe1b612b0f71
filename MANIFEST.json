{
 "claims": [
  {
   "property": "C01",
   "status": "proved",
   "theorems": [
    "Verif.Hash.hashmap_is_map",
    "Verif.Hash.hashmap_no_ub",
    "Verif.Hash.hashmap_lookup_last_stored",
    "Verif.Hash.hashmap_size_distinct"
   ],
   "note": "all histories, hash functions, equalities and growth tests, while at most Fits-many entries are stored at once (int32 slot index, largest prime)"
  },
  {
   "property": "C02",
   "status": "proved",
   "theorems": [
    "Verif.Hash.hashtable_is_multimap",
    "Verif.Hash.hashtable_no_ub",
    "Verif.Hash.walk_total"
   ],
   "note": "all reachable states"
  },
  {
   "property": "C03",
   "status": "proved",
   "theorems": [
    "Verif.Hash.prune_exact",
    "Verif.Hash.hashmap_is_map"
   ],
   "note": "all reachable HashMap states and predicates"
  },
  {
   "property": "C04",
   "status": "proved",
   "theorems": [
    "Verif.Hash.hashtable_is_multimap",
    "Verif.Hash.hashtable_no_ub"
   ],
   "note": "all histories including duplicates"
  },
  {
   "property": "C05",
   "status": "partial",
   "theorems": [
    "Verif.Hash.addOrReplace_keeps_old",
    "Verif.Hash.addOrReplace_partial"
   ],
   "note": "false of the code: an existing entry is never overwritten (witness addOrReplace_keeps_old); the report and the absent case are proved"
  },
  {
   "property": "C06",
   "status": "proved",
   "theorems": [
    "Verif.Hash.hashunique_is_set",
    "Verif.Hash.hashunique_exists_iff",
    "Verif.Hash.hashunique_add_iff",
    "Verif.Hash.hashunique_size"
   ],
   "note": "all histories"
  },
  {
   "property": "C07",
   "status": "proved",
   "theorems": [
    "Verif.Hash.rotating_is_aged_map",
    "Verif.Hash.accessed_survives_rotate",
    "Verif.Hash.unused_gone_after_two_rotates"
   ],
   "note": "all histories; rotation callbacks are observers"
  },
  {
   "property": "C08",
   "status": "proved",
   "theorems": [
    "Verif.PQ.pq_is_priority_queue",
    "Verif.PQ.pq_total",
    "Verif.PQ.pq_sorts"
   ],
   "note": "Every history from an empty queue with room for at least one element; comparator may be strict or reflexive on ties."
  },
  {
   "property": "C09",
   "status": "proved",
   "theorems": [
    "Verif.PQ.pops_interchangeable",
    "Verif.PQ.replaceTop_is_pop_push",
    "Verif.PQ.pq_is_priority_queue",
    "Verif.PQ.popBU_needs_reflexive",
    "Verif.PQ.popBU_needs_ties"
   ],
   "note": "The bottom-up pop needs a comparator that says yes on every tie; without it the code aborts or reads outside the array (witnesses)."
  },
  {
   "property": "C10",
   "status": "proved",
   "theorems": [
    "Verif.Deque.deque_fifo",
    "Verif.Deque.deque_ctor_rejects",
    "Verif.Deque.deque_empty_access_ub",
    "Verif.Deque.deque_reserve_no_realloc",
    "Verif.Deque.deque_reserve_rejects"
   ],
   "note": "For arguments outside the deque; push of a reference to its own element is C58. size_t is Nat in container operations."
  },
  {
   "property": "C11",
   "status": "partial",
   "theorems": [
    "Verif.Deque.deque_iteration",
    "Verif.Deque.deque_iterator_random_access_partial",
    "Verif.Deque.deque_iterator_add_negative_bug"
   ],
   "note": "False as stated: it + n with negative n crossing the buffer start is wrong unless the buffer size divides 2^64; everything else holds."
  },
  {
   "property": "C12",
   "status": "proved",
   "theorems": [
    "Verif.BB.bytebuffer_values",
    "Verif.BB.bytebuffer_isolated",
    "Verif.BB.misuse_never_ok"
   ],
   "note": "any number of buffers, any sharing, arbitrary fresh memory; undefined calls excluded (none completes)"
  },
  {
   "property": "C13",
   "status": "proved",
   "theorems": [
    "Verif.BB.bytebuffer_is_text",
    "Verif.BB.bytebuffer_values"
   ],
   "note": "contents of any completed history are those of plain byte strings"
  },
  {
   "property": "C14",
   "status": "proved",
   "theorems": [
    "Verif.Base64.encode32_reads_back",
    "Verif.Base64.encode64_reads_back",
    "Verif.Base64.encode32_lossless",
    "Verif.Base64.encode64_lossless",
    "Verif.Base64.decode_encode",
    "Verif.Base64.encodeBytes_injective",
    "Verif.Base64.encodeBytes_digits",
    "Verif.Base64.decode_bad_char"
   ],
   "note": "The library has no numeric decoder; the number is read back by the specification's Horner rule over the literal alphabet. Byte strings below 2^28 bytes (int32_t digit count)."
  },
  {
   "property": "C15",
   "status": "partial",
   "theorems": [
    "Verif.Base64.encodeBytes_order",
    "Verif.Base64.encode32_order",
    "Verif.Base64.encode64_order",
    "Verif.Base64.encode32_order_default",
    "Verif.Base64.encode64_order_default",
    "Verif.Base64.signed_order_partial",
    "Verif.Base64.signed_order_bug"
   ],
   "note": "Proved for unsigned numbers and byte strings. False for signed numbers of opposite sign (signed_order_bug)."
  },
  {
   "property": "C16",
   "status": "proved",
   "theorems": [
    "Verif.Str.split_join",
    "Verif.Str.split_separable",
    "Verif.Str.join_split_iff",
    "Verif.Str.join_split_byte",
    "Verif.Str.join_is_intercalate",
    "Verif.Str.split_empty_sep",
    "Verif.Str.split_2GiB_bug"
   ],
   "note": "For strings below 2 GiB; above, positions are truncated to int and separators are missed (split_2GiB_bug)."
  },
  {
   "property": "C17",
   "status": "partial",
   "theorems": [
    "Verif.Str.hex_round_trip",
    "Verif.Str.hex2raw_accepts",
    "Verif.Str.maybehex_round_trip_bug",
    "Verif.Str.maybehex_round_trip_partial",
    "Verif.Str.hexstring_4GiB_bug"
   ],
   "note": "The maybehex2raw/maybehexstring law is false for printable hex strings such as \"ab\"; exact scope proved. The hexstring/hex2raw laws are fully proved below 2 GiB."
  },
  {
   "property": "C18",
   "status": "proved",
   "theorems": [
    "Verif.Str.mysqlEscape_safe",
    "Verif.Str.mysqlEscapeS_safe",
    "Verif.Str.mysqlEscape_chars",
    "Verif.Str.escapeUnprintable_lossless",
    "Verif.Str.escapeUnprintable_printable"
   ],
   "note": "The std::string overload of mysqlEscape below 4 GiB. isprint on negative char taken as glibc answers."
  },
  {
   "property": "C19",
   "status": "partial",
   "theorems": [
    "Verif.Str.csv_field_iff_partial",
    "Verif.Str.csv_row_partial",
    "Verif.Str.csv_bug"
   ],
   "note": "False as stated: strings with a quote or line break but no comma are not quoted. Exact scope (iff) proved, strings below 1 GiB."
  },
  {
   "property": "C20",
   "status": "partial",
   "theorems": [
    "Verif.Str.ipv4_round_trip_partial",
    "Verif.Str.ipv4_broadcast_bug"
   ],
   "note": "False for 255.255.255.255 only."
  },
  {
   "property": "C21",
   "status": "proved",
   "theorems": [
    "Verif.BMH.find_first",
    "Verif.BMH.matches_iff",
    "Verif.BMH.first_unique",
    "Verif.BMH.empty_needle_aborts"
   ],
   "note": "every needle and haystack"
  },
  {
   "property": "C22",
   "status": "proved",
   "theorems": [
    "Verif.Interp.search_is_lower_bound",
    "Verif.Interp.interpolation_search_sorted",
    "Verif.Interp.no_steps_never_ends"
   ],
   "note": "Every partitioned range, every in-range estimator, all step counts not both zero; both zero never ends."
  },
  {
   "property": "C23",
   "status": "proved",
   "theorems": [
    "Verif.Atomic.atomic_linearizable",
    "Verif.Atomic.atomic_real_time",
    "Verif.Atomic.no_lost_increment",
    "Verif.Atomic.alone_finishes"
   ],
   "note": "Any programs of any number of threads, any schedule of single indivisible instructions; memory ordering of other data is not modelled."
  },
  {
   "property": "C24",
   "status": "partial",
   "theorems": [
    "Verif.CStr.interning_partial",
    "Verif.CStr.compare_partial",
    "Verif.CStr.compare_no_zero_partial",
    "Verif.CStr.compare_not_equality",
    "Verif.CStr.huge_is_empty"
   ],
   "note": "Interning down to the bytes of the pool, over the model of the hash table: == iff equal texts, texts never change. compare()==0 differs from == for texts with zero bytes (witness), and std::strings of 4 GiB are cut (witness). Up to 283301878 strings."
  },
  {
   "property": "C25",
   "status": "proved",
   "theorems": [
    "Verif.StrId.stringId_numbers",
    "Verif.StrId.stringId_round_trip",
    "Verif.StrId.stringId_injective"
   ],
   "note": "On top of the model of the hash table, for any hash of strings. Up to 283301878 calls, the most strings the tables can take."
  },
  {
   "property": "C26",
   "status": "proved",
   "theorems": [
    "Verif.Tuple.anyTuple_eq_iff",
    "Verif.Tuple.anyTuple_hash",
    "Verif.Tuple.anyTuple_order",
    "Verif.Tuple.anyTuple_any_last",
    "Verif.Tuple.anyPair_tuples",
    "Verif.Tuple.representations_agree",
    "Verif.Tuple.tuple_hash",
    "Verif.Tuple.assign_view"
   ],
   "note": "Tuples of any length over any field type whose operations are consistent."
  },
  {
   "property": "C27",
   "status": "proved",
   "theorems": [
    "Verif.Cube.cube_meets_spec",
    "Verif.Cube.cube_totals"
   ],
   "note": "Entries that the optional function rejects are left out; its default rejects tuples without wildcard. Holds while the tables fit the prime list."
  },
  {
   "property": "C28",
   "status": "proved",
   "theorems": [
    "Verif.Cube.walkZeros_all_combinations",
    "Verif.Cube.cube_meets_spec",
    "Verif.Cube.zeroCube_columns_partial"
   ],
   "note": "The order of the calls is that of the hash sets; callbacks that change the statistic are not modelled."
  },
  {
   "property": "C29",
   "status": "proved",
   "theorems": [
    "Verif.Quantile.sketch_weight"
   ],
   "note": "For every history of construction (with n<=k, see C88), adds, merges, resets and queries."
  },
  {
   "property": "C30",
   "status": "proved",
   "theorems": [
    "Verif.Quantile.quantile_exact",
    "Verif.Quantile.quantile_error",
    "Verif.Quantile.quantile_empty"
   ],
   "note": "Exact m-th smallest while the buffers suffice; with the paper's bound the position is within D*eps of the one asked for, D-1 the depth of merges. Value comparisons in any linear order (no NaN). Double arithmetic by an arbitrary round-to-nearest without exponent limits."
  },
  {
   "property": "C31",
   "status": "proved",
   "theorems": [
    "Verif.Stats.stats_values",
    "Verif.Stats.stats_grouping",
    "Verif.Stats.stats_merge",
    "Verif.Stats.stats_moments",
    "Verif.Stats.stats_ranges"
   ],
   "note": "Exact arithmetic, as the property says; doubles are C91."
  },
  {
   "property": "C32",
   "status": "partial",
   "theorems": [
    "Verif.Histo.histogram_counts_partial",
    "Verif.Histo.histogram_grow_false",
    "Verif.Histo.histogram_grow_ub",
    "Verif.Histo.histogram_empty_range"
   ],
   "note": "Proved in exact arithmetic for all fixed and scalable histograms, and for growable ones that meet values up to 10^8 bins away; false of growable ones beyond (32-bit number of bins wraps) and of scalable ones with an empty range (endless loop). Doubles are C92."
  },
  {
   "property": "C33",
   "status": "partial",
   "theorems": [
    "Verif.Histo.percentile_rank_partial",
    "Verif.Histo.percentile_any_partial",
    "Verif.Histo.percentile_monotone_partial",
    "Verif.Histo.percentile_zero_false",
    "Verif.Histo.percentile_monotone_false",
    "Verif.Histo.percentile_safe_partial"
   ],
   "note": "Proved for p > 0 up to the tolerance of Double::gt in exact arithmetic, and that no access leaves the bins with doubles; percentile(0) with an empty first bin and monotonicity within the tolerance are false."
  },
  {
   "property": "C34",
   "status": "partial",
   "theorems": [
    "Verif.Histo.accum_sums_partial",
    "Verif.Histo.accum_odd_false"
   ],
   "note": "Proved in exact arithmetic for even numbers of bins; for every odd number the constructor writes past the array of values."
  },
  {
   "property": "C35",
   "status": "proved",
   "theorems": [
    "Verif.Histo.group_routes",
    "Verif.Histo.group_counts"
   ],
   "note": "Routing for every kind of sub-histogram and rounding; the complete count for uniform sub-histograms in exact arithmetic (their bins in doubles are C92). NaN is not modelled."
  },
  {
   "property": "C36",
   "status": "partial",
   "theorems": [
    "Verif.Series.sequence_buckets_partial",
    "Verif.Series.sequence_max_false",
    "Verif.Series.sequence_overflow_false",
    "Verif.Series.sequence_mode_fixed"
   ],
   "note": "buckets proved while the int points_per_bucket does not overflow; false of MergeMax with negative values (starts at 0) and after limit*2^30 points"
  },
  {
   "property": "C37",
   "status": "partial",
   "theorems": [
    "Verif.Series.series_autocovariance_partial",
    "Verif.Series.series_lag_false",
    "Verif.Series.series_empty",
    "Verif.Series.series_max_false"
   ],
   "note": "exact arithmetic, lag below the number of values; false for larger lags (unsigned wrap) and max_lag = 2^32-1"
  },
  {
   "property": "C38",
   "status": "partial",
   "theorems": [
    "Verif.Series.series_group_partial",
    "Verif.Series.series_group_reset_false",
    "Verif.Series.series_group_empty_ub",
    "Verif.Series.series_group_order",
    "Verif.Series.series_group_zero_false",
    "Verif.Series.series_group_double_false"
   ],
   "note": "exact arithmetic, positive interval; false: reset keeps the overall statistics, an empty interval is a null reference, interval <= 0 or absorbed in doubles never ends"
  },
  {
   "property": "C39",
   "status": "proved",
   "theorems": [
    "Verif.Lsq.lsq_defined",
    "Verif.Lsq.lsq_minimal",
    "Verif.Lsq.lsq_points",
    "Verif.Lsq.lsq_vertical_false",
    "Verif.Lsq.lsq_abort_false"
   ],
   "note": "exact arithmetic as stated; counterexamples in doubles kept beside"
  },
  {
   "property": "C40",
   "status": "partial",
   "theorems": [
    "Verif.Matrix.gauss_solutions_partial",
    "Verif.Matrix.gauss_identity",
    "Verif.Matrix.gauss_unique",
    "Verif.Matrix.gauss_rank_partial",
    "Verif.Matrix.gauss_default",
    "Verif.Matrix.gauss_tolerance_false",
    "Verif.Matrix.gauss_zero_ub",
    "Verif.Matrix.gauss_past_ub"
   ],
   "note": "proved for 1 <= maxcolumn <= columns in exact arithmetic (the identity block also in doubles); false: eliminating no columns is undefined, and the absolute tolerance reports regular systems as singular"
  },
  {
   "property": "C41",
   "status": "proved",
   "theorems": [
    "Verif.Histo.compare_trichotomy",
    "Verif.Histo.compare_symmetric",
    "Verif.Histo.compare_meaning",
    "Verif.Histo.compare_zero_tolerance"
   ],
   "note": "For any positive tolerance; setEpsilonBits(1075 or more) makes it 0 and then it is false. Overflow and NaN are not modelled."
  },
  {
   "property": "C42",
   "status": "proved",
   "theorems": [
    "Verif.Clock.micro_round_trip",
    "Verif.Clock.nano_round_trip",
    "Verif.Clock.micro_is_ceiling",
    "Verif.Clock.nano_is_ceiling",
    "Verif.Clock.extraction_exact"
   ],
   "note": "Every value, every round-to-nearest of the doubles in between."
  },
  {
   "property": "C43",
   "status": "partial",
   "theorems": [
    "Verif.Clock.secondsToTfrac_partial",
    "Verif.Clock.secondsToTfrac_bug",
    "Verif.Clock.secondsToTfrac_range",
    "Verif.Clock.tfracOffset_partial",
    "Verif.Clock.tfracOffset_bug"
   ],
   "note": "False in the last half unit before each whole second (undefined conversion) and for the offset -2^31 s (signed overflow); proved elsewhere."
  },
  {
   "property": "C44",
   "status": "proved",
   "theorems": [
    "Verif.Rng.mt_follows_recurrence",
    "Verif.Rng.mt_follows_recurrence_from_array"
   ],
   "note": "In-place reload, seeding and tempering modelled word by word; the sequence is characterised (and unique) by the published recurrence."
  },
  {
   "property": "C45",
   "status": "proved",
   "theorems": [
    "Verif.Rng.temper_bijective",
    "Verif.Rng.temper_separates"
   ],
   "note": ""
  },
  {
   "property": "C46",
   "status": "proved",
   "theorems": [
    "Verif.Rng.shuffle_permutes",
    "Verif.Rng.shuffle_reaches_each_order_once",
    "Verif.Rng.randInt_is_choice"
   ],
   "note": "The slight bias of randInt(max) itself is documented and not part of the claim. Ranges below 2^31 elements."
  },
  {
   "property": "C47",
   "status": "proved",
   "theorems": [
    "Verif.Rng.randIntUnbiased_uniform",
    "Verif.Rng.randIntUnbiased_in_range"
   ],
   "note": "UINT32_MAX as in the standard headers; the header's own fallback is C72. max = 0 divides by zero."
  },
  {
   "property": "C48",
   "status": "partial",
   "theorems": [
    "Verif.Rng.reseed_reproducible_partial",
    "Verif.Rng.reseed_reproducible_when_drained_partial",
    "Verif.Rng.mt_seed_forgets",
    "Verif.Rng.reseed_not_reproducible"
   ],
   "note": "False of randBoolFast, which keeps up to 63 old bits across init; proved for every other call, and for all calls when no old bits are left."
  },
  {
   "property": "C49",
   "status": "partial",
   "theorems": [
    "Verif.Spin.atomic_spin_partial",
    "Verif.Spin.atomic_spin_undefined",
    "Verif.Spin.atomic_spin_two_holders",
    "Verif.Spin.spin_mutual_exclusion",
    "Verif.Spin.spin_progress"
   ],
   "note": "False for AtomicSpinLock: 2^31 tries while the lock is held overflow, and where the machine wraps 2^32 tries let a second thread in. Proved for it up to 2^31 tries per hold, and for the other locks without bound on waiting."
  },
  {
   "property": "C50",
   "status": "partial",
   "theorems": [
    "Verif.LockOrd.no_deadlock_partial",
    "Verif.LockOrd.someone_can_move_partial",
    "Verif.LockOrd.out_of_order_aborts_partial",
    "Verif.LockOrd.all_released_partial",
    "Verif.LockOrd.unlocked_twice_deadlock"
   ],
   "note": "False when a scoped unlock is made of a lock that is already unlocked (witness). Proved for all programs that do not do that."
  },
  {
   "property": "C51",
   "status": "partial",
   "theorems": [
    "Verif.Log.log_level_partial",
    "Verif.Log.log_level_actual",
    "Verif.Log.log_order_false",
    "Verif.Log.log_truncate_false",
    "Verif.Log.log_category_id",
    "Verif.Log.log_id_order",
    "Verif.Log.log_defined",
    "Verif.Log.log_warning"
   ],
   "note": "False as stated: among patterns set before a category's first use the first match wins, afterwards the last one does (log_order_false). Proved: the exact rule for every call sequence, the stated property when the patterns matching before the first use agree, that Category ids stay valid, and when the calls abort."
  },
  {
   "property": "C52",
   "status": "proved",
   "theorems": [
    "Verif.Wrap.wordWrap_spec",
    "Verif.Wrap.wordWrap_breaks",
    "Verif.Wrap.wordWrap_fits",
    "Verif.Wrap.wordWrap_idem",
    "Verif.Wrap.wordWrap_narrow_false"
   ],
   "note": "For every width and every text of fewer than 10/11 * 2^32 bytes (positions are 32-bit). wordWrap_narrow_false: COLUMNS below 10 is not honoured."
  },
  {
   "property": "C53",
   "status": "proved",
   "theorems": [
    "Verif.HashFn.mix_bijective"
   ],
   "note": ""
  },
  {
   "property": "C54",
   "status": "proved",
   "theorems": [
    "Verif.HashFn.bobJenkinsHash_spec",
    "Verif.HashFn.bobJenkinsHash_in_bounds",
    "Verif.HashFn.mixULL_halves"
   ],
   "note": "in bounds for every length; equals the block specification below 2^32 bytes"
  },
  {
   "property": "C55",
   "status": "proved",
   "theorems": [
    "Verif.Stl.rangeEqual_iff_same",
    "Verif.Stl.rangeEqual_eq"
   ],
   "note": "Any two containers, any valid ranges, any inequality operator."
  },
  {
   "property": "C56",
   "status": "partial",
   "theorems": [
    "Verif.Cond.deadline_partial",
    "Verif.Cond.deadline_not_nearest",
    "Verif.Cond.deadline_undefined",
    "Verif.Cond.deadline_negative"
   ],
   "note": "The deadline is normalised and within half a nanosecond plus 2^-23 ns of the request. Not the nearest nanosecond in general: a witness is proved. Durations of 2^63 seconds or more are undefined."
  },
  {
   "property": "C57",
   "status": "partial",
   "theorems": [
    "Verif.Series.rw_counts_partial",
    "Verif.Series.rw_groups_partial",
    "Verif.Series.rw_groups_false",
    "Verif.Series.rw_stale_false",
    "Verif.Series.rw_null_ub"
   ],
   "note": "proved for Stats or null components, and for three groups when the first call is a read or a write; false: three groups abort after add(All) first, and keep counting what All should forget"
  },
  {
   "property": "C58",
   "status": "partial",
   "theorems": [
    "Verif.Deque.deque_self_push_full_ub",
    "Verif.Deque.deque_self_push_bug",
    "Verif.Deque.deque_self_push_partial"
   ],
   "note": "False as stated: undefined behaviour when full; correct with spare capacity."
  },
  {
   "property": "C59",
   "status": "proved",
   "theorems": [
    "Verif.Str.prefixequal_iff",
    "Verif.Str.suffixequal_iff"
   ],
   "note": ""
  },
  {
   "property": "C60",
   "status": "proved",
   "theorems": [
    "Verif.Base64.encodeBackward_value",
    "Verif.Base64.encodeBackward_underrun",
    "Verif.Base64.encodeBackward_default_digits"
   ],
   "note": "The header does not state the precondition 6*digits <= 8*size; without it the read before the buffer is proved to happen."
  },
  {
   "property": "C61",
   "status": "proved",
   "theorems": [
    "Verif.Hash.randomlookup_spec"
   ],
   "note": "all reachable states and random numbers"
  },
  {
   "property": "C62",
   "status": "partial",
   "theorems": [
    "Verif.PQ.selfVerify_rejects_ties",
    "Verif.PQ.selfVerify_partial",
    "Verif.PQ.selfVerify_exact"
   ],
   "note": "False for std::less_equal (the default) with two equal elements; proved for strict comparators."
  },
  {
   "property": "C63",
   "status": "partial",
   "theorems": [
    "Verif.PQ.default_room_zero_overflows",
    "Verif.PQ.default_room_partial"
   ],
   "note": "False for every element type larger than 1024 bytes; proved for the others."
  },
  {
   "property": "C64",
   "status": "partial",
   "theorems": [
    "Verif.PQ.replaceTop_own_top_loses",
    "Verif.PQ.push_own_top_dangles",
    "Verif.PQ.replaceTop_own_top_partial"
   ],
   "note": "False: witnesses for both calls; proved for replaceTop under strict comparators."
  },
  {
   "property": "C65",
   "status": "partial",
   "theorems": [
    "Verif.BB.room_not_honoured_when_copied",
    "Verif.BB.room_honoured_partial"
   ],
   "note": "false for copied buffers (witness); proved for unique ones"
  },
  {
   "property": "C66",
   "status": "partial",
   "theorems": [
    "Verif.BB.self_append_and_assign",
    "Verif.BB.self_append_partial"
   ],
   "note": "false (witnesses); self-append proved with room or when shared"
  },
  {
   "property": "C67",
   "status": "partial",
   "theorems": [
    "Verif.BB.stream_into_copied_buffer_overflows",
    "Verif.BB.stream_appends_partial"
   ],
   "note": "false for copied buffers with room (heap overflow); proved for unique buffers"
  },
  {
   "property": "C68",
   "status": "partial",
   "theorems": [
    "Verif.HashFn.mix3_not_injective",
    "Verif.HashFn.mix3_distinct_partial"
   ],
   "note": "false: collisions in every argument position"
  },
  {
   "property": "C69",
   "status": "proved",
   "theorems": [
    "Verif.HashFn.short_keys_distinct",
    "Verif.HashFn.one_block_distinct"
   ],
   "note": ""
  },
  {
   "property": "C70",
   "status": "partial",
   "theorems": [
    "Verif.HashFn.long_buffers_are_cut",
    "Verif.HashFn.four_gigabytes_hash_alike",
    "Verif.HashFn.every_byte_counts_partial",
    "Verif.HashFn.tail_distinct"
   ],
   "note": "false from 2^32 bytes on; below, changing any byte is proved to change the state"
  },
  {
   "property": "C71",
   "status": "proved",
   "theorems": [
    "Verif.Rng.mt_never_all_zero",
    "Verif.Rng.mt_array_never_all_zero",
    "Verif.Rng.initArray_empty"
   ],
   "note": "An empty seed array is undefined behaviour and shown to be."
  },
  {
   "property": "C72",
   "status": "partial",
   "theorems": [
    "Verif.Rng.fallback_limit_partial",
    "Verif.Rng.fallback_limit_is_biased"
   ],
   "note": "The fallback 0xFFFFFFF lacks one digit: biased for max above it; uniform up to it."
  },
  {
   "property": "C73",
   "status": "partial",
   "theorems": [
    "Verif.Rng.micro_two_term_partial",
    "Verif.Rng.micro_not_xorshift128"
   ],
   "note": "x=y; y=z; x=w loses the shift; the code is a two-term recurrence with 64 bits of state."
  },
  {
   "property": "C74",
   "status": "partial",
   "theorems": [
    "Verif.Rng.mars_sequence_partial",
    "Verif.Rng.mars_init_partial",
    "Verif.Rng.mars_not_documented_step"
   ],
   "note": "The step differs exactly when A X + C is a positive multiple of 2^32-1, and the carry can reach A; everything else proved for all sequences."
  },
  {
   "property": "C75",
   "status": "partial",
   "theorems": [
    "Verif.Rng.mars_reseed_partial",
    "Verif.Rng.mars_reseed_not_reproducible"
   ],
   "note": "The index i is neither initialised nor reset."
  },
  {
   "property": "C76",
   "status": "proved",
   "theorems": [
    "Verif.HashFn.bobJenkinsHash_published",
    "Verif.HashFn.mix_is_published"
   ],
   "note": "lookup2 is written over numbers, without definitions of the model."
  },
  {
   "property": "C77",
   "status": "partial",
   "theorems": [
    "Verif.Interp.default_search_partial",
    "Verif.Interp.default_search_overflow"
   ],
   "note": "False when last - first exceeds the signed type: undefined behaviour (default_search_overflow). Holds when all differences fit and the range has at most 2^53 elements, for every round-to-nearest."
  },
  {
   "property": "C78",
   "status": "proved",
   "theorems": [
    "Verif.Clock.readings_monotone",
    "Verif.Clock.readings_defined",
    "Verif.Clock.calibrates_1000"
   ],
   "note": "Calibration results and counter readings are arbitrary inputs."
  },
  {
   "property": "C79",
   "status": "partial",
   "theorems": [
    "Verif.Clock.useTod_partial",
    "Verif.Clock.useTod_uncalibrated",
    "Verif.Clock.slow_partial",
    "Verif.Clock.slow_bug"
   ],
   "note": "False: AUFSO_UseTod without calibrateClock() is undefined though isCalibrated() holds; slow modes read 1970 until the cycle counter passes the interval. Proved otherwise."
  },
  {
   "property": "C80",
   "status": "proved",
   "theorems": [
    "Verif.Clock.tfracToDouble_nearest",
    "Verif.Clock.tfracToDouble_order"
   ],
   "note": ""
  },
  {
   "property": "C81",
   "status": "proved",
   "theorems": [
    "Verif.Rng.randDoubleOpen_range",
    "Verif.Rng.randDoubleClosed_range",
    "Verif.Rng.randDoubleOpen53_range",
    "Verif.Rng.randDoubleClosed53_range",
    "Verif.Rng.doubles_of_words"
   ],
   "note": ""
  },
  {
   "property": "C82",
   "status": "partial",
   "theorems": [
    "Verif.Atomic.unsigned_defined_partial",
    "Verif.Atomic.signed_fetch_partial",
    "Verif.Atomic.signed_undefined",
    "Verif.Atomic.signed_exact_partial"
   ],
   "note": "False for signed T: prefix ++ at the largest value and fetch_sub of the smallest operand are undefined. Proved: unsigned T always, the signed fetch functions that do no arithmetic of their own."
  },
  {
   "property": "C83",
   "status": "proved",
   "theorems": [
    "Verif.Spin.spin_mutual_exclusion",
    "Verif.Spin.spin_progress"
   ],
   "note": "Up to 2^31 threads, every schedule."
  },
  {
   "property": "C84",
   "status": "partial",
   "theorems": [
    "Verif.CStr.short_always_partial",
    "Verif.CStr.long_first_aborts",
    "Verif.CStr.long_later_works"
   ],
   "note": "True up to 8183 bytes. False beyond: the same text aborts or works depending on the history."
  },
  {
   "property": "C85",
   "status": "partial",
   "theorems": [
    "Verif.CStr.order_partial",
    "Verif.CStr.compare_not_equality"
   ],
   "note": "True for texts without zero bytes; false otherwise, by a witness of three texts."
  },
  {
   "property": "C86",
   "status": "partial",
   "theorems": [
    "Verif.Cube.zeroCube_columns_partial",
    "Verif.Cube.zeroCube_emptied_column",
    "Verif.Cube.emptied_column_not_any"
   ],
   "note": "True for filled sets. The claim about cleared sets is false: nothing is added."
  },
  {
   "property": "C87",
   "status": "proved",
   "theorems": [
    "Verif.Cube.cube_objects_freed",
    "Verif.Cube.cube_meets_spec"
   ],
   "note": "Holds while the tables fit the prime list."
  },
  {
   "property": "C88",
   "status": "partial",
   "theorems": [
    "Verif.Quantile.default_sketch_safe_partial",
    "Verif.Quantile.sketch_safe_partial",
    "Verif.Quantile.collapse_pos_overflow"
   ],
   "note": "False: StatsQuantile(0.1, 5000) has 13 buffers of 11 values, and collapse_pos has 11 entries. Proved for sizes with nbuffers <= buffer_size, which include the default arguments."
  },
  {
   "property": "C89",
   "status": "partial",
   "theorems": [
    "Verif.Quantile.merge_empty_partial",
    "Verif.Quantile.merge_empty_ub"
   ],
   "note": "False for an empty sketch with lazy allocation, the default: all_buffers[-1] is read. Proved for one that allocated its buffers."
  },
  {
   "property": "C90",
   "status": "partial",
   "theorems": [
    "Verif.Quantile.documented_error",
    "Verif.Quantile.documented_error_partial"
   ],
   "note": "Proved in full for 2*eps*N <= 1.5e9 with 2e-15 added to the error on the lower side (the code subtracts 1e-15) and eps per level of merges; above that limit the search of the constructor may stop at height 40, and twice the error is proved."
  },
  {
   "property": "C91",
   "status": "partial",
   "theorems": [
    "Verif.Stats.stats_double_partial",
    "Verif.Stats.stats_integer_partial",
    "Verif.Stats.stats_double_false"
   ],
   "note": "Count, min, max, an error bound of the sum, and exactness of small integers are proved; the order of mean and max and the sign of the variance are false (0.1 added three times)."
  },
  {
   "property": "C92",
   "status": "partial",
   "theorems": [
    "Verif.Histo.histogram_double_partial",
    "Verif.Histo.histogram_integers_partial",
    "Verif.Histo.histogram_double_false"
   ],
   "note": "False: 2 bins from -3 to 1 and the largest double below 1, whatever the rounding of ties. Proved: at most one bin off, right bin away from edges, and exact for integers."
  },
  {
   "property": "C93",
   "status": "partial",
   "theorems": [
    "Verif.Series.correlated_negative_false",
    "Verif.Series.correlated_monotone_partial"
   ],
   "note": "false: negative correlation is never reported; one-sided part proved"
  },
  {
   "property": "C94",
   "status": "proved",
   "theorems": [
    "Verif.Ema.ema_rates",
    "Verif.Ema.ema_average",
    "Verif.Ema.ema_range",
    "Verif.Ema.ema_step",
    "Verif.Ema.ema_extremes",
    "Verif.Ema.ema_double_false",
    "Verif.Ema.ema_reset_false"
   ],
   "note": "exact arithmetic; counterexample in doubles kept beside"
  },
  {
   "property": "C95",
   "status": "proved",
   "theorems": [
    "Verif.Maker.maker_longest",
    "Verif.Maker.maker_history"
   ],
   "note": "names below 2^31 characters"
  },
  {
   "property": "C96",
   "status": "partial",
   "theorems": [
    "Verif.Num.stringToInteger_signed",
    "Verif.Num.stringToInteger_unsigned_partial",
    "Verif.Num.stringToInteger_onto",
    "Verif.Num.stringToInteger_defined",
    "Verif.Num.stringToInteger_radix_partial",
    "Verif.Num.stringToInteger_hex_partial",
    "Verif.Num.stringToInteger_base",
    "Verif.Num.stringToInteger_negative_false",
    "Verif.Num.stringToInteger_char_false",
    "Verif.Num.stringToInteger_trailing_false"
   ],
   "note": "Proved for signed types in base 10. False for unsigned types (negative numbers wrap), for 8-bit types (converted as characters) and for bases 16 and 8 (trailing characters ignored); each with a witness and the part that holds. stringToInteger_radix_partial says exactly what bases 16 and 8 accept and return. Rests on the modelled meaning of lexical_cast and istream extraction."
  },
  {
   "property": "C97",
   "status": "proved",
   "theorems": [
    "Verif.Log.parse_settings",
    "Verif.Log.parse_truncate_false",
    "Verif.Log.parse_empty_false"
   ],
   "note": "For names without ',' and '=' and decimal levels below 2^32. Also: levels above 255 are cut to 8 bits, and an empty string sets the category with the empty name."
  },
  {
   "property": "C98",
   "status": "partial",
   "theorems": [
    "Verif.Hash.scan_sees_all_partial",
    "Verif.Hash.scan_sound_partial",
    "Verif.Hash.scan_count_partial",
    "Verif.Hash.chain_scan_partial",
    "Verif.Hash.chain_scan_removes",
    "Verif.Hash.scan_finishes_partial",
    "Verif.Hash.atEndOfChain_spec_partial",
    "Verif.Hash.scan_stuck",
    "Verif.Hash.scan_growth_false",
    "Verif.Hash.scan_shrink_false",
    "Verif.Hash.reset_begin_partial",
    "Verif.Hash.reset_empty_false"
   ],
   "note": "Proved for every scan during which the number of chains does not change, unconditionally when the calls in between only look and remove. False when an add grows the table (scan_growth_false: an entry is missed, another shown twice) or clear and reserve shrink it (scan_shrink_false); reset() is begin() only on a table that is not empty."
  },
  {
   "property": "C99",
   "status": "partial",
   "theorems": [
    "Verif.MathFn.isDoubleIntegral_iff",
    "Verif.MathFn.isDoubleIntegral_size",
    "Verif.MathFn.isDoubleIntegral_nan",
    "Verif.MathFn.accepted_converts",
    "Verif.MathFn.convertDouble_eq",
    "Verif.MathFn.convertDouble_not_nearest"
   ],
   "note": "The acceptance test is characterised exactly (ties-to-even rounding): near an integer, at most 2^49 in size, below LONG_MAX for 4 bytes. Accepted finite doubles are converted to the right integer. False as stated: NaN is accepted; LONG_MAX itself is refused for a 4-byte long; the conversion is one too far from zero for the two doubles next to a half and for all odd 53-bit integers, proved to be the only such doubles."
  },
  {
   "property": "C100",
   "status": "partial",
   "theorems": [
    "Verif.MathFn.inverseErf_partial",
    "Verif.MathFn.inverseErf_outside",
    "Verif.MathFn.inverseErf_negative",
    "Verif.MathFn.inverseErf_hangs",
    "Verif.MathFn.inverseUnitNormalCDF_hangs",
    "Verif.MathFn.newton_ends_partial",
    "Verif.MathFn.newton_ends_near_partial"
   ],
   "note": "Any result for 0 <= y < 1 inverts erf up to 1.04e-14. False for every negative y: the loop's bounds are swapped, so the call never returns, whatever erf is; likewise inverseUnitNormalCDF below the median. In real arithmetic with the true erf the loop ends for every 0 < y < 1 from guesses between 0 and the solution or near above it, in particular within a thousandth of solutions in [0.001, 100]. Missing: termination with rounding, and the accuracy of the guess formula."
  },
  {
   "property": "C101",
   "status": "partial",
   "theorems": [
    "Verif.Assert.invariant_outcome",
    "Verif.Assert.hooks_in_order",
    "Verif.Assert.throw_in_before",
    "Verif.Assert.throw_in_after",
    "Verif.Assert.failing_hook_dies",
    "Verif.Assert.message_throws",
    "Verif.Assert.history_known",
    "Verif.Assert.history_hooks_in_order",
    "Verif.Assert.failed_levels",
    "Verif.Assert.throw_std_called_twice",
    "Verif.Assert.registering_hook_undefined"
   ],
   "note": "Order, counts, outcomes and recovery for all hooks, texts and histories of one thread. False as stated: a hook that throws a std::exception other than AssertBoostException is called twice, the second time with another text; a hook that changes the list being gone through is undefined. Several threads failing at once: C204."
  },
  {
   "property": "C102",
   "status": "partial",
   "theorems": [
    "Verif.Assert.Printf.stringPrintF_partial",
    "Verif.Assert.Printf.stringPrintF_eq",
    "Verif.Assert.Printf.stringPrintF_long_false"
   ],
   "note": "Exact for texts of up to 1023 characters. Every longer text comes out as its first 1023 characters and NULs up to its length. What printf makes of a format is a parameter."
  },
  {
   "property": "C103",
   "status": "partial",
   "theorems": [
    "Verif.Log.Init.init_once_partial",
    "Verif.Log.Init.init_at_most_one",
    "Verif.Log.Init.init_progress",
    "Verif.Log.Init.init_never_back",
    "Verif.Log.Init.init_early_false",
    "Verif.Log.Init.init_written_partial"
   ],
   "note": "Holds for all schedules where stores become visible in program order. The mutex operations in the code do not force that: an order they allow lets a thread through with an incomplete object. Initialisation of the function's static mutex is assumed."
  },
  {
   "property": "C104",
   "status": "partial",
   "theorems": [
    "Verif.Log.Xml.parseXML_sets",
    "Verif.Log.Xml.parseXML_only_partial",
    "Verif.Log.Xml.parseXML_255_false"
   ],
   "note": "Levels 0 to 254 and the default. False as stated: 255 aborts, and negative numbers are read modulo 2^32. XML parsing is libxml's and is not modelled."
  },
  {
   "property": "C105",
   "status": "partial",
   "theorems": [
    "Verif.LogHisto.log_counts_partial",
    "Verif.LogHisto.log_illegal",
    "Verif.LogHisto.log_total_any",
    "Verif.LogHisto.log_narrow_false",
    "Verif.LogHisto.log_rescales_false",
    "Verif.LogHisto.log_double_bin",
    "Verif.LogHisto.log_double_partial"
   ],
   "note": "Bins, edges, range and totals over the reals for all histories (log_counts_partial); in any arithmetic each value is counted once (log_total_any). A fixed histogram must not meet values 2^32 bins away: false without (log_narrow_false). With rounding to 53 bits and a logarithm right to the last bit, histograms that do not scale count each value in its bin unless it is within about n*2^-50 bins of an edge, and then nearby (log_double_partial); scaling with doubles is not covered. Equal bounds are not modelled. numRescales and isScalable do not report scaling (log_rescales_false)."
  },
  {
   "property": "C106",
   "status": "partial",
   "theorems": [
    "Verif.LogHisto.log_percentile_partial",
    "Verif.LogHisto.log_percentile_monotone_partial",
    "Verif.LogHisto.log_percentile_zero_partial",
    "Verif.LogHisto.log_percentile_zero_false",
    "Verif.LogHisto.log_percentile_safe",
    "Verif.LogHisto.log_mode",
    "Verif.LogHisto.log_center_partial",
    "Verif.Histo.mode_partial"
   ],
   "note": "Rank and monotonicity in exact arithmetic for p above 0; at 0 the result is 0 if the first bin is empty (log_percentile_zero_false). In any monotone arithmetic the percentile stays within the bins (log_percentile_safe), and the mode is the center of the last of the fullest bins (log_mode)."
  },
  {
   "property": "C107",
   "status": "partial",
   "theorems": [
    "Verif.LogHisto.log_accum_partial",
    "Verif.LogHisto.log_accum_double_partial"
   ],
   "note": "Counts and sums in exact arithmetic for all histories, for indexes less than 2^32 bins away. With rounding: counts agree with an assignment of bins that is right away from the edges, and the sums are within the error of adding so many doubles (log_accum_double_partial)."
  },
  {
   "property": "C108",
   "status": "proved",
   "theorems": [
    "Verif.Thread.timed_lock",
    "Verif.Thread.timed_sleeps",
    "Verif.Thread.timed_ends",
    "Verif.Thread.clock_replacement"
   ],
   "note": "For normalised times; results of trylock and clock readings are arbitrary inputs. Ends when the clock advances between tries."
  },
  {
   "property": "C109",
   "status": "proved",
   "theorems": [
    "Verif.Thread.Mutex.mutex_contention",
    "Verif.Thread.Mutex.mutex_exclusion",
    "Verif.Thread.Mutex.mutex_relock_checked",
    "Verif.Thread.Mutex.mutex_relock_plain",
    "Verif.Thread.Mutex.mutex_unlock_free"
   ],
   "note": "The system's mutex is assumed; the counter is read and written in separate steps."
  },
  {
   "property": "C110",
   "status": "partial",
   "theorems": [
    "Verif.Thread.Life.thread_history",
    "Verif.Thread.Life.thread_misuse",
    "Verif.Thread.Life.thread_destroy",
    "Verif.Thread.Life.thread_restart_false",
    "Verif.Thread.Life.thread_destroy_ub"
   ],
   "note": "start, join and results hold for every schedule; starting again is false for detached threads (thread_restart_false), and destruction before run is called is undefined (thread_destroy_ub)."
  },
  {
   "property": "C111",
   "status": "partial",
   "theorems": [
    "Verif.Thread.Life.signals_partial",
    "Verif.Thread.Life.signals_false"
   ],
   "note": "Holds when the thread is created; false when start fails with an exception (signals_false)."
  },
  {
   "property": "C112",
   "status": "partial",
   "theorems": [
    "Verif.Thread.Cpus.ncpus_first_partial",
    "Verif.Thread.Cpus.ncpus_none",
    "Verif.Thread.Cpus.ncpus_cached",
    "Verif.Thread.Cpus.ncpus_negative_false"
   ],
   "note": "Holds for numbers below 2^31; from there on the answer is negative (ncpus_negative_false)."
  },
  {
   "property": "C113",
   "status": "proved",
   "theorems": [
    "Verif.Opt.options_value",
    "Verif.Opt.options_outcome",
    "Verif.Opt.options_config",
    "Verif.Opt.options_destroyed_ub",
    "Verif.Opt.options_comma_false",
    "Verif.Opt.options_twice",
    "Verif.Opt.options_hidden_config"
   ],
   "note": "boost::program_options modelled by what it recognises; options_outcome and options_config for options that are still there. The witnesses show why the preconditions are needed."
  },
  {
   "property": "C114",
   "status": "partial",
   "theorems": [
    "Verif.Posix.readN_returns_partial",
    "Verif.Posix.readN_small_partial",
    "Verif.Posix.readN_overflow_false",
    "Verif.Posix.read0_spec"
   ],
   "note": "When readN returns it returns what it should, it ends, and it does not overflow when no more than n bytes are left. False in general: each read() asks for n instead of what is left, so a short read followed by a full one writes past the buffer."
  },
  {
   "property": "C115",
   "status": "partial",
   "theorems": [
    "Verif.Posix.fseek64_set_partial",
    "Verif.Posix.fseek64_iff",
    "Verif.Posix.fseek64_false",
    "Verif.Posix.ftell64_spec",
    "Verif.Posix.ftell_fseek",
    "Verif.Posix.fopen64_modes"
   ],
   "note": "Holds for SEEK_SET with offsets other than -1, and exactly for the calls fseek64_iff names. False otherwise: the result of lseek is compared with the offset."
  },
  {
   "property": "C116",
   "status": "partial",
   "theorems": [
    "Verif.LogNormal.moment_spec",
    "Verif.LogNormal.logNormal_partial",
    "Verif.LogNormal.logNormal_false"
   ],
   "note": "The moments are proved for all parameters. The density is right when the logarithmic mean is not positive; for positive ones it is cut off below a millionth of that mean and its integral is less than 1. Real arithmetic."
  },
  {
   "property": "C117",
   "status": "partial",
   "theorems": [
    "Verif.LogNormal.solve2_partial",
    "Verif.LogNormal.solve2_false",
    "Verif.LogNormal.findZero_steps",
    "Verif.LogNormal.findZero_linear",
    "Verif.LogNormal.findZero_false",
    "Verif.LogNormal.solve_partial",
    "Verif.LogNormal.solve_false"
   ],
   "note": "Exactly what the solvers do is proved, and that linear systems with determinant at least a millionth are solved. False: small regular systems are called singular; a small step is taken for a zero; the tolerance of a thousandth is absolute, so distributions that cannot exist are \"found\" when the numbers are small. Real arithmetic."
  },
  {
   "property": "C118",
   "status": "partial",
   "theorems": [
    "Verif.LogNormal.normalRandomLimit_spec",
    "Verif.LogNormal.drawn_partial",
    "Verif.LogNormal.drawn_negative",
    "Verif.LogNormal.main_spec"
   ],
   "note": "The generator is proved right for all sequences although its condition is always true. The number printed is below the limit when the fitted sigma is positive, which is not shown of the solver. Without arguments main() is undefined."
  },
  {
   "property": "C119",
   "status": "proved",
   "theorems": [
    "Verif.Expand.expand_one",
    "Verif.Expand.expand_many",
    "Verif.Expand.expand_ends"
   ],
   "note": "Numbers are natural numbers of any size; perl computes exactly up to 2^53. Texts have no newlines."
  },
  {
   "property": "C120",
   "status": "proved",
   "theorems": [
    "Verif.Proc.process_life",
    "Verif.Proc.reports_honest",
    "Verif.Proc.wait_progress"
   ],
   "note": "Small-step machine; signals, eval and other reaping code are not modelled."
  },
  {
   "property": "C121",
   "status": "partial",
   "theorems": [
    "Verif.Proc.waitPid_status_partial",
    "Verif.Proc.quiet_waits_partial",
    "Verif.Proc.signalled_waits_partial",
    "Verif.Proc.waitPid_nested_false",
    "Verif.Proc.reused_pid_false",
    "Verif.Proc.stale_errno_false"
   ],
   "note": "True if exit functions do not wait, numbers are not used again during the call, and processes may be signalled; false otherwise, with witnesses."
  },
  {
   "property": "C122",
   "status": "partial",
   "theorems": [
    "Verif.FLock.exclusive_partial",
    "Verif.FLock.killed_exclusive_false",
    "Verif.FLock.foreign_script_false",
    "Verif.FLock.released",
    "Verif.FLock.script_end_releases"
   ],
   "note": "Exclusion for all histories among undisturbed runs, in both modes, and release of the lock. False in general: killing lintel-flock while its command runs (the descriptor is close-on-exec), and a script owned by another user. Not modelled: reuse of process ids, removal of the lock file, the instant between fork and exec."
  },
  {
   "property": "C123",
   "status": "partial",
   "theorems": [
    "Verif.FLock.exit_status",
    "Verif.FLock.gave_up",
    "Verif.FLock.exit_code_tells_false",
    "Verif.FLock.getLock_partial",
    "Verif.FLock.getLock_errors_false"
   ],
   "note": "Exit codes and waiting as stated, for all histories. False: with a waiting time a failing flock is taken for a held lock (perl's flock returns 0, not undef), so getLock never dies of it; exit code 1 means both no lock and a command that ended with 1."
  },
  {
   "property": "C124",
   "status": "partial",
   "theorems": [
    "Verif.Batch.local_sound",
    "Verif.Batch.local_complete",
    "Verif.Batch.local_returns",
    "Verif.Batch.local_noexec",
    "Verif.Batch.local_zero_false",
    "Verif.Batch.local_exit_false",
    "Verif.Batch.local_success_dies_false"
   ],
   "note": "Everything but the two parts that are false of the code: -j 0 dies instead of being refused, and the exit code is 0 when everything failed (witnesses)."
  },
  {
   "property": "C125",
   "status": "partial",
   "theorems": [
    "Verif.Batch.shuffle_perm",
    "Verif.Batch.shuffle_orders_false"
   ],
   "note": "The shuffle is a permutation for all random numbers; that all orders can come out is false (cyclic permutations only)."
  },
  {
   "property": "C126",
   "status": "proved",
   "theorems": [
    "Verif.Batch.jobs_divide",
    "Verif.Batch.batch_size"
   ],
   "note": ""
  },
  {
   "property": "C127",
   "status": "partial",
   "theorems": [
    "Verif.Batch.Files.files_whole_partial",
    "Verif.Batch.Files.missing_false",
    "Verif.Batch.Files.shared_dest_false",
    "Verif.Batch.Files.needs_build",
    "Verif.Batch.Files.changed_while_building_false"
   ],
   "note": "For distinct destinations; the stronger readings are false of the code (witnesses)."
  },
  {
   "property": "C128",
   "status": "partial",
   "theorems": [
    "Verif.Batch.Compress.rebuild_checked",
    "Verif.Batch.Compress.compress_preserves_partial",
    "Verif.Batch.Compress.compress_works",
    "Verif.Batch.Compress.compress_empty_fails",
    "Verif.Batch.Compress.compress_ifsmaller",
    "Verif.Batch.Compress.compress_always_builds",
    "Verif.Batch.Compress.compress_collision_false",
    "Verif.Batch.Compress.compress_corrupt_false",
    "Verif.Batch.Compress.compress_existing_false"
   ],
   "note": "One process at a time, sources with distinct destinations, contents defined as what the unpacker puts out; without these the claim is false (witnesses)."
  },
  {
   "property": "C129",
   "status": "partial",
   "theorems": [
    "Verif.Batch.Jobs.names_distinct",
    "Verif.Batch.Jobs.names_sorted",
    "Verif.Batch.Jobs.finished_not_rerun",
    "Verif.Batch.Jobs.jobs_spec",
    "Verif.Batch.Jobs.finished_rerun_false",
    "Verif.Batch.Jobs.documented_digits_false"
   ],
   "note": "All but the parts false of the code (witnesses)."
  },
  {
   "property": "C130",
   "status": "partial",
   "theorems": [
    "Verif.Batch.Jobs.read_lines",
    "Verif.Batch.Jobs.defines_partial",
    "Verif.Batch.Jobs.order_irrelevant_partial",
    "Verif.Batch.Jobs.define_order_false"
   ],
   "note": "For definitions that do not mention each other; false otherwise (witness)."
  },
  {
   "property": "C131",
   "status": "partial",
   "theorems": [
    "Verif.Batch.Jobs.output_whole",
    "Verif.Batch.Jobs.output_alone_partial",
    "Verif.Batch.Jobs.output_replaced_false"
   ],
   "note": "That an output never changes is false when two processes run the same job at once."
  },
  {
   "property": "C132",
   "status": "partial",
   "theorems": [
    "Verif.Batch.Tar.groups_spec",
    "Verif.Batch.Tar.groups_too_large",
    "Verif.Batch.Tar.target_false"
   ],
   "note": "For the estimated size; false for the real one (for every number of files)."
  },
  {
   "property": "C133",
   "status": "partial",
   "theorems": [
    "Verif.Batch.Tar.tar_reads_partial",
    "Verif.Batch.Tar.tar_stored",
    "Verif.Batch.Tar.tar_relative_false",
    "Verif.Batch.Tar.tar_relative_twice_false",
    "Verif.Batch.Tar.tar_root_false",
    "Verif.Batch.Tar.tar_dash_false",
    "Verif.Batch.Tar.tar_same_name_false"
   ],
   "note": "Under the stated condition on the paths; false without it (witnesses)."
  },
  {
   "property": "C134",
   "status": "proved",
   "theorems": [
    "Verif.KHosts.has_iff",
    "Verif.KHosts.clear_spec",
    "Verif.KHosts.clear_then_has",
    "Verif.KHosts.unknown_dies"
   ],
   "note": "The HMAC, the resolver and the version test are parameters; the file is its list of lines."
  },
  {
   "property": "C135",
   "status": "partial",
   "theorems": [
    "Verif.KHosts.clear_ssh_partial",
    "Verif.KHosts.has_ssh_partial",
    "Verif.KHosts.second_name_false",
    "Verif.KHosts.dot_false",
    "Verif.KHosts.dot_comma",
    "Verif.KHosts.addr_not_last"
   ],
   "note": "Proved for unhashed lines that name the host first (found, cleared) and for names without dots (found only if named). Refuted for the second name of a line and for names with dots. Wildcards of ssh are not modelled."
  },
  {
   "property": "C136",
   "status": "partial",
   "theorems": [
    "Verif.Batch.Make.runs_meaning_partial",
    "Verif.Batch.Make.names_used_partial",
    "Verif.Batch.Make.things_spec",
    "Verif.Batch.Make.dollar_name_false"
   ],
   "note": "For names without a dollar sign and commands in which other dollar signs are not followed by another dollar sign, a T or a marker; refuted for names with a marker in them."
  },
  {
   "property": "C137",
   "status": "partial",
   "theorems": [
    "Verif.Batch.Make.messages_first_partial",
    "Verif.Batch.Make.messages_false"
   ],
   "note": "False of the code: every message shows the commands of the first thing."
  },
  {
   "property": "C138",
   "status": "partial",
   "theorems": [
    "Verif.Batch.Checksum.plain_content_partial",
    "Verif.Batch.Checksum.compressed_content_partial",
    "Verif.Batch.Checksum.new_digest",
    "Verif.Batch.Checksum.trailing_space_false",
    "Verif.Batch.Checksum.pipe_runs",
    "Verif.Batch.Checksum.uncompress_failure_false"
   ],
   "note": "For absolute paths that end in neither white space nor a bar. Digests and the output of commands are parameters."
  },
  {
   "property": "C139",
   "status": "partial",
   "theorems": [
    "Verif.Batch.Checksum.things_iff",
    "Verif.Batch.Checksum.run_complete",
    "Verif.Batch.Checksum.changed_file_false"
   ],
   "note": "The run is one in which no job fails. Refuted: that a changed file gets a new checksum file."
  },
  {
   "property": "C140",
   "status": "proved",
   "theorems": [
    "Verif.Tics.places",
    "Verif.Tics.fixed_has_mid",
    "Verif.Tics.places_round"
   ],
   "note": "Times are whole seconds; starts are not negative. The places are the absolute ones."
  },
  {
   "property": "C141",
   "status": "partial",
   "theorems": [
    "Verif.Tics.labels_true_partial",
    "Verif.Tics.labels_near",
    "Verif.Tics.fixed_labels_partial",
    "Verif.Tics.after_midnight_false",
    "Verif.Tics.half_hour_false",
    "Verif.Tics.summer_false"
   ],
   "note": "Labels are kept as what they show, not as text. Refuted for clock changes with absolute places, for the hour after midnight and for zones of half hours."
  },
  {
   "property": "C142",
   "status": "partial",
   "theorems": [
    "Verif.Tics.weekly_ticks",
    "Verif.Tics.monthly_ticks",
    "Verif.Tics.before_start_false"
   ],
   "note": "The comparison with an eleventh of the range is made without rounding. That the monthly ticks are found (the loop ends) depends on the calendar, a parameter. Refuted: the first tick may be before the start."
  },
  {
   "property": "C143",
   "status": "partial",
   "theorems": [
    "Verif.Latex.success_stable",
    "Verif.Latex.success_stable_partial",
    "Verif.Latex.success_given_up_false",
    "Verif.Latex.warning_name_false"
   ],
   "note": "Exactly what success means is success_stable; the claim holds if no step was given up. Refuted otherwise, and for names that say warning."
  },
  {
   "property": "C144",
   "status": "partial",
   "theorems": [
    "Verif.Latex.retries",
    "Verif.Latex.stops_false",
    "Verif.Latex.retried_false"
   ],
   "note": "The number of attempts and the result of a step for all sequences; that the build stops, and that killed attempts are tried again, is false."
  },
  {
   "property": "C145",
   "status": "partial",
   "theorems": [
    "Verif.Latex.failure_partial",
    "Verif.Latex.failure_false"
   ],
   "note": "All ends but missing convergence; that one keeps old files (witness)."
  },
  {
   "property": "C146",
   "status": "partial",
   "theorems": [
    "Verif.Latex.search_order",
    "Verif.Latex.exit_code_partial",
    "Verif.Latex.usage_false"
   ],
   "note": "Search order proved for --tex; the exit code for accepted arguments. Refuted: errors in the arguments exit with 0."
  },
  {
   "property": "C147",
   "status": "partial",
   "theorems": [
    "Verif.TestUtil.info_from_env",
    "Verif.TestUtil.osVersion_env",
    "Verif.TestUtil.info_from_deptool_partial",
    "Verif.TestUtil.absent_false",
    "Verif.TestUtil.absent_noShell",
    "Verif.TestUtil.long_line_false"
   ],
   "note": "Proved for set variables, and for output of deptool in lines below 200 characters without quotes in the values. Refuted: all fields empty without deptool."
  },
  {
   "property": "C148",
   "status": "partial",
   "theorems": [
    "Verif.TestUtil.forSh_sets_partial",
    "Verif.TestUtil.forSh_sets_false"
   ],
   "note": "For values without the four characters that are special between double quotes; refuted otherwise."
  },
  {
   "property": "C149",
   "status": "partial",
   "theorems": [
    "Verif.TestUtil.Macro.testInvariant_partial",
    "Verif.TestUtil.Macro.own_text_false",
    "Verif.TestUtil.Macro.hook_stays_false"
   ],
   "note": "The code under test is a list of assertions. Proved if the macro's own text is not expected and no other exception leaves the code."
  },
  {
   "property": "C150",
   "status": "partial",
   "theorems": [
    "Verif.Misc.FileTime.modifyTime_order_partial",
    "Verif.Misc.FileTime.modifyTime_false"
   ],
   "note": "For times from 1678 to 2261; undefined for every time before or after."
  },
  {
   "property": "C151",
   "status": "proved",
   "theorems": [
    "Verif.Misc.Pointer.safeDownCast_spec",
    "Verif.Misc.Pointer.safeCrossCast_spec",
    "Verif.Misc.Pointer.safeCrossCast_mem",
    "Verif.Misc.Pointer.safeRef_spec"
   ],
   "note": "dynamic_cast is modelled after the C++ standard for public bases."
  },
  {
   "property": "C152",
   "status": "proved",
   "theorems": [
    "Verif.Misc.ProcStat.statistics_fresh",
    "Verif.Misc.ProcStat.statistics_abort"
   ],
   "note": "Sizes below 2^64 bytes; what the kernel's file says is a parameter."
  },
  {
   "property": "C153",
   "status": "partial",
   "theorems": [
    "Verif.DBI.split_sound",
    "Verif.DBI.split_unique",
    "Verif.DBI.split_returns_partial",
    "Verif.DBI.split_cases",
    "Verif.DBI.split_hangs",
    "Verif.DBI.split_hangs_false"
   ],
   "note": "What is returned is right for every document; returning is shown for documents with every string and comment closed, and is false for those of split_hangs."
  },
  {
   "property": "C154",
   "status": "partial",
   "theorems": [
    "Verif.DBI.transaction_atomic_partial",
    "Verif.DBI.transaction_nested",
    "Verif.DBI.transaction_ddl_false",
    "Verif.DBI.transaction_commit_false",
    "Verif.DBI.transaction_rollback_false"
   ],
   "note": "For functions that leave the transaction to transaction and statements that do not commit by themselves; false otherwise (witnesses)."
  },
  {
   "property": "C155",
   "status": "partial",
   "theorems": [
    "Verif.DBI.setup_migrates_partial",
    "Verif.DBI.setup_ends",
    "Verif.DBI.setup_fresh_false",
    "Verif.DBI.setup_second",
    "Verif.DBI.setup_unread_false",
    "Verif.DBI.setup_prepared_false",
    "Verif.DBI.setup_from_false",
    "Verif.DBI.setup_from_target_false",
    "Verif.DBI.setup_loop_false",
    "Verif.DBI.setup_ddl_false"
   ],
   "note": "For a database with a recorded version that can be read and statements that do not commit by themselves; false in the other cases (witnesses)."
  },
  {
   "property": "C156",
   "status": "partial",
   "theorems": [
    "Verif.DBI.set_get",
    "Verif.DBI.set_reserved_false",
    "Verif.DBI.get_failed_false"
   ],
   "note": "The first part is proved; the other two are false (witnesses)."
  },
  {
   "property": "C157",
   "status": "partial",
   "theorems": [
    "Verif.DBI.Rows.oneRow_spec",
    "Verif.DBI.Rows.atMostOneRow_spec",
    "Verif.DBI.Rows.value_spec",
    "Verif.DBI.Rows.requiredValue_spec",
    "Verif.DBI.Rows.value_null_false"
   ],
   "note": "Functions returning arrays; those that return hashes are not modelled separately. A row with NULL looks like no row to value."
  },
  {
   "property": "C158",
   "status": "partial",
   "theorems": [
    "Verif.DBI.Rows.call_runs_partial",
    "Verif.DBI.Rows.load_accepts",
    "Verif.DBI.Rows.call_method_false",
    "Verif.DBI.Rows.call_last_false",
    "Verif.DBI.Rows.rows_belong_partial",
    "Verif.DBI.Rows.rows_mixed_false"
   ],
   "note": "For names without another meaning and results that are read before the query is run again; false otherwise (witnesses)."
  },
  {
   "property": "C159",
   "status": "proved",
   "theorems": [
    "Verif.Deptool.build_order"
   ],
   "note": "For stamps that are not from the future (not later than the start of the program)."
  },
  {
   "property": "C160",
   "status": "partial",
   "theorems": [
    "Verif.Deptool.build_returns",
    "Verif.Deptool.build_fails",
    "Verif.Deptool.build_cycle",
    "Verif.Deptool.build_future_false"
   ],
   "note": "Proved for stamps that are not from the future; with one from the future the program dies with \"internal error\" (build_future_false)."
  },
  {
   "property": "C161",
   "status": "proved",
   "theorems": [
    "Verif.Deptool.build_ends"
   ],
   "note": "An iteration that only waits is one that begins with processes running of which none ends."
  },
  {
   "property": "C162",
   "status": "proved",
   "theorems": [
    "Verif.Deptool.build_again",
    "Verif.Deptool.build_fresh"
   ],
   "note": "Unchanged sources: dbpFindOld finds nothing. The clock has not been set back below the last stamp."
  },
  {
   "property": "C163",
   "status": "proved",
   "theorems": [
    "Verif.Deptool.build_files",
    "Verif.Deptool.build_as_clean"
   ],
   "note": "A build is a function of the source and of what is installed of the directories of other sources; dependencies between variants of one source are ignored by the code and so they are here. The changed sources are those that dbpFindOld finds; see C164 for when that goes wrong."
  },
  {
   "property": "C164",
   "status": "partial",
   "theorems": [
    "Verif.Deptool.Old.findOld_partial",
    "Verif.Deptool.Old.findOld_false"
   ],
   "note": "False of the code in three ways (findOld_false); proved when nothing is edited between the start of a build and its stamp, nothing removed, and for files other than .git* and _MTN*."
  },
  {
   "property": "C165",
   "status": "partial",
   "theorems": [
    "Verif.Deptool.Deps.collect_closed",
    "Verif.Deptool.Deps.collect_complete_partial",
    "Verif.Deptool.Deps.collect_ends",
    "Verif.Deptool.Deps.collect_collision_false"
   ],
   "note": "Everything proved but that each needed project has an entry of its own, which is false when build directories coincide."
  },
  {
   "property": "C166",
   "status": "proved",
   "theorems": [
    "Verif.Deptool.Deps.depWalk_order",
    "Verif.Deptool.Deps.depWalk_ends"
   ],
   "note": "Checking out missing projects is taken to work."
  },
  {
   "property": "C167",
   "status": "proved",
   "theorems": [
    "Verif.Deptool.Deps.parseDependency_roundtrip"
   ],
   "note": "\\w as ASCII."
  },
  {
   "property": "C168",
   "status": "partial",
   "theorems": [
    "Verif.Deptool.Deps.divideDir_partial",
    "Verif.Deptool.Deps.divideDir_src",
    "Verif.Deptool.Deps.divideDir_false"
   ],
   "note": "Proved for the source tree, for variants, and for projects whose name does not look like one with a variant; false otherwise."
  },
  {
   "property": "C169",
   "status": "proved",
   "theorems": [
    "Verif.Deptool.Tests.tests_run",
    "Verif.Deptool.Tests.tests_dies"
   ],
   "note": "What ctest prints is not modelled: the result of a test is given."
  },
  {
   "property": "C170",
   "status": "partial",
   "theorems": [
    "Verif.Disktool.drives_partial",
    "Verif.Disktool.drives_zero_false"
   ],
   "note": "If the empty text is not listed and no drive calls itself `0`. False otherwise: Perl takes the serial number `0` for none."
  },
  {
   "property": "C171",
   "status": "partial",
   "theorems": [
    "Verif.Disktool.partition_writes",
    "Verif.Disktool.partition_again",
    "Verif.Disktool.partition_mounted_false"
   ],
   "note": "Only configured drives with wrong tables are overwritten, and a second run does nothing. False: it is not checked whether a drive is mounted."
  },
  {
   "property": "C172",
   "status": "partial",
   "theorems": [
    "Verif.Disktool.format_writes",
    "Verif.Disktool.format_safe_partial",
    "Verif.Disktool.format_elsewhere_false",
    "Verif.Disktool.format_zero_false"
   ],
   "note": "Proved if the drives are only mounted directly below the mount path and not on a directory `0`; false otherwise (witnesses)."
  },
  {
   "property": "C173",
   "status": "partial",
   "theorems": [
    "Verif.Disktool.format_labels",
    "Verif.Disktool.nextUnique_fresh",
    "Verif.Disktool.nextUnique_ends",
    "Verif.Disktool.format_newline_false"
   ],
   "note": "Proved but that a label may end in a newline (the check uses `$`)."
  },
  {
   "property": "C174",
   "status": "partial",
   "theorems": [
    "Verif.Disktool.mount_visible_partial",
    "Verif.Disktool.mount_again_partial",
    "Verif.Disktool.mount_same_label_false",
    "Verif.Disktool.mount_custom_false",
    "Verif.Disktool.mount_zero_false"
   ],
   "note": "Proved for different labels whose directories are directly below the mount path, with only drives mounted there; false otherwise (witnesses)."
  },
  {
   "property": "C175",
   "status": "partial",
   "theorems": [
    "Verif.Disktool.umount_partial",
    "Verif.Disktool.umount_covered_false",
    "Verif.Disktool.umount_reserved_false"
   ],
   "note": "Proved if only drives are mounted below the mount path; a mount over a drive is unmounted instead of it. Also drives that are reserved are unmounted."
  },
  {
   "property": "C176",
   "status": "partial",
   "theorems": [
    "Verif.Disktool.fail_partial",
    "Verif.Disktool.fail_eleventh_false"
   ],
   "note": "Proved if what is mounted below the mount path are first partitions; the check has no `$`, so an eleventh partition passes it."
  },
  {
   "property": "C177",
   "status": "partial",
   "theorems": [
    "Verif.Disktool.sfdisk_partial",
    "Verif.Disktool.sfdisk_words_false",
    "Verif.Disktool.sfdisk_fourth_false"
   ],
   "note": "Proved for tables not marked active and with one-word type names; false otherwise: such drives would be partitioned again."
  },
  {
   "property": "C178",
   "status": "partial",
   "theorems": [
    "Verif.Mercury.adjust_partial",
    "Verif.Mercury.plotOrder_eq",
    "Verif.Mercury.adjust_border_false",
    "Verif.Mercury.adjust_upper_false",
    "Verif.Mercury.adjust_string_false"
   ],
   "note": "false in general: names that end with a keyword (border), keywords in upper case and keywords in strings are mistaken; proved for queries in lower case without such names and strings"
  },
  {
   "property": "C179",
   "status": "partial",
   "theorems": [
    "Verif.Mercury.Rows.fetch_keeps",
    "Verif.Mercury.Rows.fetch_partial",
    "Verif.Mercury.Rows.fetch_null_false",
    "Verif.Mercury.Rows.dispatch_partial",
    "Verif.Mercury.Rows.dispatch_one_false",
    "Verif.Mercury.Rows.cdf_partial",
    "Verif.Mercury.Rows.cdf_null_false"
   ],
   "note": "false in general: after a row with a null the iterator of the hash is not reset and the next row with a null is written; one row with x and y2 is drawn without y2; nulls count in the shares of a cdf"
  },
  {
   "property": "C180",
   "status": "partial",
   "theorems": [
    "Verif.Mercury.Bar.barplot_partial",
    "Verif.Mercury.Bar.barplot_plain",
    "Verif.Mercury.Bar.place_sound",
    "Verif.Mercury.Bar.barplot_zero_false",
    "Verif.Mercury.Bar.barplot_mixed_false"
   ],
   "note": "false in general: the name 0 makes it die, and a row without a name removes the bars of its group; the file of stacked bars is not modelled"
  },
  {
   "property": "C181",
   "status": "partial",
   "theorems": [
    "Verif.Mercury.Plots.plots_partial",
    "Verif.Mercury.Plots.refresh_desc",
    "Verif.Mercury.Plots.plotwith_false",
    "Verif.Mercury.Plots.replot_partial",
    "Verif.Mercury.Plots.replot_function_false",
    "Verif.Mercury.Plots.replot_fail_false"
   ],
   "note": "false in general: plotwith with the number after the last makes an entry without data, and replot with functions or failing queries mixes up the list"
  },
  {
   "property": "C182",
   "status": "partial",
   "theorems": [
    "Verif.Mercury.Cmd.script_partial",
    "Verif.Mercury.Cmd.lines_spec",
    "Verif.Mercury.Cmd.script_pending_false"
   ],
   "note": "false in general: a sourced file that ends within a block or a continued line takes the commands after it"
  },
  {
   "property": "C183",
   "status": "partial",
   "theorems": [
    "Verif.Mercury.Cmd.files_partial",
    "Verif.Mercury.Cmd.files_die_false"
   ],
   "note": "false in general: a command that dies ends its own file only and the exit status is that of success"
  },
  {
   "property": "C184",
   "status": "partial",
   "theorems": [
    "Verif.Mercury.Import.split_join",
    "Verif.Mercury.Import.import_partial",
    "Verif.Mercury.Import.import_create_false",
    "Verif.Mercury.Import.import_big_false",
    "Verif.Mercury.Import.import_indent_false",
    "Verif.Mercury.Import.import_negative"
   ],
   "note": "false in general: the old table is dropped before the new one is known to be accepted, long numbers get the type bigint, indented lines are refused"
  },
  {
   "property": "C185",
   "status": "partial",
   "theorems": [
    "Verif.Mercury.Dsn.choose_partial",
    "Verif.Mercury.Dsn.choose_password_false",
    "Verif.Mercury.Dsn.choose_user_false"
   ],
   "note": "false in general: a line with a password, as documented, makes the program die, and user and password of the command line are lost; keys are words without expression characters"
  },
  {
   "property": "C186",
   "status": "partial",
   "theorems": [
    "Verif.Mercury.Sync.sync_partial",
    "Verif.Mercury.Sync.sync_ends",
    "Verif.Mercury.Sync.sync_other_false"
   ],
   "note": "false with two programs of one user, which share the file"
  },
  {
   "property": "C187",
   "status": "partial",
   "theorems": [
    "Verif.Mercury.Exp.create_partial",
    "Verif.Mercury.Exp.create_distinct",
    "Verif.Mercury.Exp.create_twice_false",
    "Verif.Mercury.Exp.create_fail_false",
    "Verif.Mercury.Exp.good_iff",
    "Verif.Mercury.Exp.find_spec"
   ],
   "note": "false in general: two experiments with one name in a second, and creations whose table fails, leave rows without tables"
  },
  {
   "property": "C188",
   "status": "partial",
   "theorems": [
    "Verif.Mercury.Conn.reconnect_partial",
    "Verif.Mercury.Conn.reconnect_gone_false",
    "Verif.Mercury.Conn.reconnect_empty_false"
   ],
   "note": "false in general: a connection closed by the server (gone away) is not made again, and an empty table counts as an error"
  },
  {
   "property": "C189",
   "status": "partial",
   "theorems": [
    "Verif.Mercury.Conn.reload_partial",
    "Verif.Mercury.Conn.reload_during_false",
    "Verif.Mercury.Conn.reload_second_false"
   ],
   "note": "false in general: edits while the file is loaded, or in the same second, are missed"
  },
  {
   "property": "C190",
   "status": "proved",
   "theorems": [
    "Verif.Hash.chain_stats",
    "Verif.Hash.raw_data"
   ],
   "note": "Both over all histories that fit in the table (C02)."
  },
  {
   "property": "C191",
   "status": "partial",
   "theorems": [
    "Verif.Str.Dbl.toDouble_partial",
    "Verif.Str.Dbl.toDouble_nul",
    "Verif.Str.Dbl.toDouble_junk_false",
    "Verif.Str.Dbl.toDouble_zero_false"
   ],
   "note": "False with NUL characters in the string: what follows the first one is ignored, and a string that starts with one is zero. Exact for strings without. The rounding of the number to a double is strtod's and is not modelled."
  },
  {
   "property": "C192",
   "status": "partial",
   "theorems": [
    "Verif.Str.Case.blank_partial",
    "Verif.Str.Case.case_partial",
    "Verif.Str.Case.case_equal",
    "Verif.Str.Case.case_utf8_false",
    "Verif.Str.Case.wide_partial",
    "Verif.Str.Case.narrow_default"
   ],
   "note": "Proved for ASCII strings. On other bytes the cctype functions are called with negative arguments, which is undefined. Wide strings come back if the facet of the locale gives the single characters back."
  },
  {
   "property": "C193",
   "status": "partial",
   "theorems": [
    "Verif.DepVC.publish_partial",
    "Verif.DepVC.publish_done",
    "Verif.DepVC.publish_refused",
    "Verif.DepVC.publish_edit_false",
    "Verif.DepVC.publish_untested_false",
    "Verif.DepVC.publish_broken"
   ],
   "note": "Proved if nobody edits files meanwhile and tests are on. False of the code otherwise: edits made during the run are pushed untested, and --no-tests pushes to the ordinary repository."
  },
  {
   "property": "C194",
   "status": "partial",
   "theorems": [
    "Verif.DepVC.Unknown.unknown_partial",
    "Verif.DepVC.Unknown.unknown_once",
    "Verif.DepVC.Unknown.ask_words",
    "Verif.DepVC.Unknown.unknown_false",
    "Verif.DepVC.Unknown.unknown_eof_false"
   ],
   "note": "Proved for the names put together. False for the sets of names, which are joined without a separator; at the end of the input it asks for ever."
  },
  {
   "property": "C195",
   "status": "partial",
   "theorems": [
    "Verif.DepVC.Marks.marks_partial",
    "Verif.DepVC.Marks.reviewed_comment",
    "Verif.DepVC.Marks.marks_noemail_false",
    "Verif.DepVC.Marks.marks_zero_false",
    "Verif.DepVC.Marks.marks_name_false"
   ],
   "note": "Proved if there is an address. False without one, for the comment 0, and for file names that begin with reviewed."
  },
  {
   "property": "C196",
   "status": "partial",
   "theorems": [
    "Verif.DepVC.Revision.revision_partial",
    "Verif.DepVC.Revision.revision_lines_false",
    "Verif.DepVC.Revision.revision_signed_false",
    "Verif.DepVC.Revision.revision_merge_false",
    "Verif.DepVC.Revision.revision_refused"
   ],
   "note": "Proved but for line breaks of the message. False for signed commits and for merges."
  },
  {
   "property": "C197",
   "status": "partial",
   "theorems": [
    "Verif.DepVC.Select.select_partial",
    "Verif.DepVC.Select.printed_unreviewed",
    "Verif.DepVC.Select.parseSel_ok",
    "Verif.DepVC.Select.parseSels_strict",
    "Verif.DepVC.Select.select_max_false",
    "Verif.DepVC.Select.select_branch_false"
   ],
   "note": "Proved with the last day left out. False of the code: max-date includes the day in the documentation; branch= is ignored."
  },
  {
   "property": "C198",
   "status": "partial",
   "theorems": [
    "Verif.DepVC.Walk.walk_partial",
    "Verif.DepVC.Walk.walk_auto",
    "Verif.DepVC.Walk.walk_twice_false"
   ],
   "note": "Proved for ordering files in which no file comes twice. False otherwise."
  },
  {
   "property": "C199",
   "status": "partial",
   "theorems": [
    "Verif.DepVC.Sequence.review_partial",
    "Verif.DepVC.Sequence.getChanged_spec",
    "Verif.DepVC.Sequence.review_dates_false",
    "Verif.DepVC.Sequence.review_skip_false",
    "Verif.DepVC.Sequence.review_removed_false"
   ],
   "note": "Proved for revisions of different seconds, directories that are new or of the same review, and without removed files; false otherwise."
  },
  {
   "property": "C200",
   "status": "partial",
   "theorems": [
    "Verif.DepVC.Sequence.order_partial",
    "Verif.DepVC.Sequence.order_groups",
    "Verif.DepVC.Sequence.order_all",
    "Verif.DepVC.Sequence.order_between_false",
    "Verif.DepVC.Sequence.order_tests_false"
   ],
   "note": "False in general: other files may come between header and source, and tests at the top are not recognised."
  },
  {
   "property": "C201",
   "status": "partial",
   "theorems": [
    "Verif.DepVC.Tar.tar_keeps",
    "Verif.DepVC.Tar.tar_done",
    "Verif.DepVC.Tar.tar_name",
    "Verif.DepVC.Tar.release_lost",
    "Verif.DepVC.Tar.tar_hyphen_false",
    "Verif.DepVC.Tar.tar_download_false",
    "Verif.DepVC.Tar.tar_release_false",
    "Verif.DepVC.Tar.tar_asks",
    "Verif.DepVC.Tar.tar_failed"
   ],
   "note": "Proved for names without hyphens before the version and no directory with the name of the release; false otherwise."
  },
  {
   "property": "C202",
   "status": "partial",
   "theorems": [
    "Verif.DepVC.Ctest.list_partial",
    "Verif.DepVC.Ctest.list_count",
    "Verif.DepVC.Ctest.list_blank_false",
    "Verif.DepVC.Ctest.list_numbers_false"
   ],
   "note": "Proved for build directories without blanks; false with blanks, and for outputs with numbers that skip."
  },
  {
   "property": "C203",
   "status": "partial",
   "theorems": [
    "Verif.DepVC.Ctest.sections_partial",
    "Verif.DepVC.Ctest.verdict_partial",
    "Verif.DepVC.Ctest.sections_false"
   ],
   "note": "Proved for tests that print no markers; false otherwise."
  },
  {
   "property": "C204",
   "status": "partial",
   "theorems": [
    "Verif.Assert.Threads.threads_orderly",
    "Verif.Assert.Threads.threads_goes_on",
    "Verif.Assert.Threads.threads_end",
    "Verif.Assert.Threads.threads_throw_false",
    "Verif.Assert.Threads.threads_skip_false",
    "Verif.Assert.Threads.threads_both_false"
   ],
   "note": "Order, once at most, and going on only by an own hook that throws, for all schedules with accesses to the flag one after the other. False: two threads with hooks that throw end the program, hooks before the message may be skipped while those after it are called, and two threads may be in hooks at once."
  },
  {
   "property": "C205",
   "status": "partial",
   "theorems": [
    "Verif.DepVC.Cd.cd_partial",
    "Verif.DepVC.Cd.cd_type_false",
    "Verif.DepVC.Cd.cd_share_false",
    "Verif.DepVC.Cd.cd_nested_false"
   ],
   "note": "Proved for all sequences of commands, for types of word characters, project names that do not end like one with a type, and trees outside of each other. False otherwise: a type with a hyphen does not lead back, names that differ in punctuation share their type, and builds below the projects are taken for sources."
  },
  {
   "property": "C206",
   "status": "partial",
   "theorems": [
    "Verif.DepVC.Pin.pull_partial",
    "Verif.DepVC.Pin.setPin_false",
    "Verif.DepVC.Pin.short_pin_false"
   ],
   "note": "Proved for the loops over all answers; that pin makes a pin is false of the code, as is that a shortened revision holds; monotone itself is not modelled."
  },
  {
   "property": "C207",
   "status": "partial",
   "theorems": [
    "Verif.Deptool.CMake.cmake_partial",
    "Verif.Deptool.CMake.clean_partial",
    "Verif.Deptool.CMake.cmake_prefix_false",
    "Verif.Deptool.CMake.cmake_clean_false",
    "Verif.Deptool.CMake.clean_source_false"
   ],
   "note": "Proved where the names of the trees are apart and no directory has the name of a file; otherwise false of the code, with witnesses."
  },
  {
   "property": "C208",
   "status": "partial",
   "theorems": [
    "Verif.Dbl.compare_partial",
    "Verif.Dbl.nan_unordered",
    "Verif.Dbl.eq_relative",
    "Verif.Dbl.eq_zero_iff",
    "Verif.Dbl.eq_larger_false",
    "Verif.Dbl.eq_inf_false",
    "Verif.Dbl.less_weak_false",
    "Verif.Dbl.setEpsilonBits_exact",
    "Verif.Dbl.setEpsilonDigits_close",
    "Verif.Dbl.setEpsilon_zero_false"
   ],
   "note": "False of the code: the tolerance is relative to the smaller value, not the larger as said; an infinity is not equal to itself; lt is no strict weak order; more than 1074 bits set the tolerance to 0. eq_relative is for tolerances of the normal range up to 1."
  },
  {
   "property": "C209",
   "status": "partial",
   "theorems": [
    "Verif.Clock.PerThread.perThread_partial",
    "Verif.Clock.PerThread.perThread_early_false",
    "Verif.Clock.PerThread.perThread_nokey_false",
    "Verif.Clock.PerThread.perThread_race_false"
   ],
   "note": "Proved after initialisation. False of the code before it: key 0 may be somebody else's. The making of keys and setting of values is taken to succeed; clocks of threads that ended are never freed."
  },
  {
   "property": "C210",
   "status": "partial",
   "theorems": [
    "Verif.Matrix.Store.store_partial",
    "Verif.Matrix.Store.bounds_checked",
    "Verif.Matrix.Store.freed_partial",
    "Verif.Matrix.Store.resize_leak_false",
    "Verif.Matrix.Store.copy_false",
    "Verif.Matrix.Store.overflow_false",
    "Verif.Matrix.Store.alias_false"
   ],
   "note": "False of the code: resize leaks, copies share and free twice, the size is computed in 32 bits; without the checks a column too large is the next row."
  },
  {
   "property": "C211",
   "status": "partial",
   "theorems": [
    "Verif.Stats.Perl.stats_partial",
    "Verif.Stats.Perl.same_as_cpp",
    "Verif.Stats.Perl.stddev_dies_false",
    "Verif.Stats.Perl.range_false"
   ],
   "note": "False of the code: stddev dies for three times 0.1; values outside of +-1e100 are missed by min or max."
  },
  {
   "property": "C212",
   "status": "partial",
   "theorems": [
    "Verif.Rome.rome_partial",
    "Verif.Rome.rome_rw",
    "Verif.Rome.rome_null_false",
    "Verif.Rome.rome_nan_false",
    "Verif.Rome.sequence_printed_partial",
    "Verif.Rome.sequence_mean_false"
   ],
   "note": "Proved by reading the text back, for all classes and nestings. False of the code: a StatsRW with a NULL part, which the constructor allows, cannot be printed; the mean of an empty bin is printed as NaN; the last mean of a sequence divides by the number of points of a full group. How a stream prints numbers is a parameter (any words)."
  },
  {
   "property": "C213",
   "status": "partial",
   "theorems": [
    "Verif.Quantile.rome_rows_partial",
    "Verif.Quantile.ranges_text_partial",
    "Verif.Quantile.tail_text_partial",
    "Verif.Quantile.print_overfull_false",
    "Verif.Quantile.print_ranges_false"
   ],
   "note": "Proved for up to 3000 ranges, with IEEE rounding. More ranges are not covered. Printing stops the process if more values were added than Nbound or the number of ranges is negative."
  },
  {
   "property": "C214",
   "status": "partial",
   "theorems": [
    "Verif.Log.Out.log_one_by_one",
    "Verif.Log.Out.console_in_order",
    "Verif.Log.Out.calls_return",
    "Verif.Log.Out.nested_log_false",
    "Verif.Log.Out.time_printed_partial",
    "Verif.Log.Out.time_printed_false"
   ],
   "note": "All but two parts are proved. False of the code: an appender that logs stops everything for ever, and times with less than six digits of microseconds are printed wrong."
  },
  {
   "property": "C215",
   "status": "partial",
   "theorems": [
    "Verif.Clock.Cal.calibrate_robust",
    "Verif.Clock.Cal.calibrate_abort",
    "Verif.Clock.Cal.calibrate_steady",
    "Verif.Clock.Cal.measure_close",
    "Verif.Clock.Cal.measure_wrap_false",
    "Verif.Clock.Cal.calibrate_ends_false",
    "Verif.Clock.Cal.maxMeasure_robust",
    "Verif.Clock.Cal.quanta_robust",
    "Verif.Clock.Cal.latency_robust",
    "Verif.Clock.Cal.first_defined",
    "Verif.Clock.Cal.cyclesPerQuanta_partial",
    "Verif.Clock.Cal.cyclesPerQuanta_robust_false"
   ],
   "note": "Exact arithmetic instead of doubles; readings are inputs. Three parts are false and proved so."
  },
  {
   "property": "C216",
   "status": "partial",
   "theorems": [
    "Verif.Clock.Scaling.scaling_excluded_iff",
    "Verif.Clock.Scaling.scaling_answers",
    "Verif.Clock.Scaling.no_scaling_allowed",
    "Verif.Clock.Scaling.scaling_warned",
    "Verif.Clock.Scaling.scaling_stops_false"
   ],
   "note": "Contents of the directory are an input. That the check always answers is false and proved so."
  },
  {
   "property": "C217",
   "status": "partial",
   "theorems": [
    "Verif.Scope.scoped_balanced",
    "Verif.Scope.scoped_excludes",
    "Verif.Scope.scoped_counts",
    "Verif.Scope.scoped_goes_on",
    "Verif.Scope.scoped_recursion_false",
    "Verif.Scope.scoped_opposite_false",
    "Verif.Scope.log_throw_false"
   ],
   "note": "Full for code that locks by blocks. False of LintelLog::log: an exception from an appender leaves its mutex locked for ever (log_throw_false). The mutex of the C library is modelled by its specification; memory order and ordering groups (C50) are not."
  },
  {
   "property": "C218",
   "status": "partial",
   "theorems": [
    "Verif.Tab.tabular_partial",
    "Verif.Tab.tabular_rw",
    "Verif.Tab.tabular_counts",
    "Verif.Tab.random_input",
    "Verif.Tab.tabular_low_false",
    "Verif.Tab.tabular_empty_false",
    "Verif.Tab.tabular_series_false",
    "Verif.Tab.tabular_depth_false"
   ],
   "note": "Full for what is printed except the heading (tabular_low_false), empty histograms (tabular_empty_false), series (tabular_series_false) and the depth (tabular_depth_false). tabular_counts uses exact arithmetic for the bins, as C32. How a number is printed is a parameter; failing streams are not modelled."
  },
  {
   "property": "C219",
   "status": "partial",
   "theorems": [
    "Verif.Another.another_uniform_partial",
    "Verif.Another.another_accum_partial",
    "Verif.Another.another_log_partial",
    "Verif.Another.another_logaccum_partial",
    "Verif.Another.another_series_partial",
    "Verif.Another.another_class",
    "Verif.Another.another_grown_false",
    "Verif.Another.another_plain_false"
   ],
   "note": "In exact arithmetic, with the preconditions of C32, C105 and C107 on the values; false for grown histograms with an odd number of bins (another_grown_false) and for classes without their own another_new (another_plain_false). Of the logarithmic histograms only the count of the inherited statistic is modelled. That the object is not changed holds because the model takes it as a value (const in the code)."
  },
  {
   "property": "C220",
   "status": "partial",
   "theorems": [
    "Verif.Serve.serve_nothing_lost",
    "Verif.Serve.serve_order",
    "Verif.Serve.serve_progress",
    "Verif.Serve.serve_retries",
    "Verif.Serve.serve_lives_partial",
    "Verif.Serve.serve_missing_false",
    "Verif.Serve.serve_interrupt_false",
    "Verif.Serve.serve_heads_false"
   ],
   "note": "Nothing lost, order, progress and the limit on repetitions hold for all schedules. That the process does not die is false (three witnesses) and proved for calm schedules (serve_lives_partial). A signal is delivered at once and interrupts flock; copies of a database in use are taken to be whole; what the tests do is an answer. The html log (lines 2419-2440) is not modelled."
  },
  {
   "property": "C221",
   "status": "partial",
   "theorems": [
    "Verif.DepVC.Root.root_nearest_partial",
    "Verif.DepVC.Root.root_none_partial",
    "Verif.DepVC.Root.root_build",
    "Verif.DepVC.Root.root_hang_false",
    "Verif.DepVC.Root.root_slash_false"
   ],
   "note": "Proved for absolute paths without empty names (what getcwd gives); false with a slash at the end of $PROJECTS. File names contain no newline; directories no characters special in regular expressions (as in the model of srcDir)."
  },
  {
   "property": "C222",
   "status": "partial",
   "theorems": [
    "Verif.DepVC.MtnLog.mtnlog_parse_partial",
    "Verif.DepVC.MtnLog.mtnlog_whole",
    "Verif.DepVC.MtnLog.mtnlog_dashes_false",
    "Verif.DepVC.MtnLog.mtnlog_forged_false",
    "Verif.DepVC.MtnLog.mtnlog_dies_false"
   ],
   "note": "All revisions and fields, for all changelogs in which no line like `Revision: ...` follows one of dashes; the changelog up to the first line of fifty dashes. The rest is false (three witnesses). The format of the log is that of monotone from 0.45 on (and of the comments in the code); running mtn is not modelled."
  },
  {
   "property": "C223",
   "status": "partial",
   "theorems": [
    "Verif.DepVC.MtnLog.mtninfo_partial",
    "Verif.DepVC.MtnLog.mtninfo_first_false",
    "Verif.DepVC.MtnLog.mtninfo_empty_false",
    "Verif.DepVC.MtnLog.mtninfo_three_false"
   ],
   "note": "For revisions whose values have at least two characters and whose keys come at most twice; otherwise it dies (all revisions with an empty parent; a witness with three branches)."
  },
  {
   "property": "C224",
   "status": "partial",
   "theorems": [
    "Verif.DepVC.MtnLog.mtnreviews_partial",
    "Verif.DepVC.MtnLog.mtnreviews_empty_false",
    "Verif.DepVC.MtnLog.mtnreviews_signature_false"
   ],
   "note": "For all certificates if reviews have a key and a comment (deptool itself asks for a comment until there is one). False without a comment; reviews with a bad signature count."
  },
  {
   "property": "C225",
   "status": "partial",
   "theorems": [
    "Verif.HashFn.hash_small_value",
    "Verif.HashFn.hash_small_injective",
    "Verif.HashFn.hash_same_number_partial",
    "Verif.HashFn.hash_same_number_false",
    "Verif.HashFn.hash_long_injective_false",
    "Verif.HashFn.hash_long_value",
    "Verif.HashFn.hash_key_value",
    "Verif.HashFn.hash_alike",
    "Verif.HashFn.hash_key_ub",
    "Verif.HashFn.hash_key_injective_false"
   ],
   "note": "Which overload the compiler takes is not modelled. False for eight bytes (107310 and 140082 collide), for negative numbers across types, and for strings (ejvg and ebac)."
  },
  {
   "property": "C226",
   "status": "partial",
   "theorems": [
    "Verif.Deptool.GetEnv.getenv_eval_partial",
    "Verif.Deptool.GetEnv.getenv_stable_partial",
    "Verif.Deptool.GetEnv.getenv_unset",
    "Verif.Deptool.GetEnv.getenv_given",
    "Verif.Deptool.GetEnv.getenv_trees",
    "Verif.Deptool.GetEnv.getenv_defaults",
    "Verif.Deptool.GetEnv.getenv_jobs",
    "Verif.Deptool.GetEnv.getenv_quote_false"
   ],
   "note": "For values that double quotes keep as they are; the C shell's reading of its text is not modelled. False for values with quotes."
  },
  {
   "property": "C227",
   "status": "partial",
   "theorems": [
    "Verif.CStr.cstring_ops_partial",
    "Verif.CStr.cstring_ops_false",
    "Verif.CStr.cstring_hash_value",
    "Verif.CStr.cstring_hash_partial",
    "Verif.CStr.cstring_hash_false"
   ],
   "note": "For texts without zero bytes and a pool in one range of 4 GiB; false otherwise. Pointers of eight bytes."
  },
  {
   "property": "C228",
   "status": "partial",
   "theorems": [
    "Verif.DepVC.GitRepo.gitinit_keeps",
    "Verif.DepVC.GitRepo.gitinit_safe_partial",
    "Verif.DepVC.GitRepo.gitinit_works",
    "Verif.DepVC.GitRepo.gitinit_stopped_false",
    "Verif.DepVC.GitRepo.gitinit_hosts_false"
   ],
   "note": "Safety holds if the run ends well; false after a failure between clone and repair. What git does with each command is part of the model."
  },
  {
   "property": "C229",
   "status": "partial",
   "theorems": [
    "Verif.DepVC.GitConfig.config_done",
    "Verif.DepVC.GitConfig.config_unfinished",
    "Verif.DepVC.GitConfig.config_mark_partial",
    "Verif.DepVC.GitConfig.config_same",
    "Verif.DepVC.GitConfig.config_once_partial",
    "Verif.DepVC.GitConfig.config_answers_partial",
    "Verif.DepVC.GitConfig.config_key_false",
    "Verif.DepVC.GitConfig.config_eof_false",
    "Verif.DepVC.GitConfig.config_excludes_false"
   ],
   "note": "Reading is proved for plain configurations (keys of word characters and dots, values of one line); false otherwise."
  },
  {
   "property": "C230",
   "status": "partial",
   "theorems": [
    "Verif.Quantile.index_searches_agree_partial",
    "Verif.Quantile.atIndex_unique",
    "Verif.Quantile.index_unsorted_false",
    "Verif.Quantile.index_new_false"
   ],
   "note": "Proved after getQuantile; false for the merge before."
  },
  {
   "property": "C231",
   "status": "partial",
   "theorems": [
    "Verif.Quantile.cache_transparent_partial",
    "Verif.Quantile.cache_small",
    "Verif.Quantile.cache_hits",
    "Verif.Quantile.cache_negative_false"
   ],
   "note": "Proved for errors that are not negative; false for negative ones."
  },
  {
   "property": "C232",
   "status": "partial",
   "theorems": [
    "Verif.DepVC.Checkout.select_iff_partial",
    "Verif.DepVC.Checkout.select_type",
    "Verif.DepVC.Checkout.git_listing",
    "Verif.DepVC.Checkout.select_dot_false",
    "Verif.DepVC.Checkout.select_nomaster_false",
    "Verif.DepVC.Checkout.listing_detached_false",
    "Verif.DepVC.Checkout.mtn_listing"
   ],
   "note": "The exact selection is proved for arguments and branch names without dots; with dots it is false. Other characters that are special in a regular expression are not modelled."
  },
  {
   "property": "C233",
   "status": "partial",
   "theorems": [
    "Verif.DepVC.Checkout.checkout_keeps",
    "Verif.DepVC.Checkout.checkout_all_partial",
    "Verif.DepVC.Checkout.checkout_new",
    "Verif.DepVC.Checkout.checkout_ends",
    "Verif.DepVC.Checkout.checkout_works",
    "Verif.DepVC.Checkout.checkout_samename_false",
    "Verif.DepVC.Checkout.checkout_interrupted_false",
    "Verif.DepVC.Checkout.checkout_branch_false",
    "Verif.DepVC.Checkout.path_git",
    "Verif.DepVC.Checkout.path_mtn",
    "Verif.DepVC.Checkout.choose_sub",
    "Verif.DepVC.Checkout.checkout_unknown"
   ],
   "note": "That the directory which is there holds the branch that was meant is proved for the new ones only; for those that existed it is false. The commands of git and monotone are modelled by what they leave behind."
  },
  {
   "property": "C234",
   "status": "partial",
   "theorems": [
    "Verif.Rng.seeds_differ",
    "Verif.Rng.seed_periodic",
    "Verif.Rng.array_periodic",
    "Verif.Rng.arrays_differ_partial",
    "Verif.Rng.ctor_seeded",
    "Verif.Rng.ctor_zero_partial",
    "Verif.Rng.arrays_length_false",
    "Verif.Rng.arrays_full_false",
    "Verif.Rng.ctor_zero_false"
   ],
   "note": "For arrays of seeds proved for equal lengths up to 622, false in general; open for 623 and for more than 624. The length of the period is not proved."
  },
  {
   "property": "C235",
   "status": "partial",
   "theorems": [
    "Verif.Rng.micro_two_results",
    "Verif.Rng.micro_periodic",
    "Verif.Rng.micro_zeros",
    "Verif.Rng.mars_back_partial",
    "Verif.Rng.mars_merge_false"
   ],
   "note": "For the multiply-with-carry generators proved for carries below A; false for the carry A, which the code can reach. That seeding never gives the state of zeros, and exact periods, are not proved."
  },
  {
   "property": "C236",
   "status": "partial",
   "theorems": [
    "Verif.Histo.access_uniform_partial",
    "Verif.Histo.access_accum_partial",
    "Verif.Histo.access_end_false",
    "Verif.Histo.access_grows_false",
    "Verif.LogHisto.access_log_partial",
    "Verif.LogHisto.access_width_false"
   ],
   "note": "Exact arithmetic, with the preconditions of C32, C34 and C105. False: the index that is the number of bins is read behind the array; binWidth() of a logarithmic histogram is too large by low(); numGrows() is always 0."
  },
  {
   "property": "C237",
   "status": "partial",
   "theorems": [
    "Verif.DepVC.Pull.pull_fair",
    "Verif.DepVC.Pull.pull_all",
    "Verif.DepVC.Pull.pull_dies",
    "Verif.DepVC.Pull.pull_ends",
    "Verif.DepVC.Pull.branches_read",
    "Verif.DepVC.Pull.merges_partial",
    "Verif.DepVC.Pull.pull_first_false",
    "Verif.DepVC.Pull.pull_new_false",
    "Verif.DepVC.Pull.detached_false",
    "Verif.DepVC.Pull.named_false"
   ],
   "note": "Nobody edits meanwhile and no project is missing. False: changes in one project may be found after others were pulled; dependencies that a pull brings are not pulled (a known bug); with a detached head, a second working tree or a local branch named like a remote one the program dies."
  },
  {
   "property": "C238",
   "status": "partial",
   "theorems": [
    "Verif.Rng.micro_period",
    "Verif.Rng.micro_period_all",
    "Verif.Rng.micro_xorshift_false"
   ],
   "note": "The exact periods of all states are proved: 2^22-1, 2^42-1 or (2^22-1)(2^42-1)/3. False: that the period is 2^128-1; because of `x=w` after `x=y; y=z` only two of the four words take part."
  },
  {
   "property": "C239",
   "status": "partial",
   "theorems": [
    "Verif.Rng.consts_full_partial",
    "Verif.Rng.consts_full_false",
    "Verif.Rng.short_orders_false",
    "Verif.Rng.consts_sizes"
   ],
   "note": "Proved for 16, 128, 1024 and 2048 words. False for 8, 32, 64 (the prime is one, but the order of b is at most a third, a seventeenth and a third of the documented period), 256 and 512 words (the number is not prime). Missing: 4096 words. The condition is about the documented recurrence; the code departs from it when A*x+c is a nonzero multiple of b (C74, C235)."
  },
  {
   "property": "C240",
   "status": "partial",
   "theorems": [
    "Verif.DepVC.CmdOut.output_whole",
    "Verif.DepVC.CmdOut.output_ends_partial",
    "Verif.DepVC.CmdOut.output_ends_false",
    "Verif.DepVC.CmdOut.output_ends_iff",
    "Verif.DepVC.CmdOut.output_result"
   ],
   "note": "Proved: what is returned is complete and in order, and the helper ends under every fair schedule if the error output fits into a pipe. False otherwise: the command waits for the helper and the helper for the command for ever, under every schedule (the comment in the code knows). Failures of open3 and close and commands that leave processes behind are not modelled."
  },
  {
   "property": "C241",
   "status": "partial",
   "theorems": [
    "Verif.DepVC.Alias.cwd_leads_partial",
    "Verif.DepVC.Alias.comes_back_partial",
    "Verif.DepVC.Alias.first_name",
    "Verif.DepVC.Alias.start_name",
    "Verif.DepVC.Alias.start_elsewhere_false",
    "Verif.DepVC.Alias.relative_false",
    "Verif.DepVC.Alias.moved_link_false"
   ],
   "note": "Proved if the names given to aliasChdir are absolute and the links do not change. False otherwise: a relative name is remembered as it is and leads elsewhere; a stale PWD makes the program work in another directory than it was started in; a moved link leads elsewhere."
  },
  {
   "property": "C242",
   "status": "partial",
   "theorems": [
    "Verif.DepVC.Remotes.remotes_read_partial",
    "Verif.DepVC.Remotes.checkout_origin_partial",
    "Verif.DepVC.Remotes.fetch_same_partial",
    "Verif.DepVC.Remotes.no_origin",
    "Verif.DepVC.Remotes.remotes_sound",
    "Verif.DepVC.Remotes.several_pushes_false",
    "Verif.DepVC.Remotes.blank_false",
    "Verif.DepVC.Remotes.filter_false"
   ],
   "note": "Proved for names and addresses without white space and one address to push to. False: of several addresses to push to only the last is kept; an address with a blank, which git accepts, is not understood; the filter that newer versions of git print for partial copies makes one of the two functions die."
  },
  {
   "property": "C243",
   "status": "partial",
   "theorems": [
    "Verif.Mercury.Split.best_cut_partial",
    "Verif.Mercury.Split.found_iff",
    "Verif.Mercury.Split.dies_iff",
    "Verif.Mercury.Split.large_false",
    "Verif.Mercury.Split.few_points_false"
   ],
   "note": "Proved for five points and more, and a cut is found exactly if one has a sum below 100. False: sums of 100 and more are never reported, whatever the scale of the data; with three or four points the cut that leaves both parts without a line counts as perfect and is reported instead of the line. Numbers are rationals, the fit is a parameter."
  },
  {
   "property": "C244",
   "status": "partial",
   "theorems": [
    "Verif.Mercury.Png.psplot_draws",
    "Verif.Mercury.Png.psplot_refuses",
    "Verif.Mercury.Png.mode_false",
    "Verif.Mercury.Png.args_read_partial",
    "Verif.Mercury.Png.args_false",
    "Verif.Mercury.Png.png_works_iff",
    "Verif.Mercury.Png.png_leaves",
    "Verif.Mercury.Png.scaled_false",
    "Verif.Mercury.Png.silent_false",
    "Verif.Mercury.Png.leftover_false"
   ],
   "note": "False: modes that begin with eps, contain portrait or end with landscape are accepted (the pattern anchors only its outer alternatives); a filename that is a number behind a number is taken for a size; the size of the scaled picture is never checked (the check looks at the other file); only one kind of failure stops a script; failures leave files behind. Getopt and the programs that are run are given by their results."
  },
  {
   "property": "C245",
   "status": "partial",
   "theorems": [
    "Verif.Posix.Reopen.reopen_iff",
    "Verif.Posix.Reopen.reopen_leads",
    "Verif.Posix.Reopen.refused_keeps",
    "Verif.Posix.Reopen.waiting_written_partial",
    "Verif.Posix.Reopen.emptied_partial",
    "Verif.Posix.Reopen.one_descriptor",
    "Verif.Posix.Reopen.reopens_limited",
    "Verif.Posix.Reopen.descriptor_lost_false",
    "Verif.Posix.Reopen.own_file_false",
    "Verif.Posix.Reopen.wrong_file_false",
    "Verif.Posix.Reopen.mode_kept_false",
    "Verif.Posix.Reopen.failed_false"
   ],
   "note": "Holds for the result, the descriptor and files that cannot be opened. False: every call that opens the file loses a descriptor (so that a stream can be reopened only as often as there were free ones, reopens_limited); a stream reopened for writing on its own file leaves zeros and what waited; bytes that could not be written go to the new file; the direction of the stream stays; a failing fdopen or dup2 leaves the file emptied and the descriptor open. Modelled for one stream; what a reading stream read ahead is dropped."
  },
  {
   "property": "C246",
   "status": "partial",
   "theorems": [
    "Verif.DepVC.TestStatus.status_iff",
    "Verif.DepVC.TestStatus.old_iff",
    "Verif.DepVC.TestStatus.new_iff",
    "Verif.DepVC.TestStatus.failed_false",
    "Verif.DepVC.TestStatus.touching_false",
    "Verif.DepVC.TestStatus.joined_false",
    "Verif.DepVC.TestStatus.text_false"
   ],
   "note": "The files that are read, and what is read from them, are characterised exactly. False: ctest 2.8 writes the status of a failing test as ***Failed without white space before it, which no pattern accepts (the program dies for every such line); a long name that touches its status in the old format dies or gives a wrong name; texts of the old format lack their newline. Simplified: lines are given without newlines."
  },
  {
   "property": "C247",
   "status": "partial",
   "theorems": [
    "Verif.DepVC.GitStatus.unknown_partial",
    "Verif.DepVC.GitStatus.unknown_all",
    "Verif.DepVC.GitStatus.uncommitted_iff",
    "Verif.DepVC.GitStatus.unknown_false"
   ],
   "note": "What is reported is characterised exactly (unknown_all). False when a file whose name begins with two question marks and a space is renamed: its old name is a record of its own and is taken for an unknown file. The format of git is the specification; git itself is not modelled."
  },
  {
   "property": "C248",
   "status": "partial",
   "theorems": [
    "Verif.DepVC.Config.config_iff",
    "Verif.DepVC.Config.valid_accepted",
    "Verif.DepVC.Config.warned_iff",
    "Verif.DepVC.Config.dep_type_false",
    "Verif.DepVC.Config.dep_ref_false",
    "Verif.DepVC.Config.untested_false",
    "Verif.DepVC.Config.newline_false"
   ],
   "note": "Every documented configuration is accepted, and what else is accepted is characterised exactly (config_iff). False in the other direction: the pattern for dependencies demands nothing after the separator (a wrong type becomes part of the project's name), references are accepted as dependencies, untested_repository is not checked, and strings may end with a newline. Not modelled: evaluating the file."
  },
  {
   "property": "C249",
   "status": "partial",
   "theorems": [
    "Verif.Mercury.Colors.colors_iff",
    "Verif.Mercury.Colors.colors_named",
    "Verif.Mercury.Colors.series_cyclic",
    "Verif.Mercury.Colors.refused_false",
    "Verif.Mercury.Colors.empty_false"
   ],
   "note": "What is accepted is characterised exactly for every option text. False: commas at the end are ignored, so commas alone are accepted and give no style; a density above 1 is accepted; a query without rows still plots one series. Digits are those of ASCII; gnuplot is not modelled."
  },
  {
   "property": "C250",
   "status": "partial",
   "theorems": [
    "Verif.Misc.LintelConfig.has_feature",
    "Verif.Misc.LintelConfig.features_listed",
    "Verif.Misc.LintelConfig.paths",
    "Verif.Misc.LintelConfig.others_refused",
    "Verif.Misc.LintelConfig.help_false"
   ],
   "note": "Proved for names without blanks and semicolons and values without characters special to the shell. False: --help exits with 1, as a wrong option does."
  },
  {
   "property": "C251",
   "status": "partial",
   "theorems": [
    "Verif.Disktool.list_dies",
    "Verif.Disktool.list_sorts",
    "Verif.Disktool.list_ids",
    "Verif.Disktool.list_lost",
    "Verif.Disktool.list_unknown",
    "Verif.Disktool.list_info",
    "Verif.Disktool.list_present_false",
    "Verif.Disktool.list_unknown_false"
   ],
   "note": "Proved if the empty text is not listed and no drive calls itself 0 (as in C170). False: a drive that is present but matches no pattern is reported as not present; a reserved drive with an unknown serial number is not reported."
  },
  {
   "property": "C252",
   "status": "partial",
   "theorems": [
    "Verif.Mercury.Output.csv_partial",
    "Verif.Mercury.Output.html_partial",
    "Verif.Mercury.Output.text_rows",
    "Verif.Mercury.Output.csv_false",
    "Verif.Mercury.Output.html_false",
    "Verif.Mercury.Output.null_false"
   ],
   "note": "Proved for values without commas and newlines (csv) and without < (html). False otherwise: neither format quotes or escapes, so that different results have the same output (for html a value can end its cell), and NULL looks like the empty text. The reader of html does not decode entities. Left out: the pager and the module that draws the table."
  },
  {
   "property": "C253",
   "status": "partial",
   "theorems": [
    "Verif.DepVC.MtnOp.mtn_commands",
    "Verif.DepVC.MtnOp.sync_family",
    "Verif.DepVC.MtnOp.family_unique",
    "Verif.DepVC.MtnOp.server_ssh",
    "Verif.DepVC.MtnOp.version_dates",
    "Verif.DepVC.MtnOp.family_false",
    "Verif.DepVC.MtnOp.version_false"
   ],
   "note": "Proved: the two commands, exactly when they are run, and that the family is unique and matches the branch. False: the pattern also matches projects whose names begin alike (no slash before the star), and version 0.28 does not get the commands meant for it, since the number behind the dot is compared with 0.28 instead of 28. Left out: what monotone does, database names that end in a slash (basename removes it), the check that _MTN exists; the choice of the server is another claim."
  },
  {
   "property": "C254",
   "status": "partial",
   "theorems": [
    "Verif.Batch.Find.found_exact",
    "Verif.Batch.Find.found_order",
    "Verif.Batch.Find.found_once_partial",
    "Verif.Batch.Find.abs_same_partial",
    "Verif.Batch.Find.found_once_false",
    "Verif.Batch.Find.abs_root_false"
   ],
   "note": "Proved: exactly the wanted ones and the number of sources, the order, each once if the directories have no file in common, and the meaning of the absolute names. False: for a directory and one below it the same file is built twice into the same result (possibly at the same time), and a file right below the root is looked for below the working directory. Left out: symbolic links, `..`, names with newlines, names that do not exist."
  },
  {
   "property": "C255",
   "status": "partial",
   "theorems": [
    "Verif.Batch.TarRun.archive_whole",
    "Verif.Batch.TarRun.failure_keeps",
    "Verif.Batch.TarRun.start_iff",
    "Verif.Batch.TarRun.rebuild_current",
    "Verif.Batch.TarRun.honest_current",
    "Verif.Batch.TarRun.honest_keeps_partial",
    "Verif.Batch.TarRun.same_second_false",
    "Verif.Batch.TarRun.while_running_false",
    "Verif.Batch.TarRun.removed_false"
   ],
   "note": "Proved: whole for all histories, failures, exactly when a run is started, up to date after a quiet run, and up to date when left alone if the sources change only while tar is not running and not in the second in which the archive was written. False otherwise: such changes are never noticed, and removed files stay in the archive. Left out: the list of files in /tmp, leading directories, several archives at the same time."
  },
  {
   "property": "C256",
   "status": "partial",
   "theorems": [
    "Verif.DepVC.Reviews.reviews_read_partial",
    "Verif.DepVC.Reviews.lines_lost_false",
    "Verif.DepVC.Reviews.signature_false"
   ],
   "note": "Proved: exactly the certificates named review, in order, with the first line of the value; it dies exactly if one has nobody or an empty first line. False: further lines of a review are lost, and the state of the signature is not looked at. Assumed: the format in which monotone prints certificates."
  },
  {
   "property": "C257",
   "status": "partial",
   "theorems": [
    "Verif.Mercury.Select.select_args_partial",
    "Verif.Mercury.Select.unknown_refused",
    "Verif.Mercury.Select.separate_value_false",
    "Verif.Mercury.Select.filename_false",
    "Verif.Mercury.Select.dashes_false"
   ],
   "note": "Proved for options of the documented form --name=value whose values have no spaces, for queries that do not begin with --. False: a value given as an argument of its own (the format is -- then), names of files with spaces, and -- at the end of the options, which becomes part of the query and begins a comment there. Getopt::Long is modelled for these two options. Left out: the fallback to csv without Data::ShowTable, and the default table and condition, which are another claim."
  },
  {
   "property": "C258",
   "status": "partial",
   "theorems": [
    "Verif.Batch.Workdir.cleanup_exact_partial",
    "Verif.Batch.Workdir.others_kept",
    "Verif.Batch.Workdir.noexec_keeps",
    "Verif.Batch.Workdir.own_never_removed_false",
    "Verif.Batch.Workdir.new_removed_false",
    "Verif.Batch.Workdir.half_removed_false"
   ],
   "note": "That others stay is proved for all directories; that exactly the old ones go is proved if there are no directories in them. False: that the directories the program itself makes are ever removed, since their names end in the rest of the second, which the pattern does not allow (documented: cleaned out after 1 week). Also false for directories whose names do match: one just made, with no list of jobs in it yet, is removed at once; a directory inside an old one stops the cleaning half way, with the run. The pattern for lists and logs is grouped otherwise than it looks, so joblist-x and catalog.1 count too, which only keeps more. Left out: files that go away while they are looked at, names with a newline, and times less than a week after 1970."
  },
  {
   "property": "C259",
   "status": "proved",
   "theorems": [
    "Verif.DepVC.TryCheckout.returns_iff",
    "Verif.DepVC.TryCheckout.branch_wanted",
    "Verif.DepVC.TryCheckout.wanted_unique",
    "Verif.DepVC.TryCheckout.other_failure",
    "Verif.DepVC.TryCheckout.init_failure",
    "Verif.DepVC.TryCheckout.slashless_false",
    "Verif.DepVC.TryCheckout.blanks_false"
   ],
   "note": "What checkout and init do is arbitrary. Worth knowing: branches without a slash propose nothing, and blanks around an answer become part of the name of the branch. Left out: what is printed, and a list of branches that cannot be had (an empty list)."
  },
  {
   "property": "C260",
   "status": "partial",
   "theorems": [
    "Verif.Dist.ManName.page_fixed_partial",
    "Verif.Dist.ManName.others_kept",
    "Verif.Dist.ManName.line_lost_false",
    "Verif.Dist.ManName.description_false",
    "Verif.Dist.ManName.next_page_false"
   ],
   "note": "Proved for pages with a name and a description without the sign between them in it; that only lines after a heading change is proved for all. False: a line without the sign is replaced by an empty one; a description with the sign in it loses blanks; and a heading at the end of one page changes the first line of the next. Left out: last lines without a newline, and the rest of the script."
  },
  {
   "property": "C261",
   "status": "partial",
   "theorems": [
    "Verif.Batch.Submit.lsf_words_partial",
    "Verif.Batch.Submit.codine_words_partial",
    "Verif.Batch.Submit.runs_iff",
    "Verif.Batch.Submit.codine_width_false",
    "Verif.Batch.Submit.blank_false"
   ],
   "note": "Proved for names without characters that mean something to the shell, and needs without a single quote. False: with Codine the width is not given to the batch system at all, so that all tasks may run at once; and a working directory with a blank in it makes other words. Of the shell, blanks and single quotes are modelled. The number and the size of the groups are another claim."
  },
  {
   "property": "C262",
   "status": "partial",
   "theorems": [
    "Verif.Dist.Changelogs.check_iff",
    "Verif.Dist.Changelogs.right_passes",
    "Verif.Dist.Changelogs.other_version_false",
    "Verif.Dist.Changelogs.longer_false"
   ],
   "note": "Proved with lines that have a text like the version in them, points standing for any character. False for the version itself: changelogs of other versions, as 102.3 or 1.23 for 1.2, pass too. Of the regular expressions of grep, those made of digits and points are modelled."
  },
  {
   "property": "C263",
   "status": "partial",
   "theorems": [
    "Verif.CMakeMod.Inc.setup_places_partial",
    "Verif.CMakeMod.Inc.installed_first_partial",
    "Verif.CMakeMod.Inc.still_found",
    "Verif.CMakeMod.Inc.setup_again",
    "Verif.CMakeMod.Inc.precedence_false",
    "Verif.CMakeMod.Inc.blank_false"
   ],
   "note": "Proved for prefixes without blanks; the precedence if the directories are not places already. False: if they are, behind others (as with PERL5LIB), they stay there, so that the modules of other installations come first, against the comment in the file; and a prefix with a blank makes other directories, one of them relative."
  },
  {
   "property": "C264",
   "status": "partial",
   "theorems": [
    "Verif.CMakeMod.Find.with_library_partial",
    "Verif.CMakeMod.Find.required_library_partial",
    "Verif.CMakeMod.Find.headers_partial",
    "Verif.CMakeMod.Find.vanished_false",
    "Verif.CMakeMod.Find.sticky_false",
    "Verif.CMakeMod.Find.twice_false",
    "Verif.CMakeMod.Find.find_enabled_false"
   ],
   "note": "Proved for new build directories; of several names for a library, the first that is anywhere counts more than the place. False: in an old build directory, what has been removed since is still used; a variable required once makes its optional uses end cmake too; a library without its header is twice in the list of what is missing; and LINTEL_FIND_LIBRARY does not set X_ENABLED, as documented, unless it is required. Left out: programs, messages, names that cmake takes for false, and a second call in the same run after nothing was found."
  },
  {
   "property": "C265",
   "status": "partial",
   "theorems": [
    "Verif.CMakeMod.Prog.with_program",
    "Verif.CMakeMod.Prog.required_program",
    "Verif.CMakeMod.Prog.chosen_present",
    "Verif.CMakeMod.Prog.with_module",
    "Verif.CMakeMod.Prog.required_module",
    "Verif.CMakeMod.Prog.required_mark_false",
    "Verif.CMakeMod.Prog.required_module_mark_false",
    "Verif.CMakeMod.Prog.module_vanished_false"
   ],
   "note": "Proved for programs. Perl modules are used exactly if not turned off and found, now or in an earlier run. False: that a module removed since is noticed, as programs are; and that what is required gets X_ENABLED, as headers and libraries do. Left out: messages (the extra message of a required program, line 281, is itself a syntax error, which ends cmake as the next line would)."
  },
  {
   "property": "C266",
   "status": "partial",
   "theorems": [
    "Verif.CMakeMod.BoostExtra.boost_optional_partial",
    "Verif.CMakeMod.BoostExtra.boost_agrees",
    "Verif.CMakeMod.BoostExtra.boost_header_agrees",
    "Verif.CMakeMod.BoostExtra.optional_ends_false",
    "Verif.CMakeMod.BoostExtra.boost_required_partial"
   ],
   "note": "Agreement is proved for all states; what an optional library does, for new build directories. False: that something optional never ends cmake: it does if its header is first found elsewhere than boost's, for instance in the installation. Left out: extra includes of the variable, and FindBoost itself."
  },
  {
   "property": "C267",
   "status": "partial",
   "theorems": [
    "Verif.CMakeMod.DocsMacros.latex_optional",
    "Verif.CMakeMod.DocsMacros.latex_required_partial",
    "Verif.CMakeMod.DocsMacros.latex_required_false",
    "Verif.CMakeMod.DocsMacros.latex_requires",
    "Verif.CMakeMod.DocsMacros.page_partial",
    "Verif.CMakeMod.DocsMacros.page_without",
    "Verif.CMakeMod.DocsMacros.empty_release_false"
   ],
   "note": "Proved for arguments that are not empty and if LINTEL_LATEX_REBUILD_FIND_REQUIRED is not set. False: that LINTEL_LATEX_REBUILD_REQUIRED requires the program, as documented: it only ends cmake if the program is there and fails to check itself; and that an empty release is the release, since empty arguments are lost. Left out: doxygen, the commands of the targets, sections written like 01."
  },
  {
   "property": "C268",
   "status": "partial",
   "theorems": [
    "Verif.CMakeMod.PathFix.fix_partial",
    "Verif.CMakeMod.PathFix.semicolons_false",
    "Verif.CMakeMod.PathFix.build_false",
    "Verif.CMakeMod.PathFix.empty_false"
   ],
   "note": "Proved for paths of the source in files without semicolons. False: paths of the build directory stay, since the list of directories is split at its semicolon on the way to the script; all semicolons of a file are lost, also those of &lt; and the like; and an empty file ends cmake. Left out: square brackets and backslashes, between which cmake does not split."
  },
  {
   "property": "C269",
   "status": "partial",
   "theorems": [
    "Verif.Dist.ReleaseInfo.release_git",
    "Verif.Dist.ReleaseInfo.release_tar",
    "Verif.Dist.ReleaseInfo.date_read",
    "Verif.Dist.ReleaseInfo.old_project",
    "Verif.Dist.ReleaseInfo.recognized_false"
   ],
   "note": "The date is read back unless the output of git status has a line like it. False: that a release made by the script is recognized when its tar file is unpacked again: the script writes hours and minutes, the old deptool expects none, so that the project is always moved away. Left out: failing commands, and tar itself."
  }
 ]
}
