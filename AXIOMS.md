# Axioms of every manifest theorem

Output of `#print axioms`, one line per theorem, in manifest order.
The only axioms that occur are Lean's own `propext`, `Classical.choice` and `Quot.sound`.

| property | theorem | axioms |
|---|---|---|
| C01 | `Verif.Hash.hashmap_is_map` | propext, Classical.choice, Quot.sound |
| C01 | `Verif.Hash.hashmap_no_ub` | propext, Classical.choice, Quot.sound |
| C01 | `Verif.Hash.hashmap_lookup_last_stored` | propext, Classical.choice, Quot.sound |
| C01 | `Verif.Hash.hashmap_size_distinct` | propext, Classical.choice, Quot.sound |
| C02 | `Verif.Hash.hashtable_is_multimap` | propext, Classical.choice, Quot.sound |
| C02 | `Verif.Hash.hashtable_no_ub` | propext, Classical.choice, Quot.sound |
| C02 | `Verif.Hash.walk_total` | propext, Classical.choice, Quot.sound |
| C03 | `Verif.Hash.prune_exact` | propext, Classical.choice, Quot.sound |
| C05 | `Verif.Hash.addOrReplace_keeps_old` | propext |
| C05 | `Verif.Hash.addOrReplace_partial` | propext, Classical.choice, Quot.sound |
| C06 | `Verif.Hash.hashunique_is_set` | propext, Classical.choice, Quot.sound |
| C06 | `Verif.Hash.hashunique_exists_iff` | propext, Classical.choice, Quot.sound |
| C06 | `Verif.Hash.hashunique_add_iff` | propext, Classical.choice, Quot.sound |
| C06 | `Verif.Hash.hashunique_size` | propext, Classical.choice, Quot.sound |
| C07 | `Verif.Hash.rotating_is_aged_map` | propext, Classical.choice, Quot.sound |
| C07 | `Verif.Hash.accessed_survives_rotate` | propext, Classical.choice, Quot.sound |
| C07 | `Verif.Hash.unused_gone_after_two_rotates` | propext, Classical.choice, Quot.sound |
| C08 | `Verif.PQ.pq_is_priority_queue` | propext, Classical.choice, Quot.sound |
| C08 | `Verif.PQ.pq_total` | propext, Classical.choice, Quot.sound |
| C08 | `Verif.PQ.pq_sorts` | propext, Classical.choice, Quot.sound |
| C09 | `Verif.PQ.pops_interchangeable` | propext, Classical.choice, Quot.sound |
| C09 | `Verif.PQ.replaceTop_is_pop_push` | propext, Classical.choice, Quot.sound |
| C09 | `Verif.PQ.popBU_needs_reflexive` | propext |
| C09 | `Verif.PQ.popBU_needs_ties` | propext |
| C10 | `Verif.Deque.deque_fifo` | propext, Classical.choice, Quot.sound |
| C10 | `Verif.Deque.deque_ctor_rejects` | propext, Quot.sound |
| C10 | `Verif.Deque.deque_empty_access_ub` | propext, Classical.choice, Quot.sound |
| C10 | `Verif.Deque.deque_reserve_no_realloc` | propext, Classical.choice, Quot.sound |
| C10 | `Verif.Deque.deque_reserve_rejects` | propext, Classical.choice, Quot.sound |
| C11 | `Verif.Deque.deque_iteration` | propext, Classical.choice, Quot.sound |
| C11 | `Verif.Deque.deque_iterator_random_access_partial` | propext, Classical.choice, Quot.sound |
| C11 | `Verif.Deque.deque_iterator_add_negative_bug` | propext |
| C12 | `Verif.BB.bytebuffer_values` | propext, Classical.choice, Quot.sound |
| C12 | `Verif.BB.bytebuffer_isolated` | propext, Classical.choice, Quot.sound |
| C12 | `Verif.BB.misuse_never_ok` | propext, Classical.choice, Quot.sound |
| C13 | `Verif.BB.bytebuffer_is_text` | propext, Classical.choice, Quot.sound |
| C14 | `Verif.Base64.encode32_reads_back` | propext, Classical.choice, Quot.sound |
| C14 | `Verif.Base64.encode64_reads_back` | propext, Classical.choice, Quot.sound |
| C14 | `Verif.Base64.encode32_lossless` | propext, Classical.choice, Quot.sound |
| C14 | `Verif.Base64.encode64_lossless` | propext, Classical.choice, Quot.sound |
| C14 | `Verif.Base64.decode_encode` | propext, Quot.sound |
| C14 | `Verif.Base64.encodeBytes_injective` | propext, Classical.choice, Quot.sound |
| C14 | `Verif.Base64.encodeBytes_digits` | propext, Quot.sound |
| C14 | `Verif.Base64.decode_bad_char` | propext, Classical.choice, Quot.sound |
| C15 | `Verif.Base64.encodeBytes_order` | propext, Classical.choice, Quot.sound |
| C15 | `Verif.Base64.encode32_order` | propext, Classical.choice, Quot.sound |
| C15 | `Verif.Base64.encode64_order` | propext, Classical.choice, Quot.sound |
| C15 | `Verif.Base64.encode32_order_default` | propext, Classical.choice, Quot.sound |
| C15 | `Verif.Base64.encode64_order_default` | propext, Classical.choice, Quot.sound |
| C15 | `Verif.Base64.signed_order_partial` | propext, Classical.choice, Quot.sound |
| C15 | `Verif.Base64.signed_order_bug` | propext, Classical.choice, Quot.sound |
| C16 | `Verif.Str.split_join` | propext, Classical.choice, Quot.sound |
| C16 | `Verif.Str.split_separable` | propext, Classical.choice, Quot.sound |
| C16 | `Verif.Str.join_split_iff` | propext, Classical.choice, Quot.sound |
| C16 | `Verif.Str.join_split_byte` | propext, Classical.choice, Quot.sound |
| C16 | `Verif.Str.join_is_intercalate` | propext |
| C16 | `Verif.Str.split_empty_sep` | propext |
| C16 | `Verif.Str.split_2GiB_bug` | propext, Classical.choice, Quot.sound |
| C17 | `Verif.Str.hex_round_trip` | propext, Quot.sound |
| C17 | `Verif.Str.hex2raw_accepts` | propext, Classical.choice, Quot.sound |
| C17 | `Verif.Str.maybehex_round_trip_bug` | propext |
| C17 | `Verif.Str.maybehex_round_trip_partial` | propext, Classical.choice, Quot.sound |
| C17 | `Verif.Str.hexstring_4GiB_bug` | propext |
| C18 | `Verif.Str.mysqlEscape_safe` | propext, Classical.choice, Quot.sound |
| C18 | `Verif.Str.mysqlEscapeS_safe` | propext, Classical.choice, Quot.sound |
| C18 | `Verif.Str.mysqlEscape_chars` | propext, Classical.choice, Quot.sound |
| C18 | `Verif.Str.escapeUnprintable_lossless` | propext, Quot.sound |
| C18 | `Verif.Str.escapeUnprintable_printable` | propext, Quot.sound |
| C19 | `Verif.Str.csv_field_iff_partial` | propext, Classical.choice, Quot.sound |
| C19 | `Verif.Str.csv_row_partial` | propext, Classical.choice, Quot.sound |
| C19 | `Verif.Str.csv_bug` | propext |
| C20 | `Verif.Str.ipv4_round_trip_partial` | propext, Classical.choice, Quot.sound |
| C20 | `Verif.Str.ipv4_broadcast_bug` | propext, Classical.choice, Quot.sound |
| C21 | `Verif.BMH.find_first` | propext, Classical.choice, Quot.sound |
| C21 | `Verif.BMH.matches_iff` | propext, Classical.choice, Quot.sound |
| C21 | `Verif.BMH.first_unique` | none |
| C21 | `Verif.BMH.empty_needle_aborts` | propext |
| C22 | `Verif.Interp.search_is_lower_bound` | propext, Classical.choice, Quot.sound |
| C22 | `Verif.Interp.interpolation_search_sorted` | propext, Classical.choice, Quot.sound |
| C22 | `Verif.Interp.no_steps_never_ends` | propext, Quot.sound |
| C23 | `Verif.Atomic.atomic_linearizable` | propext, Classical.choice, Quot.sound |
| C23 | `Verif.Atomic.atomic_real_time` | propext, Classical.choice, Quot.sound |
| C23 | `Verif.Atomic.no_lost_increment` | propext, Classical.choice, Quot.sound |
| C23 | `Verif.Atomic.alone_finishes` | propext, Classical.choice, Quot.sound |
| C24 | `Verif.CStr.interning_partial` | propext, Classical.choice, Quot.sound |
| C24 | `Verif.CStr.compare_partial` | propext, Classical.choice, Quot.sound |
| C24 | `Verif.CStr.compare_no_zero_partial` | propext, Classical.choice, Quot.sound |
| C24 | `Verif.CStr.compare_not_equality` | propext |
| C24 | `Verif.CStr.huge_is_empty` | propext, Quot.sound |
| C25 | `Verif.StrId.stringId_numbers` | propext, Classical.choice, Quot.sound |
| C25 | `Verif.StrId.stringId_round_trip` | propext, Classical.choice, Quot.sound |
| C25 | `Verif.StrId.stringId_injective` | propext, Classical.choice, Quot.sound |
| C26 | `Verif.Tuple.anyTuple_eq_iff` | propext, Classical.choice, Quot.sound |
| C26 | `Verif.Tuple.anyTuple_hash` | propext, Quot.sound |
| C26 | `Verif.Tuple.anyTuple_order` | propext, Classical.choice, Quot.sound |
| C26 | `Verif.Tuple.anyTuple_any_last` | propext, Classical.choice, Quot.sound |
| C26 | `Verif.Tuple.anyPair_tuples` | propext, Quot.sound |
| C26 | `Verif.Tuple.representations_agree` | propext, Classical.choice, Quot.sound |
| C26 | `Verif.Tuple.tuple_hash` | propext, Quot.sound |
| C26 | `Verif.Tuple.assign_view` | propext, Classical.choice, Quot.sound |
| C27 | `Verif.Cube.cube_meets_spec` | propext, Classical.choice, Quot.sound |
| C27 | `Verif.Cube.cube_totals` | propext, Classical.choice, Quot.sound |
| C28 | `Verif.Cube.walkZeros_all_combinations` | propext, Classical.choice, Quot.sound |
| C28 | `Verif.Cube.zeroCube_columns_partial` | propext, Classical.choice, Quot.sound |
| C29 | `Verif.Quantile.sketch_weight` | propext, Classical.choice, Quot.sound |
| C30 | `Verif.Quantile.quantile_exact` | propext, Classical.choice, Quot.sound |
| C30 | `Verif.Quantile.quantile_error` | propext, Classical.choice, Quot.sound |
| C30 | `Verif.Quantile.quantile_empty` | propext, Classical.choice, Quot.sound |
| C31 | `Verif.Stats.stats_values` | propext, Classical.choice, Quot.sound |
| C31 | `Verif.Stats.stats_grouping` | propext, Classical.choice, Quot.sound |
| C31 | `Verif.Stats.stats_merge` | propext, Classical.choice, Quot.sound |
| C31 | `Verif.Stats.stats_moments` | propext, Classical.choice, Quot.sound |
| C31 | `Verif.Stats.stats_ranges` | propext, Classical.choice, Quot.sound |
| C32 | `Verif.Histo.histogram_counts_partial` | propext, Classical.choice, Quot.sound |
| C32 | `Verif.Histo.histogram_grow_false` | propext, Classical.choice, Quot.sound |
| C32 | `Verif.Histo.histogram_grow_ub` | propext, Classical.choice, Quot.sound |
| C32 | `Verif.Histo.histogram_empty_range` | propext, Classical.choice, Quot.sound |
| C33 | `Verif.Histo.percentile_rank_partial` | propext, Classical.choice, Quot.sound |
| C33 | `Verif.Histo.percentile_any_partial` | propext, Classical.choice, Quot.sound |
| C33 | `Verif.Histo.percentile_monotone_partial` | propext, Classical.choice, Quot.sound |
| C33 | `Verif.Histo.percentile_zero_false` | propext, Classical.choice, Quot.sound |
| C33 | `Verif.Histo.percentile_monotone_false` | propext, Classical.choice, Quot.sound |
| C33 | `Verif.Histo.percentile_safe_partial` | propext, Classical.choice, Quot.sound |
| C34 | `Verif.Histo.accum_sums_partial` | propext, Classical.choice, Quot.sound |
| C34 | `Verif.Histo.accum_odd_false` | propext, Classical.choice, Quot.sound |
| C35 | `Verif.Histo.group_routes` | propext, Classical.choice, Quot.sound |
| C35 | `Verif.Histo.group_counts` | propext, Classical.choice, Quot.sound |
| C36 | `Verif.Series.sequence_buckets_partial` | propext, Classical.choice, Quot.sound |
| C36 | `Verif.Series.sequence_max_false` | propext, Classical.choice, Quot.sound |
| C36 | `Verif.Series.sequence_overflow_false` | propext, Classical.choice, Quot.sound |
| C36 | `Verif.Series.sequence_mode_fixed` | none |
| C37 | `Verif.Series.series_autocovariance_partial` | propext, Classical.choice, Quot.sound |
| C37 | `Verif.Series.series_lag_false` | propext, Classical.choice, Quot.sound |
| C37 | `Verif.Series.series_empty` | propext, Classical.choice, Quot.sound |
| C37 | `Verif.Series.series_max_false` | propext, Quot.sound |
| C38 | `Verif.Series.series_group_partial` | propext, Classical.choice, Quot.sound |
| C38 | `Verif.Series.series_group_reset_false` | propext, Classical.choice, Quot.sound |
| C38 | `Verif.Series.series_group_empty_ub` | propext, Classical.choice, Quot.sound |
| C38 | `Verif.Series.series_group_order` | propext, Classical.choice, Quot.sound |
| C38 | `Verif.Series.series_group_zero_false` | propext, Classical.choice, Quot.sound |
| C38 | `Verif.Series.series_group_double_false` | propext, Classical.choice, Quot.sound |
| C39 | `Verif.Lsq.lsq_defined` | propext, Classical.choice, Quot.sound |
| C39 | `Verif.Lsq.lsq_minimal` | propext, Classical.choice, Quot.sound |
| C39 | `Verif.Lsq.lsq_points` | propext, Classical.choice, Quot.sound |
| C39 | `Verif.Lsq.lsq_vertical_false` | propext, Classical.choice, Quot.sound |
| C39 | `Verif.Lsq.lsq_abort_false` | propext, Classical.choice, Quot.sound |
| C40 | `Verif.Matrix.gauss_solutions_partial` | propext, Classical.choice, Quot.sound |
| C40 | `Verif.Matrix.gauss_identity` | propext, Classical.choice, Quot.sound |
| C40 | `Verif.Matrix.gauss_unique` | propext, Classical.choice, Quot.sound |
| C40 | `Verif.Matrix.gauss_rank_partial` | propext, Classical.choice, Quot.sound |
| C40 | `Verif.Matrix.gauss_default` | propext, Classical.choice, Quot.sound |
| C40 | `Verif.Matrix.gauss_tolerance_false` | propext, Classical.choice, Quot.sound |
| C40 | `Verif.Matrix.gauss_zero_ub` | propext, Classical.choice, Quot.sound |
| C40 | `Verif.Matrix.gauss_past_ub` | propext, Classical.choice, Quot.sound |
| C41 | `Verif.Histo.compare_trichotomy` | propext, Classical.choice, Quot.sound |
| C41 | `Verif.Histo.compare_symmetric` | propext, Classical.choice, Quot.sound |
| C41 | `Verif.Histo.compare_meaning` | propext, Classical.choice, Quot.sound |
| C41 | `Verif.Histo.compare_zero_tolerance` | propext, Classical.choice, Quot.sound |
| C42 | `Verif.Clock.micro_round_trip` | propext, Classical.choice, Quot.sound |
| C42 | `Verif.Clock.nano_round_trip` | propext, Classical.choice, Quot.sound |
| C42 | `Verif.Clock.micro_is_ceiling` | propext, Classical.choice, Quot.sound |
| C42 | `Verif.Clock.nano_is_ceiling` | propext, Classical.choice, Quot.sound |
| C42 | `Verif.Clock.extraction_exact` | propext, Classical.choice, Quot.sound |
| C43 | `Verif.Clock.secondsToTfrac_partial` | propext, Classical.choice, Quot.sound |
| C43 | `Verif.Clock.secondsToTfrac_bug` | propext, Classical.choice, Quot.sound |
| C43 | `Verif.Clock.secondsToTfrac_range` | propext, Classical.choice, Quot.sound |
| C43 | `Verif.Clock.tfracOffset_partial` | propext, Classical.choice, Quot.sound |
| C43 | `Verif.Clock.tfracOffset_bug` | propext, Classical.choice, Quot.sound |
| C44 | `Verif.Rng.mt_follows_recurrence` | propext, Quot.sound |
| C44 | `Verif.Rng.mt_follows_recurrence_from_array` | propext, Quot.sound |
| C45 | `Verif.Rng.temper_bijective` | propext, Quot.sound |
| C45 | `Verif.Rng.temper_separates` | propext, Quot.sound |
| C46 | `Verif.Rng.shuffle_permutes` | propext, Classical.choice, Quot.sound |
| C46 | `Verif.Rng.shuffle_reaches_each_order_once` | propext, Classical.choice, Quot.sound |
| C46 | `Verif.Rng.randInt_is_choice` | propext, Classical.choice, Quot.sound |
| C47 | `Verif.Rng.randIntUnbiased_uniform` | propext, Classical.choice, Quot.sound |
| C47 | `Verif.Rng.randIntUnbiased_in_range` | propext, Classical.choice, Quot.sound |
| C48 | `Verif.Rng.reseed_reproducible_partial` | propext, Quot.sound |
| C48 | `Verif.Rng.reseed_reproducible_when_drained_partial` | propext, Quot.sound |
| C48 | `Verif.Rng.mt_seed_forgets` | propext, Quot.sound |
| C48 | `Verif.Rng.reseed_not_reproducible` | propext, Quot.sound |
| C49 | `Verif.Spin.atomic_spin_partial` | propext, Quot.sound |
| C49 | `Verif.Spin.atomic_spin_undefined` | propext, Quot.sound |
| C49 | `Verif.Spin.atomic_spin_two_holders` | propext, Quot.sound |
| C49 | `Verif.Spin.spin_mutual_exclusion` | propext, Quot.sound |
| C49 | `Verif.Spin.spin_progress` | propext, Quot.sound |
| C50 | `Verif.LockOrd.no_deadlock_partial` | propext, Quot.sound |
| C50 | `Verif.LockOrd.someone_can_move_partial` | propext, Classical.choice, Quot.sound |
| C50 | `Verif.LockOrd.out_of_order_aborts_partial` | propext, Quot.sound |
| C50 | `Verif.LockOrd.all_released_partial` | propext, Quot.sound |
| C50 | `Verif.LockOrd.unlocked_twice_deadlock` | propext, Quot.sound |
| C51 | `Verif.Log.log_level_partial` | propext, Classical.choice, Quot.sound |
| C51 | `Verif.Log.log_level_actual` | propext, Classical.choice, Quot.sound |
| C51 | `Verif.Log.log_order_false` | propext |
| C51 | `Verif.Log.log_truncate_false` | propext |
| C51 | `Verif.Log.log_category_id` | propext, Classical.choice, Quot.sound |
| C51 | `Verif.Log.log_id_order` | propext, Classical.choice, Quot.sound |
| C51 | `Verif.Log.log_defined` | propext, Classical.choice, Quot.sound |
| C51 | `Verif.Log.log_warning` | propext, Classical.choice, Quot.sound |
| C52 | `Verif.Wrap.wordWrap_spec` | propext, Classical.choice, Quot.sound |
| C52 | `Verif.Wrap.wordWrap_breaks` | propext, Classical.choice, Quot.sound |
| C52 | `Verif.Wrap.wordWrap_fits` | propext, Classical.choice, Quot.sound |
| C52 | `Verif.Wrap.wordWrap_idem` | propext, Classical.choice, Quot.sound |
| C52 | `Verif.Wrap.wordWrap_narrow_false` | propext |
| C53 | `Verif.HashFn.mix_bijective` | propext, Quot.sound |
| C54 | `Verif.HashFn.bobJenkinsHash_spec` | propext, Classical.choice, Quot.sound |
| C54 | `Verif.HashFn.bobJenkinsHash_in_bounds` | propext, Classical.choice, Quot.sound |
| C54 | `Verif.HashFn.mixULL_halves` | propext, Classical.choice, Quot.sound |
| C55 | `Verif.Stl.rangeEqual_iff_same` | propext, Classical.choice, Quot.sound |
| C55 | `Verif.Stl.rangeEqual_eq` | propext, Classical.choice, Quot.sound |
| C56 | `Verif.Cond.deadline_partial` | propext, Classical.choice, Quot.sound |
| C56 | `Verif.Cond.deadline_not_nearest` | propext, Classical.choice, Quot.sound |
| C56 | `Verif.Cond.deadline_undefined` | propext, Classical.choice, Quot.sound |
| C56 | `Verif.Cond.deadline_negative` | propext, Classical.choice, Quot.sound |
| C57 | `Verif.Series.rw_counts_partial` | propext, Classical.choice, Quot.sound |
| C57 | `Verif.Series.rw_groups_partial` | propext, Classical.choice, Quot.sound |
| C57 | `Verif.Series.rw_groups_false` | propext, Classical.choice, Quot.sound |
| C57 | `Verif.Series.rw_stale_false` | propext, Classical.choice, Quot.sound |
| C57 | `Verif.Series.rw_null_ub` | propext |
| C58 | `Verif.Deque.deque_self_push_full_ub` | propext, Classical.choice, Quot.sound |
| C58 | `Verif.Deque.deque_self_push_bug` | propext |
| C58 | `Verif.Deque.deque_self_push_partial` | propext, Classical.choice, Quot.sound |
| C59 | `Verif.Str.prefixequal_iff` | propext |
| C59 | `Verif.Str.suffixequal_iff` | propext, Classical.choice, Quot.sound |
| C60 | `Verif.Base64.encodeBackward_value` | propext, Classical.choice, Quot.sound |
| C60 | `Verif.Base64.encodeBackward_underrun` | propext, Quot.sound |
| C60 | `Verif.Base64.encodeBackward_default_digits` | propext, Quot.sound |
| C61 | `Verif.Hash.randomlookup_spec` | propext, Classical.choice, Quot.sound |
| C62 | `Verif.PQ.selfVerify_rejects_ties` | propext |
| C62 | `Verif.PQ.selfVerify_partial` | propext, Classical.choice, Quot.sound |
| C62 | `Verif.PQ.selfVerify_exact` | propext, Classical.choice, Quot.sound |
| C63 | `Verif.PQ.default_room_zero_overflows` | propext |
| C63 | `Verif.PQ.default_room_partial` | propext, Classical.choice, Quot.sound |
| C64 | `Verif.PQ.replaceTop_own_top_loses` | propext |
| C64 | `Verif.PQ.push_own_top_dangles` | propext |
| C64 | `Verif.PQ.replaceTop_own_top_partial` | propext, Classical.choice, Quot.sound |
| C65 | `Verif.BB.room_not_honoured_when_copied` | propext |
| C65 | `Verif.BB.room_honoured_partial` | propext, Classical.choice, Quot.sound |
| C66 | `Verif.BB.self_append_and_assign` | propext |
| C66 | `Verif.BB.self_append_partial` | propext, Classical.choice, Quot.sound |
| C67 | `Verif.BB.stream_into_copied_buffer_overflows` | propext |
| C67 | `Verif.BB.stream_appends_partial` | propext, Classical.choice, Quot.sound |
| C68 | `Verif.HashFn.mix3_not_injective` | propext, Quot.sound |
| C68 | `Verif.HashFn.mix3_distinct_partial` | propext, Quot.sound |
| C69 | `Verif.HashFn.short_keys_distinct` | propext, Classical.choice, Quot.sound |
| C69 | `Verif.HashFn.one_block_distinct` | propext, Classical.choice, Quot.sound |
| C70 | `Verif.HashFn.long_buffers_are_cut` | propext, Classical.choice, Quot.sound |
| C70 | `Verif.HashFn.four_gigabytes_hash_alike` | propext, Classical.choice, Quot.sound |
| C70 | `Verif.HashFn.every_byte_counts_partial` | propext, Classical.choice, Quot.sound |
| C70 | `Verif.HashFn.tail_distinct` | propext, Classical.choice, Quot.sound |
| C71 | `Verif.Rng.mt_never_all_zero` | propext, Classical.choice, Quot.sound |
| C71 | `Verif.Rng.mt_array_never_all_zero` | propext, Classical.choice, Quot.sound |
| C71 | `Verif.Rng.initArray_empty` | propext, Quot.sound |
| C72 | `Verif.Rng.fallback_limit_partial` | propext, Classical.choice, Quot.sound |
| C72 | `Verif.Rng.fallback_limit_is_biased` | propext, Quot.sound |
| C73 | `Verif.Rng.micro_two_term_partial` | propext, Quot.sound |
| C73 | `Verif.Rng.micro_not_xorshift128` | propext, Quot.sound |
| C74 | `Verif.Rng.mars_sequence_partial` | propext, Classical.choice, Quot.sound |
| C74 | `Verif.Rng.mars_init_partial` | propext, Classical.choice, Quot.sound |
| C74 | `Verif.Rng.mars_not_documented_step` | propext, Quot.sound |
| C75 | `Verif.Rng.mars_reseed_partial` | propext, Quot.sound |
| C75 | `Verif.Rng.mars_reseed_not_reproducible` | propext, Quot.sound |
| C76 | `Verif.HashFn.bobJenkinsHash_published` | propext, Classical.choice, Quot.sound |
| C76 | `Verif.HashFn.mix_is_published` | propext, Classical.choice, Quot.sound |
| C77 | `Verif.Interp.default_search_partial` | propext, Classical.choice, Quot.sound |
| C77 | `Verif.Interp.default_search_overflow` | propext, Classical.choice, Quot.sound |
| C78 | `Verif.Clock.readings_monotone` | propext, Classical.choice, Quot.sound |
| C78 | `Verif.Clock.readings_defined` | propext, Classical.choice, Quot.sound |
| C78 | `Verif.Clock.calibrates_1000` | propext, Classical.choice, Quot.sound |
| C79 | `Verif.Clock.useTod_partial` | propext, Classical.choice, Quot.sound |
| C79 | `Verif.Clock.useTod_uncalibrated` | propext, Classical.choice, Quot.sound |
| C79 | `Verif.Clock.slow_partial` | propext, Classical.choice, Quot.sound |
| C79 | `Verif.Clock.slow_bug` | propext, Classical.choice, Quot.sound |
| C80 | `Verif.Clock.tfracToDouble_nearest` | propext, Classical.choice, Quot.sound |
| C80 | `Verif.Clock.tfracToDouble_order` | propext, Classical.choice, Quot.sound |
| C81 | `Verif.Rng.randDoubleOpen_range` | propext, Classical.choice, Quot.sound |
| C81 | `Verif.Rng.randDoubleClosed_range` | propext, Classical.choice, Quot.sound |
| C81 | `Verif.Rng.randDoubleOpen53_range` | propext, Classical.choice, Quot.sound |
| C81 | `Verif.Rng.randDoubleClosed53_range` | propext, Classical.choice, Quot.sound |
| C81 | `Verif.Rng.doubles_of_words` | propext, Classical.choice, Quot.sound |
| C82 | `Verif.Atomic.unsigned_defined_partial` | propext, Quot.sound |
| C82 | `Verif.Atomic.signed_fetch_partial` | propext, Quot.sound |
| C82 | `Verif.Atomic.signed_undefined` | propext, Quot.sound |
| C82 | `Verif.Atomic.signed_exact_partial` | propext, Classical.choice, Quot.sound |
| C84 | `Verif.CStr.short_always_partial` | propext, Classical.choice, Quot.sound |
| C84 | `Verif.CStr.long_first_aborts` | propext, Classical.choice, Quot.sound |
| C84 | `Verif.CStr.long_later_works` | propext, Classical.choice, Quot.sound |
| C85 | `Verif.CStr.order_partial` | propext, Classical.choice, Quot.sound |
| C86 | `Verif.Cube.zeroCube_emptied_column` | propext, Quot.sound |
| C86 | `Verif.Cube.emptied_column_not_any` | propext, Quot.sound |
| C87 | `Verif.Cube.cube_objects_freed` | propext, Classical.choice, Quot.sound |
| C88 | `Verif.Quantile.default_sketch_safe_partial` | propext, Classical.choice, Quot.sound |
| C88 | `Verif.Quantile.sketch_safe_partial` | propext, Classical.choice, Quot.sound |
| C88 | `Verif.Quantile.collapse_pos_overflow` | propext, Classical.choice, Quot.sound |
| C89 | `Verif.Quantile.merge_empty_partial` | propext, Classical.choice, Quot.sound |
| C89 | `Verif.Quantile.merge_empty_ub` | propext, Classical.choice, Quot.sound |
| C90 | `Verif.Quantile.documented_error` | propext, Classical.choice, Quot.sound |
| C90 | `Verif.Quantile.documented_error_partial` | propext, Classical.choice, Quot.sound |
| C91 | `Verif.Stats.stats_double_partial` | propext, Classical.choice, Quot.sound |
| C91 | `Verif.Stats.stats_integer_partial` | propext, Classical.choice, Quot.sound |
| C91 | `Verif.Stats.stats_double_false` | propext, Classical.choice, Quot.sound |
| C92 | `Verif.Histo.histogram_double_partial` | propext, Classical.choice, Quot.sound |
| C92 | `Verif.Histo.histogram_integers_partial` | propext, Classical.choice, Quot.sound |
| C92 | `Verif.Histo.histogram_double_false` | propext, Classical.choice, Quot.sound |
| C93 | `Verif.Series.correlated_negative_false` | propext, Classical.choice, Quot.sound |
| C93 | `Verif.Series.correlated_monotone_partial` | propext, Classical.choice, Quot.sound |
| C94 | `Verif.Ema.ema_rates` | propext, Quot.sound |
| C94 | `Verif.Ema.ema_average` | propext, Classical.choice, Quot.sound |
| C94 | `Verif.Ema.ema_range` | propext, Classical.choice, Quot.sound |
| C94 | `Verif.Ema.ema_step` | propext, Classical.choice, Quot.sound |
| C94 | `Verif.Ema.ema_extremes` | propext, Classical.choice, Quot.sound |
| C94 | `Verif.Ema.ema_double_false` | propext, Classical.choice, Quot.sound |
| C94 | `Verif.Ema.ema_reset_false` | none |
| C95 | `Verif.Maker.maker_longest` | propext, Classical.choice, Quot.sound |
| C95 | `Verif.Maker.maker_history` | propext, Classical.choice, Quot.sound |
| C96 | `Verif.Num.stringToInteger_signed` | propext, Classical.choice, Quot.sound |
| C96 | `Verif.Num.stringToInteger_unsigned_partial` | propext, Classical.choice, Quot.sound |
| C96 | `Verif.Num.stringToInteger_onto` | propext, Classical.choice, Quot.sound |
| C96 | `Verif.Num.stringToInteger_defined` | propext |
| C96 | `Verif.Num.stringToInteger_radix_partial` | propext, Classical.choice, Quot.sound |
| C96 | `Verif.Num.stringToInteger_hex_partial` | propext, Classical.choice, Quot.sound |
| C96 | `Verif.Num.stringToInteger_base` | propext |
| C96 | `Verif.Num.stringToInteger_negative_false` | propext, Classical.choice, Quot.sound |
| C96 | `Verif.Num.stringToInteger_char_false` | propext |
| C96 | `Verif.Num.stringToInteger_trailing_false` | propext |
| C97 | `Verif.Log.parse_settings` | propext, Classical.choice, Quot.sound |
| C97 | `Verif.Log.parse_truncate_false` | propext |
| C97 | `Verif.Log.parse_empty_false` | propext |
| C98 | `Verif.Hash.scan_sees_all_partial` | propext, Classical.choice, Quot.sound |
| C98 | `Verif.Hash.scan_sound_partial` | propext, Classical.choice, Quot.sound |
| C98 | `Verif.Hash.scan_count_partial` | propext, Classical.choice, Quot.sound |
| C98 | `Verif.Hash.chain_scan_partial` | propext, Classical.choice, Quot.sound |
| C98 | `Verif.Hash.chain_scan_removes` | propext, Classical.choice, Quot.sound |
| C98 | `Verif.Hash.scan_finishes_partial` | propext, Classical.choice, Quot.sound |
| C98 | `Verif.Hash.atEndOfChain_spec_partial` | propext, Classical.choice, Quot.sound |
| C98 | `Verif.Hash.scan_stuck` | propext, Quot.sound |
| C98 | `Verif.Hash.scan_growth_false` | propext, Quot.sound |
| C98 | `Verif.Hash.scan_shrink_false` | propext |
| C98 | `Verif.Hash.reset_begin_partial` | propext, Classical.choice, Quot.sound |
| C98 | `Verif.Hash.reset_empty_false` | propext |
| C99 | `Verif.MathFn.isDoubleIntegral_iff` | propext, Classical.choice, Quot.sound |
| C99 | `Verif.MathFn.isDoubleIntegral_size` | propext, Classical.choice, Quot.sound |
| C99 | `Verif.MathFn.isDoubleIntegral_nan` | propext, Classical.choice, Quot.sound |
| C99 | `Verif.MathFn.accepted_converts` | propext, Classical.choice, Quot.sound |
| C99 | `Verif.MathFn.convertDouble_eq` | propext, Classical.choice, Quot.sound |
| C99 | `Verif.MathFn.convertDouble_not_nearest` | propext, Classical.choice, Quot.sound |
| C100 | `Verif.MathFn.inverseErf_partial` | propext, Classical.choice, Quot.sound |
| C100 | `Verif.MathFn.inverseErf_outside` | propext, Classical.choice, Quot.sound |
| C100 | `Verif.MathFn.inverseErf_negative` | propext, Classical.choice, Quot.sound |
| C100 | `Verif.MathFn.inverseErf_hangs` | propext, Classical.choice, Quot.sound |
| C100 | `Verif.MathFn.inverseUnitNormalCDF_hangs` | propext, Classical.choice, Quot.sound |
| C100 | `Verif.MathFn.newton_ends_partial` | propext, Classical.choice, Quot.sound |
| C100 | `Verif.MathFn.newton_ends_near_partial` | propext, Classical.choice, Quot.sound |
| C101 | `Verif.Assert.invariant_outcome` | propext |
| C101 | `Verif.Assert.hooks_in_order` | propext, Quot.sound |
| C101 | `Verif.Assert.throw_in_before` | propext, Quot.sound |
| C101 | `Verif.Assert.throw_in_after` | propext, Quot.sound |
| C101 | `Verif.Assert.failing_hook_dies` | propext, Quot.sound |
| C101 | `Verif.Assert.message_throws` | propext |
| C101 | `Verif.Assert.history_known` | propext, Quot.sound |
| C101 | `Verif.Assert.history_hooks_in_order` | propext, Quot.sound |
| C101 | `Verif.Assert.failed_levels` | propext, Quot.sound |
| C101 | `Verif.Assert.throw_std_called_twice` | propext |
| C101 | `Verif.Assert.registering_hook_undefined` | propext |
| C102 | `Verif.Assert.Printf.stringPrintF_partial` | propext, Quot.sound |
| C102 | `Verif.Assert.Printf.stringPrintF_eq` | propext, Quot.sound |
| C102 | `Verif.Assert.Printf.stringPrintF_long_false` | propext, Quot.sound |
| C103 | `Verif.Log.Init.init_once_partial` | propext, Quot.sound |
| C103 | `Verif.Log.Init.init_at_most_one` | propext, Quot.sound |
| C103 | `Verif.Log.Init.init_progress` | propext, Quot.sound |
| C103 | `Verif.Log.Init.init_never_back` | propext |
| C103 | `Verif.Log.Init.init_early_false` | none |
| C103 | `Verif.Log.Init.init_written_partial` | propext, Quot.sound |
| C104 | `Verif.Log.Xml.parseXML_sets` | propext, Classical.choice, Quot.sound |
| C104 | `Verif.Log.Xml.parseXML_only_partial` | propext, Classical.choice, Quot.sound |
| C104 | `Verif.Log.Xml.parseXML_255_false` | propext |
| C105 | `Verif.LogHisto.log_counts_partial` | propext, Classical.choice, Quot.sound |
| C105 | `Verif.LogHisto.log_illegal` | propext, Classical.choice, Quot.sound |
| C105 | `Verif.LogHisto.log_total_any` | propext, Classical.choice, Quot.sound |
| C105 | `Verif.LogHisto.log_narrow_false` | propext, Classical.choice, Quot.sound |
| C105 | `Verif.LogHisto.log_rescales_false` | propext, Classical.choice, Quot.sound |
| C105 | `Verif.LogHisto.log_double_bin` | propext, Classical.choice, Quot.sound |
| C105 | `Verif.LogHisto.log_double_partial` | propext, Classical.choice, Quot.sound |
| C106 | `Verif.LogHisto.log_percentile_partial` | propext, Classical.choice, Quot.sound |
| C106 | `Verif.LogHisto.log_percentile_monotone_partial` | propext, Classical.choice, Quot.sound |
| C106 | `Verif.LogHisto.log_percentile_zero_partial` | propext, Classical.choice, Quot.sound |
| C106 | `Verif.LogHisto.log_percentile_zero_false` | propext, Classical.choice, Quot.sound |
| C106 | `Verif.LogHisto.log_percentile_safe` | propext, Classical.choice, Quot.sound |
| C106 | `Verif.LogHisto.log_mode` | propext, Classical.choice, Quot.sound |
| C106 | `Verif.LogHisto.log_center_partial` | propext, Classical.choice, Quot.sound |
| C106 | `Verif.Histo.mode_partial` | propext, Classical.choice, Quot.sound |
| C107 | `Verif.LogHisto.log_accum_partial` | propext, Classical.choice, Quot.sound |
| C107 | `Verif.LogHisto.log_accum_double_partial` | propext, Classical.choice, Quot.sound |
| C108 | `Verif.Thread.timed_lock` | propext, Classical.choice, Quot.sound |
| C108 | `Verif.Thread.timed_sleeps` | propext, Classical.choice, Quot.sound |
| C108 | `Verif.Thread.timed_ends` | propext, Classical.choice, Quot.sound |
| C108 | `Verif.Thread.clock_replacement` | propext, Classical.choice, Quot.sound |
| C109 | `Verif.Thread.Mutex.mutex_contention` | propext, Classical.choice, Quot.sound |
| C109 | `Verif.Thread.Mutex.mutex_exclusion` | propext, Classical.choice, Quot.sound |
| C109 | `Verif.Thread.Mutex.mutex_relock_checked` | propext, Classical.choice, Quot.sound |
| C109 | `Verif.Thread.Mutex.mutex_relock_plain` | propext, Classical.choice, Quot.sound |
| C109 | `Verif.Thread.Mutex.mutex_unlock_free` | propext, Classical.choice, Quot.sound |
| C110 | `Verif.Thread.Life.thread_history` | propext, Classical.choice, Quot.sound |
| C110 | `Verif.Thread.Life.thread_misuse` | propext, Classical.choice, Quot.sound |
| C110 | `Verif.Thread.Life.thread_destroy` | propext, Classical.choice, Quot.sound |
| C110 | `Verif.Thread.Life.thread_restart_false` | propext, Classical.choice, Quot.sound |
| C110 | `Verif.Thread.Life.thread_destroy_ub` | propext |
| C111 | `Verif.Thread.Life.signals_partial` | propext, Quot.sound |
| C111 | `Verif.Thread.Life.signals_false` | propext, Quot.sound |
| C112 | `Verif.Thread.Cpus.ncpus_first_partial` | propext, Classical.choice, Quot.sound |
| C112 | `Verif.Thread.Cpus.ncpus_none` | propext, Classical.choice, Quot.sound |
| C112 | `Verif.Thread.Cpus.ncpus_cached` | propext, Quot.sound |
| C112 | `Verif.Thread.Cpus.ncpus_negative_false` | propext, Quot.sound |
| C113 | `Verif.Opt.options_value` | propext, Classical.choice, Quot.sound |
| C113 | `Verif.Opt.options_outcome` | propext, Classical.choice, Quot.sound |
| C113 | `Verif.Opt.options_config` | propext, Classical.choice, Quot.sound |
| C113 | `Verif.Opt.options_destroyed_ub` | propext |
| C113 | `Verif.Opt.options_comma_false` | propext |
| C113 | `Verif.Opt.options_twice` | propext |
| C113 | `Verif.Opt.options_hidden_config` | propext |
| C114 | `Verif.Posix.readN_returns_partial` | propext, Classical.choice, Quot.sound |
| C114 | `Verif.Posix.readN_small_partial` | propext, Classical.choice, Quot.sound |
| C114 | `Verif.Posix.readN_overflow_false` | propext, Quot.sound |
| C114 | `Verif.Posix.read0_spec` | propext, Quot.sound |
| C115 | `Verif.Posix.fseek64_set_partial` | propext |
| C115 | `Verif.Posix.fseek64_iff` | propext, Classical.choice, Quot.sound |
| C115 | `Verif.Posix.fseek64_false` | none |
| C115 | `Verif.Posix.ftell64_spec` | propext |
| C115 | `Verif.Posix.ftell_fseek` | propext, Quot.sound |
| C115 | `Verif.Posix.fopen64_modes` | propext, Quot.sound |
| C116 | `Verif.LogNormal.moment_spec` | propext, Classical.choice, Quot.sound |
| C116 | `Verif.LogNormal.logNormal_partial` | propext, Classical.choice, Quot.sound |
| C116 | `Verif.LogNormal.logNormal_false` | propext, Classical.choice, Quot.sound |
| C117 | `Verif.LogNormal.solve2_partial` | propext, Classical.choice, Quot.sound |
| C117 | `Verif.LogNormal.solve2_false` | propext, Classical.choice, Quot.sound |
| C117 | `Verif.LogNormal.findZero_steps` | propext, Classical.choice, Quot.sound |
| C117 | `Verif.LogNormal.findZero_linear` | propext, Classical.choice, Quot.sound |
| C117 | `Verif.LogNormal.findZero_false` | propext, Classical.choice, Quot.sound |
| C117 | `Verif.LogNormal.solve_partial` | propext, Classical.choice, Quot.sound |
| C117 | `Verif.LogNormal.solve_false` | propext, Classical.choice, Quot.sound |
| C118 | `Verif.LogNormal.normalRandomLimit_spec` | propext, Classical.choice, Quot.sound |
| C118 | `Verif.LogNormal.drawn_partial` | propext, Classical.choice, Quot.sound |
| C118 | `Verif.LogNormal.drawn_negative` | propext, Classical.choice, Quot.sound |
| C118 | `Verif.LogNormal.main_spec` | propext, Classical.choice, Quot.sound |
| C119 | `Verif.Expand.expand_one` | propext, Classical.choice, Quot.sound |
| C119 | `Verif.Expand.expand_many` | propext, Classical.choice, Quot.sound |
| C119 | `Verif.Expand.expand_ends` | propext, Classical.choice, Quot.sound |
| C120 | `Verif.Proc.process_life` | propext, Classical.choice, Quot.sound |
| C120 | `Verif.Proc.reports_honest` | propext, Classical.choice, Quot.sound |
| C120 | `Verif.Proc.wait_progress` | propext, Quot.sound |
| C121 | `Verif.Proc.waitPid_status_partial` | propext, Classical.choice, Quot.sound |
| C121 | `Verif.Proc.quiet_waits_partial` | propext, Classical.choice, Quot.sound |
| C121 | `Verif.Proc.signalled_waits_partial` | propext, Classical.choice, Quot.sound |
| C121 | `Verif.Proc.waitPid_nested_false` | propext, Quot.sound |
| C121 | `Verif.Proc.reused_pid_false` | propext, Quot.sound |
| C121 | `Verif.Proc.stale_errno_false` | propext, Quot.sound |
| C122 | `Verif.FLock.exclusive_partial` | propext, Classical.choice, Quot.sound |
| C122 | `Verif.FLock.killed_exclusive_false` | propext, Quot.sound |
| C122 | `Verif.FLock.foreign_script_false` | propext, Quot.sound |
| C122 | `Verif.FLock.released` | propext, Classical.choice, Quot.sound |
| C122 | `Verif.FLock.script_end_releases` | propext, Classical.choice, Quot.sound |
| C123 | `Verif.FLock.exit_status` | propext, Classical.choice, Quot.sound |
| C123 | `Verif.FLock.gave_up` | propext, Classical.choice, Quot.sound |
| C123 | `Verif.FLock.exit_code_tells_false` | propext |
| C123 | `Verif.FLock.getLock_partial` | propext, Quot.sound |
| C123 | `Verif.FLock.getLock_errors_false` | propext, Classical.choice, Quot.sound |
| C124 | `Verif.Batch.local_sound` | propext, Classical.choice, Quot.sound |
| C124 | `Verif.Batch.local_complete` | propext, Classical.choice, Quot.sound |
| C124 | `Verif.Batch.local_returns` | propext, Classical.choice, Quot.sound |
| C124 | `Verif.Batch.local_noexec` | propext, Quot.sound |
| C124 | `Verif.Batch.local_zero_false` | propext, Quot.sound |
| C124 | `Verif.Batch.local_exit_false` | propext, Quot.sound |
| C124 | `Verif.Batch.local_success_dies_false` | propext, Quot.sound |
| C125 | `Verif.Batch.shuffle_perm` | propext, Classical.choice, Quot.sound |
| C125 | `Verif.Batch.shuffle_orders_false` | propext, Classical.choice, Quot.sound |
| C126 | `Verif.Batch.jobs_divide` | propext, Classical.choice, Quot.sound |
| C126 | `Verif.Batch.batch_size` | propext, Classical.choice, Quot.sound |
| C127 | `Verif.Batch.Files.files_whole_partial` | propext, Classical.choice, Quot.sound |
| C127 | `Verif.Batch.Files.missing_false` | none |
| C127 | `Verif.Batch.Files.shared_dest_false` | propext |
| C127 | `Verif.Batch.Files.needs_build` | propext, Quot.sound |
| C127 | `Verif.Batch.Files.changed_while_building_false` | none |
| C128 | `Verif.Batch.Compress.rebuild_checked` | propext, Classical.choice, Quot.sound |
| C128 | `Verif.Batch.Compress.compress_preserves_partial` | propext, Classical.choice, Quot.sound |
| C128 | `Verif.Batch.Compress.compress_works` | propext, Classical.choice, Quot.sound |
| C128 | `Verif.Batch.Compress.compress_empty_fails` | propext, Classical.choice, Quot.sound |
| C128 | `Verif.Batch.Compress.compress_ifsmaller` | propext, Classical.choice, Quot.sound |
| C128 | `Verif.Batch.Compress.compress_always_builds` | none |
| C128 | `Verif.Batch.Compress.compress_collision_false` | propext, Classical.choice, Quot.sound |
| C128 | `Verif.Batch.Compress.compress_corrupt_false` | propext, Classical.choice, Quot.sound |
| C128 | `Verif.Batch.Compress.compress_existing_false` | propext, Classical.choice, Quot.sound |
| C129 | `Verif.Batch.Jobs.names_distinct` | propext, Quot.sound |
| C129 | `Verif.Batch.Jobs.names_sorted` | propext, Classical.choice, Quot.sound |
| C129 | `Verif.Batch.Jobs.finished_not_rerun` | propext, Quot.sound |
| C129 | `Verif.Batch.Jobs.jobs_spec` | propext, Quot.sound |
| C129 | `Verif.Batch.Jobs.finished_rerun_false` | propext, Classical.choice, Quot.sound |
| C129 | `Verif.Batch.Jobs.documented_digits_false` | none |
| C130 | `Verif.Batch.Jobs.read_lines` | propext, Classical.choice, Quot.sound |
| C130 | `Verif.Batch.Jobs.defines_partial` | propext, Quot.sound |
| C130 | `Verif.Batch.Jobs.order_irrelevant_partial` | propext, Quot.sound |
| C130 | `Verif.Batch.Jobs.define_order_false` | propext, Classical.choice, Quot.sound |
| C131 | `Verif.Batch.Jobs.output_whole` | propext, Quot.sound |
| C131 | `Verif.Batch.Jobs.output_alone_partial` | propext, Quot.sound |
| C131 | `Verif.Batch.Jobs.output_replaced_false` | propext |
| C132 | `Verif.Batch.Tar.groups_spec` | propext, Classical.choice, Quot.sound |
| C132 | `Verif.Batch.Tar.groups_too_large` | propext, Classical.choice, Quot.sound |
| C132 | `Verif.Batch.Tar.target_false` | propext, Classical.choice, Quot.sound |
| C133 | `Verif.Batch.Tar.tar_reads_partial` | propext, Quot.sound |
| C133 | `Verif.Batch.Tar.tar_stored` | propext, Quot.sound |
| C133 | `Verif.Batch.Tar.tar_relative_false` | propext |
| C133 | `Verif.Batch.Tar.tar_relative_twice_false` | propext, Quot.sound |
| C133 | `Verif.Batch.Tar.tar_root_false` | propext |
| C133 | `Verif.Batch.Tar.tar_dash_false` | propext, Classical.choice, Quot.sound |
| C133 | `Verif.Batch.Tar.tar_same_name_false` | propext, Classical.choice, Quot.sound |
| C134 | `Verif.KHosts.has_iff` | propext, Classical.choice, Quot.sound |
| C134 | `Verif.KHosts.clear_spec` | propext, Classical.choice, Quot.sound |
| C134 | `Verif.KHosts.clear_then_has` | propext, Classical.choice, Quot.sound |
| C134 | `Verif.KHosts.unknown_dies` | propext, Quot.sound |
| C135 | `Verif.KHosts.clear_ssh_partial` | propext, Classical.choice, Quot.sound |
| C135 | `Verif.KHosts.has_ssh_partial` | propext, Classical.choice, Quot.sound |
| C135 | `Verif.KHosts.second_name_false` | propext, Classical.choice, Quot.sound |
| C135 | `Verif.KHosts.dot_false` | propext, Classical.choice, Quot.sound |
| C135 | `Verif.KHosts.dot_comma` | propext, Classical.choice, Quot.sound |
| C135 | `Verif.KHosts.addr_not_last` | propext, Classical.choice, Quot.sound |
| C136 | `Verif.Batch.Make.runs_meaning_partial` | propext, Classical.choice, Quot.sound |
| C136 | `Verif.Batch.Make.names_used_partial` | propext, Classical.choice, Quot.sound |
| C136 | `Verif.Batch.Make.things_spec` | propext, Quot.sound |
| C136 | `Verif.Batch.Make.dollar_name_false` | propext, Classical.choice, Quot.sound |
| C137 | `Verif.Batch.Make.messages_first_partial` | propext, Classical.choice, Quot.sound |
| C137 | `Verif.Batch.Make.messages_false` | propext, Classical.choice, Quot.sound |
| C138 | `Verif.Batch.Checksum.plain_content_partial` | propext, Classical.choice, Quot.sound |
| C138 | `Verif.Batch.Checksum.compressed_content_partial` | propext, Classical.choice, Quot.sound |
| C138 | `Verif.Batch.Checksum.new_digest` | propext, Classical.choice, Quot.sound |
| C138 | `Verif.Batch.Checksum.trailing_space_false` | propext, Classical.choice, Quot.sound |
| C138 | `Verif.Batch.Checksum.pipe_runs` | propext, Classical.choice, Quot.sound |
| C138 | `Verif.Batch.Checksum.uncompress_failure_false` | propext, Classical.choice, Quot.sound |
| C139 | `Verif.Batch.Checksum.things_iff` | propext, Classical.choice, Quot.sound |
| C139 | `Verif.Batch.Checksum.run_complete` | propext, Classical.choice, Quot.sound |
| C139 | `Verif.Batch.Checksum.changed_file_false` | propext, Classical.choice, Quot.sound |
| C140 | `Verif.Tics.places` | propext, Classical.choice, Quot.sound |
| C140 | `Verif.Tics.fixed_has_mid` | propext, Classical.choice, Quot.sound |
| C140 | `Verif.Tics.places_round` | propext, Classical.choice, Quot.sound |
| C141 | `Verif.Tics.labels_true_partial` | propext, Classical.choice, Quot.sound |
| C141 | `Verif.Tics.labels_near` | propext, Classical.choice, Quot.sound |
| C141 | `Verif.Tics.fixed_labels_partial` | propext, Classical.choice, Quot.sound |
| C141 | `Verif.Tics.after_midnight_false` | propext, Quot.sound |
| C141 | `Verif.Tics.half_hour_false` | propext, Quot.sound |
| C141 | `Verif.Tics.summer_false` | propext, Quot.sound |
| C142 | `Verif.Tics.weekly_ticks` | propext, Classical.choice, Quot.sound |
| C142 | `Verif.Tics.monthly_ticks` | propext, Classical.choice, Quot.sound |
| C142 | `Verif.Tics.before_start_false` | propext, Quot.sound |
| C143 | `Verif.Latex.success_stable` | propext, Classical.choice, Quot.sound |
| C143 | `Verif.Latex.success_stable_partial` | propext, Classical.choice, Quot.sound |
| C143 | `Verif.Latex.success_given_up_false` | propext, Classical.choice, Quot.sound |
| C143 | `Verif.Latex.warning_name_false` | propext, Classical.choice, Quot.sound |
| C144 | `Verif.Latex.retries` | propext, Classical.choice, Quot.sound |
| C144 | `Verif.Latex.stops_false` | propext, Classical.choice, Quot.sound |
| C144 | `Verif.Latex.retried_false` | propext, Classical.choice, Quot.sound |
| C145 | `Verif.Latex.failure_partial` | propext, Classical.choice, Quot.sound |
| C145 | `Verif.Latex.failure_false` | propext, Classical.choice, Quot.sound |
| C146 | `Verif.Latex.search_order` | propext, Classical.choice, Quot.sound |
| C146 | `Verif.Latex.exit_code_partial` | propext, Classical.choice, Quot.sound |
| C146 | `Verif.Latex.usage_false` | propext, Classical.choice, Quot.sound |
| C147 | `Verif.TestUtil.info_from_env` | propext |
| C147 | `Verif.TestUtil.osVersion_env` | propext |
| C147 | `Verif.TestUtil.info_from_deptool_partial` | propext, Classical.choice, Quot.sound |
| C147 | `Verif.TestUtil.absent_false` | propext |
| C147 | `Verif.TestUtil.absent_noShell` | none |
| C147 | `Verif.TestUtil.long_line_false` | propext, Quot.sound |
| C148 | `Verif.TestUtil.forSh_sets_partial` | propext, Quot.sound |
| C148 | `Verif.TestUtil.forSh_sets_false` | propext, Classical.choice, Quot.sound |
| C149 | `Verif.TestUtil.Macro.testInvariant_partial` | propext, Quot.sound |
| C149 | `Verif.TestUtil.Macro.own_text_false` | propext |
| C149 | `Verif.TestUtil.Macro.hook_stays_false` | propext |
| C150 | `Verif.Misc.FileTime.modifyTime_order_partial` | propext, Classical.choice, Quot.sound |
| C150 | `Verif.Misc.FileTime.modifyTime_false` | propext, Quot.sound |
| C151 | `Verif.Misc.Pointer.safeDownCast_spec` | propext, Quot.sound |
| C151 | `Verif.Misc.Pointer.safeCrossCast_spec` | propext, Quot.sound |
| C151 | `Verif.Misc.Pointer.safeCrossCast_mem` | propext, Quot.sound |
| C151 | `Verif.Misc.Pointer.safeRef_spec` | propext |
| C152 | `Verif.Misc.ProcStat.statistics_fresh` | propext, Quot.sound |
| C152 | `Verif.Misc.ProcStat.statistics_abort` | propext, Quot.sound |
| C153 | `Verif.DBI.split_sound` | propext, Quot.sound |
| C153 | `Verif.DBI.split_unique` | propext, Quot.sound |
| C153 | `Verif.DBI.split_returns_partial` | propext, Quot.sound |
| C153 | `Verif.DBI.split_cases` | propext, Quot.sound |
| C153 | `Verif.DBI.split_hangs` | propext, Quot.sound |
| C153 | `Verif.DBI.split_hangs_false` | propext, Quot.sound |
| C154 | `Verif.DBI.transaction_atomic_partial` | propext, Quot.sound |
| C154 | `Verif.DBI.transaction_nested` | propext |
| C154 | `Verif.DBI.transaction_ddl_false` | none |
| C154 | `Verif.DBI.transaction_commit_false` | none |
| C154 | `Verif.DBI.transaction_rollback_false` | none |
| C155 | `Verif.DBI.setup_migrates_partial` | propext, Classical.choice, Quot.sound |
| C155 | `Verif.DBI.setup_ends` | propext, Classical.choice, Quot.sound |
| C155 | `Verif.DBI.setup_fresh_false` | propext, Quot.sound |
| C155 | `Verif.DBI.setup_second` | propext |
| C155 | `Verif.DBI.setup_unread_false` | propext |
| C155 | `Verif.DBI.setup_prepared_false` | propext, Quot.sound |
| C155 | `Verif.DBI.setup_from_false` | propext, Quot.sound |
| C155 | `Verif.DBI.setup_from_target_false` | propext, Quot.sound |
| C155 | `Verif.DBI.setup_loop_false` | propext |
| C155 | `Verif.DBI.setup_ddl_false` | propext |
| C156 | `Verif.DBI.set_get` | propext, Classical.choice, Quot.sound |
| C156 | `Verif.DBI.set_reserved_false` | propext |
| C156 | `Verif.DBI.get_failed_false` | propext |
| C157 | `Verif.DBI.Rows.oneRow_spec` | propext, Classical.choice, Quot.sound |
| C157 | `Verif.DBI.Rows.atMostOneRow_spec` | propext, Quot.sound |
| C157 | `Verif.DBI.Rows.value_spec` | propext, Quot.sound |
| C157 | `Verif.DBI.Rows.requiredValue_spec` | propext, Classical.choice, Quot.sound |
| C157 | `Verif.DBI.Rows.value_null_false` | none |
| C158 | `Verif.DBI.Rows.call_runs_partial` | propext, Classical.choice, Quot.sound |
| C158 | `Verif.DBI.Rows.load_accepts` | propext, Classical.choice, Quot.sound |
| C158 | `Verif.DBI.Rows.call_method_false` | propext, Classical.choice, Quot.sound |
| C158 | `Verif.DBI.Rows.call_last_false` | propext, Classical.choice, Quot.sound |
| C158 | `Verif.DBI.Rows.rows_belong_partial` | propext, Classical.choice, Quot.sound |
| C158 | `Verif.DBI.Rows.rows_mixed_false` | propext, Classical.choice, Quot.sound |
| C159 | `Verif.Deptool.build_order` | propext, Classical.choice, Quot.sound |
| C160 | `Verif.Deptool.build_returns` | propext, Classical.choice, Quot.sound |
| C160 | `Verif.Deptool.build_fails` | propext, Classical.choice, Quot.sound |
| C160 | `Verif.Deptool.build_cycle` | propext, Classical.choice, Quot.sound |
| C160 | `Verif.Deptool.build_future_false` | propext, Quot.sound |
| C161 | `Verif.Deptool.build_ends` | propext, Classical.choice, Quot.sound |
| C162 | `Verif.Deptool.build_again` | propext, Classical.choice, Quot.sound |
| C162 | `Verif.Deptool.build_fresh` | propext, Classical.choice, Quot.sound |
| C163 | `Verif.Deptool.build_files` | propext, Classical.choice, Quot.sound |
| C163 | `Verif.Deptool.build_as_clean` | propext, Classical.choice, Quot.sound |
| C164 | `Verif.Deptool.Old.findOld_partial` | propext, Classical.choice, Quot.sound |
| C164 | `Verif.Deptool.Old.findOld_false` | none |
| C165 | `Verif.Deptool.Deps.collect_closed` | propext, Quot.sound |
| C165 | `Verif.Deptool.Deps.collect_complete_partial` | propext, Quot.sound |
| C165 | `Verif.Deptool.Deps.collect_ends` | propext, Classical.choice, Quot.sound |
| C165 | `Verif.Deptool.Deps.collect_collision_false` | propext |
| C166 | `Verif.Deptool.Deps.depWalk_order` | propext, Classical.choice, Quot.sound |
| C166 | `Verif.Deptool.Deps.depWalk_ends` | propext, Quot.sound |
| C167 | `Verif.Deptool.Deps.parseDependency_roundtrip` | propext, Quot.sound |
| C168 | `Verif.Deptool.Deps.divideDir_partial` | propext, Quot.sound |
| C168 | `Verif.Deptool.Deps.divideDir_src` | propext, Quot.sound |
| C168 | `Verif.Deptool.Deps.divideDir_false` | propext |
| C169 | `Verif.Deptool.Tests.tests_run` | propext, Classical.choice, Quot.sound |
| C169 | `Verif.Deptool.Tests.tests_dies` | propext, Classical.choice, Quot.sound |
| C170 | `Verif.Disktool.drives_partial` | propext, Classical.choice, Quot.sound |
| C170 | `Verif.Disktool.drives_zero_false` | propext |
| C171 | `Verif.Disktool.partition_writes` | propext, Classical.choice, Quot.sound |
| C171 | `Verif.Disktool.partition_again` | propext, Classical.choice, Quot.sound |
| C171 | `Verif.Disktool.partition_mounted_false` | propext |
| C172 | `Verif.Disktool.format_writes` | propext, Classical.choice, Quot.sound |
| C172 | `Verif.Disktool.format_safe_partial` | propext, Classical.choice, Quot.sound |
| C172 | `Verif.Disktool.format_elsewhere_false` | propext |
| C172 | `Verif.Disktool.format_zero_false` | propext |
| C173 | `Verif.Disktool.format_labels` | propext, Classical.choice, Quot.sound |
| C173 | `Verif.Disktool.nextUnique_fresh` | propext, Quot.sound |
| C173 | `Verif.Disktool.nextUnique_ends` | propext, Classical.choice, Quot.sound |
| C173 | `Verif.Disktool.format_newline_false` | propext |
| C174 | `Verif.Disktool.mount_visible_partial` | propext, Classical.choice, Quot.sound |
| C174 | `Verif.Disktool.mount_again_partial` | propext, Classical.choice, Quot.sound |
| C174 | `Verif.Disktool.mount_same_label_false` | propext |
| C174 | `Verif.Disktool.mount_custom_false` | propext |
| C174 | `Verif.Disktool.mount_zero_false` | propext |
| C175 | `Verif.Disktool.umount_partial` | propext, Classical.choice, Quot.sound |
| C175 | `Verif.Disktool.umount_covered_false` | propext |
| C175 | `Verif.Disktool.umount_reserved_false` | propext |
| C176 | `Verif.Disktool.fail_partial` | propext, Quot.sound |
| C176 | `Verif.Disktool.fail_eleventh_false` | propext |
| C177 | `Verif.Disktool.sfdisk_partial` | propext, Classical.choice, Quot.sound |
| C177 | `Verif.Disktool.sfdisk_words_false` | propext |
| C177 | `Verif.Disktool.sfdisk_fourth_false` | propext |
| C178 | `Verif.Mercury.adjust_partial` | propext, Quot.sound |
| C178 | `Verif.Mercury.plotOrder_eq` | propext, Quot.sound |
| C178 | `Verif.Mercury.adjust_border_false` | propext, Classical.choice, Quot.sound |
| C178 | `Verif.Mercury.adjust_upper_false` | propext, Classical.choice, Quot.sound |
| C178 | `Verif.Mercury.adjust_string_false` | propext, Classical.choice, Quot.sound |
| C179 | `Verif.Mercury.Rows.fetch_keeps` | propext, Quot.sound |
| C179 | `Verif.Mercury.Rows.fetch_partial` | propext, Quot.sound |
| C179 | `Verif.Mercury.Rows.fetch_null_false` | propext |
| C179 | `Verif.Mercury.Rows.dispatch_partial` | propext, Quot.sound |
| C179 | `Verif.Mercury.Rows.dispatch_one_false` | propext |
| C179 | `Verif.Mercury.Rows.cdf_partial` | propext, Classical.choice, Quot.sound |
| C179 | `Verif.Mercury.Rows.cdf_null_false` | propext |
| C180 | `Verif.Mercury.Bar.barplot_partial` | propext, Quot.sound |
| C180 | `Verif.Mercury.Bar.barplot_plain` | propext, Quot.sound |
| C180 | `Verif.Mercury.Bar.place_sound` | propext, Quot.sound |
| C180 | `Verif.Mercury.Bar.barplot_zero_false` | propext |
| C180 | `Verif.Mercury.Bar.barplot_mixed_false` | propext |
| C181 | `Verif.Mercury.Plots.plots_partial` | propext, Classical.choice, Quot.sound |
| C181 | `Verif.Mercury.Plots.refresh_desc` | propext |
| C181 | `Verif.Mercury.Plots.plotwith_false` | propext, Classical.choice, Quot.sound |
| C181 | `Verif.Mercury.Plots.replot_partial` | propext, Classical.choice, Quot.sound |
| C181 | `Verif.Mercury.Plots.replot_function_false` | propext |
| C181 | `Verif.Mercury.Plots.replot_fail_false` | propext |
| C182 | `Verif.Mercury.Cmd.script_partial` | propext, Classical.choice, Quot.sound |
| C182 | `Verif.Mercury.Cmd.lines_spec` | propext, Quot.sound |
| C182 | `Verif.Mercury.Cmd.script_pending_false` | propext, Classical.choice, Quot.sound |
| C183 | `Verif.Mercury.Cmd.files_partial` | propext |
| C183 | `Verif.Mercury.Cmd.files_die_false` | propext |
| C184 | `Verif.Mercury.Import.split_join` | propext, Classical.choice, Quot.sound |
| C184 | `Verif.Mercury.Import.import_partial` | propext, Quot.sound |
| C184 | `Verif.Mercury.Import.import_create_false` | propext |
| C184 | `Verif.Mercury.Import.import_big_false` | propext |
| C184 | `Verif.Mercury.Import.import_indent_false` | propext |
| C184 | `Verif.Mercury.Import.import_negative` | propext |
| C185 | `Verif.Mercury.Dsn.choose_partial` | propext, Classical.choice, Quot.sound |
| C185 | `Verif.Mercury.Dsn.choose_password_false` | propext |
| C185 | `Verif.Mercury.Dsn.choose_user_false` | propext |
| C186 | `Verif.Mercury.Sync.sync_partial` | propext, Quot.sound |
| C186 | `Verif.Mercury.Sync.sync_ends` | propext, Quot.sound |
| C186 | `Verif.Mercury.Sync.sync_other_false` | none |
| C187 | `Verif.Mercury.Exp.create_partial` | propext, Classical.choice, Quot.sound |
| C187 | `Verif.Mercury.Exp.create_distinct` | propext, Classical.choice, Quot.sound |
| C187 | `Verif.Mercury.Exp.create_twice_false` | propext |
| C187 | `Verif.Mercury.Exp.create_fail_false` | propext |
| C187 | `Verif.Mercury.Exp.good_iff` | propext, Quot.sound |
| C187 | `Verif.Mercury.Exp.find_spec` | propext, Quot.sound |
| C188 | `Verif.Mercury.Conn.reconnect_partial` | propext, Quot.sound |
| C188 | `Verif.Mercury.Conn.reconnect_gone_false` | propext |
| C188 | `Verif.Mercury.Conn.reconnect_empty_false` | propext |
| C189 | `Verif.Mercury.Conn.reload_partial` | propext, Quot.sound |
| C189 | `Verif.Mercury.Conn.reload_during_false` | none |
| C189 | `Verif.Mercury.Conn.reload_second_false` | none |
| C190 | `Verif.Hash.chain_stats` | propext, Classical.choice, Quot.sound |
| C190 | `Verif.Hash.raw_data` | propext, Classical.choice, Quot.sound |
| C191 | `Verif.Str.Dbl.toDouble_partial` | propext, Classical.choice, Quot.sound |
| C191 | `Verif.Str.Dbl.toDouble_nul` | propext, Quot.sound |
| C191 | `Verif.Str.Dbl.toDouble_junk_false` | propext, Classical.choice, Quot.sound |
| C191 | `Verif.Str.Dbl.toDouble_zero_false` | propext, Classical.choice, Quot.sound |
| C192 | `Verif.Str.Case.blank_partial` | propext, Classical.choice, Quot.sound |
| C192 | `Verif.Str.Case.case_partial` | propext, Classical.choice, Quot.sound |
| C192 | `Verif.Str.Case.case_equal` | propext, Classical.choice, Quot.sound |
| C192 | `Verif.Str.Case.case_utf8_false` | propext |
| C192 | `Verif.Str.Case.wide_partial` | propext, Quot.sound |
| C192 | `Verif.Str.Case.narrow_default` | propext |
| C193 | `Verif.DepVC.publish_partial` | propext, Quot.sound |
| C193 | `Verif.DepVC.publish_done` | propext, Quot.sound |
| C193 | `Verif.DepVC.publish_refused` | none |
| C193 | `Verif.DepVC.publish_edit_false` | propext, Quot.sound |
| C193 | `Verif.DepVC.publish_untested_false` | propext |
| C193 | `Verif.DepVC.publish_broken` | propext |
| C194 | `Verif.DepVC.Unknown.unknown_partial` | propext, Quot.sound |
| C194 | `Verif.DepVC.Unknown.unknown_once` | propext, Quot.sound |
| C194 | `Verif.DepVC.Unknown.ask_words` | propext |
| C194 | `Verif.DepVC.Unknown.unknown_false` | propext |
| C194 | `Verif.DepVC.Unknown.unknown_eof_false` | propext |
| C195 | `Verif.DepVC.Marks.marks_partial` | propext, Quot.sound |
| C195 | `Verif.DepVC.Marks.reviewed_comment` | propext |
| C195 | `Verif.DepVC.Marks.marks_noemail_false` | propext, Classical.choice, Quot.sound |
| C195 | `Verif.DepVC.Marks.marks_zero_false` | propext, Classical.choice, Quot.sound |
| C195 | `Verif.DepVC.Marks.marks_name_false` | propext, Classical.choice, Quot.sound |
| C196 | `Verif.DepVC.Revision.revision_partial` | propext, Classical.choice, Quot.sound |
| C196 | `Verif.DepVC.Revision.revision_lines_false` | propext, Classical.choice, Quot.sound |
| C196 | `Verif.DepVC.Revision.revision_signed_false` | propext, Classical.choice, Quot.sound |
| C196 | `Verif.DepVC.Revision.revision_merge_false` | propext, Classical.choice, Quot.sound |
| C196 | `Verif.DepVC.Revision.revision_refused` | propext, Quot.sound |
| C197 | `Verif.DepVC.Select.select_partial` | propext, Classical.choice, Quot.sound |
| C197 | `Verif.DepVC.Select.printed_unreviewed` | propext, Quot.sound |
| C197 | `Verif.DepVC.Select.parseSel_ok` | propext |
| C197 | `Verif.DepVC.Select.parseSels_strict` | propext, Classical.choice, Quot.sound |
| C197 | `Verif.DepVC.Select.select_max_false` | propext, Classical.choice, Quot.sound |
| C197 | `Verif.DepVC.Select.select_branch_false` | none |
| C198 | `Verif.DepVC.Walk.walk_partial` | propext, Classical.choice, Quot.sound |
| C198 | `Verif.DepVC.Walk.walk_auto` | propext, Classical.choice, Quot.sound |
| C198 | `Verif.DepVC.Walk.walk_twice_false` | propext, Classical.choice, Quot.sound |
| C199 | `Verif.DepVC.Sequence.review_partial` | propext, Classical.choice, Quot.sound |
| C199 | `Verif.DepVC.Sequence.getChanged_spec` | propext, Classical.choice, Quot.sound |
| C199 | `Verif.DepVC.Sequence.review_dates_false` | propext, Classical.choice, Quot.sound |
| C199 | `Verif.DepVC.Sequence.review_skip_false` | propext, Quot.sound |
| C199 | `Verif.DepVC.Sequence.review_removed_false` | propext |
| C200 | `Verif.DepVC.Sequence.order_partial` | propext, Quot.sound |
| C200 | `Verif.DepVC.Sequence.order_groups` | propext, Classical.choice, Quot.sound |
| C200 | `Verif.DepVC.Sequence.order_all` | none |
| C200 | `Verif.DepVC.Sequence.order_between_false` | propext, Classical.choice, Quot.sound |
| C200 | `Verif.DepVC.Sequence.order_tests_false` | propext, Classical.choice, Quot.sound |
| C201 | `Verif.DepVC.Tar.tar_keeps` | propext, Quot.sound |
| C201 | `Verif.DepVC.Tar.tar_done` | propext, Classical.choice, Quot.sound |
| C201 | `Verif.DepVC.Tar.tar_name` | propext, Classical.choice, Quot.sound |
| C201 | `Verif.DepVC.Tar.release_lost` | propext, Classical.choice, Quot.sound |
| C201 | `Verif.DepVC.Tar.tar_hyphen_false` | propext, Classical.choice, Quot.sound |
| C201 | `Verif.DepVC.Tar.tar_download_false` | propext, Classical.choice, Quot.sound |
| C201 | `Verif.DepVC.Tar.tar_release_false` | propext, Classical.choice, Quot.sound |
| C201 | `Verif.DepVC.Tar.tar_asks` | propext, Classical.choice, Quot.sound |
| C201 | `Verif.DepVC.Tar.tar_failed` | propext, Quot.sound |
| C202 | `Verif.DepVC.Ctest.list_partial` | propext, Classical.choice, Quot.sound |
| C202 | `Verif.DepVC.Ctest.list_count` | propext, Classical.choice, Quot.sound |
| C202 | `Verif.DepVC.Ctest.list_blank_false` | propext, Classical.choice, Quot.sound |
| C202 | `Verif.DepVC.Ctest.list_numbers_false` | propext, Classical.choice, Quot.sound |
| C203 | `Verif.DepVC.Ctest.sections_partial` | propext, Quot.sound |
| C203 | `Verif.DepVC.Ctest.verdict_partial` | propext, Quot.sound |
| C203 | `Verif.DepVC.Ctest.sections_false` | propext, Classical.choice, Quot.sound |
| C204 | `Verif.Assert.Threads.threads_orderly` | propext, Quot.sound |
| C204 | `Verif.Assert.Threads.threads_goes_on` | propext, Quot.sound |
| C204 | `Verif.Assert.Threads.threads_end` | propext, Quot.sound |
| C204 | `Verif.Assert.Threads.threads_throw_false` | propext |
| C204 | `Verif.Assert.Threads.threads_skip_false` | propext |
| C204 | `Verif.Assert.Threads.threads_both_false` | propext |
| C205 | `Verif.DepVC.Cd.cd_partial` | propext, Classical.choice, Quot.sound |
| C205 | `Verif.DepVC.Cd.cd_type_false` | propext |
| C205 | `Verif.DepVC.Cd.cd_share_false` | propext |
| C205 | `Verif.DepVC.Cd.cd_nested_false` | propext |
| C206 | `Verif.DepVC.Pin.pull_partial` | propext, Quot.sound |
| C206 | `Verif.DepVC.Pin.setPin_false` | propext |
| C206 | `Verif.DepVC.Pin.short_pin_false` | propext |
| C207 | `Verif.Deptool.CMake.cmake_partial` | propext, Classical.choice, Quot.sound |
| C207 | `Verif.Deptool.CMake.clean_partial` | propext, Classical.choice, Quot.sound |
| C207 | `Verif.Deptool.CMake.cmake_prefix_false` | propext, Classical.choice, Quot.sound |
| C207 | `Verif.Deptool.CMake.cmake_clean_false` | propext, Classical.choice, Quot.sound |
| C207 | `Verif.Deptool.CMake.clean_source_false` | propext, Classical.choice, Quot.sound |
| C208 | `Verif.Dbl.compare_partial` | propext, Classical.choice, Quot.sound |
| C208 | `Verif.Dbl.nan_unordered` | propext, Classical.choice, Quot.sound |
| C208 | `Verif.Dbl.eq_relative` | propext, Classical.choice, Quot.sound |
| C208 | `Verif.Dbl.eq_zero_iff` | propext, Classical.choice, Quot.sound |
| C208 | `Verif.Dbl.eq_larger_false` | propext, Classical.choice, Quot.sound |
| C208 | `Verif.Dbl.eq_inf_false` | propext, Classical.choice, Quot.sound |
| C208 | `Verif.Dbl.less_weak_false` | propext, Classical.choice, Quot.sound |
| C208 | `Verif.Dbl.setEpsilonBits_exact` | propext, Classical.choice, Quot.sound |
| C208 | `Verif.Dbl.setEpsilonDigits_close` | propext, Classical.choice, Quot.sound |
| C208 | `Verif.Dbl.setEpsilon_zero_false` | propext, Classical.choice, Quot.sound |
| C209 | `Verif.Clock.PerThread.perThread_partial` | propext, Quot.sound |
| C209 | `Verif.Clock.PerThread.perThread_early_false` | propext |
| C209 | `Verif.Clock.PerThread.perThread_nokey_false` | none |
| C209 | `Verif.Clock.PerThread.perThread_race_false` | none |
| C210 | `Verif.Matrix.Store.store_partial` | propext, Quot.sound |
| C210 | `Verif.Matrix.Store.bounds_checked` | propext, Quot.sound |
| C210 | `Verif.Matrix.Store.freed_partial` | propext, Quot.sound |
| C210 | `Verif.Matrix.Store.resize_leak_false` | propext |
| C210 | `Verif.Matrix.Store.copy_false` | propext |
| C210 | `Verif.Matrix.Store.overflow_false` | propext, Classical.choice, Quot.sound |
| C210 | `Verif.Matrix.Store.alias_false` | propext |
| C211 | `Verif.Stats.Perl.stats_partial` | propext, Classical.choice, Quot.sound |
| C211 | `Verif.Stats.Perl.same_as_cpp` | propext, Classical.choice, Quot.sound |
| C211 | `Verif.Stats.Perl.stddev_dies_false` | propext, Classical.choice, Quot.sound |
| C211 | `Verif.Stats.Perl.range_false` | propext, Classical.choice, Quot.sound |
| C212 | `Verif.Rome.rome_partial` | propext, Classical.choice, Quot.sound |
| C212 | `Verif.Rome.rome_rw` | propext, Classical.choice, Quot.sound |
| C212 | `Verif.Rome.rome_null_false` | propext, Classical.choice, Quot.sound |
| C212 | `Verif.Rome.rome_nan_false` | propext, Classical.choice, Quot.sound |
| C212 | `Verif.Rome.sequence_printed_partial` | propext, Classical.choice, Quot.sound |
| C212 | `Verif.Rome.sequence_mean_false` | propext, Classical.choice, Quot.sound |
| C213 | `Verif.Quantile.rome_rows_partial` | propext, Classical.choice, Quot.sound |
| C213 | `Verif.Quantile.ranges_text_partial` | propext, Classical.choice, Quot.sound |
| C213 | `Verif.Quantile.tail_text_partial` | propext, Classical.choice, Quot.sound |
| C213 | `Verif.Quantile.print_overfull_false` | propext, Classical.choice, Quot.sound |
| C213 | `Verif.Quantile.print_ranges_false` | propext, Classical.choice, Quot.sound |
| C214 | `Verif.Log.Out.log_one_by_one` | propext, Classical.choice, Quot.sound |
| C214 | `Verif.Log.Out.console_in_order` | propext, Classical.choice, Quot.sound |
| C214 | `Verif.Log.Out.calls_return` | propext, Classical.choice, Quot.sound |
| C214 | `Verif.Log.Out.nested_log_false` | propext, Classical.choice, Quot.sound |
| C214 | `Verif.Log.Out.time_printed_partial` | propext, Classical.choice, Quot.sound |
| C214 | `Verif.Log.Out.time_printed_false` | propext, Classical.choice, Quot.sound |
| C215 | `Verif.Clock.Cal.calibrate_robust` | propext, Classical.choice, Quot.sound |
| C215 | `Verif.Clock.Cal.calibrate_abort` | propext, Classical.choice, Quot.sound |
| C215 | `Verif.Clock.Cal.calibrate_steady` | propext, Classical.choice, Quot.sound |
| C215 | `Verif.Clock.Cal.measure_close` | propext, Classical.choice, Quot.sound |
| C215 | `Verif.Clock.Cal.measure_wrap_false` | propext, Classical.choice, Quot.sound |
| C215 | `Verif.Clock.Cal.calibrate_ends_false` | propext, Classical.choice, Quot.sound |
| C215 | `Verif.Clock.Cal.maxMeasure_robust` | propext, Classical.choice, Quot.sound |
| C215 | `Verif.Clock.Cal.quanta_robust` | propext, Classical.choice, Quot.sound |
| C215 | `Verif.Clock.Cal.latency_robust` | propext, Classical.choice, Quot.sound |
| C215 | `Verif.Clock.Cal.first_defined` | propext, Classical.choice, Quot.sound |
| C215 | `Verif.Clock.Cal.cyclesPerQuanta_partial` | propext, Classical.choice, Quot.sound |
| C215 | `Verif.Clock.Cal.cyclesPerQuanta_robust_false` | propext, Classical.choice, Quot.sound |
| C216 | `Verif.Clock.Scaling.scaling_excluded_iff` | propext, Classical.choice, Quot.sound |
| C216 | `Verif.Clock.Scaling.scaling_answers` | propext, Classical.choice, Quot.sound |
| C216 | `Verif.Clock.Scaling.no_scaling_allowed` | propext, Classical.choice, Quot.sound |
| C216 | `Verif.Clock.Scaling.scaling_warned` | propext, Classical.choice, Quot.sound |
| C216 | `Verif.Clock.Scaling.scaling_stops_false` | propext, Classical.choice, Quot.sound |
| C217 | `Verif.Scope.scoped_balanced` | propext, Classical.choice, Quot.sound |
| C217 | `Verif.Scope.scoped_excludes` | propext, Quot.sound |
| C217 | `Verif.Scope.scoped_counts` | propext, Quot.sound |
| C217 | `Verif.Scope.scoped_goes_on` | propext, Classical.choice, Quot.sound |
| C217 | `Verif.Scope.scoped_recursion_false` | propext |
| C217 | `Verif.Scope.scoped_opposite_false` | propext |
| C217 | `Verif.Scope.log_throw_false` | none |
| C218 | `Verif.Tab.tabular_partial` | propext, Classical.choice, Quot.sound |
| C218 | `Verif.Tab.tabular_rw` | propext, Classical.choice, Quot.sound |
| C218 | `Verif.Tab.tabular_counts` | propext, Classical.choice, Quot.sound |
| C218 | `Verif.Tab.random_input` | propext, Classical.choice, Quot.sound |
| C218 | `Verif.Tab.tabular_low_false` | propext, Classical.choice, Quot.sound |
| C218 | `Verif.Tab.tabular_empty_false` | propext, Classical.choice, Quot.sound |
| C218 | `Verif.Tab.tabular_series_false` | propext, Classical.choice, Quot.sound |
| C218 | `Verif.Tab.tabular_depth_false` | propext, Classical.choice, Quot.sound |
| C219 | `Verif.Another.another_uniform_partial` | propext, Classical.choice, Quot.sound |
| C219 | `Verif.Another.another_accum_partial` | propext, Classical.choice, Quot.sound |
| C219 | `Verif.Another.another_log_partial` | propext, Classical.choice, Quot.sound |
| C219 | `Verif.Another.another_logaccum_partial` | propext, Classical.choice, Quot.sound |
| C219 | `Verif.Another.another_series_partial` | propext, Classical.choice, Quot.sound |
| C219 | `Verif.Another.another_class` | propext, Classical.choice, Quot.sound |
| C219 | `Verif.Another.another_grown_false` | propext, Classical.choice, Quot.sound |
| C219 | `Verif.Another.another_plain_false` | propext, Classical.choice, Quot.sound |
| C220 | `Verif.Serve.serve_nothing_lost` | propext, Classical.choice, Quot.sound |
| C220 | `Verif.Serve.serve_order` | propext, Classical.choice, Quot.sound |
| C220 | `Verif.Serve.serve_progress` | propext, Classical.choice, Quot.sound |
| C220 | `Verif.Serve.serve_retries` | propext, Classical.choice, Quot.sound |
| C220 | `Verif.Serve.serve_lives_partial` | propext, Classical.choice, Quot.sound |
| C220 | `Verif.Serve.serve_missing_false` | propext |
| C220 | `Verif.Serve.serve_interrupt_false` | propext, Classical.choice, Quot.sound |
| C220 | `Verif.Serve.serve_heads_false` | propext |
| C221 | `Verif.DepVC.Root.root_nearest_partial` | propext, Classical.choice, Quot.sound |
| C221 | `Verif.DepVC.Root.root_none_partial` | propext, Classical.choice, Quot.sound |
| C221 | `Verif.DepVC.Root.root_build` | propext, Classical.choice, Quot.sound |
| C221 | `Verif.DepVC.Root.root_hang_false` | propext, Classical.choice, Quot.sound |
| C221 | `Verif.DepVC.Root.root_slash_false` | propext, Classical.choice, Quot.sound |
| C222 | `Verif.DepVC.MtnLog.mtnlog_parse_partial` | propext, Classical.choice, Quot.sound |
| C222 | `Verif.DepVC.MtnLog.mtnlog_whole` | propext |
| C222 | `Verif.DepVC.MtnLog.mtnlog_dashes_false` | propext, Classical.choice, Quot.sound |
| C222 | `Verif.DepVC.MtnLog.mtnlog_forged_false` | propext, Classical.choice, Quot.sound |
| C222 | `Verif.DepVC.MtnLog.mtnlog_dies_false` | propext, Classical.choice, Quot.sound |
| C223 | `Verif.DepVC.MtnLog.mtninfo_partial` | propext, Classical.choice, Quot.sound |
| C223 | `Verif.DepVC.MtnLog.mtninfo_first_false` | propext, Classical.choice, Quot.sound |
| C223 | `Verif.DepVC.MtnLog.mtninfo_empty_false` | propext, Classical.choice, Quot.sound |
| C223 | `Verif.DepVC.MtnLog.mtninfo_three_false` | propext, Classical.choice, Quot.sound |
| C224 | `Verif.DepVC.MtnLog.mtnreviews_partial` | propext, Classical.choice, Quot.sound |
| C224 | `Verif.DepVC.MtnLog.mtnreviews_empty_false` | propext, Classical.choice, Quot.sound |
| C224 | `Verif.DepVC.MtnLog.mtnreviews_signature_false` | propext, Classical.choice, Quot.sound |
| C225 | `Verif.HashFn.hash_small_value` | propext, Quot.sound |
| C225 | `Verif.HashFn.hash_small_injective` | propext, Quot.sound |
| C225 | `Verif.HashFn.hash_same_number_partial` | propext, Quot.sound |
| C225 | `Verif.HashFn.hash_same_number_false` | propext, Quot.sound |
| C225 | `Verif.HashFn.hash_long_injective_false` | propext, Quot.sound |
| C225 | `Verif.HashFn.hash_long_value` | propext, Classical.choice, Quot.sound |
| C225 | `Verif.HashFn.hash_key_value` | propext, Classical.choice, Quot.sound |
| C225 | `Verif.HashFn.hash_alike` | propext, Classical.choice, Quot.sound |
| C225 | `Verif.HashFn.hash_key_ub` | propext, Classical.choice, Quot.sound |
| C225 | `Verif.HashFn.hash_key_injective_false` | propext, Quot.sound |
| C226 | `Verif.Deptool.GetEnv.getenv_eval_partial` | propext, Classical.choice, Quot.sound |
| C226 | `Verif.Deptool.GetEnv.getenv_stable_partial` | propext, Classical.choice, Quot.sound |
| C226 | `Verif.Deptool.GetEnv.getenv_unset` | propext, Classical.choice, Quot.sound |
| C226 | `Verif.Deptool.GetEnv.getenv_given` | propext, Classical.choice, Quot.sound |
| C226 | `Verif.Deptool.GetEnv.getenv_trees` | propext, Classical.choice, Quot.sound |
| C226 | `Verif.Deptool.GetEnv.getenv_defaults` | propext, Classical.choice, Quot.sound |
| C226 | `Verif.Deptool.GetEnv.getenv_jobs` | propext, Classical.choice, Quot.sound |
| C226 | `Verif.Deptool.GetEnv.getenv_quote_false` | propext, Classical.choice, Quot.sound |
| C227 | `Verif.CStr.cstring_ops_partial` | propext, Classical.choice, Quot.sound |
| C227 | `Verif.CStr.cstring_ops_false` | propext, Classical.choice, Quot.sound |
| C227 | `Verif.CStr.cstring_hash_value` | propext, Classical.choice, Quot.sound |
| C227 | `Verif.CStr.cstring_hash_partial` | propext, Classical.choice, Quot.sound |
| C227 | `Verif.CStr.cstring_hash_false` | propext, Quot.sound |
| C228 | `Verif.DepVC.GitRepo.gitinit_keeps` | propext, Quot.sound |
| C228 | `Verif.DepVC.GitRepo.gitinit_safe_partial` | propext, Quot.sound |
| C228 | `Verif.DepVC.GitRepo.gitinit_works` | propext, Classical.choice, Quot.sound |
| C228 | `Verif.DepVC.GitRepo.gitinit_stopped_false` | propext |
| C228 | `Verif.DepVC.GitRepo.gitinit_hosts_false` | propext |
| C229 | `Verif.DepVC.GitConfig.config_done` | propext, Classical.choice, Quot.sound |
| C229 | `Verif.DepVC.GitConfig.config_unfinished` | propext, Classical.choice, Quot.sound |
| C229 | `Verif.DepVC.GitConfig.config_mark_partial` | propext, Classical.choice, Quot.sound |
| C229 | `Verif.DepVC.GitConfig.config_same` | propext, Classical.choice, Quot.sound |
| C229 | `Verif.DepVC.GitConfig.config_once_partial` | propext, Classical.choice, Quot.sound |
| C229 | `Verif.DepVC.GitConfig.config_answers_partial` | propext, Classical.choice, Quot.sound |
| C229 | `Verif.DepVC.GitConfig.config_key_false` | propext, Classical.choice, Quot.sound |
| C229 | `Verif.DepVC.GitConfig.config_eof_false` | propext, Classical.choice, Quot.sound |
| C229 | `Verif.DepVC.GitConfig.config_excludes_false` | propext, Classical.choice, Quot.sound |
| C230 | `Verif.Quantile.index_searches_agree_partial` | propext, Classical.choice, Quot.sound |
| C230 | `Verif.Quantile.atIndex_unique` | propext, Quot.sound |
| C230 | `Verif.Quantile.index_unsorted_false` | propext |
| C230 | `Verif.Quantile.index_new_false` | propext |
| C231 | `Verif.Quantile.cache_transparent_partial` | propext, Classical.choice, Quot.sound |
| C231 | `Verif.Quantile.cache_small` | propext, Classical.choice, Quot.sound |
| C231 | `Verif.Quantile.cache_hits` | propext, Classical.choice, Quot.sound |
| C231 | `Verif.Quantile.cache_negative_false` | propext, Classical.choice, Quot.sound |
| C232 | `Verif.DepVC.Checkout.select_iff_partial` | propext, Quot.sound |
| C232 | `Verif.DepVC.Checkout.select_type` | propext |
| C232 | `Verif.DepVC.Checkout.git_listing` | propext, Classical.choice, Quot.sound |
| C232 | `Verif.DepVC.Checkout.select_dot_false` | propext, Quot.sound |
| C232 | `Verif.DepVC.Checkout.select_nomaster_false` | propext, Classical.choice, Quot.sound |
| C232 | `Verif.DepVC.Checkout.listing_detached_false` | propext, Classical.choice, Quot.sound |
| C232 | `Verif.DepVC.Checkout.mtn_listing` | propext, Quot.sound |
| C233 | `Verif.DepVC.Checkout.checkout_keeps` | propext |
| C233 | `Verif.DepVC.Checkout.checkout_all_partial` | propext, Quot.sound |
| C233 | `Verif.DepVC.Checkout.checkout_new` | propext, Quot.sound |
| C233 | `Verif.DepVC.Checkout.checkout_ends` | propext, Quot.sound |
| C233 | `Verif.DepVC.Checkout.checkout_works` | propext, Quot.sound |
| C233 | `Verif.DepVC.Checkout.checkout_samename_false` | propext |
| C233 | `Verif.DepVC.Checkout.checkout_interrupted_false` | propext |
| C233 | `Verif.DepVC.Checkout.checkout_branch_false` | propext, Classical.choice, Quot.sound |
| C233 | `Verif.DepVC.Checkout.path_git` | propext |
| C233 | `Verif.DepVC.Checkout.path_mtn` | propext, Quot.sound |
| C233 | `Verif.DepVC.Checkout.choose_sub` | propext |
| C233 | `Verif.DepVC.Checkout.checkout_unknown` | propext |
| C234 | `Verif.Rng.seeds_differ` | propext, Quot.sound |
| C234 | `Verif.Rng.seed_periodic` | propext, Classical.choice, Quot.sound |
| C234 | `Verif.Rng.array_periodic` | propext, Classical.choice, Quot.sound |
| C234 | `Verif.Rng.arrays_differ_partial` | propext, Quot.sound |
| C234 | `Verif.Rng.ctor_seeded` | propext, Quot.sound |
| C234 | `Verif.Rng.ctor_zero_partial` | propext, Quot.sound |
| C234 | `Verif.Rng.arrays_length_false` | propext, Quot.sound |
| C234 | `Verif.Rng.arrays_full_false` | propext, Quot.sound |
| C234 | `Verif.Rng.ctor_zero_false` | propext, Quot.sound |
| C235 | `Verif.Rng.micro_two_results` | propext, Classical.choice, Quot.sound |
| C235 | `Verif.Rng.micro_periodic` | propext, Classical.choice, Quot.sound |
| C235 | `Verif.Rng.micro_zeros` | propext, Classical.choice, Quot.sound |
| C235 | `Verif.Rng.mars_back_partial` | propext, Classical.choice, Quot.sound |
| C235 | `Verif.Rng.mars_merge_false` | propext, Quot.sound |
| C236 | `Verif.Histo.access_uniform_partial` | propext, Classical.choice, Quot.sound |
| C236 | `Verif.Histo.access_accum_partial` | propext, Classical.choice, Quot.sound |
| C236 | `Verif.Histo.access_end_false` | propext, Classical.choice, Quot.sound |
| C236 | `Verif.Histo.access_grows_false` | propext, Classical.choice, Quot.sound |
| C236 | `Verif.LogHisto.access_log_partial` | propext, Classical.choice, Quot.sound |
| C236 | `Verif.LogHisto.access_width_false` | propext, Classical.choice, Quot.sound |
| C237 | `Verif.DepVC.Pull.pull_fair` | propext, Quot.sound |
| C237 | `Verif.DepVC.Pull.pull_all` | propext, Classical.choice, Quot.sound |
| C237 | `Verif.DepVC.Pull.pull_dies` | propext, Quot.sound |
| C237 | `Verif.DepVC.Pull.pull_ends` | propext, Quot.sound |
| C237 | `Verif.DepVC.Pull.branches_read` | propext, Classical.choice, Quot.sound |
| C237 | `Verif.DepVC.Pull.merges_partial` | propext, Classical.choice, Quot.sound |
| C237 | `Verif.DepVC.Pull.pull_first_false` | propext, Quot.sound |
| C237 | `Verif.DepVC.Pull.pull_new_false` | propext, Quot.sound |
| C237 | `Verif.DepVC.Pull.detached_false` | propext, Classical.choice, Quot.sound |
| C237 | `Verif.DepVC.Pull.named_false` | propext |
| C238 | `Verif.Rng.micro_period` | propext, Classical.choice, Quot.sound |
| C238 | `Verif.Rng.micro_period_all` | propext, Classical.choice, Quot.sound |
| C238 | `Verif.Rng.micro_xorshift_false` | propext, Classical.choice, Quot.sound |
| C239 | `Verif.Rng.consts_full_partial` | propext, Classical.choice, Quot.sound |
| C239 | `Verif.Rng.consts_full_false` | propext, Classical.choice, Quot.sound |
| C239 | `Verif.Rng.short_orders_false` | propext, Classical.choice, Quot.sound |
| C239 | `Verif.Rng.consts_sizes` | propext, Quot.sound |
| C240 | `Verif.DepVC.CmdOut.output_whole` | propext, Quot.sound |
| C240 | `Verif.DepVC.CmdOut.output_ends_partial` | propext, Quot.sound |
| C240 | `Verif.DepVC.CmdOut.output_ends_false` | propext, Quot.sound |
| C240 | `Verif.DepVC.CmdOut.output_ends_iff` | propext, Quot.sound |
| C240 | `Verif.DepVC.CmdOut.output_result` | propext, Quot.sound |
| C241 | `Verif.DepVC.Alias.cwd_leads_partial` | propext |
| C241 | `Verif.DepVC.Alias.comes_back_partial` | propext |
| C241 | `Verif.DepVC.Alias.first_name` | propext |
| C241 | `Verif.DepVC.Alias.start_name` | propext |
| C241 | `Verif.DepVC.Alias.start_elsewhere_false` | none |
| C241 | `Verif.DepVC.Alias.relative_false` | propext |
| C241 | `Verif.DepVC.Alias.moved_link_false` | propext |
| C242 | `Verif.DepVC.Remotes.remotes_read_partial` | propext, Quot.sound |
| C242 | `Verif.DepVC.Remotes.checkout_origin_partial` | propext, Quot.sound |
| C242 | `Verif.DepVC.Remotes.fetch_same_partial` | propext, Quot.sound |
| C242 | `Verif.DepVC.Remotes.no_origin` | propext, Quot.sound |
| C242 | `Verif.DepVC.Remotes.remotes_sound` | propext, Quot.sound |
| C242 | `Verif.DepVC.Remotes.several_pushes_false` | propext, Quot.sound |
| C242 | `Verif.DepVC.Remotes.blank_false` | propext |
| C242 | `Verif.DepVC.Remotes.filter_false` | propext |
| C243 | `Verif.Mercury.Split.best_cut_partial` | propext, Classical.choice, Quot.sound |
| C243 | `Verif.Mercury.Split.found_iff` | propext, Classical.choice, Quot.sound |
| C243 | `Verif.Mercury.Split.dies_iff` | propext, Classical.choice, Quot.sound |
| C243 | `Verif.Mercury.Split.large_false` | propext, Classical.choice, Quot.sound |
| C243 | `Verif.Mercury.Split.few_points_false` | propext, Classical.choice, Quot.sound |
| C244 | `Verif.Mercury.Png.psplot_draws` | propext |
| C244 | `Verif.Mercury.Png.psplot_refuses` | propext |
| C244 | `Verif.Mercury.Png.mode_false` | propext, Quot.sound |
| C244 | `Verif.Mercury.Png.args_read_partial` | propext, Quot.sound |
| C244 | `Verif.Mercury.Png.args_false` | propext |
| C244 | `Verif.Mercury.Png.png_works_iff` | propext, Quot.sound |
| C244 | `Verif.Mercury.Png.png_leaves` | propext, Quot.sound |
| C244 | `Verif.Mercury.Png.scaled_false` | propext, Quot.sound |
| C244 | `Verif.Mercury.Png.silent_false` | propext |
| C244 | `Verif.Mercury.Png.leftover_false` | propext |
| C245 | `Verif.Posix.Reopen.reopen_iff` | propext, Classical.choice, Quot.sound |
| C245 | `Verif.Posix.Reopen.reopen_leads` | propext, Quot.sound |
| C245 | `Verif.Posix.Reopen.refused_keeps` | propext, Classical.choice, Quot.sound |
| C245 | `Verif.Posix.Reopen.waiting_written_partial` | propext, Classical.choice, Quot.sound |
| C245 | `Verif.Posix.Reopen.emptied_partial` | propext, Quot.sound |
| C245 | `Verif.Posix.Reopen.one_descriptor` | propext, Classical.choice, Quot.sound |
| C245 | `Verif.Posix.Reopen.reopens_limited` | propext, Classical.choice, Quot.sound |
| C245 | `Verif.Posix.Reopen.descriptor_lost_false` | propext |
| C245 | `Verif.Posix.Reopen.own_file_false` | propext |
| C245 | `Verif.Posix.Reopen.wrong_file_false` | propext |
| C245 | `Verif.Posix.Reopen.mode_kept_false` | propext, Quot.sound |
| C245 | `Verif.Posix.Reopen.failed_false` | propext |
| C246 | `Verif.DepVC.TestStatus.status_iff` | propext, Quot.sound |
| C246 | `Verif.DepVC.TestStatus.old_iff` | propext, Quot.sound |
| C246 | `Verif.DepVC.TestStatus.new_iff` | propext, Quot.sound |
| C246 | `Verif.DepVC.TestStatus.failed_false` | propext, Quot.sound |
| C246 | `Verif.DepVC.TestStatus.touching_false` | propext, Quot.sound |
| C246 | `Verif.DepVC.TestStatus.joined_false` | propext |
| C246 | `Verif.DepVC.TestStatus.text_false` | propext, Quot.sound |
| C247 | `Verif.DepVC.GitStatus.unknown_partial` | propext, Quot.sound |
| C247 | `Verif.DepVC.GitStatus.unknown_all` | propext, Quot.sound |
| C247 | `Verif.DepVC.GitStatus.uncommitted_iff` | propext, Quot.sound |
| C247 | `Verif.DepVC.GitStatus.unknown_false` | propext |
| C248 | `Verif.DepVC.Config.config_iff` | propext, Classical.choice, Quot.sound |
| C248 | `Verif.DepVC.Config.valid_accepted` | propext, Classical.choice, Quot.sound |
| C248 | `Verif.DepVC.Config.warned_iff` | propext, Classical.choice, Quot.sound |
| C248 | `Verif.DepVC.Config.dep_type_false` | propext |
| C248 | `Verif.DepVC.Config.dep_ref_false` | propext |
| C248 | `Verif.DepVC.Config.untested_false` | propext |
| C248 | `Verif.DepVC.Config.newline_false` | propext |
| C249 | `Verif.Mercury.Colors.colors_iff` | propext, Classical.choice, Quot.sound |
| C249 | `Verif.Mercury.Colors.colors_named` | propext, Classical.choice, Quot.sound |
| C249 | `Verif.Mercury.Colors.series_cyclic` | propext, Quot.sound |
| C249 | `Verif.Mercury.Colors.refused_false` | propext |
| C249 | `Verif.Mercury.Colors.empty_false` | none |
| C250 | `Verif.Misc.LintelConfig.has_feature` | propext, Classical.choice, Quot.sound |
| C250 | `Verif.Misc.LintelConfig.features_listed` | propext, Classical.choice, Quot.sound |
| C250 | `Verif.Misc.LintelConfig.paths` | propext, Classical.choice, Quot.sound |
| C250 | `Verif.Misc.LintelConfig.others_refused` | propext, Classical.choice, Quot.sound |
| C250 | `Verif.Misc.LintelConfig.help_false` | propext, Classical.choice, Quot.sound |
| C251 | `Verif.Disktool.list_dies` | propext, Classical.choice, Quot.sound |
| C251 | `Verif.Disktool.list_sorts` | propext, Quot.sound |
| C251 | `Verif.Disktool.list_ids` | propext, Quot.sound |
| C251 | `Verif.Disktool.list_lost` | propext, Quot.sound |
| C251 | `Verif.Disktool.list_unknown` | propext, Quot.sound |
| C251 | `Verif.Disktool.list_info` | propext, Quot.sound |
| C251 | `Verif.Disktool.list_present_false` | propext |
| C251 | `Verif.Disktool.list_unknown_false` | propext |
| C252 | `Verif.Mercury.Output.csv_partial` | propext, Quot.sound |
| C252 | `Verif.Mercury.Output.html_partial` | propext, Quot.sound |
| C252 | `Verif.Mercury.Output.text_rows` | propext, Quot.sound |
| C252 | `Verif.Mercury.Output.csv_false` | propext |
| C252 | `Verif.Mercury.Output.html_false` | none |
| C252 | `Verif.Mercury.Output.null_false` | propext |
| C253 | `Verif.DepVC.MtnOp.mtn_commands` | propext, Classical.choice, Quot.sound |
| C253 | `Verif.DepVC.MtnOp.sync_family` | propext, Quot.sound |
| C253 | `Verif.DepVC.MtnOp.family_unique` | propext, Quot.sound |
| C253 | `Verif.DepVC.MtnOp.server_ssh` | propext, Classical.choice, Quot.sound |
| C253 | `Verif.DepVC.MtnOp.version_dates` | propext, Classical.choice, Quot.sound |
| C253 | `Verif.DepVC.MtnOp.family_false` | propext, Quot.sound |
| C253 | `Verif.DepVC.MtnOp.version_false` | propext, Quot.sound |
| C254 | `Verif.Batch.Find.found_exact` | propext, Quot.sound |
| C254 | `Verif.Batch.Find.found_order` | propext, Quot.sound |
| C254 | `Verif.Batch.Find.found_once_partial` | propext, Quot.sound |
| C254 | `Verif.Batch.Find.abs_same_partial` | propext, Quot.sound |
| C254 | `Verif.Batch.Find.found_once_false` | propext, Quot.sound |
| C254 | `Verif.Batch.Find.abs_root_false` | propext, Quot.sound |
| C255 | `Verif.Batch.TarRun.archive_whole` | propext, Quot.sound |
| C255 | `Verif.Batch.TarRun.failure_keeps` | propext |
| C255 | `Verif.Batch.TarRun.start_iff` | propext, Classical.choice, Quot.sound |
| C255 | `Verif.Batch.TarRun.rebuild_current` | propext, Quot.sound |
| C255 | `Verif.Batch.TarRun.honest_current` | propext, Quot.sound |
| C255 | `Verif.Batch.TarRun.honest_keeps_partial` | propext, Quot.sound |
| C255 | `Verif.Batch.TarRun.same_second_false` | propext |
| C255 | `Verif.Batch.TarRun.while_running_false` | propext |
| C255 | `Verif.Batch.TarRun.removed_false` | propext |
| C256 | `Verif.DepVC.Reviews.reviews_read_partial` | propext, Classical.choice, Quot.sound |
| C256 | `Verif.DepVC.Reviews.lines_lost_false` | propext, Classical.choice, Quot.sound |
| C256 | `Verif.DepVC.Reviews.signature_false` | propext, Classical.choice, Quot.sound |
| C257 | `Verif.Mercury.Select.select_args_partial` | propext, Classical.choice, Quot.sound |
| C257 | `Verif.Mercury.Select.unknown_refused` | propext, Classical.choice, Quot.sound |
| C257 | `Verif.Mercury.Select.separate_value_false` | propext, Classical.choice, Quot.sound |
| C257 | `Verif.Mercury.Select.filename_false` | propext, Classical.choice, Quot.sound |
| C257 | `Verif.Mercury.Select.dashes_false` | propext, Classical.choice, Quot.sound |
| C258 | `Verif.Batch.Workdir.cleanup_exact_partial` | propext, Classical.choice, Quot.sound |
| C258 | `Verif.Batch.Workdir.others_kept` | propext, Classical.choice, Quot.sound |
| C258 | `Verif.Batch.Workdir.noexec_keeps` | propext |
| C258 | `Verif.Batch.Workdir.own_never_removed_false` | propext, Classical.choice, Quot.sound |
| C258 | `Verif.Batch.Workdir.new_removed_false` | propext, Classical.choice, Quot.sound |
| C258 | `Verif.Batch.Workdir.half_removed_false` | propext |
| C259 | `Verif.DepVC.TryCheckout.returns_iff` | propext, Classical.choice, Quot.sound |
| C259 | `Verif.DepVC.TryCheckout.branch_wanted` | propext, Classical.choice, Quot.sound |
| C259 | `Verif.DepVC.TryCheckout.wanted_unique` | propext, Classical.choice, Quot.sound |
| C259 | `Verif.DepVC.TryCheckout.other_failure` | propext, Classical.choice, Quot.sound |
| C259 | `Verif.DepVC.TryCheckout.init_failure` | propext, Classical.choice, Quot.sound |
| C259 | `Verif.DepVC.TryCheckout.slashless_false` | propext, Classical.choice, Quot.sound |
| C259 | `Verif.DepVC.TryCheckout.blanks_false` | propext, Classical.choice, Quot.sound |
| C260 | `Verif.Dist.ManName.page_fixed_partial` | propext, Classical.choice, Quot.sound |
| C260 | `Verif.Dist.ManName.others_kept` | propext, Classical.choice, Quot.sound |
| C260 | `Verif.Dist.ManName.line_lost_false` | propext, Classical.choice, Quot.sound |
| C260 | `Verif.Dist.ManName.description_false` | propext, Classical.choice, Quot.sound |
| C260 | `Verif.Dist.ManName.next_page_false` | propext, Classical.choice, Quot.sound |
| C261 | `Verif.Batch.Submit.lsf_words_partial` | propext, Classical.choice, Quot.sound |
| C261 | `Verif.Batch.Submit.codine_words_partial` | propext, Classical.choice, Quot.sound |
| C261 | `Verif.Batch.Submit.runs_iff` | propext, Classical.choice, Quot.sound |
| C261 | `Verif.Batch.Submit.codine_width_false` | propext, Classical.choice, Quot.sound |
| C261 | `Verif.Batch.Submit.blank_false` | propext, Classical.choice, Quot.sound |
| C262 | `Verif.Dist.Changelogs.check_iff` | propext, Classical.choice, Quot.sound |
| C262 | `Verif.Dist.Changelogs.right_passes` | propext, Classical.choice, Quot.sound |
| C262 | `Verif.Dist.Changelogs.other_version_false` | propext, Quot.sound |
| C262 | `Verif.Dist.Changelogs.longer_false` | propext, Classical.choice, Quot.sound |
| C263 | `Verif.CMakeMod.Inc.setup_places_partial` | propext, Classical.choice, Quot.sound |
| C263 | `Verif.CMakeMod.Inc.installed_first_partial` | propext, Classical.choice, Quot.sound |
| C263 | `Verif.CMakeMod.Inc.still_found` | propext, Classical.choice, Quot.sound |
| C263 | `Verif.CMakeMod.Inc.setup_again` | propext, Classical.choice, Quot.sound |
| C263 | `Verif.CMakeMod.Inc.precedence_false` | propext, Classical.choice, Quot.sound |
| C263 | `Verif.CMakeMod.Inc.blank_false` | propext, Classical.choice, Quot.sound |
| C264 | `Verif.CMakeMod.Find.with_library_partial` | propext, Classical.choice, Quot.sound |
| C264 | `Verif.CMakeMod.Find.required_library_partial` | propext, Classical.choice, Quot.sound |
| C264 | `Verif.CMakeMod.Find.headers_partial` | propext, Classical.choice, Quot.sound |
| C264 | `Verif.CMakeMod.Find.vanished_false` | propext, Quot.sound |
| C264 | `Verif.CMakeMod.Find.sticky_false` | propext, Classical.choice, Quot.sound |
| C264 | `Verif.CMakeMod.Find.twice_false` | propext, Classical.choice, Quot.sound |
| C264 | `Verif.CMakeMod.Find.find_enabled_false` | propext |
| C265 | `Verif.CMakeMod.Prog.with_program` | propext, Classical.choice, Quot.sound |
| C265 | `Verif.CMakeMod.Prog.required_program` | propext, Classical.choice, Quot.sound |
| C265 | `Verif.CMakeMod.Prog.chosen_present` | propext, Classical.choice, Quot.sound |
| C265 | `Verif.CMakeMod.Prog.with_module` | propext, Quot.sound |
| C265 | `Verif.CMakeMod.Prog.required_module` | propext |
| C265 | `Verif.CMakeMod.Prog.required_mark_false` | none |
| C265 | `Verif.CMakeMod.Prog.required_module_mark_false` | propext |
| C265 | `Verif.CMakeMod.Prog.module_vanished_false` | none |
| C266 | `Verif.CMakeMod.BoostExtra.boost_optional_partial` | propext, Classical.choice, Quot.sound |
| C266 | `Verif.CMakeMod.BoostExtra.boost_agrees` | propext, Classical.choice, Quot.sound |
| C266 | `Verif.CMakeMod.BoostExtra.boost_header_agrees` | propext, Quot.sound |
| C266 | `Verif.CMakeMod.BoostExtra.optional_ends_false` | propext, Classical.choice, Quot.sound |
| C266 | `Verif.CMakeMod.BoostExtra.boost_required_partial` | propext, Classical.choice, Quot.sound |
| C267 | `Verif.CMakeMod.DocsMacros.latex_optional` | propext, Classical.choice, Quot.sound |
| C267 | `Verif.CMakeMod.DocsMacros.latex_required_partial` | propext, Classical.choice, Quot.sound |
| C267 | `Verif.CMakeMod.DocsMacros.latex_required_false` | propext, Classical.choice, Quot.sound |
| C267 | `Verif.CMakeMod.DocsMacros.latex_requires` | propext, Quot.sound |
| C267 | `Verif.CMakeMod.DocsMacros.page_partial` | propext, Classical.choice, Quot.sound |
| C267 | `Verif.CMakeMod.DocsMacros.page_without` | propext, Classical.choice, Quot.sound |
| C267 | `Verif.CMakeMod.DocsMacros.empty_release_false` | propext, Classical.choice, Quot.sound |
| C268 | `Verif.CMakeMod.PathFix.fix_partial` | propext, Classical.choice, Quot.sound |
| C268 | `Verif.CMakeMod.PathFix.semicolons_false` | propext, Classical.choice, Quot.sound |
| C268 | `Verif.CMakeMod.PathFix.build_false` | propext, Classical.choice, Quot.sound |
| C268 | `Verif.CMakeMod.PathFix.empty_false` | propext, Classical.choice, Quot.sound |
| C269 | `Verif.Dist.ReleaseInfo.release_git` | propext, Classical.choice, Quot.sound |
| C269 | `Verif.Dist.ReleaseInfo.release_tar` | propext, Classical.choice, Quot.sound |
| C269 | `Verif.Dist.ReleaseInfo.date_read` | propext, Classical.choice, Quot.sound |
| C269 | `Verif.Dist.ReleaseInfo.old_project` | propext, Classical.choice, Quot.sound |
| C269 | `Verif.Dist.ReleaseInfo.recognized_false` | propext, Classical.choice, Quot.sound |
