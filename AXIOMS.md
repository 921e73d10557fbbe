# Axioms each theorem depends on

Generated by `tools/axioms.py` from `#print axioms`.

## propext, Classical.choice, Quot.sound: 475 theorems

`C01_generated_deque_is_list`, `C01_new`, `C01_deque_is_list`, `C01_full_add_corrupts_refuted`, `C02_generated_empty_access`, `C02_empty_access`, `C03_generated_no_stale_references`, `C03_no_stale_references`, `C03_slots_bounded`, `C04_generated_vector_is_list`, `C04_vector_is_list`, `C05_generated`, `C05_ensureSize_grows`, `C05_ensureEntry_grows`, `C05_ensureSize_any`, `C06_generated_partial`, `C06_generated_refuted`, `C06_grow_partial`, `C06_grow_refuted`, `C07_generated`, `C07_nextPowerOf2_least`, `C07_nextPowerOf2_outside`, `C08_generated_partial`, `C08_newCapacity_partial`, `C08_newCapacity_pow2`, `C08_shrinks_refuted`, `C09_generated_chunkStore_model`, `C09_generated_chunkStore_partial`, `C09_chunkStore_partial`, `C09_new`, `C09_not_pow2_refuted`, `C10_generated_capacity_any`, `C10_generated_capacity_partial`, `C10_generated_overflow_refuted`, `C10_capacity`, `C10_capacity_any`, `C11_generated_matrixStore_model`, `C11_generated_matrixStore_partial`, `C11_matrixStore_partial`, `C11_not_pow2_refuted`, `C12_generated_bad_field`, `C12_generated_get_beyond`, `C12_only_bad_field`, `C13_generated`, `C13_unpack_pack`, `C13_pack_unpack`, `C13_injective`, `C13_value`, `C14_generated`, `C14_short_bijection`, `C14_byte_bijection`, `C14_four_bytes`, `C15_generated`, `C15_round_trip`, `C16_generated`, `C16_generated_sequence`, `C16_frame`, `C16_sequence`, `C17_generated`, `C17_layout`, `C17_layout_injective`, `C18_generated_partial`, `C18_generated_predicates`, `C18_byte`, `C18_short`, `C18_char`, `C18_long`, `C18_int_partial`, `C18_total_order`, `C19_generated_partial`, `C19_abs_small`, `C19_abs_int_partial`, `C19_abs_long_partial`, `C19_min_value_refuted`, `C20_generated_partial`, `C21_generated`, `C21_bits`, `C21_narrow`, `C21_laws`, `C22_generated_dates`, `C22_generated_times`, `C22_date`, `C22_negative_year_rejected`, `C22_large_year_lost`, `C22_time`, `C22_order`, `C22_exactly`, `C22_time_order`, `C23_generated_exactly_partial`, `C23_generated_increasing_partial`, `C23_generated_duplicate_refuted`, `C23_increasing_partial`, `C23_any_clock_partial`, `C23_duplicate_refuted`, `C23_exactly_partial`, `C24_generated`, `C24_parse`, `C25_generated_partial`, `C25_backwards_throws`, `C25_only_backwards`, `C25_never_earlier_partial`, `C25_wait_regress_refuted`, `C26_generated`, `C26_nodes_disjoint`, `C26_node_range`, `C26_node_from_name`, `C27_generated_results_legal`, `C27_generated_new`, `C27_generated_default_load`, `C27_generated_set_results_legal`, `C27_generated_set_new`, `C27_results_legal`, `C27_new`, `C27_membership`, `C27_contains`, `C28_generated_size`, `C28_size`, `C29_generated_entry_stable`, `C29_entry_stable`, `C30_generated_one_to_one`, `C30_one_to_one`, `C31_generated_exact`, `C31_generated_reuse`, `C31_generated_dense_partial`, `C31_generated_set_exact`, `C31_exact_partial`, `C31_dense_partial`, `C31_reuse`, `C32_generated_remove_present`, `C32_generated_remove_absent`, `C32_remove_present`, `C32_remove_absent`, `C33_generated_removeAt_live`, `C33_generated_removeAt_not_live`, `C33_removeAt_live`, `C33_removeAt_not_live`, `C33_removeAt_outside`, `C34_generated_reserve`, `C34_generated_freed_is_next`, `C34_reserve`, `C34_freed_is_next`, `C35_generated_each_once`, `C35_each_once`, `C36_generated_remove_while_visiting`, `C36_remove_while_visiting`, `C37_generated_clear`, `C37_generated_wiped_partial`, `C37_clear`, `C37_like_new`, `C37_wiped_partial`, `C38_generated_copy`, `C38_generated_set_copy`, `C38_copy_partial`, `C38_own_functions_partial`, `C38_agree_partial`, `C39_generated_iterates`, `C39_iterates`, `C40_generated_protocol`, `C40_remove`, `C40_protocol`, `C41_generated_fail_fast_partial`, `C41_fail_fast_partial`, `C42_generated_coherent`, `C42_generated_equality`, `C42_primitives_coherent`, `C42_equal_keys`, `C42_irreflexive_key`, `C42_double_zeros`, `C42_float_zeros`, `C42_double_nan`, `C42_float_nan`, `C43_generated_put_get`, `C43_generated_putValueAt_get`, `C43_generated_absent`, `C43_put_get`, `C43_putValueAt_get`, `C43_absent`, `C44_generated_add_absent`, `C44_generated_add_present`, `C44_add_absent`, `C44_add_present`, `C45_generated_family`, `C45_generated_new`, `C45_family`, `C45_independent`, `C45_new`, `C46_generated_sizes`, `C46_generated_empty_removal`, `C46_sizes`, `C46_empty_removal`, `C47_generated_iterators`, `C47_iterators`, `C48_generated_allocation`, `C48_generated_peak_partial`, `C48_generated_clear_refuted`, `C48_allocation`, `C48_peak_partial`, `C48_clear_refuted`, `C49_generated_peek_is_minimum`, `C49_peek_is_minimum`, `C50_generated_results`, `C50_results`, `C50_stable_handle`, `C50_distinct`, `C51_generated_drain_sorts`, `C51_drain_sorts`, `C52_generated_resetKey`, `C52_generated_setComparator`, `C52_generated_getComparator`, `C52_resetKey`, `C52_setComparator`, `C53_generated_removeAt_partial`, `C53_removeAt_partial`, `C53_unused_refuted`, `C54_generated_reports_partial`, `C54_generated_forEachEntry_no_holes_partial`, `C54_reports_partial`, `C54_forEachEntry_no_holes_partial`, `C55_generated_clear_partial`, `C55_clear_partial`, `C55_insert_after_clear_partial`, `C56_generated_sorts`, `C56_sorts`, `C57_generated_one_permutation`, `C57_one_permutation`, `C57_terminates`, `C57_irreflexive_diverges`, `C58_generated_rejects_partial`, `C58_outside_untouched`, `C58_rejects_partial`, `C58_bad_range_changes_nothing`, `C59_generated_history_partial`, `C59_generated_small_history_partial`, `C59_generated_set_of_pairs_partial`, `C59_generated_new`, `C59_generated_default_constructors`, `C59_history_partial`, `C59_small_history_partial`, `C59_small_is_guarded`, `C59_set_of_pairs_partial`, `C59_entry_of_pair_partial`, `C59_remove_refuted`, `C60_generated_entries_partial`, `C60_generated_left_values_partial`, `C60_left_entries_partial`, `C60_left_values_partial`, `C60_left_span`, `C60_small_partial`, `C61_generated_right_values_partial`, `C61_right_entries_partial`, `C61_right_values_partial`, `C61_right_span`, `C61_directions_agree_partial`, `C62_generated_count_partial`, `C62_count_partial`, `C62_count_is_length_partial`, `C62_uncounted`, `C62_negative_refuted`, `C63_generated_values_partial`, `C63_entries_and_count`, `C63_values_partial`, `C63_values_refuted`, `C64_generated_put_succeeds_partial`, `C64_guarded_put_succeeds_partial`, `C64_put_again`, `C64_negative_refuted`, `C65_generated_vector_no_stale_references`, `C65_vector_no_stale_references`, `C66_generated_partial`, `C66_big_endian_refuted`, `C66_exactly_partial`, `C68_generated_no_stale_references`, `C68_no_stale_references`, `C68_one_cell_each`, `C69_generated_partial`, `C69_create_filled_partial`, `C69_fill`, `C69_resize`, `C71_generated_insert_capacity_partial`, `C71_insert_capacity_partial`, `C71_shrink_refuted`, `C71_capacity_zero_refuted`, `C72_generated_edit_while_iterating_partial`, `C72_edit_while_iterating_partial`, `C73_generated`, `C73_double_comparators`, `C73_double_equal`, `C74_generated_partial`, `C74_double_nan_partial`, `C74_double_not_transitive_refuted`, `C75_generated`, `C75_generated_total_order`, `C75_float_order`, `C75_float_total_order`, `C75_float_absolute`, `C76_generated`, `C76_double_predicates`, `C76_float_predicates`, `C76_nan_predicates`, `C76_double_agree`, `C77_generated_partial`, `C77_epsilon_partial`, `C77_epsilon_symmetric`, `C77_epsilon_refuted`, `C78_generated_round_trip`, `C78_generated_narrowing`, `C78_generated_float`, `C78_generated_references`, `C78_round_trip`, `C78_narrowing`, `C78_float_small`, `C78_float_exactly`, `C79_generated_box_partial`, `C79_generated_char_refuted`, `C79_generated_truncation`, `C79_generated_null`, `C79_generated_integer_exact`, `C79_generated_double_exact`, `C79_generated_float_exact`, `C79_generated_bool_partial`, `C79_generated_other_classes`, `C79_generated_dates`, `C79_generated_integers_wrap`, `C79_truncation`, `C79_integer_exact`, `C79_double_exact`, `C79_float_exact`, `C79_bool_partial`, `C79_integers_wrap`, `C80_generated_round_trip`, `C80_generated_out_of_range`, `C80_generated_accepted_texts`, `C80_generated_char_and_bool_texts`, `C80_round_trip`, `C80_out_of_range`, `C80_accepted_texts`, `C80_char_and_bool_texts`, `C81_generated_partial`, `C82_timeouts`, `C83_exactly_once`, `C84_acknowledged_partial`, `C85_results_partial`, `C85_small_partial`, `C86_results_partial`, `C86_small_partial`, `C87_generated_orders`, `C87_generated_equality_and_hash`, `C87_dictionary`, `C87_orders`, `C87_predicates`, `C88_generated`, `C88_waits_only_when_used_up`, `C88_full_millisecond`, `C89_generated`, `C89_dates_validated`, `C89_times_validated`, `C89_sql_date`, `C89_calendar`, `C90_generated_deque_partial`, `C90_generated_drain`, `C90_generated_work_queue`, `C90_deque_partial`, `C90_drain`, `C90_work_queue`, `C91_generated_vector`, `C91_vector`, `C91_work_list`, `C92_generated_iterator_partial`, `C92_iterator_partial`, `C92_start`, `C92_drain`, `C93_generated_removals_partial`, `C93_generated_update_all`, `C93_generated_remove_keys`, `C93_consumer_partial`, `C93_update_all`, `C93_remove_keys`, `C93_removals_partial`, `C94_generated_iterator_use`, `C94_generated_set_iterator_use`, `C94_iterator_use`, `C95_generated_walk_partial`, `C95_generated_updates_partial`, `C95_walk_partial`, `C95_updates_partial`, `C96_generated_comparisons`, `C96_comparisons`, `C97_generated_comparable_partial`, `C97_generated_insert_refuted`, `C97_comparable_partial`, `C97_asc_partial`, `C97_insert_refuted`, `C98_generated_any_comparator`, `C98_any_comparator`, `C99_generated_comparisons`, `C99_per_level`, `C99_quadratic`, `C100_generated_same_array`, `C100_same_array`, `C101_copy_self`, `C101_iterators_notice`, `C102_generated_capacity`, `C102_generated_never_shrinks`, `C102_capacity`, `C102_never_shrinks`, `C103_generated`, `C103_ideal`, `C104_generated_partial`, `C104_stays_exhausted_partial`, `C104_wraps_refuted`, `C105_generated_deque`, `C105_generated_vector`, `C105_generated_hydra`, `C105_generated_map`, `C105_generated_heap`, `C105_deque`, `C105_vector`, `C105_hydra`, `C105_index`, `C105_heap`, `C106_generated_questions`, `C106_generated_how_often`, `C106_generated_set_questions`, `C106_generated_set_how_often`, `C106_questions`, `C106_how_often`, `C107_generated_steady_partial`, `C107_generated_history_partial`, `C107_generated_set_steady_partial`, `C107_steady_partial`, `C107_history_partial`, `C108_generated_deque`, `C108_generated_vector`, `C108_generated_heap`, `C108_generated_map`, `C108_generated_set`, `C109_deque`, `C109_vector`, `C109_heap`, `C109_generated_deque`, `C109_generated_vector`, `C109_generated_heap`, `C110_generated_chunkStore_any`, `C110_generated_no_shared_cell`, `C110_roundsTo`, `C110_pow2_cells`, `C110_chunkStore_any`, `C110_no_shared_cell`, `C111_generated_matrixStore_any`, `C111_generated_capacity`, `C111_matrixStore_any`, `C111_room`, `C111_capacity`, `C112_entries`, `C112_length`, `C112_generated`, `C113_generated_vector`, `C113_generated_deque_partial`, `C113_generated_heap`, `C113_generated_heap_half`, `C113_generated_index_partial`, `C113_generated_index_remove_if`, `C113_generated_set_remove_if`, `C113_generated_index_replace_all`, `C113_generated_deque_worklist`, `C113_generated_deque_drain`, `C113_generated_vector_explore`, `C113_generated_deque_worklist_endless`, `C113_generated_deque_rotate_endless`, `C113_generated_set_partial`, `C114_generated_walk_partial`, `C114_generated_clear_key_partial`, `C115_generated_walk_partial`, `C115_generated_weed_partial`, `C115_generated_remove_if_partial`

## propext, Quot.sound: 61 theorems

`C04_new`, `C08_newCapacity_le_max`, `C08_newCapacity_refuses`, `C10_overflow_refuted`, `C12_bad_field`, `C12_get_beyond`, `C18_predicates`, `C31_leak_refuted`, `C34_nan_refuted`, `C37_stale_refuted`, `C38_hash_refuted`, `C41_clear_refuted`, `C42_generated_objects_coherent`, `C42_double_coherent`, `C42_float_coherent`, `C42_equality`, `C42_floating_equality`, `C42_objects_coherent`, `C47_generated_exhausted`, `C49_new`, `C53_removeAt_refuted`, `C54_forEachEntry_refuted`, `C54_isValidEntry_refuted`, `C58_overflow_refuted`, `C59_generated_remove_refuted`, `C59_one_left_per_right_refuted`, `C60_walk_refuted`, `C61_walk_refuted`, `C62_remove_twice_refuted`, `C64_reuse_refuted`, `C66_little_endian_partial`, `C69_generated_of_references`, `C69_create`, `C69_negative_zero_refuted`, `C70_generated`, `C70_generated_predicateFor`, `C70_objects_equal`, `C72_generated_remove_next_refuted`, `C72_remove_next_refuted`, `C79_dates`, `C80_generated_text`, `C80_text`, `C81_string_predicates_partial`, `C85_meaning`, `C85_iterate_refuted`, `C86_meaning`, `C86_main_refuted`, `C86_empty_class_refuted`, `C87_equality_and_hash`, `C93_generated_refuted`, `C93_remove_next_refuted`, `C93_add_refuted`, `C93_clear_refuted`, `C97_generated_reads`, `C107_generated_refuted`, `C107_refuted`, `C112_without_clear`, `C113_generated_index_refuted`, `C113_generated_set_refuted`, `C114_generated_walk_refuted`, `C115_generated_walk_refuted`

## propext: 22 theorems

`C18_int_refuted`, `C19_generated_desc`, `C20_generated_refuted`, `C20_nulls_last_partial`, `C20_null_second_refuted`, `C47_exhausted`, `C67_generated`, `C67_bool`, `C78_float_rounds`, `C79_generated_references`, `C79_box_partial`, `C79_char_refuted`, `C79_null`, `C79_lossy_refuted`, `C79_other_classes`, `C81_null_second_refuted`, `C97_generated_remove_refuted`, `C97_reads`, `C97_insert_run_refuted`, `C97_remove_refuted`, `C113_generated_deque_refuted`, `C113_generated_deque_worklist_refuted`

## (none): 17 theorems

`C19_desc`, `C53_generated_removeAt_refuted`, `C54_generated_reports_refuted`, `C55_generated_clear_refuted`, `C55_clear_refuted`, `C82_new`, `C84_late_acknowledge_refuted`, `C90_generated_grow_refuted`, `C90_remove_current_last_refuted`, `C90_remove_ahead_refuted`, `C90_clear_refuted`, `C90_grow_refuted`, `C92_remove_next_refuted`, `C92_reuse_refuted`, `C92_clear_refuted`, `C95_generated_remove_refuted`, `C95_remove_refuted`

## Quot.sound: 2 theorems

`C50_generated_new`, `C98_effects_ignored`
