{
 "claims": [
  {
   "property": "C01",
   "status": "proved",
   "theorems": [
    "C01_generated_deque_is_list",
    "C01_new",
    "C01_deque_is_list",
    "C01_full_add_corrupts_refuted"
   ],
   "note": "C01_full_add_corrupts_refuted shows what happens at the excluded 2^29 limit, which is outside the property."
  },
  {
   "property": "C02",
   "status": "proved",
   "theorems": [
    "C02_generated_empty_access",
    "C02_empty_access"
   ],
   "note": ""
  },
  {
   "property": "C03",
   "status": "proved",
   "theorems": [
    "C03_generated_no_stale_references",
    "C03_no_stale_references",
    "C03_slots_bounded"
   ],
   "note": ""
  },
  {
   "property": "C04",
   "status": "proved",
   "theorems": [
    "C04_generated_vector_is_list",
    "C04_vector_is_list",
    "C04_new"
   ],
   "note": ""
  },
  {
   "property": "C05",
   "status": "proved",
   "theorems": [
    "C05_generated",
    "C05_ensureSize_grows",
    "C05_ensureEntry_grows",
    "C05_ensureSize_any"
   ],
   "note": ""
  },
  {
   "property": "C06",
   "status": "partial",
   "theorems": [
    "C06_generated_partial",
    "C06_generated_refuted",
    "C06_grow_partial",
    "C06_grow_refuted"
   ],
   "note": "Proved for requests up to 2^30 (C06_grow_partial). Missing half is false: C06_grow_refuted proves that the loop never terminates for larger requests."
  },
  {
   "property": "C07",
   "status": "proved",
   "theorems": [
    "C07_generated",
    "C07_nextPowerOf2_least",
    "C07_nextPowerOf2_outside"
   ],
   "note": ""
  },
  {
   "property": "C08",
   "status": "partial",
   "theorems": [
    "C08_generated_partial",
    "C08_newCapacity_partial",
    "C08_newCapacity_pow2",
    "C08_newCapacity_le_max",
    "C08_newCapacity_refuses",
    "C08_shrinks_refuted"
   ],
   "note": "Proved for powers of two and for all capacities outside (2^29, 2^30); inside it the capacity shrinks (C08_shrinks_refuted)."
  },
  {
   "property": "C09",
   "status": "partial",
   "theorems": [
    "C09_generated_chunkStore_model",
    "C09_generated_chunkStore_partial",
    "C09_chunkStore_partial",
    "C09_new",
    "C09_not_pow2_refuted"
   ],
   "note": "Proved for all power-of-two chunk sizes and all histories; false for every other chunk size (C09_not_pow2_refuted); C110 says exactly what happens there."
  },
  {
   "property": "C10",
   "status": "partial",
   "theorems": [
    "C10_generated_capacity_any",
    "C10_generated_capacity_partial",
    "C10_generated_overflow_refuted",
    "C10_capacity",
    "C10_overflow_refuted",
    "C10_capacity_any"
   ],
   "note": "Proved for every chunk size from 1 to 2^30 and initial sizes up to 2^30; overflow beyond that makes the capacity negative (C10_overflow_refuted)."
  },
  {
   "property": "C11",
   "status": "partial",
   "theorems": [
    "C11_generated_matrixStore_model",
    "C11_generated_matrixStore_partial",
    "C11_matrixStore_partial",
    "C11_not_pow2_refuted"
   ],
   "note": "Proved for all power-of-two chunk sizes and all histories; false for every other chunk size (C11_not_pow2_refuted); C111 says exactly what happens there."
  },
  {
   "property": "C12",
   "status": "proved",
   "theorems": [
    "C12_generated_bad_field",
    "C12_generated_get_beyond",
    "C12_bad_field",
    "C12_only_bad_field",
    "C12_get_beyond"
   ],
   "note": ""
  },
  {
   "property": "C13",
   "status": "proved",
   "theorems": [
    "C13_generated",
    "C13_unpack_pack",
    "C13_pack_unpack",
    "C13_injective",
    "C13_value"
   ],
   "note": ""
  },
  {
   "property": "C14",
   "status": "proved",
   "theorems": [
    "C14_generated",
    "C14_short_bijection",
    "C14_byte_bijection",
    "C14_four_bytes"
   ],
   "note": ""
  },
  {
   "property": "C15",
   "status": "proved",
   "theorems": [
    "C15_generated",
    "C15_round_trip"
   ],
   "note": ""
  },
  {
   "property": "C16",
   "status": "proved",
   "theorems": [
    "C16_generated",
    "C16_generated_sequence",
    "C16_frame",
    "C16_sequence"
   ],
   "note": ""
  },
  {
   "property": "C17",
   "status": "proved",
   "theorems": [
    "C17_generated",
    "C17_layout",
    "C17_layout_injective"
   ],
   "note": ""
  },
  {
   "property": "C18",
   "status": "partial",
   "theorems": [
    "C18_generated_partial",
    "C18_generated_predicates",
    "C18_byte",
    "C18_short",
    "C18_char",
    "C18_long",
    "C18_int_partial",
    "C18_int_refuted",
    "C18_total_order",
    "C18_predicates"
   ],
   "note": "Proved for byte, short, char, long and for int operands whose difference fits in an int; IntType.Asc is not an order beyond that (C18_int_refuted)."
  },
  {
   "property": "C19",
   "status": "partial",
   "theorems": [
    "C19_generated_desc",
    "C19_generated_partial",
    "C19_desc",
    "C19_abs_small",
    "C19_abs_int_partial",
    "C19_abs_long_partial",
    "C19_min_value_refuted"
   ],
   "note": "Exact for byte, short, char; int and long exactly characterised: wrong only for MIN_VALUE (C19_min_value_refuted)."
  },
  {
   "property": "C20",
   "status": "partial",
   "theorems": [
    "C20_generated_partial",
    "C20_generated_refuted",
    "C20_nulls_last_partial",
    "C20_null_second_refuted"
   ],
   "note": "Proved unless only the second operand is null, where the code throws NullPointerException (C20_null_second_refuted)."
  },
  {
   "property": "C21",
   "status": "proved",
   "theorems": [
    "C21_generated",
    "C21_bits",
    "C21_narrow",
    "C21_laws"
   ],
   "note": ""
  },
  {
   "property": "C22",
   "status": "proved",
   "theorems": [
    "C22_generated_dates",
    "C22_generated_times",
    "C22_date",
    "C22_negative_year_rejected",
    "C22_large_year_lost",
    "C22_time",
    "C22_order",
    "C22_exactly",
    "C22_time_order"
   ],
   "note": "C22_exactly: a date survives if and only if its year is in 0..214748; C22_negative_year_rejected and C22_large_year_lost say what happens to the others. Times and orders in full."
  },
  {
   "property": "C23",
   "status": "partial",
   "theorems": [
    "C23_generated_exactly_partial",
    "C23_generated_increasing_partial",
    "C23_generated_duplicate_refuted",
    "C23_increasing_partial",
    "C23_any_clock_partial",
    "C23_duplicate_refuted",
    "C23_exactly_partial"
   ],
   "note": "C23_exactly_partial characterises it for every clock: ids are strictly increasing if and only if the clock never steps back while the generator waits for an exhausted millisecond; in particular for every clock that never runs backwards and for fewer than 4096 calls. Otherwise false (C23_duplicate_refuted)."
  },
  {
   "property": "C24",
   "status": "proved",
   "theorems": [
    "C24_generated",
    "C24_parse"
   ],
   "note": ""
  },
  {
   "property": "C25",
   "status": "partial",
   "theorems": [
    "C25_generated_partial",
    "C25_backwards_throws",
    "C25_only_backwards",
    "C25_never_earlier_partial",
    "C25_wait_regress_refuted"
   ],
   "note": "Proved except when the sequence of the current millisecond is exhausted (C25_wait_regress_refuted)."
  },
  {
   "property": "C26",
   "status": "proved",
   "theorems": [
    "C26_generated",
    "C26_nodes_disjoint",
    "C26_node_range",
    "C26_node_from_name"
   ],
   "note": ""
  },
  {
   "property": "C27",
   "status": "proved",
   "theorems": [
    "C27_generated_results_legal",
    "C27_generated_new",
    "C27_generated_default_load",
    "C27_generated_set_results_legal",
    "C27_generated_set_new",
    "C27_results_legal",
    "C27_new",
    "C27_membership",
    "C27_contains"
   ],
   "note": ""
  },
  {
   "property": "C28",
   "status": "proved",
   "theorems": [
    "C28_generated_size",
    "C28_size"
   ],
   "note": ""
  },
  {
   "property": "C29",
   "status": "proved",
   "theorems": [
    "C29_generated_entry_stable",
    "C29_entry_stable"
   ],
   "note": ""
  },
  {
   "property": "C30",
   "status": "proved",
   "theorems": [
    "C30_generated_one_to_one",
    "C30_one_to_one"
   ],
   "note": ""
  },
  {
   "property": "C31",
   "status": "partial",
   "theorems": [
    "C31_generated_exact",
    "C31_generated_reuse",
    "C31_generated_dense_partial",
    "C31_generated_set_exact",
    "C31_exact_partial",
    "C31_dense_partial",
    "C31_reuse",
    "C31_leak_refuted"
   ],
   "note": "Proved (exact allocation, density, reuse) when capacity*loadFactor >= 1/2 at construction; with smaller products entries leak (C31_leak_refuted)."
  },
  {
   "property": "C32",
   "status": "proved",
   "theorems": [
    "C32_generated_remove_present",
    "C32_generated_remove_absent",
    "C32_remove_present",
    "C32_remove_absent"
   ],
   "note": ""
  },
  {
   "property": "C33",
   "status": "proved",
   "theorems": [
    "C33_generated_removeAt_live",
    "C33_generated_removeAt_not_live",
    "C33_removeAt_live",
    "C33_removeAt_not_live",
    "C33_removeAt_outside"
   ],
   "note": ""
  },
  {
   "property": "C34",
   "status": "partial",
   "theorems": [
    "C34_generated_reserve",
    "C34_generated_freed_is_next",
    "C34_reserve",
    "C34_freed_is_next",
    "C34_nan_refuted"
   ],
   "note": "Proved for keys equal to themselves; removeAtAndReserve silently does nothing for a NaN key (C34_nan_refuted)."
  },
  {
   "property": "C35",
   "status": "proved",
   "theorems": [
    "C35_generated_each_once",
    "C35_each_once"
   ],
   "note": ""
  },
  {
   "property": "C36",
   "status": "proved",
   "theorems": [
    "C36_generated_remove_while_visiting",
    "C36_remove_while_visiting"
   ],
   "note": ""
  },
  {
   "property": "C37",
   "status": "partial",
   "theorems": [
    "C37_generated_clear",
    "C37_generated_wiped_partial",
    "C37_clear",
    "C37_like_new",
    "C37_wiped_partial",
    "C37_stale_refuted"
   ],
   "note": "Proved for every continuation; wiping of keys/values of used entries is proved when the collection is not empty and false when its size is 0 (C37_stale_refuted)."
  },
  {
   "property": "C38",
   "status": "partial",
   "theorems": [
    "C38_generated_copy",
    "C38_generated_set_copy",
    "C38_copy_partial",
    "C38_own_functions_partial",
    "C38_agree_partial",
    "C38_hash_refuted"
   ],
   "note": "Proved when both collections use the same hash and equality functions and the source has capacity below 2^29; copyFrom does not copy custom functions (C38_hash_refuted). With different functions, everything that takes no key is proved right (size, iterations, keys and values at entries, removals by entry, clear), and the copy is right again once emptied (C38_own_functions_partial). Independence of the two objects is by construction of the model (arrays are values; copyFrom only uses arraycopy)."
  },
  {
   "property": "C39",
   "status": "proved",
   "theorems": [
    "C39_generated_iterates",
    "C39_iterates"
   ],
   "note": ""
  },
  {
   "property": "C40",
   "status": "proved",
   "theorems": [
    "C40_generated_protocol",
    "C40_remove",
    "C40_protocol"
   ],
   "note": ""
  },
  {
   "property": "C41",
   "status": "partial",
   "theorems": [
    "C41_generated_fail_fast_partial",
    "C41_fail_fast_partial",
    "C41_clear_refuted"
   ],
   "note": "Proved for every history without clear of fewer than 2^31 calls; clear resets the modification count, so the iterator does not notice (C41_clear_refuted)."
  },
  {
   "property": "C42",
   "status": "proved",
   "theorems": [
    "C42_generated_coherent",
    "C42_generated_equality",
    "C42_generated_objects_coherent",
    "C42_double_coherent",
    "C42_float_coherent",
    "C42_primitives_coherent",
    "C42_equality",
    "C42_floating_equality",
    "C42_objects_coherent",
    "C42_equal_keys",
    "C42_irreflexive_key",
    "C42_double_zeros",
    "C42_float_zeros",
    "C42_double_nan",
    "C42_float_nan"
   ],
   "note": ""
  },
  {
   "property": "C43",
   "status": "proved",
   "theorems": [
    "C43_generated_put_get",
    "C43_generated_putValueAt_get",
    "C43_generated_absent",
    "C43_put_get",
    "C43_putValueAt_get",
    "C43_absent"
   ],
   "note": ""
  },
  {
   "property": "C44",
   "status": "proved",
   "theorems": [
    "C44_generated_add_absent",
    "C44_generated_add_present",
    "C44_add_absent",
    "C44_add_present"
   ],
   "note": ""
  },
  {
   "property": "C45",
   "status": "proved",
   "theorems": [
    "C45_generated_family",
    "C45_generated_new",
    "C45_family",
    "C45_independent",
    "C45_new"
   ],
   "note": ""
  },
  {
   "property": "C46",
   "status": "proved",
   "theorems": [
    "C46_generated_sizes",
    "C46_generated_empty_removal",
    "C46_sizes",
    "C46_empty_removal"
   ],
   "note": ""
  },
  {
   "property": "C47",
   "status": "proved",
   "theorems": [
    "C47_generated_iterators",
    "C47_generated_exhausted",
    "C47_iterators",
    "C47_exhausted"
   ],
   "note": ""
  },
  {
   "property": "C48",
   "status": "partial",
   "theorems": [
    "C48_generated_allocation",
    "C48_generated_peak_partial",
    "C48_generated_clear_refuted",
    "C48_allocation",
    "C48_peak_partial",
    "C48_clear_refuted"
   ],
   "note": "C48_allocation is exact for all histories and C48_peak_partial bounds entries by the peak number of stored values for histories without clear(); false across clear(), which never resets the entry counter (C48_clear_refuted)."
  },
  {
   "property": "C49",
   "status": "proved",
   "theorems": [
    "C49_generated_peek_is_minimum",
    "C49_peek_is_minimum",
    "C49_new"
   ],
   "note": "Histories are guarded: no removeAt of never-used entries of a non-empty heap, resetKey only on live entries, no growth of capacities strictly between 2^29 and 2^30, fewer than 2^30 entries."
  },
  {
   "property": "C50",
   "status": "proved",
   "theorems": [
    "C50_generated_results",
    "C50_generated_new",
    "C50_results",
    "C50_stable_handle",
    "C50_distinct"
   ],
   "note": ""
  },
  {
   "property": "C51",
   "status": "proved",
   "theorems": [
    "C51_generated_drain_sorts",
    "C51_drain_sorts"
   ],
   "note": ""
  },
  {
   "property": "C52",
   "status": "proved",
   "theorems": [
    "C52_generated_resetKey",
    "C52_generated_setComparator",
    "C52_generated_getComparator",
    "C52_resetKey",
    "C52_setComparator"
   ],
   "note": ""
  },
  {
   "property": "C53",
   "status": "partial",
   "theorems": [
    "C53_generated_removeAt_partial",
    "C53_generated_removeAt_refuted",
    "C53_removeAt_partial",
    "C53_removeAt_refuted",
    "C53_unused_refuted"
   ],
   "note": "Proved for entries out of range, entries handed out before, and empty heaps. The rest is false, always: C53_unused_refuted proves for every non-empty heap and every entry in range that was never handed out that removeAt returns normally and the heap loses the entry peek gave (C53_removeAt_refuted is a run)."
  },
  {
   "property": "C54",
   "status": "partial",
   "theorems": [
    "C54_generated_reports_partial",
    "C54_generated_forEachEntry_no_holes_partial",
    "C54_generated_reports_refuted",
    "C54_reports_partial",
    "C54_forEachEntry_no_holes_partial",
    "C54_forEachEntry_refuted",
    "C54_isValidEntry_refuted"
   ],
   "note": "Exact reports proved (C54_reports_partial), and completeness of forEachEntry when no removed entry waits for reuse. Otherwise false: C54_forEachEntry_refuted, C54_isValidEntry_refuted."
  },
  {
   "property": "C55",
   "status": "partial",
   "theorems": [
    "C55_generated_clear_partial",
    "C55_generated_clear_refuted",
    "C55_clear_partial",
    "C55_insert_after_clear_partial",
    "C55_clear_refuted"
   ],
   "note": "Emptiness and defaults below the old size proved, and default values of later insertions when nothing above the old size holds a value. Otherwise false: C55_clear_refuted."
  },
  {
   "property": "C56",
   "status": "proved",
   "theorems": [
    "C56_generated_sorts",
    "C56_sorts"
   ],
   "note": ""
  },
  {
   "property": "C57",
   "status": "proved",
   "theorems": [
    "C57_generated_one_permutation",
    "C57_one_permutation",
    "C57_terminates",
    "C57_irreflexive_diverges"
   ],
   "note": "compare(v,v)=0 is needed: C57_irreflexive_diverges."
  },
  {
   "property": "C58",
   "status": "partial",
   "theorems": [
    "C58_generated_rejects_partial",
    "C58_outside_untouched",
    "C58_rejects_partial",
    "C58_overflow_refuted",
    "C58_bad_range_changes_nothing"
   ],
   "note": "Everything outside the range is untouched and a bad range never changes anything; it is rejected with IllegalArgumentException unless off+len overflows int (C58_overflow_refuted: silent no-op for len < 7, ArrayIndexOutOfBounds otherwise)."
  },
  {
   "property": "C59",
   "status": "partial",
   "theorems": [
    "C59_generated_history_partial",
    "C59_generated_small_history_partial",
    "C59_generated_set_of_pairs_partial",
    "C59_generated_new",
    "C59_generated_default_constructors",
    "C59_generated_remove_refuted",
    "C59_history_partial",
    "C59_small_history_partial",
    "C59_small_is_guarded",
    "C59_set_of_pairs_partial",
    "C59_entry_of_pair_partial",
    "C59_remove_refuted",
    "C59_one_left_per_right_refuted"
   ],
   "note": "Proved for every history within the initial mapping capacity (C59_small_history_partial) and beyond it as long as no key whose only association has an entry past the link arrays is touched (C59_history_partial, C59_set_of_pairs_partial). Otherwise false, for every capacity n: after n+1 puts of (j,j) the last pair is contained but cannot be removed (C59_remove_refuted). CompactOneToMany does not enforce one left per right (C59_one_left_per_right_refuted)."
  },
  {
   "property": "C60",
   "status": "partial",
   "theorems": [
    "C60_generated_entries_partial",
    "C60_generated_left_values_partial",
    "C60_left_entries_partial",
    "C60_left_values_partial",
    "C60_left_span",
    "C60_small_partial",
    "C60_walk_refuted"
   ],
   "note": "Proved for every reachable collection and every key that is Covered (any number of associations other than one, or a lone one whose entry is within the link arrays), in particular always within the initial capacity (C60_small_partial). False otherwise: C60_walk_refuted, C59_remove_refuted."
  },
  {
   "property": "C61",
   "status": "partial",
   "theorems": [
    "C61_generated_right_values_partial",
    "C61_right_entries_partial",
    "C61_right_values_partial",
    "C61_right_span",
    "C61_directions_agree_partial",
    "C61_walk_refuted"
   ],
   "note": "As C60, for the right side of CompactManyToMany, plus agreement of the two directions (C61_directions_agree_partial). False for lone associations beyond the link arrays (C61_walk_refuted)."
  },
  {
   "property": "C62",
   "status": "partial",
   "theorems": [
    "C62_generated_count_partial",
    "C62_count_partial",
    "C62_count_is_length_partial",
    "C62_uncounted",
    "C62_negative_refuted",
    "C62_remove_twice_refuted"
   ],
   "note": "Proved for every guarded history and non-negative key. False when an entry is removed twice by entry (C62_remove_twice_refuted) and for negative keys, where count throws (C62_negative_refuted)."
  },
  {
   "property": "C63",
   "status": "partial",
   "theorems": [
    "C63_generated_values_partial",
    "C63_entries_and_count",
    "C63_values_partial",
    "C63_values_refuted"
   ],
   "note": "Entries and counts proved in full; values proved for keys below the initial size or any key put. False for larger keys, in every new collection (C63_values_refuted)."
  },
  {
   "property": "C64",
   "status": "partial",
   "theorems": [
    "C64_generated_put_succeeds_partial",
    "C64_guarded_put_succeeds_partial",
    "C64_put_again",
    "C64_negative_refuted",
    "C64_reuse_refuted"
   ],
   "note": "False: C64_negative_refuted (every state, every negative left key) and C64_reuse_refuted (non-negative keys). Proved: guarded puts never throw and repeated puts change nothing."
  },
  {
   "property": "C65",
   "status": "proved",
   "theorems": [
    "C65_generated_vector_no_stale_references",
    "C65_vector_no_stale_references"
   ],
   "note": ""
  },
  {
   "property": "C66",
   "status": "partial",
   "theorems": [
    "C66_generated_partial",
    "C66_little_endian_partial",
    "C66_big_endian_refuted",
    "C66_exactly_partial"
   ],
   "note": "Proved for little endian; false for big endian, which writes a prefix before throwing (C66_big_endian_refuted). C66_exactly_partial says for every position, also negative ones, and both orders exactly which bytes a failed write has changed."
  },
  {
   "property": "C67",
   "status": "proved",
   "theorems": [
    "C67_generated",
    "C67_bool"
   ],
   "note": ""
  },
  {
   "property": "C68",
   "status": "proved",
   "theorems": [
    "C68_generated_no_stale_references",
    "C68_no_stale_references",
    "C68_one_cell_each"
   ],
   "note": ""
  },
  {
   "property": "C69",
   "status": "partial",
   "theorems": [
    "C69_generated_partial",
    "C69_generated_of_references",
    "C69_create",
    "C69_create_filled_partial",
    "C69_negative_zero_refuted",
    "C69_fill",
    "C69_resize"
   ],
   "note": "create/fill/resize proved in full; create(size, v) proved when the type's equality distinguishes v from the default, false for -0.0 (C69_negative_zero_refuted)."
  },
  {
   "property": "C70",
   "status": "proved",
   "theorems": [
    "C70_generated",
    "C70_generated_predicateFor",
    "C70_objects_equal"
   ],
   "note": ""
  },
  {
   "property": "C71",
   "status": "partial",
   "theorems": [
    "C71_generated_insert_capacity_partial",
    "C71_insert_capacity_partial",
    "C71_shrink_refuted",
    "C71_capacity_zero_refuted"
   ],
   "note": "Proved except for full heaps with a capacity strictly between 2^29 and 2^30, where growth shrinks the arrays (C71_shrink_refuted), and capacity 0, which can never grow (C71_capacity_zero_refuted)."
  },
  {
   "property": "C72",
   "status": "partial",
   "theorems": [
    "C72_generated_edit_while_iterating_partial",
    "C72_generated_remove_next_refuted",
    "C72_edit_while_iterating_partial",
    "C72_remove_next_refuted"
   ],
   "note": "Proved for every reachable collection, iterator position and edit that keeps the entry about to be handed out; false if that entry itself is removed (C72_remove_next_refuted)."
  },
  {
   "property": "C73",
   "status": "proved",
   "theorems": [
    "C73_generated",
    "C73_double_comparators",
    "C73_double_equal"
   ],
   "note": ""
  },
  {
   "property": "C74",
   "status": "partial",
   "theorems": [
    "C74_generated_partial",
    "C74_double_nan_partial",
    "C74_double_not_transitive_refuted"
   ],
   "note": "The comparators call NaN equal to everything (C74_double_nan_partial), which is not transitive for any two different numbers (C74_double_not_transitive_refuted); on numbers they are total orders (C73)."
  },
  {
   "property": "C75",
   "status": "proved",
   "theorems": [
    "C75_generated",
    "C75_generated_total_order",
    "C75_float_order",
    "C75_float_total_order",
    "C75_float_absolute"
   ],
   "note": ""
  },
  {
   "property": "C76",
   "status": "proved",
   "theorems": [
    "C76_generated",
    "C76_double_predicates",
    "C76_float_predicates",
    "C76_nan_predicates",
    "C76_double_agree"
   ],
   "note": ""
  },
  {
   "property": "C77",
   "status": "partial",
   "theorems": [
    "C77_generated_partial",
    "C77_epsilon_partial",
    "C77_epsilon_symmetric",
    "C77_epsilon_refuted"
   ],
   "note": "Exact tolerance, symmetry and reflexivity on finite doubles proved. Not reflexive on infinities and NaN, not transitive, not compatible with the hash (C77_epsilon_refuted)."
  },
  {
   "property": "C78",
   "status": "proved",
   "theorems": [
    "C78_generated_round_trip",
    "C78_generated_narrowing",
    "C78_generated_float",
    "C78_generated_references",
    "C78_round_trip",
    "C78_narrowing",
    "C78_float_small",
    "C78_float_rounds",
    "C78_float_exactly"
   ],
   "note": "Proved for every type; C78_float_exactly says for every int whether it survives float."
  },
  {
   "property": "C79",
   "status": "partial",
   "theorems": [
    "C79_generated_box_partial",
    "C79_generated_char_refuted",
    "C79_generated_truncation",
    "C79_generated_null",
    "C79_generated_integer_exact",
    "C79_generated_double_exact",
    "C79_generated_float_exact",
    "C79_generated_bool_partial",
    "C79_generated_other_classes",
    "C79_generated_dates",
    "C79_generated_integers_wrap",
    "C79_generated_references",
    "C79_box_partial",
    "C79_char_refuted",
    "C79_truncation",
    "C79_null",
    "C79_integer_exact",
    "C79_double_exact",
    "C79_float_exact",
    "C79_lossy_refuted",
    "C79_bool_partial",
    "C79_other_classes",
    "C79_dates",
    "C79_integers_wrap"
   ],
   "note": "Proved for every type and value except that CharType.convert rejects Character (C79_char_refuted). When the target type does not have the value, convert silently truncates (C79_lossy_refuted). Other Number classes (BigInteger, ...) are not modelled. C79_integers_wrap gives the exact result for every integer operand."
  },
  {
   "property": "C80",
   "status": "proved",
   "theorems": [
    "C80_generated_round_trip",
    "C80_generated_out_of_range",
    "C80_generated_accepted_texts",
    "C80_generated_text",
    "C80_generated_char_and_bool_texts",
    "C80_round_trip",
    "C80_out_of_range",
    "C80_accepted_texts",
    "C80_text",
    "C80_char_and_bool_texts"
   ],
   "note": "Integer types, char and boolean; C80_accepted_texts characterises the accepted ASCII texts. Texts of float and double are not modelled (parseDouble is a parameter of the model)."
  },
  {
   "property": "C81",
   "status": "partial",
   "theorems": [
    "C81_generated_partial",
    "C81_string_predicates_partial",
    "C81_null_second_refuted"
   ],
   "note": "Proved unless only the second operand is null, where the order predicates throw NullPointerException (C81_null_second_refuted)."
  },
  {
   "property": "C82",
   "status": "proved",
   "theorems": [
    "C82_timeouts",
    "C82_new"
   ],
   "note": "Calls to the manager are serialised by its monitor, so any schedule is a sequence of calls; the wait itself is not modelled beyond the delay computed."
  },
  {
   "property": "C83",
   "status": "proved",
   "theorems": [
    "C83_exactly_once"
   ],
   "note": ""
  },
  {
   "property": "C84",
   "status": "partial",
   "theorems": [
    "C84_acknowledged_partial",
    "C84_late_acknowledge_refuted"
   ],
   "note": "Proved for the first acknowledgement made before the report; a late acknowledgement after the handle is reused cancels another item (C84_late_acknowledge_refuted)."
  },
  {
   "property": "C85",
   "status": "partial",
   "theorems": [
    "C85_meaning",
    "C85_results_partial",
    "C85_small_partial",
    "C85_iterate_refuted"
   ],
   "note": "Proved for every call of every history, except that iterate throws for a term with exactly one order once there are more than 128 associations (C85_iterate_refuted)."
  },
  {
   "property": "C86",
   "status": "partial",
   "theorems": [
    "C86_meaning",
    "C86_results_partial",
    "C86_small_partial",
    "C86_main_refuted",
    "C86_empty_class_refuted"
   ],
   "note": "Proved for every call of every history, except that printing throws for a class or student with exactly one enrolment once there are more than 16 enrolments, and for a class without students if more than 16 are offered. The example's own main can run into it, depending on its random choices (C86_main_refuted)."
  },
  {
   "property": "C87",
   "status": "proved",
   "theorems": [
    "C87_generated_orders",
    "C87_generated_equality_and_hash",
    "C87_dictionary",
    "C87_orders",
    "C87_predicates",
    "C87_equality_and_hash"
   ],
   "note": "Character.toUpperCase/toLowerCase are arbitrary functions in the model; case folding is per char (supplementary characters with case are folded per code point by newer JDKs). Nulls: C20, C81."
  },
  {
   "property": "C88",
   "status": "proved",
   "theorems": [
    "C88_generated",
    "C88_waits_only_when_used_up",
    "C88_full_millisecond"
   ],
   "note": ""
  },
  {
   "property": "C89",
   "status": "proved",
   "theorems": [
    "C89_generated",
    "C89_dates_validated",
    "C89_times_validated",
    "C89_sql_date",
    "C89_calendar"
   ],
   "note": ""
  },
  {
   "property": "C90",
   "status": "partial",
   "theorems": [
    "C90_generated_deque_partial",
    "C90_generated_drain",
    "C90_generated_work_queue",
    "C90_generated_grow_refuted",
    "C90_deque_partial",
    "C90_drain",
    "C90_work_queue",
    "C90_remove_current_last_refuted",
    "C90_remove_ahead_refuted",
    "C90_clear_refuted",
    "C90_grow_refuted"
   ],
   "note": "C90_deque_partial covers every consumer whose calls the walk survives (it must not take out values the walk has not reached except from the end, must not take out the current value from the end, clear, or let the array grow). Each excluded case is a counterexample (_refuted)."
  },
  {
   "property": "C91",
   "status": "proved",
   "theorems": [
    "C91_generated_vector",
    "C91_vector",
    "C91_work_list"
   ],
   "note": ""
  },
  {
   "property": "C92",
   "status": "partial",
   "theorems": [
    "C92_generated_iterator_partial",
    "C92_iterator_partial",
    "C92_start",
    "C92_drain",
    "C92_remove_next_refuted",
    "C92_reuse_refuted",
    "C92_clear_refuted"
   ],
   "note": "C92_iterator_partial covers every interleaving that does not remove the entry the iterator is about to hand out, nor clear. Removing it ends the walk or continues in another list; refuted by concrete runs."
  },
  {
   "property": "C93",
   "status": "partial",
   "theorems": [
    "C93_generated_removals_partial",
    "C93_generated_update_all",
    "C93_generated_remove_keys",
    "C93_generated_refuted",
    "C93_consumer_partial",
    "C93_update_all",
    "C93_remove_keys",
    "C93_remove_next_refuted",
    "C93_add_refuted",
    "C93_clear_refuted",
    "C93_removals_partial"
   ],
   "note": "C93_removals_partial covers every consumer that adds no new key, does not clear and does not remove the entry that comes next; any other entry may be removed, also ahead of the walk (it is then skipped), values may be changed anywhere, entries reserved and freed. C93_consumer_partial is the simpler form when only entries already handed out are removed. Removing the next entry, adding and clearing are refuted by concrete runs."
  },
  {
   "property": "C94",
   "status": "proved",
   "theorems": [
    "C94_generated_iterator_use",
    "C94_generated_set_iterator_use",
    "C94_iterator_use"
   ],
   "note": ""
  },
  {
   "property": "C95",
   "status": "partial",
   "theorems": [
    "C95_generated_walk_partial",
    "C95_generated_updates_partial",
    "C95_generated_remove_refuted",
    "C95_walk_partial",
    "C95_updates_partial",
    "C95_remove_refuted"
   ],
   "note": "C95_walk_partial describes the walk exactly for every consumer whose calls the heap specification covers; C95_updates_partial: consumers that only update, on a heap without holes, see every live entry exactly once. With removals it is false (C95_remove_refuted): the loop bound shrinks."
  },
  {
   "property": "C96",
   "status": "proved",
   "theorems": [
    "C96_generated_comparisons",
    "C96_comparisons"
   ],
   "note": ""
  },
  {
   "property": "C97",
   "status": "partial",
   "theorems": [
    "C97_generated_comparable_partial",
    "C97_generated_reads",
    "C97_generated_insert_refuted",
    "C97_generated_remove_refuted",
    "C97_comparable_partial",
    "C97_asc_partial",
    "C97_reads",
    "C97_insert_refuted",
    "C97_insert_run_refuted",
    "C97_remove_refuted"
   ],
   "note": "Proved for histories in which no comparison throws (C97_comparable_partial, C97_asc_partial) and for the searches (C97_reads). False of insert on every heap with room (C97_insert_refuted: one entry more, whatever the comparator does) and of removeAt (C97_remove_refuted)."
  },
  {
   "property": "C98",
   "status": "proved",
   "theorems": [
    "C98_generated_any_comparator",
    "C98_any_comparator",
    "C98_effects_ignored"
   ],
   "note": ""
  },
  {
   "property": "C99",
   "status": "proved",
   "theorems": [
    "C99_generated_comparisons",
    "C99_per_level",
    "C99_quadratic"
   ],
   "note": ""
  },
  {
   "property": "C100",
   "status": "proved",
   "theorems": [
    "C100_generated_same_array",
    "C100_same_array"
   ],
   "note": ""
  },
  {
   "property": "C101",
   "status": "proved",
   "theorems": [
    "C101_copy_self",
    "C101_iterators_notice"
   ],
   "note": ""
  },
  {
   "property": "C102",
   "status": "proved",
   "theorems": [
    "C102_generated_capacity",
    "C102_generated_never_shrinks",
    "C102_capacity",
    "C102_never_shrinks"
   ],
   "note": ""
  },
  {
   "property": "C103",
   "status": "proved",
   "theorems": [
    "C103_generated",
    "C103_ideal"
   ],
   "note": ""
  },
  {
   "property": "C104",
   "status": "partial",
   "theorems": [
    "C104_generated_partial",
    "C104_stays_exhausted_partial",
    "C104_wraps_refuted"
   ],
   "note": "Proved for up to 2^30 calls on the iterator (C104_stays_exhausted_partial). Missing half is false for every collection: next() keeps incrementing its bucket number after the end, which overflows, and then throws ArrayIndexOutOfBoundsException (C104_wraps_refuted)."
  },
  {
   "property": "C105",
   "status": "proved",
   "theorems": [
    "C105_generated_deque",
    "C105_generated_vector",
    "C105_generated_hydra",
    "C105_generated_map",
    "C105_generated_heap",
    "C105_deque",
    "C105_vector",
    "C105_hydra",
    "C105_index",
    "C105_heap"
   ],
   "note": ""
  },
  {
   "property": "C106",
   "status": "proved",
   "theorems": [
    "C106_generated_questions",
    "C106_generated_how_often",
    "C106_generated_set_questions",
    "C106_generated_set_how_often",
    "C106_questions",
    "C106_how_often"
   ],
   "note": ""
  },
  {
   "property": "C107",
   "status": "partial",
   "theorems": [
    "C107_generated_steady_partial",
    "C107_generated_history_partial",
    "C107_generated_refuted",
    "C107_generated_set_steady_partial",
    "C107_steady_partial",
    "C107_history_partial",
    "C107_refuted"
   ],
   "note": "The full claim is refuted: a hash function that throws for a key it hashed before, while the table grows, loses the keys not yet moved although size still counts them (C107_refuted). Proved for functions whose hash does not start to throw for a key it once hashed (the equality function may throw at any time): C107_steady_partial per call, C107_history_partial for histories."
  },
  {
   "property": "C108",
   "status": "proved",
   "theorems": [
    "C108_generated_deque",
    "C108_generated_vector",
    "C108_generated_heap",
    "C108_generated_map",
    "C108_generated_set"
   ],
   "note": ""
  },
  {
   "property": "C109",
   "status": "proved",
   "theorems": [
    "C109_deque",
    "C109_vector",
    "C109_heap",
    "C109_generated_deque",
    "C109_generated_vector",
    "C109_generated_heap"
   ],
   "note": ""
  },
  {
   "property": "C110",
   "status": "proved",
   "theorems": [
    "C110_generated_chunkStore_any",
    "C110_generated_no_shared_cell",
    "C110_roundsTo",
    "C110_pow2_cells",
    "C110_chunkStore_any",
    "C110_no_shared_cell"
   ],
   "note": ""
  },
  {
   "property": "C111",
   "status": "proved",
   "theorems": [
    "C111_generated_matrixStore_any",
    "C111_generated_capacity",
    "C111_matrixStore_any",
    "C111_room",
    "C111_capacity"
   ],
   "note": ""
  },
  {
   "property": "C112",
   "status": "proved",
   "theorems": [
    "C112_entries",
    "C112_length",
    "C112_without_clear",
    "C112_generated"
   ],
   "note": ""
  },
  {
   "property": "C113",
   "status": "partial",
   "theorems": [
    "C113_generated_vector",
    "C113_generated_deque_partial",
    "C113_generated_heap",
    "C113_generated_deque_refuted",
    "C113_generated_heap_half",
    "C113_generated_index_partial",
    "C113_generated_index_refuted",
    "C113_generated_index_remove_if",
    "C113_generated_set_remove_if",
    "C113_generated_index_replace_all",
    "C113_generated_deque_worklist",
    "C113_generated_deque_drain",
    "C113_generated_deque_worklist_refuted",
    "C113_generated_vector_explore",
    "C113_generated_deque_worklist_endless",
    "C113_generated_deque_rotate_endless",
    "C113_generated_set_partial",
    "C113_generated_set_refuted"
   ],
   "note": "Vector and heap: every consumer. C113_generated_deque_partial: as long as the walk survives the calls (C90); C113_generated_index_partial and C113_generated_set_partial: as long as the calls add no key and do not remove the entry that comes next (C93). The excluded cases are refuted by concrete runs of the generated code. C113_generated_index_remove_if and C113_generated_set_remove_if are removeIf consumers and C113_generated_index_replace_all is a replaceAll consumer that meet these conditions. C113_generated_deque_worklist and C113_generated_vector_explore are consumers that use the deque or vector as a work queue; C113_generated_deque_drain empties a deque; C113_generated_deque_worklist_endless and C113_generated_deque_rotate_endless say when such a walk never returns. C113_generated_heap_half says what a consumer that removes all it is handed really does to a heap: half of it stays."
  },
  {
   "property": "C114",
   "status": "partial",
   "theorems": [
    "C114_generated_walk_partial",
    "C114_generated_clear_key_partial",
    "C114_generated_walk_refuted"
   ],
   "note": "As long as the keys are in reach (Guard and Covered of C59, C72) and the calls do not take away the association that comes next; that case is refuted by a concrete run of the generated code. C114_generated_clear_key_partial is the consumer that removes what it is handed. The walk over all entries is C115."
  },
  {
   "property": "C115",
   "status": "partial",
   "theorems": [
    "C115_generated_walk_partial",
    "C115_generated_weed_partial",
    "C115_generated_walk_refuted",
    "C115_generated_remove_if_partial"
   ],
   "note": "As long as the calls respect Guard of C59 (keys in reach), add no association, and do not take away the first entry to come that is still there; both other cases are refuted by concrete runs of the generated code. C115_generated_weed_partial is the consumer that removes the entries a predicate tells, C115_generated_remove_if_partial one that looks up the two keys and decides by the answers."
  }
 ]
}