{
 "C06": {
  "note": "Proved for requests up to 2^30 (C06_grow_partial). Missing half is false: C06_grow_refuted proves that the loop never terminates for larger requests."
 },
 "C08": {
  "note": "Proved for powers of two and for all capacities outside (2^29, 2^30); inside it the capacity shrinks (C08_shrinks_refuted)."
 },
 "C09": {
  "note": "Proved for all power-of-two chunk sizes and all histories; false for every other chunk size (C09_not_pow2_refuted); C110 says exactly what happens there."
 },
 "C10": {
  "note": "Proved for every chunk size from 1 to 2^30 and initial sizes up to 2^30; overflow beyond that makes the capacity negative (C10_overflow_refuted)."
 },
 "C11": {
  "note": "Proved for all power-of-two chunk sizes and all histories; false for every other chunk size (C11_not_pow2_refuted); C111 says exactly what happens there."
 },
 "C01": {
  "status": "proved",
  "note": "C01_full_add_corrupts_refuted shows what happens at the excluded 2^29 limit, which is outside the property."
 },
 "C18": {
  "note": "Proved for byte, short, char, long and for int operands whose difference fits in an int; IntType.Asc is not an order beyond that (C18_int_refuted)."
 },
 "C19": {
  "note": "Exact for byte, short, char; int and long exactly characterised: wrong only for MIN_VALUE (C19_min_value_refuted)."
 },
 "C20": {
  "note": "Proved unless only the second operand is null, where the code throws NullPointerException (C20_null_second_refuted)."
 },
 "C22": {
  "note": "C22_exactly: a date survives if and only if its year is in 0..214748; C22_negative_year_rejected and C22_large_year_lost say what happens to the others. Times and orders in full."
 },
 "C23": {
  "note": "C23_exactly_partial characterises it for every clock: ids are strictly increasing if and only if the clock never steps back while the generator waits for an exhausted millisecond; in particular for every clock that never runs backwards and for fewer than 4096 calls. Otherwise false (C23_duplicate_refuted)."
 },
 "C25": {
  "note": "Proved except when the sequence of the current millisecond is exhausted (C25_wait_regress_refuted)."
 },
 "C66": {
  "note": "Proved for little endian; false for big endian, which writes a prefix before throwing (C66_big_endian_refuted). C66_exactly_partial says for every position, also negative ones, and both orders exactly which bytes a failed write has changed."
 },
 "C31": {
  "note": "Proved (exact allocation, density, reuse) when capacity*loadFactor >= 1/2 at construction; with smaller products entries leak (C31_leak_refuted)."
 },
 "C34": {
  "note": "Proved for keys equal to themselves; removeAtAndReserve silently does nothing for a NaN key (C34_nan_refuted)."
 },
 "C37": {
  "note": "Proved for every continuation; wiping of keys/values of used entries is proved when the collection is not empty and false when its size is 0 (C37_stale_refuted)."
 },
 "C38": {
  "note": "Proved when both collections use the same hash and equality functions and the source has capacity below 2^29; copyFrom does not copy custom functions (C38_hash_refuted). With different functions, everything that takes no key is proved right (size, iterations, keys and values at entries, removals by entry, clear), and the copy is right again once emptied (C38_own_functions_partial). Independence of the two objects is by construction of the model (arrays are values; copyFrom only uses arraycopy)."
 },
 "C41": {
  "note": "Proved for every history without clear of fewer than 2^31 calls; clear resets the modification count, so the iterator does not notice (C41_clear_refuted)."
 },
 "C48": {
  "note": "C48_allocation is exact for all histories and C48_peak_partial bounds entries by the peak number of stored values for histories without clear(); false across clear(), which never resets the entry counter (C48_clear_refuted)."
 },
 "C69": {
  "note": "create/fill/resize proved in full; create(size, v) proved when the type's equality distinguishes v from the default, false for -0.0 (C69_negative_zero_refuted)."
 },
 "C53": {
  "note": "Proved for entries out of range, entries handed out before, and empty heaps. The rest is false, always: C53_unused_refuted proves for every non-empty heap and every entry in range that was never handed out that removeAt returns normally and the heap loses the entry peek gave (C53_removeAt_refuted is a run)."
 },
 "C54": {
  "note": "Exact reports proved (C54_reports_partial), and completeness of forEachEntry when no removed entry waits for reuse. Otherwise false: C54_forEachEntry_refuted, C54_isValidEntry_refuted."
 },
 "C55": {
  "note": "Emptiness and defaults below the old size proved, and default values of later insertions when nothing above the old size holds a value. Otherwise false: C55_clear_refuted."
 },
 "C71": {
  "note": "Proved except for full heaps with a capacity strictly between 2^29 and 2^30, where growth shrinks the arrays (C71_shrink_refuted), and capacity 0, which can never grow (C71_capacity_zero_refuted)."
 },
 "C49": {
  "note": "Histories are guarded: no removeAt of never-used entries of a non-empty heap, resetKey only on live entries, no growth of capacities strictly between 2^29 and 2^30, fewer than 2^30 entries."
 },
 "C58": {
  "note": "Everything outside the range is untouched and a bad range never changes anything; it is rejected with IllegalArgumentException unless off+len overflows int (C58_overflow_refuted: silent no-op for len < 7, ArrayIndexOutOfBounds otherwise)."
 },
 "C57": {
  "note": "compare(v,v)=0 is needed: C57_irreflexive_diverges."
 },
 "C59": {
  "note": "Proved for every history within the initial mapping capacity (C59_small_history_partial) and beyond it as long as no key whose only association has an entry past the link arrays is touched (C59_history_partial, C59_set_of_pairs_partial). Otherwise false, for every capacity n: after n+1 puts of (j,j) the last pair is contained but cannot be removed (C59_remove_refuted). CompactOneToMany does not enforce one left per right (C59_one_left_per_right_refuted)."
 },
 "C60": {
  "note": "Proved for every reachable collection and every key that is Covered (any number of associations other than one, or a lone one whose entry is within the link arrays), in particular always within the initial capacity (C60_small_partial). False otherwise: C60_walk_refuted, C59_remove_refuted."
 },
 "C61": {
  "note": "As C60, for the right side of CompactManyToMany, plus agreement of the two directions (C61_directions_agree_partial). False for lone associations beyond the link arrays (C61_walk_refuted)."
 },
 "C62": {
  "note": "Proved for every guarded history and non-negative key. False when an entry is removed twice by entry (C62_remove_twice_refuted) and for negative keys, where count throws (C62_negative_refuted)."
 },
 "C63": {
  "note": "Entries and counts proved in full; values proved for keys below the initial size or any key put. False for larger keys, in every new collection (C63_values_refuted)."
 },
 "C64": {
  "note": "False: C64_negative_refuted (every state, every negative left key) and C64_reuse_refuted (non-negative keys). Proved: guarded puts never throw and repeated puts change nothing."
 },
 "C72": {
  "note": "Proved for every reachable collection, iterator position and edit that keeps the entry about to be handed out; false if that entry itself is removed (C72_remove_next_refuted)."
 },
 "C74": {
  "note": "The comparators call NaN equal to everything (C74_double_nan_partial), which is not transitive for any two different numbers (C74_double_not_transitive_refuted); on numbers they are total orders (C73)."
 },
 "C77": {
  "note": "Exact tolerance, symmetry and reflexivity on finite doubles proved. Not reflexive on infinities and NaN, not transitive, not compatible with the hash (C77_epsilon_refuted)."
 },
 "C78": {
  "note": "Proved for every type; C78_float_exactly says for every int whether it survives float."
 },
 "C79": {
  "note": "Proved for every type and value except that CharType.convert rejects Character (C79_char_refuted). When the target type does not have the value, convert silently truncates (C79_lossy_refuted). Other Number classes (BigInteger, ...) are not modelled. C79_integers_wrap gives the exact result for every integer operand."
 },
 "C80": {
  "status": "proved",
  "note": "Integer types, char and boolean; C80_accepted_texts characterises the accepted ASCII texts. Texts of float and double are not modelled (parseDouble is a parameter of the model)."
 },
 "C81": {
  "note": "Proved unless only the second operand is null, where the order predicates throw NullPointerException (C81_null_second_refuted)."
 },
 "C82": {
  "note": "Calls to the manager are serialised by its monitor, so any schedule is a sequence of calls; the wait itself is not modelled beyond the delay computed."
 },
 "C84": {
  "note": "Proved for the first acknowledgement made before the report; a late acknowledgement after the handle is reused cancels another item (C84_late_acknowledge_refuted)."
 },
 "C85": {
  "note": "Proved for every call of every history, except that iterate throws for a term with exactly one order once there are more than 128 associations (C85_iterate_refuted)."
 },
 "C86": {
  "note": "Proved for every call of every history, except that printing throws for a class or student with exactly one enrolment once there are more than 16 enrolments, and for a class without students if more than 16 are offered. The example's own main can run into it, depending on its random choices (C86_main_refuted)."
 },
 "C87": {
  "note": "Character.toUpperCase/toLowerCase are arbitrary functions in the model; case folding is per char (supplementary characters with case are folded per code point by newer JDKs). Nulls: C20, C81."
 },
 "C90": {
  "note": "C90_deque_partial covers every consumer whose calls the walk survives (it must not take out values the walk has not reached except from the end, must not take out the current value from the end, clear, or let the array grow). Each excluded case is a counterexample (_refuted)."
 },
 "C92": {
  "note": "C92_iterator_partial covers every interleaving that does not remove the entry the iterator is about to hand out, nor clear. Removing it ends the walk or continues in another list; refuted by concrete runs."
 },
 "C93": {
  "note": "C93_removals_partial covers every consumer that adds no new key, does not clear and does not remove the entry that comes next; any other entry may be removed, also ahead of the walk (it is then skipped), values may be changed anywhere, entries reserved and freed. C93_consumer_partial is the simpler form when only entries already handed out are removed. Removing the next entry, adding and clearing are refuted by concrete runs."
 },
 "C95": {
  "note": "C95_walk_partial describes the walk exactly for every consumer whose calls the heap specification covers; C95_updates_partial: consumers that only update, on a heap without holes, see every live entry exactly once. With removals it is false (C95_remove_refuted): the loop bound shrinks."
 },
 "C97": {
  "note": "Proved for histories in which no comparison throws (C97_comparable_partial, C97_asc_partial) and for the searches (C97_reads). False of insert on every heap with room (C97_insert_refuted: one entry more, whatever the comparator does) and of removeAt (C97_remove_refuted)."
 },
 "C104": {
  "note": "Proved for up to 2^30 calls on the iterator (C104_stays_exhausted_partial). Missing half is false for every collection: next() keeps incrementing its bucket number after the end, which overflows, and then throws ArrayIndexOutOfBoundsException (C104_wraps_refuted)."
 },
 "C107": {
  "note": "The full claim is refuted: a hash function that throws for a key it hashed before, while the table grows, loses the keys not yet moved although size still counts them (C107_refuted). Proved for functions whose hash does not start to throw for a key it once hashed (the equality function may throw at any time): C107_steady_partial per call, C107_history_partial for histories."
 },
 "C113": {
  "note": "Vector and heap: every consumer. C113_generated_deque_partial: as long as the walk survives the calls (C90); C113_generated_index_partial and C113_generated_set_partial: as long as the calls add no key and do not remove the entry that comes next (C93). The excluded cases are refuted by concrete runs of the generated code. C113_generated_index_remove_if and C113_generated_set_remove_if are removeIf consumers and C113_generated_index_replace_all is a replaceAll consumer that meet these conditions. C113_generated_deque_worklist and C113_generated_vector_explore are consumers that use the deque or vector as a work queue; C113_generated_deque_drain empties a deque; C113_generated_deque_worklist_endless and C113_generated_deque_rotate_endless say when such a walk never returns. C113_generated_heap_half says what a consumer that removes all it is handed really does to a heap: half of it stays."
 },
 "C114": {
  "note": "As long as the keys are in reach (Guard and Covered of C59, C72) and the calls do not take away the association that comes next; that case is refuted by a concrete run of the generated code. C114_generated_clear_key_partial is the consumer that removes what it is handed. The walk over all entries is C115."
 },
 "C115": {
  "note": "As long as the calls respect Guard of C59 (keys in reach), add no association, and do not take away the first entry to come that is still there; both other cases are refuted by concrete runs of the generated code. C115_generated_weed_partial is the consumer that removes the entries a predicate tells, C115_generated_remove_if_partial one that looks up the two keys and decides by the answers."
 }
}
