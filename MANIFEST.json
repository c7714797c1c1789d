{
 "claims": [
  {
   "property": "C01",
   "status": "proved",
   "theorems": [
    "Verif.Chunk.C01_history_refines_bounded_lists",
    "Verif.Chunk.C01_history_refines_from"
   ],
   "note": ""
  },
  {
   "property": "C02",
   "status": "proved",
   "theorems": [
    "Verif.Chunk.C02_length_and_flags"
   ],
   "note": ""
  },
  {
   "property": "C03",
   "status": "proved",
   "theorems": [
    "Verif.Chunk.C03_no_undefined_behaviour",
    "Verif.Chunk.C03_history_completes"
   ],
   "note": ""
  },
  {
   "property": "C04",
   "status": "proved",
   "theorems": [
    "Verif.Chunk.C04_push_front",
    "Verif.Chunk.C04_push_back",
    "Verif.Chunk.C04_pop_front",
    "Verif.Chunk.C04_pop_back",
    "Verif.Chunk.C04_index",
    "Verif.Chunk.C04_set",
    "Verif.Chunk.C04_insert",
    "Verif.Chunk.C04_remove",
    "Verif.Chunk.C04_split_off",
    "Verif.Chunk.C04_append",
    "Verif.Chunk.C04_drain_from_front",
    "Verif.Chunk.C04_drain_from_back",
    "Verif.Chunk.C04_drop_left",
    "Verif.Chunk.C04_drop_right",
    "Verif.Chunk.C04_drop_ok",
    "Verif.Chunk.C04_unit_pair"
   ],
   "note": ""
  },
  {
   "property": "C05",
   "status": "proved",
   "theorems": [
    "Verif.Chunk.C05_push_back_pop_back",
    "Verif.Chunk.C05_push_front_pop_front",
    "Verif.Chunk.C05_fifo",
    "Verif.Chunk.C05_fifo_reverse",
    "Verif.Chunk.C05_lifo_back",
    "Verif.Chunk.C05_lifo_front"
   ],
   "note": ""
  },
  {
   "property": "C06",
   "status": "proved",
   "theorems": [
    "Verif.Chunk.C06_insert",
    "Verif.Chunk.C06_remove",
    "Verif.Chunk.C06_set",
    "Verif.Chunk.C06_index",
    "Verif.Chunk.C06_mutate",
    "Verif.Chunk.C06_insert_remove",
    "Verif.Chunk.C06_remove_insert"
   ],
   "note": ""
  },
  {
   "property": "C07",
   "status": "proved",
   "theorems": [
    "Verif.Chunk.C07_append",
    "Verif.Chunk.C07_drain_from_front",
    "Verif.Chunk.C07_drain_from_back",
    "Verif.Chunk.C07_split_off",
    "Verif.Chunk.C07_from_front",
    "Verif.Chunk.C07_from_back",
    "Verif.Chunk.C07_drain_from"
   ],
   "note": ""
  },
  {
   "property": "C08",
   "status": "proved",
   "theorems": [
    "Verif.Chunk.C08_split_off_append",
    "Verif.Chunk.C08_append_split_off"
   ],
   "note": ""
  },
  {
   "property": "C09",
   "status": "proved",
   "theorems": [
    "Verif.Chunk.C09_insert_from",
    "Verif.Chunk.C09_insert_from_refuses"
   ],
   "note": ""
  },
  {
   "property": "C10",
   "status": "proved",
   "theorems": [
    "Verif.Chunk.C10_no_undefined_behaviour",
    "Verif.Chunk.C10_short_or_panicking",
    "Verif.Chunk.C10_long",
    "Verif.Chunk.C10_panicking_len_safe",
    "Verif.Chunk.C10_panicking_len"
   ],
   "note": ""
  },
  {
   "property": "C11",
   "status": "partial",
   "theorems": [
    "Verif.Chunk.C11_unstable_len_counterexample",
    "Verif.Chunk.C11_stable_len_partial",
    "Verif.Chunk.C11_unstable_len_partial"
   ],
   "note": "False of the code: insert_from calls len() twice; counterexample proved (undefined behaviour). Proved for iterators whose len() is stable (or panics), and for those that yield no more than the first answer and fewer than the second."
  },
  {
   "property": "C12",
   "status": "partial",
   "theorems": [
    "Verif.Chunk.C12_overflow_counterexample",
    "Verif.Chunk.C12_refuses_partial",
    "Verif.Chunk.C12_overflow_partial"
   ],
   "note": "False of the code in release builds: the sum wraps; counterexample proved (undefined behaviour). Proved in debug builds always, and in release builds when capacity + len() fits in usize. More precisely it is refused whenever the wrapped sum still exceeds the capacity. Exactly how it fails, for every chunk and index in range: when the wrapped sum is within the capacity the call is undefined behaviour (C12_overflow_partial)."
  },
  {
   "property": "C13",
   "status": "proved",
   "theorems": [
    "Verif.Chunk.C13_insert_ordered_sorted",
    "Verif.Chunk.C13_insert_ordered_unsorted",
    "Verif.Chunk.C13_panicking_comparison"
   ],
   "note": ""
  },
  {
   "property": "C14",
   "status": "proved",
   "theorems": [
    "Verif.Chunk.C14_conservation",
    "Verif.Chunk.C14_every_element_once",
    "Verif.Chunk.C14_never_twice"
   ],
   "note": ""
  },
  {
   "property": "C15",
   "status": "partial",
   "theorems": [
    "Verif.Chunk.C15_double_drop_counterexample",
    "Verif.Chunk.C15_no_double_drop_partial",
    "Verif.Chunk.C15_destroys_again_partial"
   ],
   "note": "False of the code: clear, drop_left and drop_right double-drop after a panicking destructor; counterexample proved. Proved for all histories in which none of those three calls panics (destructors may panic anywhere else). Exactly how it fails, for every chunk: if one destructor panics inside those calls the chunk still shows everything and dropping it destroys it all again; if two panic the process aborts (C15_destroys_again_partial)."
  },
  {
   "property": "C16",
   "status": "proved",
   "theorems": [
    "Verif.Chunk.C16_clone",
    "Verif.Chunk.C16_clone_panics"
   ],
   "note": ""
  },
  {
   "property": "C17",
   "status": "proved",
   "theorems": [
    "Verif.Chunk.C17_extend",
    "Verif.Chunk.C17_extend_overflow",
    "Verif.Chunk.C17_extend_iterator_panics",
    "Verif.Chunk.C17_from_iter",
    "Verif.Chunk.C17_from_iter_overflow",
    "Verif.Chunk.C17_collect_from",
    "Verif.Chunk.C17_collect_from_short",
    "Verif.Chunk.C17_collect_from_overflow",
    "Verif.Chunk.C17_from_iter_iter_panics"
   ],
   "note": ""
  },
  {
   "property": "C18",
   "status": "proved",
   "theorems": [
    "Verif.Chunk.C18_iterators",
    "Verif.Chunk.C18_exhausts"
   ],
   "note": ""
  },
  {
   "property": "C19",
   "status": "proved",
   "theorems": [
    "Verif.Chunk.C19_write",
    "Verif.Chunk.C19_read",
    "Verif.Chunk.C19_pipe"
   ],
   "note": ""
  },
  {
   "property": "C20",
   "status": "proved",
   "theorems": [
    "Verif.Chunk.C20_eq_slice",
    "Verif.Chunk.C20_eq_chunk",
    "Verif.Chunk.C20_cmp",
    "Verif.Chunk.C20_partialCmp",
    "Verif.Chunk.C20_hash"
   ],
   "note": ""
  },
  {
   "property": "C21",
   "status": "partial",
   "theorems": [
    "Verif.Chunk.C21_hash_differs_from_slice",
    "Verif.Chunk.C21_feed_partial"
   ],
   "note": "False of the code: the length prefix is missing from Hash; proved that it always differs from the slice's, and by exactly that prefix."
  },
  {
   "property": "C22",
   "status": "partial",
   "theorems": [
    "Verif.Chunk.C22_debug_partial",
    "Verif.Chunk.C22_release_counterexample",
    "Verif.Chunk.C22_release_partial"
   ],
   "note": "False of the code in release builds: counterexample proved. The debug-build half is proved. Exactly how it fails in release builds, for every chunk and count: the call is undefined behaviour, or it returns and looking at what is left is (C22_release_partial)."
  },
  {
   "property": "C23",
   "status": "proved",
   "theorems": [
    "Verif.Inline.C23_from_mut",
    "Verif.Inline.C23_from_owned"
   ],
   "note": ""
  },
  {
   "property": "C24",
   "status": "proved",
   "theorems": [
    "Verif.Ring.C24_history_refines_bounded_lists",
    "Verif.Ring.C24_history_refines_from"
   ],
   "note": ""
  },
  {
   "property": "C25",
   "status": "proved",
   "theorems": [
    "Verif.Ring.C25_length_and_access"
   ],
   "note": ""
  },
  {
   "property": "C26",
   "status": "proved",
   "theorems": [
    "Verif.Ring.C26_no_undefined_behaviour",
    "Verif.Ring.C26_history_completes",
    "Verif.Ring.C26_raw_no_undefined_behaviour",
    "Verif.Ring.C26_raw_buffers_stay_whole"
   ],
   "note": "C26_raw_* cover every call of the API, including those of C39-C41 whose answers are wrong, with iterators of any behaviour; the only calls left out are release-build insert_from with len() near usize::MAX (C31; undefined behaviour is proved there by C32_uninitialised_read_counterexample) and zero capacity (C44, where an endless loop is proved)."
  },
  {
   "property": "C27",
   "status": "proved",
   "theorems": [
    "Verif.Ring.C27_push_front",
    "Verif.Ring.C27_push_back",
    "Verif.Ring.C27_pop",
    "Verif.Ring.C27_index",
    "Verif.Ring.C27_insert",
    "Verif.Ring.C27_remove",
    "Verif.Ring.C27_append",
    "Verif.Ring.C27_drain_from_front",
    "Verif.Ring.C27_drain_from_back",
    "Verif.Ring.C27_split_off",
    "Verif.Ring.C27_from_front_back",
    "Verif.Ring.C27_drop_refused",
    "Verif.Ring.C27_drop_ok",
    "Verif.Ring.C27_unit_pair"
   ],
   "note": ""
  },
  {
   "property": "C28",
   "status": "proved",
   "theorems": [
    "Verif.Ring.C28_push_back",
    "Verif.Ring.C28_push_front",
    "Verif.Ring.C28_push_pop",
    "Verif.Ring.C28_constant_work"
   ],
   "note": ""
  },
  {
   "property": "C29",
   "status": "proved",
   "theorems": [
    "Verif.Ring.C29_insert",
    "Verif.Ring.C29_remove",
    "Verif.Ring.C29_set",
    "Verif.Ring.C29_insert_remove",
    "Verif.Ring.C29_mutate"
   ],
   "note": ""
  },
  {
   "property": "C30",
   "status": "proved",
   "theorems": [
    "Verif.Ring.C30_append",
    "Verif.Ring.C30_drain_from_front",
    "Verif.Ring.C30_drain_from_back",
    "Verif.Ring.C30_split_off",
    "Verif.Ring.C30_from_front",
    "Verif.Ring.C30_from_back",
    "Verif.Ring.C30_drain_from",
    "Verif.Ring.C30_split_off_append"
   ],
   "note": ""
  },
  {
   "property": "C31",
   "status": "partial",
   "theorems": [
    "Verif.Ring.C31_insert_from",
    "Verif.Ring.C31_refuses_partial",
    "Verif.Ring.C31_overflow_counterexample",
    "Verif.Ring.C31_endless_loop_counterexample",
    "Verif.Ring.C31_second_half_partial",
    "Verif.Ring.C31_first_half_partial",
    "Verif.Ring.C31_power_of_two_partial",
    "Verif.Ring.C31_at_end_partial"
   ],
   "note": "False of the code in release builds when the sum wraps: counterexamples proved (contents changed before the panic; an endless loop; a read of a slot never written, which is undefined behaviour: C32_uninitialised_read_counterexample). Proved in debug builds always, in release builds when len + it.len() fits in usize. Exactly what happens when it does not fit: at the end it is extend (C31_at_end_partial); in the second half no undefined behaviour, the call panics and leaves the buffer empty, or returns with only the iterator's items in it (C31_second_half_partial); in the first half the same, or it never ends, or it reads a slot never written (C31_first_half_partial), and which of these exactly when the capacity is a power of two (C31_power_of_two_partial)."
  },
  {
   "property": "C32",
   "status": "partial",
   "theorems": [
    "Verif.Ring.C32_at_end_partial",
    "Verif.Ring.C32_no_undefined_behaviour_partial",
    "Verif.Ring.C32_long_partial",
    "Verif.Ring.C32_panicking_len",
    "Verif.Ring.C32_short_or_panicking",
    "Verif.Ring.C32_takes_more_counterexample",
    "Verif.Ring.C32_uninitialised_read_counterexample"
   ],
   "note": "The memory-safety half is proved for every iterator in debug builds, and in release builds whenever capacity + len() fits in usize; beyond that it is false of the code (C32_uninitialised_read_counterexample: capacity 3, len() = usize::MAX); 'takes at most len() items' is false of the code when inserting at the end: counterexample proved. Exactly how: at the end insert_from is extend, once the announced length is accepted (C32_at_end_partial). What happens when capacity + len() does not fit is C31_*_partial."
  },
  {
   "property": "C33",
   "status": "proved",
   "theorems": [
    "Verif.Ring.C33_insert_ordered_sorted",
    "Verif.Ring.C33_insert_ordered_unsorted",
    "Verif.Ring.C33_panicking_comparison"
   ],
   "note": ""
  },
  {
   "property": "C34",
   "status": "proved",
   "theorems": [
    "Verif.Ring.C34_conservation",
    "Verif.Ring.C34_every_element_once",
    "Verif.Ring.C34_never_twice"
   ],
   "note": ""
  },
  {
   "property": "C35",
   "status": "partial",
   "theorems": [
    "Verif.Ring.C35_destroys_again_partial",
    "Verif.Ring.C35_double_drop_counterexample",
    "Verif.Ring.C35_no_double_drop_partial"
   ],
   "note": "False of the code: clear, drop_left and drop_right double-drop after a panicking destructor; counterexample proved. Proved for all histories in which none of those three calls panics (destructors may panic anywhere else). Exactly how it fails, for every buffer: after the panic the buffer still shows everything and dropping it destroys the same items again (C35_destroys_again_partial)."
  },
  {
   "property": "C36",
   "status": "proved",
   "theorems": [
    "Verif.Ring.C36_clone",
    "Verif.Ring.C36_clone_panics"
   ],
   "note": ""
  },
  {
   "property": "C37",
   "status": "proved",
   "theorems": [
    "Verif.Ring.C37_iter",
    "Verif.Ring.C37_iter_mut",
    "Verif.Ring.C37_drain_into_iter",
    "Verif.Ring.C37_slice_iterators"
   ],
   "note": ""
  },
  {
   "property": "C38",
   "status": "proved",
   "theorems": [
    "Verif.Ring.C38_slice",
    "Verif.Ring.C38_reads",
    "Verif.Ring.C38_index_and_assign",
    "Verif.Ring.C38_iter_mut_writes",
    "Verif.Ring.C38_to_owned",
    "Verif.Ring.C38_whole"
   ],
   "note": ""
  },
  {
   "property": "C39",
   "status": "partial",
   "theorems": [
    "Verif.Ring.C39_index_outside_counterexample",
    "Verif.Ring.C39_index_partial"
   ],
   "note": "False of the code: slice Index checks only against the buffer; counterexample proved. Proved exactly: indexing a slice is indexing the buffer at start + i (wrapped in release builds), so positions outside the buffer panic and only the one item at that position is read or replaced."
  },
  {
   "property": "C40",
   "status": "partial",
   "theorems": [
    "Verif.Ring.C40_inclusive_max_counterexample",
    "Verif.Ring.C40_rejects_partial",
    "Verif.Ring.C40_granted_slice_is_inside",
    "Verif.Ring.C40_narrowed_slice_is_inside",
    "Verif.Ring.C40_inclusive_max_partial"
   ],
   "note": "False of the code in release builds for ..=usize::MAX; counterexample proved, and exactly what such a bound gives. Proved for every other bound, and that any granted slice, however narrowed, lies inside the buffer."
  },
  {
   "property": "C41",
   "status": "partial",
   "theorems": [
    "Verif.Ring.C41_debug_write_counterexample",
    "Verif.Ring.C41_write_partial",
    "Verif.Ring.C41_write_or_panic_partial",
    "Verif.Ring.C41_fresh_writes_partial"
   ],
   "note": "False of the code in debug builds (a wrapping write panics): counterexample proved, and exactly when it happens. Proved in release builds, in debug builds up to that panic, which changes nothing, and in every build for writes into a fresh buffer."
  },
  {
   "property": "C42",
   "status": "proved",
   "theorems": [
    "Verif.Ring.C42_read",
    "Verif.Ring.C42_pipe"
   ],
   "note": ""
  },
  {
   "property": "C43",
   "status": "proved",
   "theorems": [
    "Verif.Ring.C43_eq_primitive_slice",
    "Verif.Ring.C43_slice_eq_primitive_slice",
    "Verif.Ring.C43_eq_ring",
    "Verif.Ring.C43_eq_slices",
    "Verif.Ring.C43_eq_by",
    "Verif.Ring.C43_eq_slices_by",
    "Verif.Ring.C43_cmp",
    "Verif.Ring.C43_slice_cmp",
    "Verif.Ring.C43_partialCmp",
    "Verif.Ring.C43_hash"
   ],
   "note": ""
  },
  {
   "property": "C44",
   "status": "partial",
   "theorems": [
    "Verif.Ring.C44_zero_capacity_counterexample",
    "Verif.Ring.C44_zero_capacity_partial"
   ],
   "note": "False of the code: debug builds panic in new, release builds loop forever in iter, clear and drop; proved for every such buffer. The calls that do work are proved."
  },
  {
   "property": "C45",
   "status": "proved",
   "theorems": [
    "Verif.Ring.C45_add",
    "Verif.Ring.C45_sub",
    "Verif.Ring.C45_inc_dec",
    "Verif.Ring.C45_sub_add"
   ],
   "note": ""
  },
  {
   "property": "C46",
   "status": "proved",
   "theorems": [
    "Verif.Sparse.C46_history_refines_maps",
    "Verif.Sparse.C46_history_refines_from",
    "Verif.Sparse.C46_insert_remove"
   ],
   "note": ""
  },
  {
   "property": "C47",
   "status": "proved",
   "theorems": [
    "Verif.Sparse.C47_length_counts_entries"
   ],
   "note": ""
  },
  {
   "property": "C48",
   "status": "proved",
   "theorems": [
    "Verif.Sparse.C48_no_undefined_behaviour",
    "Verif.Sparse.C48_history_completes",
    "Verif.Sparse.C48_index_panics_exactly"
   ],
   "note": ""
  },
  {
   "property": "C49",
   "status": "proved",
   "theorems": [
    "Verif.Sparse.C49_iterators_ascending",
    "Verif.Sparse.C49_iter_mut_ascending",
    "Verif.Sparse.C49_write_through",
    "Verif.Sparse.C49_drain_ascending",
    "Verif.Sparse.C49_drain_size_hint",
    "Verif.Sparse.C49_iter_size_hint"
   ],
   "note": ""
  },
  {
   "property": "C50",
   "status": "proved",
   "theorems": [
    "Verif.Sparse.C50_pop_smallest"
   ],
   "note": ""
  },
  {
   "property": "C51",
   "status": "proved",
   "theorems": [
    "Verif.Sparse.C51_option_iter",
    "Verif.Sparse.C51_option_drain",
    "Verif.Sparse.C51_size_hint",
    "Verif.Sparse.C51_from_iter",
    "Verif.Sparse.C51_from_iter_panics",
    "Verif.Sparse.C51_round_trip"
   ],
   "note": ""
  },
  {
   "property": "C52",
   "status": "proved",
   "theorems": [
    "Verif.Sparse.C52_eq_is_map_equality",
    "Verif.Sparse.C52_eq_iff_same_map"
   ],
   "note": ""
  },
  {
   "property": "C53",
   "status": "proved",
   "theorems": [
    "Verif.Sparse.C53_eq_std_map"
   ],
   "note": ""
  },
  {
   "property": "C54",
   "status": "proved",
   "theorems": [
    "Verif.Sparse.C54_conservation",
    "Verif.Sparse.C54_every_element_once",
    "Verif.Sparse.C54_never_twice",
    "Verif.Sparse.C54_abandoned_drain",
    "Verif.Sparse.C54_abandoned_option_drain",
    "Verif.Sparse.C54_drop"
   ],
   "note": ""
  },
  {
   "property": "C55",
   "status": "proved",
   "theorems": [
    "Verif.Sparse.C55_clone",
    "Verif.Sparse.C55_clone_panics"
   ],
   "note": ""
  },
  {
   "property": "C56",
   "status": "proved",
   "theorems": [
    "Verif.Inline.C56_layout"
   ],
   "note": ""
  },
  {
   "property": "C57",
   "status": "proved",
   "theorems": [
    "Verif.Inline.C57_capacity",
    "Verif.Inline.C57_no_capacity",
    "Verif.Inline.C57_zero_sized"
   ],
   "note": ""
  },
  {
   "property": "C58",
   "status": "partial",
   "theorems": [
    "Verif.Inline.C58_new_counterexample",
    "Verif.Inline.C58_new_partial"
   ],
   "note": "False of the code: new also panics when size_of T equals size_of usize, and does not panic for over-aligned sized elements (capacity is then 0). The exact condition under which it panics is proved, and that otherwise it returns an empty array without tripping its internal assertions."
  },
  {
   "property": "C59",
   "status": "proved",
   "theorems": [
    "Verif.Inline.C59_history_refines_bounded_lists",
    "Verif.Inline.C59_length_and_flags"
   ],
   "note": ""
  },
  {
   "property": "C60",
   "status": "proved",
   "theorems": [
    "Verif.Inline.C60_no_undefined_behaviour",
    "Verif.Inline.C60_history_completes"
   ],
   "note": ""
  },
  {
   "property": "C61",
   "status": "proved",
   "theorems": [
    "Verif.Inline.C61_conservation",
    "Verif.Inline.C61_every_element_once",
    "Verif.Inline.C61_never_twice"
   ],
   "note": ""
  },
  {
   "property": "C62",
   "status": "partial",
   "theorems": [
    "Verif.Inline.C62_destroys_again_partial",
    "Verif.Inline.C62_double_drop_counterexample",
    "Verif.Inline.C62_no_double_drop_partial"
   ],
   "note": "False of the code: a panicking destructor inside clear leaves the length unchanged, so the items are dropped again. Proved for all histories in which no clear panics. Exactly how it fails, for every array: C62_destroys_again_partial."
  },
  {
   "property": "C63",
   "status": "proved",
   "theorems": [
    "Verif.Inline.C63_iterators"
   ],
   "note": ""
  },
  {
   "property": "C64",
   "status": "proved",
   "theorems": [
    "Verif.Inline.C64_clone",
    "Verif.Inline.C64_clone_panics"
   ],
   "note": ""
  },
  {
   "property": "C65",
   "status": "proved",
   "theorems": [
    "Verif.Chunk.C65_chunk",
    "Verif.Ring.C65_ring",
    "Verif.Sparse.C65_sparse",
    "Verif.Inline.C65_inline",
    "Verif.Inline.C65_inline_refused"
   ],
   "note": ""
  },
  {
   "property": "C66",
   "status": "proved",
   "theorems": [
    "Verif.Chunk.C66_chunk_clone",
    "Verif.Chunk.C66_chunk_clone_panics",
    "Verif.Chunk.C66_chunk_default",
    "Verif.Ring.C66_ring_clone",
    "Verif.Ring.C66_ring_clone_panics",
    "Verif.Ring.C66_ring_default",
    "Verif.Sparse.C66_sparse_clone",
    "Verif.Sparse.C66_sparse_clone_panics",
    "Verif.Sparse.C66_sparse_default"
   ],
   "note": ""
  },
  {
   "property": "C67",
   "status": "proved",
   "theorems": [
    "Verif.Ring.C67_extend",
    "Verif.Ring.C67_extend_overflow",
    "Verif.Ring.C67_extend_iterator_panics",
    "Verif.Ring.C67_from_iter",
    "Verif.Ring.C67_from_iter_overflow",
    "Verif.Ring.C67_collect_from",
    "Verif.Ring.C67_collect_from_short",
    "Verif.Ring.C67_collect_from_overflow",
    "Verif.Ring.C67_from_iter_iter_panics"
   ],
   "note": ""
  },
  {
   "property": "C68",
   "status": "proved",
   "theorems": [
    "Verif.Inline.C68_push",
    "Verif.Inline.C68_pop",
    "Verif.Inline.C68_insert",
    "Verif.Inline.C68_remove",
    "Verif.Inline.C68_split_off",
    "Verif.Inline.C68_set",
    "Verif.Inline.C68_clear",
    "Verif.Inline.C68_extend"
   ],
   "note": ""
  },
  {
   "property": "C69",
   "status": "proved",
   "theorems": [
    "Verif.Inline.C69_eq_slice",
    "Verif.Inline.C69_eq_array",
    "Verif.Inline.C69_cmp",
    "Verif.Inline.C69_hash"
   ],
   "note": ""
  },
  {
   "property": "C70",
   "status": "partial",
   "theorems": [
    "Verif.Chunk.C70_chunk_partial",
    "Verif.Ring.C70_ring_partial",
    "Verif.Sparse.C70_sparse_partial",
    "Verif.Inline.C70_inline_counterexample"
   ],
   "note": "False of the code for InlineArray, which prints `Chunk`: proved for every array. Proved for the other containers. The formatter is modelled by the calls made on it (text, debug_list, debug_map) and does not fail. For failing writers see C95."
  },
  {
   "property": "C71",
   "status": "proved",
   "theorems": [
    "Verif.Chunk.C71_chunk",
    "Verif.Chunk.C71_chunk_incomparable",
    "Verif.Chunk.C71_chunk_partial_cmp",
    "Verif.Ring.C71_ring",
    "Verif.Ring.C71_slice",
    "Verif.Ring.C71_ring_partial_cmp",
    "Verif.Ring.C71_slice_partial_cmp",
    "Verif.Sparse.C71_sparse",
    "Verif.Inline.C71_inline",
    "Verif.Inline.C71_inline_partial_cmp"
   ],
   "note": ""
  },
  {
   "property": "C72",
   "status": "proved",
   "theorems": [
    "Verif.Chunk.C72_push_back",
    "Verif.Chunk.C72_push_front",
    "Verif.Chunk.C72_pop",
    "Verif.Chunk.C72_insert",
    "Verif.Chunk.C72_remove"
   ],
   "note": "Cost is modelled as the number of storage slots whose contents change."
  },
  {
   "property": "C73",
   "status": "proved",
   "theorems": [
    "Verif.Ring.C73_insert",
    "Verif.Ring.C73_remove"
   ],
   "note": "Cost is modelled as the number of storage slots whose contents change."
  },
  {
   "property": "C74",
   "status": "partial",
   "theorems": [
    "Verif.Ring.C74_halves_alias_partial",
    "Verif.Ring.C74_halves_disjoint_partial",
    "Verif.Ring.C74_halves_alias_counterexample"
   ],
   "note": "False of the code: IndexMut on a half of split_at accepts indices beyond the half (C39), so both halves can yield the same item (C74_halves_alias_counterexample). Proved: with get_mut, in-range index_mut and nested splits the halves are disjoint. Exactly how it fails, for every buffer and split: the left half indexed beyond its end yields the slot of the right half (C74_halves_alias_partial)."
  },
  {
   "property": "C75",
   "status": "proved",
   "theorems": [
    "Verif.Chunk.C75_write_all",
    "Verif.Chunk.C75_read_exact",
    "Verif.Chunk.C75_read_to_end",
    "Verif.Chunk.C75_round_trip"
   ],
   "note": ""
  },
  {
   "property": "C76",
   "status": "partial",
   "theorems": [
    "Verif.Ring.C76_write_all_or_panic_partial",
    "Verif.Ring.C76_write_all_partial",
    "Verif.Ring.C76_read_exact",
    "Verif.Ring.C76_read_to_end",
    "Verif.Ring.C76_debug_write_all_counterexample"
   ],
   "note": "False of debug builds: write panics when the data wraps around the seam (C41), so write_all does too (C76_debug_write_all_counterexample). Proved for release builds; the read side in all builds. Exactly what holds in every build: write_all panics, changing nothing, exactly when the bytes that fit would wrap in a debug build (C76_write_all_or_panic_partial)."
  },
  {
   "property": "C77",
   "status": "partial",
   "theorems": [
    "Verif.Arb.C77_size_hint_counterexample",
    "Verif.Arb.C77_overflow_counterexample",
    "Verif.Arb.C77_size_hint_partial"
   ],
   "note": "False of the code: the bound leaves out the continuation byte before every item, and the product is unchecked (counterexamples). Proved: the bound plus one byte per item is right whenever the product fits. The byte-level behaviour of the arbitrary crate is an assumption."
  },
  {
   "property": "C78",
   "status": "proved",
   "theorems": [
    "Verif.C78_drop_in_replacement"
   ],
   "note": ""
  },
  {
   "property": "C79",
   "status": "proved",
   "theorems": [
    "Verif.Chunk.C79_layout_never_shows",
    "Verif.Ring.C79_layout_never_shows",
    "Verif.Sparse.C79_layout_never_shows",
    "Verif.Inline.C79_layout_never_shows"
   ],
   "note": ""
  },
  {
   "property": "C80",
   "status": "proved",
   "theorems": [
    "Verif.Ring.C80_get_unchecked",
    "Verif.Ring.C80_get_unchecked_mut",
    "Verif.Ring.C80_slices",
    "Verif.Ring.C80_ring_contract_needed",
    "Verif.Sparse.C80_sparse_get_unchecked",
    "Verif.Sparse.C80_sparse_get_unchecked_mut",
    "Verif.Sparse.C80_sparse_contract_needed"
   ],
   "note": ""
  },
  {
   "property": "C81",
   "status": "proved",
   "theorems": [
    "Verif.Chunk.C81_builds_alike",
    "Verif.Ring.C81_builds_alike",
    "Verif.Sparse.C81_builds_alike",
    "Verif.Inline.C81_hosts_alike",
    "Verif.Inline.C81_builds_alike"
   ],
   "note": ""
  },
  {
   "property": "C82",
   "status": "partial",
   "theorems": [
    "Verif.Ring.C82_huge_capacity_counterexample",
    "Verif.Ring.C82_push_partial",
    "Verif.Ring.C82_release_partial",
    "Verif.Ring.C82_debug_partial"
   ],
   "note": "False of debug builds for zero-sized elements and capacities above isize::MAX: counterexample proved. Proved for every capacity up to isize::MAX; for zero-sized elements and every capacity from 1 to usize::MAX, that release builds behave as bounded lists do in every sequence of calls on the ends, reads, drop_left, drop_right, clear and drop (C82_release_partial), and exactly which calls panic in debug builds (C82_debug_partial: those whose origin + count overflows; a panicking pop_back loses the item, a panicking drop leaks all)."
  },
  {
   "property": "C83",
   "status": "partial",
   "theorems": [
    "Verif.Chunk.C83_insert_from_partial",
    "Verif.Chunk.C83_insert_from_counterexample",
    "Verif.Ring.C83_insert_from"
   ],
   "note": "RingBuffer: proved (min(i, len - i) + m slots). Chunk: false as documented - when the last slot is taken, inserting at the end moves everything (C83_insert_from_counterexample, for every constant K); the exact bound per case is C83_insert_from_partial."
  },
  {
   "property": "C84",
   "status": "proved",
   "theorems": [
    "Verif.Chunk.C84_drain_from_front",
    "Verif.Chunk.C84_drain_from_back",
    "Verif.Chunk.C84_append",
    "Verif.Chunk.C84_split_off",
    "Verif.Ring.C84_drain_from_front",
    "Verif.Ring.C84_drain_from_back",
    "Verif.Ring.C84_append",
    "Verif.Ring.C84_split_off"
   ],
   "note": "Cost is modelled as the number of storage slots whose contents change."
  },
  {
   "property": "C85",
   "status": "proved",
   "theorems": [
    "Verif.Inline.C85_push",
    "Verif.Inline.C85_pop",
    "Verif.Inline.C85_insert",
    "Verif.Inline.C85_remove",
    "Verif.Inline.C85_split_off"
   ],
   "note": "Cost is modelled as the number of bytes whose contents change."
  },
  {
   "property": "C86",
   "status": "partial",
   "theorems": [
    "Verif.Chunk.C86_chunk",
    "Verif.Inline.C86_inline_array",
    "Verif.Sparse.C86_get_counterexample",
    "Verif.Sparse.C86_full_partial",
    "Verif.Sparse.C86_values_iff_partial"
   ],
   "note": "Chunk and InlineArray: proved. SparseChunk::values()/values_mut() build a slice over all N slots, so the contract is broken whenever a slot was never written: C86_get_counterexample; exactly when it is kept: C86_values_iff_partial, C86_full_partial. RingBuffer builds no slices."
  },
  {
   "property": "C87",
   "status": "proved",
   "theorems": [
    "Verif.Chunk.C87_back_run",
    "Verif.Chunk.C87_front_run",
    "Verif.Chunk.C87_fresh_stack"
   ],
   "note": "The crate documentation says repeated pushes to the same side run in constant time; the one exception (a call that moves all the items to the other edge) is documented too."
  },
  {
   "property": "C88",
   "status": "partial",
   "theorems": [
    "Verif.Chunk.C88_drop_and_clear",
    "Verif.Chunk.C88_drop_part",
    "Verif.Inline.C88_drop_and_clear",
    "Verif.Ring.C88_leak_counterexample",
    "Verif.Ring.C88_drop_and_clear_partial",
    "Verif.Ring.C88_drop_part_partial",
    "Verif.Sparse.C88_leak_counterexample",
    "Verif.Sparse.C88_drop_partial"
   ],
   "note": "Chunk and InlineArray: proved (they drop a slice in place). RingBuffer and SparseChunk call destructors one at a time, so after a panic the rest is leaked: C88_leak_counterexample of both; what holds is C88_*_partial. A second panic while the first unwinds aborts the process; this is modelled (C15, C62)."
  },
  {
   "property": "C89",
   "status": "proved",
   "theorems": [
    "Verif.Chunk.C89_extend",
    "Verif.Chunk.C89_from_iter",
    "Verif.Ring.C89_extend",
    "Verif.Ring.C89_from_iter",
    "Verif.Inline.C89_extend",
    "Verif.Inline.C89_from_iter",
    "Verif.Sparse.C89_from_iter",
    "Verif.Sparse.C89_endless_nones"
   ],
   "note": "What an endless iterator still owns when it is dropped is not modelled here. C89_endless_nones shows the exception for SparseChunk named in the statement."
  },
  {
   "property": "C90",
   "status": "proved",
   "theorems": [
    "Verif.Chunk.C90_fuzz_never_fails",
    "Verif.Inline.C90_fuzz_never_fails",
    "Verif.Ring.C90_fuzz_never_fails",
    "Verif.Sparse.C90_fuzz_never_fails"
   ],
   "note": "The fuzzer's generated containers may be any that show some contents (View). Chunk: chunk and guide use the same slice::binary_search, an arbitrary total function with indices up to the length. RingBuffer: two arbitrary searches meeting binary_search's contract, an order in which only equal items are equivalent. The elements have no destructor (u32). into_iter of the source in CollectFrom/FromIter is represented by the items it yields (C18, C37)."
  },
  {
   "property": "C91",
   "status": "proved",
   "theorems": [
    "Verif.Chunk.C91_shared_calls_write_nothing",
    "Verif.Chunk.C91_shared_calls_on_two_write_nothing",
    "Verif.Chunk.C91_readers_agree",
    "Verif.Inline.C91_shared_calls_write_nothing",
    "Verif.Inline.C91_shared_calls_on_two_write_nothing",
    "Verif.Inline.C91_readers_agree",
    "Verif.Ring.C91_shared_calls_write_nothing",
    "Verif.Ring.C91_shared_calls_on_two_write_nothing",
    "Verif.Ring.C91_iterators_write_nothing",
    "Verif.Ring.C91_readers_agree",
    "Verif.Sparse.C91_shared_calls_write_nothing",
    "Verif.Sparse.C91_shared_calls_on_two_write_nothing",
    "Verif.Sparse.C91_iterators_write_nothing",
    "Verif.Sparse.C91_readers_agree"
   ],
   "note": ""
  },
  {
   "property": "C92",
   "status": "proved",
   "theorems": [
    "Verif.C92_search_contract",
    "Verif.Chunk.C92_chunk_insert_ordered",
    "Verif.Chunk.C92_chunk_sorted",
    "Verif.Chunk.C92_chunk_same_call",
    "Verif.Ring.C92_ring_insert_ordered",
    "Verif.Ring.C92_ring_sorted",
    "Verif.Ring.C92_ring_same_call"
   ],
   "note": ""
  },
  {
   "property": "C93",
   "status": "partial",
   "theorems": [
    "Verif.Chunk.C93_history_partial",
    "Verif.Chunk.C93_append_partial",
    "Verif.Chunk.C93_append_debug_partial",
    "Verif.Chunk.C93_append_counterexample"
   ],
   "note": "The claim is false in debug builds near usize::MAX (C93_*_counterexample); the partial theorems bound the capacity by what the index arithmetic needs. Exactly when append panics in debug builds: C93_append_debug_partial."
  },
  {
   "property": "C94",
   "status": "proved",
   "theorems": [
    "Verif.Mixed.C94_history",
    "Verif.Mixed.C94_no_undefined_behaviour",
    "Verif.Mixed.C94_completes",
    "Verif.Mixed.C94_conservation",
    "Verif.Mixed.C94_never_twice",
    "Verif.Mixed.C94_every_element_once",
    "Verif.Mixed.C94_pour"
   ],
   "note": ""
  },
  {
   "property": "C95",
   "status": "proved",
   "theorems": [
    "Verif.Effects.C95_eq",
    "Verif.Effects.C95_partial_cmp",
    "Verif.Effects.C95_cmp",
    "Verif.Effects.C95_hash",
    "Verif.Effects.C95_debug",
    "Verif.Effects.C95_sparse_eq",
    "Verif.Effects.C95_sparse_eq_map",
    "Verif.Effects.C95_sparse_debug",
    "Verif.Effects.C95_eq_calls",
    "Verif.Effects.C95_cmp_calls",
    "Verif.Effects.C95_partial_cmp_calls",
    "Verif.Effects.C95_pure"
   ],
   "note": ""
  },
  {
   "property": "C96",
   "status": "proved",
   "theorems": [
    "Verif.Alias.C96_iter_mut_stacked_borrows",
    "Verif.Alias.C96_iter_mut_tree_borrows"
   ],
   "note": "The aliasing machines are transcriptions of the published rules with the simplifications stated in Alias.lean and DESIGN section 5 (no protectors; cells instead of bytes)."
  },
  {
   "property": "C97",
   "status": "partial",
   "theorems": [
    "Verif.Alias.C97_iter_mut_stacked_borrows_partial",
    "Verif.Alias.C97_option_iter_mut_stacked_borrows_partial",
    "Verif.Alias.C97_iter_mut_tree_borrows_partial",
    "Verif.Alias.C97_option_iter_mut_tree_borrows_partial",
    "Verif.Alias.C97_iter_mut_counterexample"
   ],
   "note": "False of the code: C97_iter_mut_counterexample. Proved instead: exactly which clients are accepted under either set of rules (lending: a reference is used only until the next is asked for; noRewrite: no reference is written through, then another asked for, then the first written through again)."
  },
  {
   "property": "C98",
   "status": "partial",
   "theorems": [
    "Verif.Alias.C98_split_at_stacked_borrows_partial",
    "Verif.Alias.C98_split_at_tree_borrows_partial",
    "Verif.Alias.C98_split_at_counterexample"
   ],
   "note": "False of the code: C98_split_at_counterexample. Proved instead: exactly which clients are accepted (SB: those that never use the left half; TB: those that, once one half has been written through, never use the other)."
  },
  {
   "property": "C99",
   "status": "partial",
   "theorems": [
    "Verif.Alias.C99_pointers_tree_borrows",
    "Verif.Alias.C99_pointers_stacked_borrows_partial",
    "Verif.Alias.C99_stale_pointer_counterexample"
   ],
   "note": "Tree Borrows: proved. Stacked Borrows: false for Chunk::force_copy and InlineArray::remove (C99_stale_pointer_counterexample); proved that exactly those calls are rejected."
  },
  {
   "property": "C100",
   "status": "partial",
   "theorems": [
    "Verif.Alias.C100_inline_calls",
    "Verif.Alias.C100_chunk_calls",
    "Verif.Alias.C100_chunk_tree_borrows",
    "Verif.Alias.C100_chunk_stacked_borrows_partial",
    "Verif.Alias.C100_inline_tree_borrows",
    "Verif.Alias.C100_inline_stacked_borrows_partial",
    "Verif.Alias.C100_methods_counterexample"
   ],
   "note": "Tree Borrows: proved for all methods. Stacked Borrows: false for a Chunk method which must move items within the chunk, and InlineArray::remove (and drain) of an item which is not the last (C100_methods_counterexample); proved that exactly those are rejected."
  },
  {
   "property": "C101",
   "status": "partial",
   "theorems": [
    "Verif.Ring.C101_threads_partial",
    "Verif.Ring.C101_bad_split",
    "Verif.Ring.C101_schedule_irrelevant_partial",
    "Verif.Ring.C101_data_race_counterexample"
   ],
   "note": "False of the code: IndexMut on a part accepts indices beyond the part (C39), so safe code can cause a data race (C101_data_race_counterexample). Proved for get_mut with any index and slice[i] inside the part, under every schedule."
  },
  {
   "property": "C102",
   "status": "proved",
   "theorems": [
    "Verif.Alias.C102_ring_calls",
    "Verif.Alias.C102_ring_stacked_borrows",
    "Verif.Alias.C102_ring_tree_borrows",
    "Verif.Alias.C102_sparse_calls",
    "Verif.Alias.C102_sparse_stacked_borrows",
    "Verif.Alias.C102_sparse_tree_borrows"
   ],
   "note": "Proved without exception under both sets of rules."
  },
  {
   "property": "C103",
   "status": "proved",
   "theorems": [
    "Verif.Chunk.C103_queue",
    "Verif.Chunk.C103_half_full"
   ],
   "note": "Cost is the number of storage slots that change (`Mem.Rewritten`); one slot per push is the pushed item itself."
  },
  {
   "property": "C104",
   "status": "proved",
   "theorems": [
    "Verif.Share.C104_ring",
    "Verif.Share.C104_chunk",
    "Verif.Share.C104_sparse",
    "Verif.Share.C104_sparse_option",
    "Verif.Share.C104_inline"
   ],
   "note": "Sequentially consistent steps; as no two threads touch the same slot (or byte), there is no data race and the assumption costs nothing."
  },
  {
   "property": "C105",
   "status": "proved",
   "theorems": [
    "Verif.Types.C105_sound",
    "Verif.Types.C105_whenever",
    "Verif.Types.C105_ring_iter_mut"
   ],
   "note": "The rules for auto traits are the language's, and trusted."
  },
  {
   "property": "C106",
   "status": "proved",
   "theorems": [
    "Verif.Types.C106_sound",
    "Verif.Types.C106_usable",
    "Verif.Types.C106_necessary"
   ],
   "note": "The rules for variance are the language's, and trusted; that they are sound for safe types is proved here (`means_mono`, `means_shorter`)."
  },
  {
   "property": "C107",
   "status": "proved",
   "theorems": [
    "Verif.Chunk.C107_insert_from",
    "Verif.Chunk.C107_extend",
    "Verif.Chunk.C107_from_iter",
    "Verif.Chunk.C107_collect_from",
    "Verif.Ring.C107_insert_from",
    "Verif.Ring.C107_extend",
    "Verif.Ring.C107_from_iter",
    "Verif.Ring.C107_collect_from",
    "Verif.Inline.C107_extend",
    "Verif.Inline.C107_from_iter",
    "Verif.Inline.C107_from_iter_refused",
    "Verif.Chunk.C107_drain",
    "Verif.Chunk.C107_into_iter",
    "Verif.Chunk.C107_drain_rev",
    "Verif.Ring.C107_drain",
    "Verif.Ring.C107_into_iter",
    "Verif.Ring.C107_drain_rev",
    "Verif.Inline.C107_drain",
    "Verif.Inline.C107_into_iter",
    "Verif.Inline.C107_drain_rev",
    "Verif.Sparse.C107_drain"
   ],
   "note": "Theorems about the four bulk methods hold for every iterator program meeting Source.Models; the source theorems show that drain(), drain().rev() and into_iter() of each container do."
  },
  {
   "property": "C108",
   "status": "proved",
   "theorems": [
    "Verif.Chunk.C108_insert_from",
    "Verif.Chunk.C108_extend",
    "Verif.Chunk.C108_from_iter",
    "Verif.Chunk.C108_collect_from",
    "Verif.Ring.C108_insert_from",
    "Verif.Ring.C108_extend",
    "Verif.Ring.C108_from_iter",
    "Verif.Ring.C108_collect_from",
    "Verif.Inline.C108_extend",
    "Verif.Inline.C108_from_iter"
   ],
   "note": "Source.Gave says that the iterator handed out exactly the items in question, in order."
  },
  {
   "property": "C109",
   "status": "proved",
   "theorems": [
    "Verif.Chunk.C109_drop",
    "Verif.Chunk.C109_clear",
    "Verif.Chunk.C109_drop_left",
    "Verif.Chunk.C109_drop_right",
    "Verif.Chunk.C109_clone",
    "Verif.Chunk.C109_drop_calls",
    "Verif.Chunk.C109_clone_calls",
    "Verif.Chunk.C109_plain",
    "Verif.Inline.C109_drop",
    "Verif.Inline.C109_clear",
    "Verif.Inline.C109_clone",
    "Verif.Inline.C109_drop_calls",
    "Verif.Inline.C109_clone_calls",
    "Verif.Inline.C109_plain",
    "Verif.Ring.C109_drop",
    "Verif.Ring.C109_clear",
    "Verif.Ring.C109_drop_left",
    "Verif.Ring.C109_drop_right",
    "Verif.Ring.C109_clone",
    "Verif.Ring.C109_drop_calls",
    "Verif.Ring.C109_clone_calls",
    "Verif.Ring.C109_plain",
    "Verif.Sparse.C109_drop",
    "Verif.Sparse.C109_clone",
    "Verif.Sparse.C109_drop_calls",
    "Verif.Sparse.C109_clone_calls",
    "Verif.Sparse.C109_plain"
   ],
   "note": "C109_plain: the methods modelled here are, for log-and-panic elements, equal to those of the container models."
  },
  {
   "property": "C110",
   "status": "proved",
   "theorems": [
    "Verif.Chunk.C110_items_never_show",
    "Verif.Chunk.C110_same_course",
    "Verif.Ring.C110_items_never_show",
    "Verif.Ring.C110_same_course",
    "Verif.Inline.C110_items_never_show",
    "Verif.Inline.C110_same_course",
    "Verif.Sparse.C110_items_never_show",
    "Verif.Sparse.C110_same_course"
   ],
   "note": ""
  },
  {
   "property": "C111",
   "status": "proved",
   "theorems": [
    "Verif.C111_nested",
    "Verif.C111_drop",
    "Verif.C111_clone",
    "Verif.C111_one"
   ],
   "note": ""
  },
  {
   "property": "C112",
   "status": "proved",
   "theorems": [
    "Verif.Effects.C112_nested",
    "Verif.Effects.C112_hash",
    "Verif.Effects.C112_eq",
    "Verif.Effects.C112_contracts",
    "Verif.Effects.C112_sparse",
    "Verif.Effects.C112_sparse_eq"
   ],
   "note": ""
  },
  {
   "property": "C113",
   "status": "proved",
   "theorems": [
    "Verif.Chunk.C113_drain",
    "Verif.Chunk.C113_into_iter",
    "Verif.Ring.C113_drain",
    "Verif.Ring.C113_into_iter",
    "Verif.Ring.C113_iter",
    "Verif.Ring.C113_iter_mut",
    "Verif.Ring.C113_slice_iterators",
    "Verif.Inline.C113_drain",
    "Verif.Inline.C113_into_iter",
    "Verif.Sparse.C113_drain",
    "Verif.Sparse.C113_iter",
    "Verif.Sparse.C113_indices",
    "Verif.Sparse.C113_entries",
    "Verif.Sparse.C113_iter_mut",
    "Verif.Sparse.C113_option_iter",
    "Verif.Sparse.C113_option_iter_mut",
    "Verif.Sparse.C113_option_drain",
    "Verif.C113_nth",
    "Verif.C113_len",
    "Verif.C113_count",
    "Verif.C113_collect",
    "Verif.C113_last",
    "Verif.C113_find",
    "Verif.C113_position",
    "Verif.C113_rposition",
    "Verif.C113_rev",
    "Verif.C113_nth_back"
   ],
   "note": "The methods every Rust iterator has are std's code, not the crate's; they are modelled by what std documents (next until done). Items the code itself holds when it unwinds are not followed. Writing through the references of iter_mut is left to C96, C97 and C104."
  },
  {
   "property": "C114",
   "status": "proved",
   "theorems": [
    "Verif.Chunk.C114_chunk",
    "Verif.Chunk.C114_chunk_calls",
    "Verif.Chunk.C114_chunk_plain",
    "Verif.Ring.C114_ring",
    "Verif.Ring.C114_ring_calls",
    "Verif.Ring.C114_ring_plain",
    "Verif.Sparse.C114_sparse",
    "Verif.Sparse.C114_sparse_calls",
    "Verif.Sparse.C114_sparse_plain"
   ],
   "note": "What refpool does with the memory after a panic (it frees the box without running a destructor) is refpool's code and not modelled."
  },
  {
   "property": "C115",
   "status": "proved",
   "theorems": [
    "Verif.C115_plain",
    "Verif.Chunk.C115_drain",
    "Verif.Chunk.C115_into_iter",
    "Verif.Chunk.C115_into_iter_plain",
    "Verif.Ring.C115_drain",
    "Verif.Ring.C115_into_iter",
    "Verif.Ring.C115_into_iter_plain",
    "Verif.Ring.C115_iter",
    "Verif.Ring.C115_iter_mut",
    "Verif.Ring.C115_slice_iter",
    "Verif.Inline.C115_drain",
    "Verif.Inline.C115_into_iter",
    "Verif.Inline.C115_into_iter_plain",
    "Verif.Sparse.C115_drain",
    "Verif.Sparse.C115_drain_plain",
    "Verif.Sparse.C115_option_drain",
    "Verif.Sparse.C115_lending"
   ],
   "note": "The code's own items are destroyed by the code (any program on its state), before or after the iterator when it unwinds."
  },
  {
   "property": "C116",
   "status": "proved",
   "theorems": [
    "Verif.Ring.C116_iter_mut",
    "Verif.Ring.C116_slice_iter_mut",
    "Verif.Sparse.C116_iter_mut",
    "Verif.Sparse.C116_option_iter_mut",
    "Verif.C116_only_what_is_lent",
    "Verif.C116_only_what_is_lent_map"
   ],
   "note": "Values only: that the references may be kept by the aliasing rules is C96 to C98 (for SparseChunk they may not, C97). Destroying an overwritten item is left to the code, which gets it back (mem::replace)."
  },
  {
   "property": "C117",
   "status": "proved",
   "theorems": [
    "Verif.Chunk.C117_extend",
    "Verif.Chunk.C117_from_iter",
    "Verif.Chunk.C117_collect_from",
    "Verif.Chunk.C117_extend_deals",
    "Verif.Chunk.C117_from_iter_deals",
    "Verif.Ring.C117_extend",
    "Verif.Ring.C117_from_iter",
    "Verif.Ring.C117_collect_from",
    "Verif.Ring.C117_extend_deals",
    "Verif.Ring.C117_from_iter_deals",
    "Verif.Inline.C117_extend",
    "Verif.Inline.C117_from_iter",
    "Verif.Inline.C117_extend_deals",
    "Verif.Inline.C117_from_iter_deals",
    "Verif.Sparse.C117_from_iter",
    "Verif.Chunk.C117_plain",
    "Verif.Ring.C117_plain",
    "Verif.Inline.C117_plain"
   ],
   "note": "insert_from runs no user code but the iterator's (RingBuffer's drops it at the end), which C108 covers. The fuel bounds the turns of the loop: any fuel above the capacity gives the same result; for SparseChunk, whose iterator may yield None without end, every fuel is covered, and the overflow of the index counter is not modelled."
  },
  {
   "property": "C118",
   "status": "proved",
   "theorems": [
    "Verif.Alias.C118_helper_stacked_borrows",
    "Verif.Alias.C118_helper_tree_borrows",
    "Verif.Alias.C118_chunk_tree_borrows",
    "Verif.Alias.C118_chunk_stacked_borrows",
    "Verif.Alias.C118_inline_tree_borrows",
    "Verif.Alias.C118_inline_stacked_borrows",
    "Verif.Alias.C118_ring_tree_borrows",
    "Verif.Alias.C118_ring_stacked_borrows",
    "Verif.Alias.C118_sparse_tree_borrows",
    "Verif.Alias.C118_sparse_stacked_borrows",
    "Verif.Alias.C118_exclusive_tree_borrows",
    "Verif.Alias.C118_chunk_helpers_tree_borrows",
    "Verif.Alias.C118_chunk_helpers_stacked_borrows",
    "Verif.Alias.C118_inline_helpers_tree_borrows",
    "Verif.Alias.C118_inline_helpers_stacked_borrows",
    "Verif.Alias.C118_ring_helpers_tree_borrows",
    "Verif.Alias.C118_ring_helpers_stacked_borrows",
    "Verif.Alias.C118_sparse_helpers_tree_borrows",
    "Verif.Alias.C118_sparse_helpers_stacked_borrows"
   ],
   "note": "In C118_<container>_<discipline> the arguments are the methods' own, taken as &mut; in C118_<container>_helpers_<discipline> they are those of the helpers the methods call (AliasBody.lean; runIn_plain shows that without protectors these are the pointer operations of Alias.lean). C118_helper_* are about one call of any function with one reference argument, which may pass & references on to further functions. C97 and C98 are about references held outside a call, to which protectors do not apply."
  }
 ]
}