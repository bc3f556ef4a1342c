{
 "claims": [
  {
   "property": "C01",
   "status": "proved",
   "theorems": [
    "Stxxl.DiskAlloc.C01_live_blocks_disjoint"
   ],
   "note": ""
  },
  {
   "property": "C02",
   "status": "proved",
   "theorems": [
    "Stxxl.DiskAlloc.C02_accounting",
    "Stxxl.DiskAlloc.C02_coalesced",
    "Stxxl.DiskAlloc.C02_partition",
    "Stxxl.DiskAlloc.C02_all_freed",
    "Stxxl.DiskAlloc.C02_all_freed_alloc"
   ],
   "note": ""
  },
  {
   "property": "C03",
   "status": "proved",
   "theorems": [
    "Stxxl.DiskAlloc.C03_double_free_rejected",
    "Stxxl.DiskAlloc.C03_second_delete_throws",
    "Stxxl.DiskAlloc.C03_live_delete_ok"
   ],
   "note": ""
  },
  {
   "property": "C04",
   "status": "proved",
   "theorems": [
    "Stxxl.DiskAlloc.C04_alloc_succeeds",
    "Stxxl.DiskAlloc.C04_enough_space",
    "Stxxl.DiskAlloc.C04_variable_size_counterexample",
    "Stxxl.DiskAlloc.C04_grows_without_autogrow"
   ],
   "note": ""
  },
  {
   "property": "C05",
   "status": "proved",
   "theorems": [
    "Stxxl.BlockAlloc.C05_striping",
    "Stxxl.BlockAlloc.C05_fr",
    "Stxxl.BlockAlloc.C05_sr",
    "Stxxl.BlockAlloc.C05_rc",
    "Stxxl.BlockAlloc.C05_single_disk",
    "Stxxl.BlockAlloc.C05_offset"
   ],
   "note": ""
  },
  {
   "property": "C06",
   "status": "proved",
   "theorems": [
    "Stxxl.BlockManager.C06_new_blocks",
    "Stxxl.BlockManager.C06_live_disjoint",
    "Stxxl.BlockManager.C06_current_allocation",
    "Stxxl.BlockManager.C06_delete_ok",
    "Stxxl.BlockManager.C06_failed_request_leaks"
   ],
   "note": ""
  },
  {
   "property": "C07",
   "status": "proved",
   "theorems": [
    "Stxxl.Pager.C07_kick_is_lru",
    "Stxxl.Pager.C07_hit_keeps_order",
    "Stxxl.Pager.C07_random_kick_valid"
   ],
   "note": ""
  },
  {
   "property": "C08",
   "status": "proved",
   "theorems": [
    "Stxxl.ExtVector.C08_no_failure",
    "Stxxl.ExtVector.C08_read",
    "Stxxl.ExtVector.C08_size",
    "Stxxl.ExtVector.C08_frame"
   ],
   "note": ""
  },
  {
   "property": "C09",
   "status": "proved",
   "theorems": [
    "Stxxl.ExtVector.C09_flush_complete",
    "Stxxl.ExtVector.C09_destructor_complete",
    "Stxxl.ExtVector.C09_destructor_no_leak",
    "Stxxl.ExtVector.C09_reopen_file",
    "Stxxl.ExtVector.C09_reopen_blocks"
   ],
   "note": ""
  },
  {
   "property": "C10",
   "status": "partial",
   "theorems": [
    "Stxxl.ExtVector.C10_shrink_keeps_partial",
    "Stxxl.ExtVector.C10_shrink_file",
    "Stxxl.ExtVector.C10_shrink_releases_nothing",
    "Stxxl.ExtVector.C10_grow_after_shrink_ub"
   ],
   "note": "First half (elements kept) proved for all histories; the second half (blocks are returned) is proved for file-backed vectors and proved FALSE for block-manager-backed ones (C10_shrink_releases_nothing); C10_grow_after_shrink_ub is a legal history that accesses the page table out of bounds."
  },
  {
   "property": "C11",
   "status": "proved",
   "theorems": [
    "Stxxl.Stack.C11_observers",
    "Stxxl.Stack.C11_no_failure"
   ],
   "note": ""
  },
  {
   "property": "C12",
   "status": "proved",
   "theorems": [
    "Stxxl.Stack.C12_observers",
    "Stxxl.Stack.C12_no_failure",
    "Stxxl.Stack.C12_no_access_in_flight",
    "Stxxl.Stack.C12_destructor"
   ],
   "note": ""
  },
  {
   "property": "C13",
   "status": "proved",
   "theorems": [
    "Stxxl.Stack.C13_observers",
    "Stxxl.Stack.C13_no_failure",
    "Stxxl.Stack.C13_no_access_in_flight"
   ],
   "note": ""
  },
  {
   "property": "C14",
   "status": "proved",
   "theorems": [
    "Stxxl.Stack.C14_observers",
    "Stxxl.Stack.C14_no_failure"
   ],
   "note": ""
  },
  {
   "property": "C15",
   "status": "proved",
   "theorems": [
    "Stxxl.Sequence.C15_observers",
    "Stxxl.Sequence.C15_no_failure"
   ],
   "note": ""
  },
  {
   "property": "C16",
   "status": "proved",
   "theorems": [
    "Stxxl.Sequence.C16_observers",
    "Stxxl.Sequence.C16_no_failure",
    "Stxxl.Sequence.C16_destructor"
   ],
   "note": ""
  },
  {
   "property": "C17",
   "status": "proved",
   "theorems": [
    "Stxxl.Sequence.C17_stream_observers",
    "Stxxl.Sequence.C17_stream_no_failure",
    "Stxxl.Sequence.C17_stream_readonly",
    "Stxxl.Sequence.C17_two_buffer_pool_fails"
   ],
   "note": ""
  },
  {
   "property": "C18",
   "status": "proved",
   "theorems": [
    "Stxxl.Deque.C18_no_failure",
    "Stxxl.Deque.C18_observers",
    "Stxxl.Deque.C18_iterators",
    "Stxxl.Deque.C18_equality",
    "Stxxl.Deque.C18_equality_ignores_size"
   ],
   "note": ""
  },
  {
   "property": "C19",
   "status": "proved",
   "theorems": [
    "Stxxl.C19_read_latest",
    "Stxxl.C19_no_failure",
    "Stxxl.C19_destructor"
   ],
   "note": ""
  },
  {
   "property": "C20",
   "status": "proved",
   "theorems": [
    "Stxxl.C20_exclusive",
    "Stxxl.C20_no_io_on_free",
    "Stxxl.C20_conserved",
    "Stxxl.C20_sizes",
    "Stxxl.C20_resize_prefetch",
    "Stxxl.C20_resize_write"
   ],
   "note": ""
  },
  {
   "property": "C21",
   "status": "proved",
   "theorems": [
    "Stxxl.BinBuf.C21_varint32",
    "Stxxl.BinBuf.C21_varint64",
    "Stxxl.BinBuf.C21_string",
    "Stxxl.BinBuf.C21_sequence",
    "Stxxl.BinBuf.C21_int",
    "Stxxl.BinBuf.C21_long_string_lost"
   ],
   "note": ""
  },
  {
   "property": "C22",
   "status": "proved",
   "theorems": [
    "Stxxl.BinBuf.C22_read",
    "Stxxl.BinBuf.C22_skip",
    "Stxxl.BinBuf.C22_get_varint",
    "Stxxl.BinBuf.C22_get_varint64",
    "Stxxl.BinBuf.C22_safe",
    "Stxxl.BinBuf.C22_ref_inside",
    "Stxxl.BinBuf.C22_huge_length_wraps",
    "Stxxl.BinBuf.C22_writer_safe"
   ],
   "note": ""
  },
  {
   "property": "C23",
   "status": "proved",
   "theorems": [
    "Stxxl.UIntPair.C23_range",
    "Stxxl.UIntPair.C23_from_u64",
    "Stxxl.UIntPair.C23_to_u64",
    "Stxxl.UIntPair.C23_from_32",
    "Stxxl.UIntPair.C23_inc",
    "Stxxl.UIntPair.C23_dec",
    "Stxxl.UIntPair.C23_add",
    "Stxxl.UIntPair.C23_compare",
    "Stxxl.UIntPair.C23_min_max"
   ],
   "note": ""
  },
  {
   "property": "C24",
   "status": "proved",
   "theorems": [
    "Stxxl.LT.C24_prefix",
    "Stxxl.LT.C24_loser_tree_merges",
    "Stxxl.LT.C24_unrolled_eq_loop",
    "Stxxl.LT.C24_indices_in_range",
    "Stxxl.LT.C24_beyond_end_is_undefined",
    "Stxxl.LT.C24_unstable_consumption_order_fails"
   ],
   "note": ""
  },
  {
   "property": "C25",
   "status": "proved",
   "theorems": [
    "Stxxl.Srt.C25_sort",
    "Stxxl.Srt.Ex.C25_unaligned_first_aligned_last_is_undefined"
   ],
   "note": ""
  },
  {
   "property": "C26",
   "status": "proved",
   "theorems": [
    "Stxxl.Schedule.C26_schedule_permutation",
    "Stxxl.Schedule.C26_no_buffers_fails"
   ],
   "note": ""
  },
  {
   "property": "C27",
   "status": "proved",
   "theorems": [
    "Stxxl.Schedule.C27_block_requested_in_time"
   ],
   "note": ""
  },
  {
   "property": "C28",
   "status": "proved",
   "theorems": [
    "Stxxl.BufStream.C28_write",
    "Stxxl.BufStream.C28_read",
    "Stxxl.BufStream.C28_round_trip",
    "Stxxl.BufStream.C28_prefetcher_never_blocks",
    "Stxxl.BufStream.C28_batch_as_large_as_pool_deadlocks",
    "Stxxl.BufStream.C28_flush_forgets_held_block"
   ],
   "note": ""
  },
  {
   "property": "C29",
   "status": "proved",
   "theorems": [
    "Stxxl.PQ.C29_priority_queue",
    "Stxxl.PQ.C29_heapsort",
    "Stxxl.PQ.C29_top_empty",
    "Stxxl.PQ.C29_generator",
    "Stxxl.PQ.C29_generator_small",
    "Stxxl.PQ.C29_internal_arity_two_breaks",
    "Stxxl.PQ.C29_internal_arity_four_breaks",
    "Stxxl.PQ.C29_internal_arity_three_breaks",
    "Stxxl.PQ.C29_five_groups_break",
    "Stxxl.PQ.C29_delete_buffer_longer_than_N_breaks"
   ],
   "note": ""
  },
  {
   "property": "C30",
   "status": "proved",
   "theorems": [
    "BTree.C30_history",
    "BTree.C30_history_exceptions",
    "BTree.C30_bulk",
    "BTree.C30_bulk_succeeds",
    "BTree.C30_bulk_throw_leaks",
    "BTree.C30_history_nonvacuous",
    "BTree.C30_history_example",
    "BTree.C30_bulk_nonvacuous",
    "BTree.C30_upper_bound_max_ub",
    "BTree.C30_throw_inserts",
    "BTree.C30_clear_invalidates_end",
    "BTree.C30_coarse_order_inconsistent",
    "BTree.C30_bulk_max_skipped"
   ],
   "note": ""
  },
  {
   "property": "C31",
   "status": "proved",
   "theorems": [
    "Verif.HashMap.C31_history",
    "Verif.HashMap.C31_no_ub",
    "Verif.HashMap.C31_bucket_index",
    "Verif.HashMap.C31_finding_bucket_index_out_of_range",
    "Verif.HashMap.C31_finding_find_fresh_ub",
    "Verif.HashMap.C31_finding_find_emptied_ub",
    "Verif.HashMap.C31_finding_index_size",
    "Verif.HashMap.C31_finding_index_loses_data",
    "Verif.HashMap.C31_finding_index_loses_data_auto",
    "Verif.HashMap.C31_finding_erase_oblivious_loses_data",
    "Verif.HashMap.C31_finding_bulk_collision"
   ],
   "note": ""
  },
  {
   "property": "C32",
   "status": "proved",
   "theorems": [
    "Stxxl.Sorter.C32_push",
    "Stxxl.Sorter.C32_size_input",
    "Stxxl.Sorter.C32_sort",
    "Stxxl.Sorter.C32_sort_reuse",
    "Stxxl.Sorter.C32_rewind",
    "Stxxl.Sorter.C32_output_readable",
    "Stxxl.Sorter.C32_clear",
    "Stxxl.Sorter.C32_finish_clear",
    "Stxxl.Sorter.C32_finish",
    "Stxxl.Sorter.C32_stream_sort",
    "Stxxl.Sorter.C32_sort_range",
    "Stxxl.Sorter.C32_from_sorted_sequences",
    "Stxxl.Sorter.C32_rounded_merge_factor_throws",
    "Stxxl.Sorter.C32_size_after_finish_wrong"
   ],
   "note": ""
  },
  {
   "property": "C33",
   "status": "proved",
   "theorems": [
    "Stxxl.Streams.C33_unique_meaning",
    "Stxxl.Streams.C33_streamify",
    "Stxxl.Streams.C33_streamify_vector",
    "Stxxl.Streams.C33_streamify_generator",
    "Stxxl.Streams.C33_transform",
    "Stxxl.Streams.C33_transform_map",
    "Stxxl.Streams.C33_transform2",
    "Stxxl.Streams.C33_transform2_generator",
    "Stxxl.Streams.C33_make_tuple",
    "Stxxl.Streams.C33_choose",
    "Stxxl.Streams.C33_unique",
    "Stxxl.Streams.C33_unique_sorted",
    "Stxxl.Streams.C33_discard",
    "Stxxl.Streams.C33_materialize",
    "Stxxl.Streams.C33_materialize_range",
    "Stxxl.Streams.C33_materialize_vector"
   ],
   "note": ""
  },
  {
   "property": "C34",
   "status": "proved",
   "theorems": [
    "Stxxl.Scan.C34_permutation",
    "Stxxl.Scan.C34_no_failure",
    "Stxxl.Scan.C34_empty_range_fails",
    "Stxxl.Scan.C34_constant_generator_never_ends",
    "Stxxl.Scan.C34_large_pages_fail"
   ],
   "note": ""
  },
  {
   "property": "C35",
   "status": "proved",
   "theorems": [
    "Stxxl.CountingPtr.C35_no_failure",
    "Stxxl.CountingPtr.C35_pointee_alive",
    "Stxxl.CountingPtr.C35_count_is_number_of_pointers",
    "Stxxl.CountingPtr.C35_no_leak",
    "Stxxl.CountingPtr.C35_dead_stays_dead"
   ],
   "note": ""
  },
  {
   "property": "C36",
   "status": "proved",
   "theorems": [
    "Stxxl.Wbtl.C36_history",
    "Stxxl.Wbtl.C36_places_disjoint",
    "Stxxl.Wbtl.C36_no_leak",
    "Stxxl.Wbtl.C36_write_succeeds",
    "Stxxl.Wbtl.C36_finding_failed_write_damages_other",
    "Stxxl.Wbtl.C36_finding_failed_overwrite_loses_block",
    "Stxxl.Wbtl.C36_finding_fragmentation",
    "Stxxl.Wbtl.C36_finding_discard_size",
    "Stxxl.Wbtl.C36_finding_sentinel"
   ],
   "note": ""
  },
  {
   "property": "C37",
   "status": "proved",
   "theorems": [
    "Stxxl.AddrQueue.C37_priority",
    "Stxxl.AddrQueue.C37_priority_top",
    "Stxxl.AddrQueue.C37_fifo"
   ],
   "note": ""
  },
  {
   "property": "C38",
   "status": "proved",
   "theorems": [
    "Stxxl.ParseUnits.C38_value",
    "Stxxl.ParseUnits.C38_exact",
    "Stxxl.ParseUnits.C38_accepts_only",
    "Stxxl.ParseUnits.C38_accepts_malformed"
   ],
   "note": ""
  },
  {
   "property": "C39",
   "status": "proved",
   "theorems": [
    "Stxxl.WinnerTree.C39_no_failure",
    "Stxxl.WinnerTree.C39_top",
    "Stxxl.WinnerTree.C39_no_stale_player",
    "Stxxl.WinnerTree.C39_ctor_slots",
    "Stxxl.WinnerTree.C39_growing_is_undefined",
    "Stxxl.WinnerTree.C39_resize_breaks"
   ],
   "note": ""
  },
  {
   "property": "C40",
   "status": "proved",
   "theorems": [
    "Stxxl.ReqQueue.One.C40_one_queue_fifo",
    "Stxxl.ReqQueue.One.C40_one_queue_shutdown_loses_at_most_one",
    "Stxxl.ReqQueue.One.C40_one_queue_shutdown_can_lose_a_request",
    "Stxxl.ReqQueue.One.C40_one_queue_cancel_can_deadlock",
    "Stxxl.ReqQueue.C40_each_request_in_exactly_one_place",
    "Stxxl.ReqQueue.C40_fifo_within_reads_and_writes",
    "Stxxl.ReqQueue.C40_write_priority",
    "Stxxl.ReqQueue.C40_worker_serves_everything",
    "Stxxl.ReqQueue.C40_shutdown_loses_at_most_one",
    "Stxxl.ReqQueue.C40_shutdown_complete_when_signal_first",
    "Stxxl.ReqQueue.C40_shutdown_terminates",
    "Stxxl.ReqQueue.C40_shutdown_can_lose_a_request",
    "Stxxl.ReqQueue.C40_cancel_can_deadlock"
   ],
   "note": ""
  },
  {
   "property": "C41",
   "status": "proved",
   "theorems": [
    "Stxxl.Scan.C41_contents",
    "Stxxl.Scan.C41_for_each",
    "Stxxl.Scan.C41_for_each_m",
    "Stxxl.Scan.C41_find",
    "Stxxl.Scan.C41_generate",
    "Stxxl.Scan.C41_frame",
    "Stxxl.Scan.C41_for_each_m_uninitialised_lost"
   ],
   "note": ""
  },
  {
   "property": "C42",
   "status": "proved",
   "theorems": [
    "NodeCache.C42_transparent",
    "NodeCache.C42_survives_one_access",
    "NodeCache.C42_nonvacuous",
    "NodeCache.C42_example",
    "NodeCache.C42_stale_pointer",
    "NodeCache.C42_swap_loses_update",
    "NodeCache.C42_swap_repaired"
   ],
   "note": ""
  },
  {
   "property": "C43",
   "status": "proved",
   "theorems": [
    "BlockCache.C43_history",
    "BlockCache.C43_flush_durable",
    "BlockCache.C43_needs_fifo",
    "BlockCache.C43_flush_needs_clear",
    "BlockCache.C43_write_before_dirty",
    "BlockCache.C43_release_of_other"
   ],
   "note": ""
  },
  {
   "property": "C44",
   "status": "proved",
   "theorems": [
    "Verif.HashMap.C44_history",
    "Verif.HashMap.C44_traversal",
    "Verif.HashMap.C44_finding_begin",
    "Verif.HashMap.C44_finding_index_stale",
    "Verif.HashMap.C44_finding_index_erase",
    "Verif.HashMap.C44_finding_equal"
   ],
   "note": ""
  },
  {
   "property": "C45",
   "status": "proved",
   "theorems": [
    "Stxxl.Request.C45_life",
    "Stxxl.Request.C45_trace",
    "Stxxl.Request.C45_quiescent",
    "Stxxl.Request.C45_terminates",
    "Stxxl.Request.C45_switch_outlives_its_use",
    "Stxxl.Request.C45_null_file_only_in_cancel",
    "Stxxl.Request.C45_cancel_can_dereference_null",
    "Stxxl.Request.C45_wait_any_throw_leaves_dangling_switch",
    "Stxxl.Request.C45_wait_any_spurious_wakeup",
    "Stxxl.Request.C45_poll_true_before_handler",
    "Stxxl.Request.C45_wait_any_empty_never_returns"
   ],
   "note": ""
  },
  {
   "property": "C46",
   "status": "proved",
   "theorems": [
    "Stxxl.FileIo.C46_block_history",
    "Stxxl.FileIo.C46_syscall_read",
    "Stxxl.FileIo.C46_syscall_write",
    "Stxxl.FileIo.C46_syscall_short_transfers",
    "Stxxl.FileIo.C46_syscall_read_behind_end_throws",
    "Stxxl.FileIo.C46_mmap_write_behind_end_lost",
    "Stxxl.FileIo.C46_fileperblock_short_read_destroys",
    "Stxxl.FileIo.C46_fileperblock_trunc_loses",
    "Stxxl.FileIo.C46_boostfd_set_size_has_no_effect",
    "Stxxl.FileIo.C46_mem_out_of_bounds",
    "Stxxl.FileIo.C46_overlap_differs"
   ],
   "note": ""
  },
  {
   "property": "C47",
   "status": "proved",
   "theorems": [
    "Stxxl.KSort.C47_ksort",
    "Stxxl.KSort.C47_unaligned_first_aligned_last_is_undefined",
    "Stxxl.KSort.C47_unfit_parameters_are_undefined"
   ],
   "note": ""
  },
  {
   "property": "C48",
   "status": "proved",
   "theorems": [
    "Stxxl.SKSort.C48_stable_ksort",
    "Stxxl.SKSort.C48_missing_prefix_never_ok",
    "Stxxl.SKSort.C48_aligned_first_unaligned_last_is_undefined",
    "Stxxl.SKSort.C48_unaligned_first_to_end_is_undefined",
    "Stxxl.SKSort.C48_not_stable"
   ],
   "note": ""
  },
  {
   "property": "C49",
   "status": "proved",
   "theorems": [
    "Stxxl.Mat.C49_multiply"
   ],
   "note": ""
  },
  {
   "property": "C50",
   "status": "proved",
   "theorems": [
    "Stxxl.Mat.C50_programs"
   ],
   "note": ""
  },
  {
   "property": "C51",
   "status": "proved",
   "theorems": [
    "Stxxl.Mat.C51_blocks",
    "Stxxl.Mat.C51_all_freed"
   ],
   "note": ""
  },
  {
   "property": "C52",
   "status": "proved",
   "theorems": [
    "Stxxl.Mat.C52_matrix_vector"
   ],
   "note": ""
  },
  {
   "property": "C53",
   "status": "proved",
   "theorems": [
    "Stxxl.Mat.C53_tall_matrix_wrong",
    "Stxxl.Mat.C53_matrix_from_vectors_is_zero",
    "Stxxl.Mat.C53_algorithm_six_wrong"
   ],
   "note": ""
  },
  {
   "property": "C54",
   "status": "proved",
   "theorems": [
    "Stxxl.BlockSched.C54_contents",
    "Stxxl.BlockSched.C54_last_write"
   ],
   "note": ""
  },
  {
   "property": "C55",
   "status": "proved",
   "theorems": [
    "Stxxl.BlockSched.C55_enough_memory",
    "Stxxl.BlockSched.C55_only_oom",
    "Stxxl.BlockSched.C55_memory_limit"
   ],
   "note": ""
  },
  {
   "property": "C56",
   "status": "proved",
   "theorems": [
    "Stxxl.BlockSched.C56_no_leak",
    "Stxxl.BlockSched.C56_not_shared",
    "Stxxl.BlockSched.C56_destructor"
   ],
   "note": ""
  },
  {
   "property": "C57",
   "status": "proved",
   "theorems": [
    "Stxxl.BlockSched.C57_simulation",
    "Stxxl.BlockSched.C57_no_io"
   ],
   "note": ""
  },
  {
   "property": "C58",
   "status": "proved",
   "theorems": [
    "Stxxl.BlockSched.C58_lru",
    "Stxxl.BlockSched.C58_lfd"
   ],
   "note": ""
  },
  {
   "property": "C59",
   "status": "proved",
   "theorems": [
    "Stxxl.BlockSched.C59_free_in_simulation",
    "Stxxl.BlockSched.C59_freed_twice",
    "Stxxl.BlockSched.C59_clean_overwrite",
    "Stxxl.BlockSched.C59_simulation_while_acquired"
   ],
   "note": ""
  },
  {
   "property": "C60",
   "status": "proved",
   "theorems": [
    "Stxxl.MultiSeq.C60_partition"
   ],
   "note": ""
  },
  {
   "property": "C61",
   "status": "proved",
   "theorems": [
    "Stxxl.MultiSeq.C61_selection",
    "Stxxl.MultiSeq.C61_selection_rank",
    "Stxxl.MultiSeq.C61_selection_throws"
   ],
   "note": ""
  },
  {
   "property": "C62",
   "status": "proved",
   "theorems": [
    "Stxxl.MultiSeq.C62_not_stable"
   ],
   "note": ""
  },
  {
   "property": "C63",
   "status": "proved",
   "theorems": [
    "Stxxl.MwMerge.C63_sequential_merge",
    "Stxxl.MwMerge.C63_few_sequences_stable"
   ],
   "note": ""
  },
  {
   "property": "C64",
   "status": "proved",
   "theorems": [
    "Stxxl.MwMerge.C64_combined_merge"
   ],
   "note": ""
  },
  {
   "property": "C65",
   "status": "proved",
   "theorems": [
    "Stxxl.MwMerge.C65_combined_four_reads_past_end",
    "Stxxl.MwMerge.C65_combined_stable_reads_past_end",
    "Stxxl.MwMerge.C65_combined_stable_copy_wrong",
    "Stxxl.MwMerge.C65_combined_stable_virtual_leaf_wins",
    "Stxxl.MwMerge.C65_all_empty_null_dereference"
   ],
   "note": ""
  },
  {
   "property": "C66",
   "status": "proved",
   "theorems": [
    "Stxxl.MwMerge.C66_multiway_merge",
    "Stxxl.MwMerge.C66_ties_cross_boundaries",
    "Stxxl.MwMerge.C66_parallel_not_stable",
    "Stxxl.MwMerge.C66_one_thread_uses_uncomputed_boundary",
    "Stxxl.MwMerge.C66_more_threads_than_elements"
   ],
   "note": ""
  },
  {
   "property": "C67",
   "status": "proved",
   "theorems": [
    "Stxxl.Sync.C67_semaphore_counts",
    "Stxxl.Sync.C67_down_only_if_positive",
    "Stxxl.Sync.C67_semaphore_bounds_entries",
    "Stxxl.Sync.C67_no_lost_wakeup",
    "Stxxl.Sync.C67_settles"
   ],
   "note": ""
  },
  {
   "property": "C68",
   "status": "proved",
   "theorems": [
    "Stxxl.Sync.C68_wait_for_returns_rightly",
    "Stxxl.Sync.C68_no_lost_wakeup",
    "Stxxl.Sync.C68_settles",
    "Stxxl.Sync.C68_transient_state_missed"
   ],
   "note": ""
  },
  {
   "property": "C69",
   "status": "proved",
   "theorems": [
    "Stxxl.Sync.C69_wait_for_on_without_off",
    "Stxxl.Sync.C69_single_waiter_not_forgotten",
    "Stxxl.Sync.C69_spurious_wakeup_returns_too_early",
    "Stxxl.Sync.C69_off_releases_waiter_for_on",
    "Stxxl.Sync.C69_second_waiter_forgotten"
   ],
   "note": ""
  },
  {
   "property": "C70",
   "status": "proved",
   "theorems": [
    "Stxxl.PPQ.C70_priority_queue",
    "Stxxl.PPQ.C70_library_merge"
   ],
   "note": ""
  },
  {
   "property": "C71",
   "status": "proved",
   "theorems": [
    "Stxxl.PPQ.C71_new_array_compared_with_deleted_one",
    "Stxxl.PPQ.C71_top_fails_with_equal_elements",
    "Stxxl.PPQ.C71_bulk_pop_zero_removes",
    "Stxxl.PPQ.C71_bulk_pop_delivers_fewer",
    "Stxxl.PPQ.C71_limit_end_reads_behind_buffer",
    "Stxxl.PPQ.C71_limit_top_fails_after_spill",
    "Stxxl.PPQ.C71_assertion_fails_on_every_flush",
    "Stxxl.PPQ.C71_fifth_external_array",
    "Stxxl.PPQ.C71_fifth_external_array_reached",
    "Stxxl.PPQ.C71_bulk_pop_limit_of_nothing"
   ],
   "note": ""
  },
  {
   "property": "C72",
   "status": "proved",
   "theorems": [
    "Stxxl.PPQ.C72_bulk_in_memory",
    "Stxxl.PPQ.C72_library_merge"
   ],
   "note": ""
  },
  {
   "property": "C73",
   "status": "proved",
   "theorems": [
    "Stxxl.VecBuf.C73_forward",
    "Stxxl.VecBuf.C73_reverse"
   ],
   "note": ""
  },
  {
   "property": "C74",
   "status": "proved",
   "theorems": [
    "Stxxl.VecBuf.C74_writer",
    "Stxxl.VecBuf.C74_read",
    "Stxxl.VecBuf.C74_no_failure",
    "Stxxl.VecBuf.C74_round_trip"
   ],
   "note": ""
  },
  {
   "property": "C75",
   "status": "proved",
   "theorems": [
    "Stxxl.VecBuf.C75_growth_loses_data_one_block_pages",
    "Stxxl.VecBuf.C75_growth_loses_data_two_block_pages",
    "Stxxl.VecBuf.C75_growth_loses_data_last_block"
   ],
   "note": ""
  },
  {
   "property": "C76",
   "status": "proved",
   "theorems": [
    "Stxxl.LinuxAio.C76_refusal_leaks",
    "Stxxl.LinuxAio.C76_each_request_in_exactly_one_place",
    "Stxxl.LinuxAio.C76_completed_once",
    "Stxxl.LinuxAio.C76_fifo",
    "Stxxl.LinuxAio.C76_at_most_max",
    "Stxxl.LinuxAio.C76_references",
    "Stxxl.LinuxAio.C76_no_leak",
    "Stxxl.LinuxAio.C76_compensation_unreachable"
   ],
   "note": ""
  },
  {
   "property": "C77",
   "status": "proved",
   "theorems": [
    "Stxxl.LinuxAio.C77_cancel_can_deadlock",
    "Stxxl.LinuxAio.C77_refusal_can_deadlock",
    "Stxxl.LinuxAio.C77_shutdown_can_lose_everything",
    "Stxxl.LinuxAio.C77_every_run_ends",
    "Stxxl.LinuxAio.C77_comes_to_rest",
    "Stxxl.LinuxAio.C77_at_rest_all_done",
    "Stxxl.LinuxAio.C77_without_cancel_all_completed",
    "Stxxl.LinuxAio.C77_destructor_returns",
    "Stxxl.LinuxAio.C77_shutdown_complete_iff_not_late"
   ],
   "note": ""
  },
  {
   "property": "C78",
   "status": "proved",
   "theorems": [
    "Stxxl.LinuxAio.C78_no_error_is_ever_reported",
    "Stxxl.LinuxAio.C78_failed_transfer_unreported",
    "Stxxl.LinuxAio.C78_setup_granted",
    "Stxxl.LinuxAio.C78_setup_never_recovers",
    "Stxxl.LinuxAio.C78_setup_fails_though_smaller_possible"
   ],
   "note": ""
  },
  {
   "property": "C79",
   "status": "proved",
   "theorems": [
    "Stxxl.Config.C79_words",
    "Stxxl.Config.C79_roundtrip",
    "Stxxl.Config.C79_flag_words",
    "Stxxl.Config.C79_restricted_words",
    "Stxxl.Config.C79_number",
    "Stxxl.Config.C79_unknown_word_refused",
    "Stxxl.Config.C79_not_readable",
    "Stxxl.Config.C79_lenient",
    "Stxxl.Config.C79_reused_entry_keeps_raw"
   ],
   "note": ""
  },
  {
   "property": "C80",
   "status": "proved",
   "theorems": [
    "Stxxl.Config.C80_line",
    "Stxxl.Config.C80_pid",
    "Stxxl.Config.C80_load",
    "Stxxl.Config.C80_first_flash",
    "Stxxl.Config.C80_bad_line"
   ],
   "note": ""
  },
  {
   "property": "C81",
   "status": "proved",
   "theorems": [
    "Stxxl.Config.C81_automatic_id_fresh",
    "Stxxl.Config.C81_collisions"
   ],
   "note": ""
  },
  {
   "property": "C82",
   "status": "proved",
   "theorems": [
    "Stxxl.IoStats.C82_serial_time",
    "Stxxl.IoStats.C82_counts",
    "Stxxl.IoStats.C82_parallel_time",
    "Stxxl.IoStats.C82_relations",
    "Stxxl.IoStats.C82_parallel_time_out_of_order",
    "Stxxl.IoStats.C82_linuxaio_negative",
    "Stxxl.IoStats.C82_reset_counts_time_before",
    "Stxxl.IoStats.C82_reset_idle"
   ],
   "note": ""
  },
  {
   "property": "C83",
   "status": "proved",
   "theorems": [
    "Stxxl.Cmdline.C83_process",
    "Stxxl.Cmdline.C83_true",
    "Stxxl.Cmdline.C83_names",
    "Stxxl.Cmdline.C83_last_wins",
    "Stxxl.Cmdline.C83_list",
    "Stxxl.Cmdline.C83_untouched",
    "Stxxl.Cmdline.C83_surprises"
   ],
   "note": ""
  },
  {
   "property": "C84",
   "status": "proved",
   "theorems": [
    "Stxxl.Cmdline.C84_wrap",
    "Stxxl.Cmdline.C84_wrap_ended",
    "Stxxl.Cmdline.C84_content",
    "Stxxl.Cmdline.C84_wrap_never_ends",
    "Stxxl.Cmdline.C84_help_ends",
    "Stxxl.Cmdline.C84_help_never_ends"
   ],
   "note": ""
  },
  {
   "property": "C85",
   "status": "proved",
   "theorems": [
    "Stxxl.MwSort.C85_exact",
    "Stxxl.MwSort.C85_sampling",
    "Stxxl.MwSort.C85_exact_ties_break",
    "Stxxl.MwSort.C85_exact_not_stable",
    "Stxxl.MwSort.C85_sampling_all_equal_crashes",
    "Stxxl.MwSort.C85_sampling_small_reads_past_end"
   ],
   "note": ""
  },
  {
   "property": "C86",
   "status": "proved",
   "theorems": [
    "Stxxl.Interleave.C86_striping",
    "Stxxl.Interleave.C86_sr",
    "Stxxl.Interleave.C86_rc",
    "Stxxl.Interleave.C86_fr",
    "Stxxl.Interleave.C86_first_disk_only",
    "Stxxl.Interleave.C86_short_last_run_not_striped"
   ],
   "note": ""
  },
  {
   "property": "C87",
   "status": "proved",
   "theorems": [
    "Stxxl.BlockIndex.C87_blocked_index",
    "Stxxl.BlockIndex.C87_of_block",
    "Stxxl.BlockIndex.C87_double_blocked_index",
    "Stxxl.BlockIndex.C87_of_blocks",
    "Stxxl.BlockIndex.C87_element_iterator",
    "Stxxl.BlockIndex.C87_compare",
    "Stxxl.BlockIndex.C87_subscript_from_beginning",
    "Stxxl.BlockIndex.C87_subscript_wrong"
   ],
   "note": ""
  },
  {
   "property": "C88",
   "status": "proved",
   "theorems": [
    "Stxxl.SwapVec.C88_swap_remove_if",
    "Stxxl.SwapVec.C88_step",
    "Stxxl.SwapVec.C88_history",
    "Stxxl.SwapVec.C88_nothing_lost",
    "Stxxl.SwapVec.C88_erase_second_to_last",
    "Stxxl.SwapVec.C88_erase_removes_wrong_element",
    "Stxxl.SwapVec.C88_stale_elements",
    "Stxxl.SwapVec.C88_reserve_diverges"
   ],
   "note": ""
  },
  {
   "property": "C89",
   "status": "proved",
   "theorems": [
    "Stxxl.AlignedAlloc.C89_areas_aligned_and_disjoint",
    "Stxxl.AlignedAlloc.C89_alloc_keeps_contents",
    "Stxxl.AlignedAlloc.C89_dealloc_frees_the_block",
    "Stxxl.AlignedAlloc.C89_no_leak",
    "Stxxl.AlignedAlloc.C89_at_most_one_retry",
    "Stxxl.AlignedAlloc.C89_unused_memory_freed",
    "Stxxl.AlignedAlloc.C89_size_wraps",
    "Stxxl.AlignedAlloc.C89_realloc_failure_leaks"
   ],
   "note": ""
  },
  {
   "property": "C90",
   "status": "proved",
   "theorems": [
    "Stxxl.Singleton.C90_one_object_per_class",
    "Stxxl.Singleton.C90_no_deadlock",
    "Stxxl.Singleton.C90_destroyed_exactly_once",
    "Stxxl.Singleton.C90_destroyed_before_what_it_uses",
    "Stxxl.Singleton.C90_two_threads_wrong_order",
    "Stxxl.Singleton.C90_circle_deadlocks"
   ],
   "note": ""
  },
  {
   "property": "C91",
   "status": "proved",
   "theorems": [
    "Stxxl.MallocCount.C91_blocks",
    "Stxxl.MallocCount.C91_current",
    "Stxxl.MallocCount.C91_peak_and_total",
    "Stxxl.MallocCount.C91_startup_heap",
    "Stxxl.MallocCount.C91_concurrent_current",
    "Stxxl.MallocCount.C91_out_of_memory_undefined",
    "Stxxl.MallocCount.C91_calloc_wraps",
    "Stxxl.MallocCount.C91_startup_heap_wraps",
    "Stxxl.MallocCount.C91_startup_heap_misaligned",
    "Stxxl.MallocCount.C91_concurrent_peak_lost"
   ],
   "note": ""
  },
  {
   "property": "C92",
   "status": "proved",
   "theorems": [
    "Stxxl.Utils.C92_is_heap",
    "Stxxl.Utils.C92_is_sorted",
    "Stxxl.Utils.C92_longhash1_no_collisions",
    "Stxxl.Utils.C92_swap_arrays",
    "Stxxl.Utils.C92_round_up"
   ],
   "note": ""
  },
  {
   "property": "C93",
   "status": "proved",
   "theorems": [
    "Stxxl.Small.C93_external_shared_ptr",
    "Stxxl.Small.C93_wrappers_are_plain_data",
    "Stxxl.Small.C93_copies_unwrapped_twice"
   ],
   "note": ""
  },
  {
   "property": "C94",
   "status": "proved",
   "theorems": [
    "Stxxl.Small.C94_simple_vector",
    "Stxxl.Small.C94_simple_vector_swap",
    "Stxxl.Small.C94_resize_releases_twice"
   ],
   "note": ""
  },
  {
   "property": "C95",
   "status": "proved",
   "theorems": [
    "Stxxl.Small.C95_timer",
    "Stxxl.Small.C95_timer_misuse"
   ],
   "note": ""
  },
  {
   "property": "C96",
   "status": "proved",
   "theorems": [
    "Stxxl.SimDisk.C96_simdisk_storage",
    "Stxxl.SimDisk.C96_simdisk_limits",
    "Stxxl.SimDisk.C96_simdisk_time",
    "Stxxl.SimDisk.C96_simdisk_slow_request_hangs"
   ],
   "note": ""
  },
  {
   "property": "C97",
   "status": "proved",
   "theorems": [
    "Stxxl.SimDisk.C97_seeds",
    "Stxxl.SimDisk.C97_LOG2",
    "Stxxl.SimDisk.C97_SWITCH"
   ],
   "note": ""
  },
  {
   "property": "C98",
   "status": "proved",
   "theorems": [
    "Stxxl.Tuple.C98_comparators",
    "Stxxl.Tuple.C98_sentinels",
    "Stxxl.Tuple.C98_sentinels_of_floats",
    "Stxxl.Tuple.C98_equality",
    "Stxxl.Tuple.C98_streams"
   ],
   "note": ""
  },
  {
   "property": "C99",
   "status": "proved",
   "theorems": [
    "Stxxl.StatsData.C99_differences",
    "Stxxl.StatsData.C99_counters",
    "Stxxl.StatsData.C99_format_safe",
    "Stxxl.StatsData.C99_format_value"
   ],
   "note": ""
  },
  {
   "property": "C100",
   "status": "proved",
   "theorems": [
    "Stxxl.Handler.C100_completion_handlers_are_values",
    "Stxxl.Handler.C100_no_leak"
   ],
   "note": ""
  }
 ]
}