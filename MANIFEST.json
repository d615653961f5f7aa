{
 "claims": [
  {
   "property": "C01",
   "status": "proved",
   "theorems": [
    "Etl.Spsc.C01_linearizable",
    "Etl.Spsc.C01_fifo"
   ],
   "note": "queue_spsc_atomic under interleaving + release/acquire with stale loads."
  },
  {
   "property": "C02",
   "status": "proved",
   "theorems": [
    "Etl.Spsc.C02_no_undefined_behaviour",
    "Etl.Spsc.C02_live_objects",
    "Etl.Spsc.C02_clear_destroys_all"
   ],
   "note": "Race detector, liveness of slots; memory model is view-passing release/acquire; T's copy/move do not throw."
  },
  {
   "property": "C03",
   "status": "proved",
   "theorems": [
    "Etl.Spsc.C03_bounded",
    "Etl.Spsc.C03_push_fails_iff_full",
    "Etl.Spsc.C03_pop_fails_iff_empty",
    "Etl.Spsc.C03_queries",
    "Etl.Spsc.C03_size_exact"
   ],
   "note": "Own-side queries; size/available/capacity."
  },
  {
   "property": "C04",
   "status": "partial",
   "theorems": [
    "Etl.Bip.C04_partial",
    "Etl.Bip.C04_records",
    "Etl.Bip.C04_corrected",
    "Etl.Bip.stale_wrap_reads_old_data",
    "Etl.Bip.C04_false_without_condition",
    "Etl.Bip.optimal_reserve_overflows"
   ],
   "note": "The property as stated is false of the code: the wrapping commit does not store `last` (C04_false_without_condition exhibits the run). C04_partial proves FIFO, disjointness, no refusal, no data race under release/acquire for every history until the writer wraps with a stale `last`; C04_records proves it unconditionally for the real code when the writer uses records whose size divides the capacity; C04_corrected proves it unconditionally for the code with the missing store."
  },
  {
   "property": "C05",
   "status": "proved",
   "theorems": [
    "Etl.Pool.C05_no_ub",
    "Etl.Pool.C05_alloc_fresh",
    "Etl.Pool.C05_disjoint"
   ],
   "note": "ipool allocate/release; memory of items may be overwritten by the client."
  },
  {
   "property": "C06",
   "status": "proved",
   "theorems": [
    "Etl.Pool.C06_accounting",
    "Etl.Pool.C06_alloc_fails_iff_full",
    "Etl.Pool.C06_foreign_release",
    "Etl.Pool.C06_release_then_alloc",
    "Etl.Pool.double_release_not_detected"
   ],
   "note": "double_release_not_detected records the known gap: releasing an item twice is not detected."
  },
  {
   "property": "C07",
   "status": "proved",
   "theorems": [
    "Etl.CircularBuffer.C07_refines",
    "Etl.CircularBuffer.C07_newest",
    "Etl.CircularBuffer.C07_live_slots"
   ],
   "note": "push/push range/pop/pop(n)/clear/assign/fill and all observers."
  },
  {
   "property": "C08",
   "status": "proved",
   "theorems": [
    "Etl.CircularBuffer.C08_iterators",
    "Etl.CircularBuffer.far_negative_move_wrong"
   ],
   "note": "In-range moves; buffer_size*3 below the size_t modulus. far_negative_move_wrong: outside the range += is wrong."
  },
  {
   "property": "C09",
   "status": "proved",
   "theorems": [
    "Etl.Vector.C09_refines",
    "Etl.Vector.C09_checked_legal",
    "Etl.Vector.insert_alias_wrong",
    "Etl.Vector.C09_reserve",
    "Etl.Vector.C09_uninitialized_resize",
    "Etl.Vector.uninitialized_shrink_leaks"
   ],
   "note": "All mutating members incl. insert n/range, emplace, erase range, resize, assign. insert_alias_wrong records the self-aliasing hazard; empty-range insert/erase self-moves the tail, so T must tolerate self-move there."
  },
  {
   "property": "C10",
   "status": "proved",
   "theorems": [
    "Etl.Vector.C10_lifetimes",
    "Etl.Vector.C10_move"
   ],
   "note": "Object lifetimes with raw/live/moved-from cells."
  },
  {
   "property": "C11",
   "status": "proved",
   "theorems": [
    "Etl.Deque.C11_refines",
    "Etl.Deque.C11_lifetimes",
    "Etl.Deque.insertMove_front_broken",
    "Etl.Deque.C11_iterator_swap_same_deque",
    "Etl.Deque.swap_of_two_deques",
    "Etl.Deque.swap_of_two_deques_reads"
   ],
   "note": "insert(T&&) in the front half is a proved defect of the code (insertMove_front_broken) and excluded by Legal; no-op range insert/erase in the middle needs a self-move-safe T"
  },
  {
   "property": "C12",
   "status": "proved",
   "theorems": [
    "Etl.DList.C12_list_refines",
    "Etl.DList.C12_list_from_fresh",
    "Etl.DList.C12_sort_is_stable"
   ],
   "note": "Two lists with their own pools, any capacity/options, any legal history incl. splice, merge, sort, reverse, unique, moves. Findings: splice_rvalue_reverses, selfsplice_empty_range_broken. Shared pools are not modelled."
  },
  {
   "property": "C13",
   "status": "proved",
   "theorems": [
    "Etl.FList.C13_forward_list_refines",
    "Etl.FList.C13_forward_list_from_fresh",
    "Etl.FList.C13_sort_is_stable",
    "Etl.FList.C13_equal"
   ],
   "note": "Refinement of histories over two forward_lists with their own pools (assign, resize, push/pop, insert_after x3, erase_after x2, move_after x2, remove_if, unique, reverse, sort, copy, move). Preconditions are explicit in Legal/Legal2; findings move_after_itself_loses, move_empty_range_broken, insert_n_full, remove_own_element_dead. Not modelled: a pool shared between lists, merge (does not exist), throwing element operations."
  },
  {
   "property": "C14",
   "status": "proved",
   "theorems": [
    "Etl.IList.C14_intrusive_list_refines",
    "Etl.IList.C14_removed_nodes_unreachable",
    "Etl.IList.spliceRange_broken",
    "Etl.IList.spliceOne_before_self_broken",
    "Etl.IList.assign_leaves_old_linked"
   ],
   "note": "Any number of lists over one heap of nodes. The three *_broken / assign_* theorems show the code corrupting lists on inputs outside the stated preconditions."
  },
  {
   "property": "C15",
   "status": "proved",
   "theorems": [
    "Etl.Tree.C15_step",
    "Etl.Tree.C15_history",
    "Etl.Tree.C15_sorted",
    "Etl.Tree.C15_move"
   ],
   "note": "map and set; node-level model of the AVL tree with the pool. Findings: insert_existing_when_full, set_move_loses_elements"
  },
  {
   "property": "C16",
   "status": "proved",
   "theorems": [
    "Etl.Tree.C16_balanced",
    "Etl.Tree.C16_search_steps",
    "Etl.MTree.C16_balanced_multi",
    "Etl.MTree.C16_search_steps_multi"
   ],
   "note": "AVL balance and logarithmic height for all four containers and every history; search order and steps of a search for map and set, and for multimap and multiset as long as they are ordered (C62)"
  },
  {
   "property": "C17",
   "status": "proved",
   "theorems": [
    "Etl.UMap.C17_unordered_map",
    "Etl.UMap.C17_buckets"
   ],
   "note": "Sequential model of buckets, node pool and markers; Spec in terms of key comparison only. insert of an existing key returns end() / full (findings)."
  },
  {
   "property": "C18",
   "status": "proved",
   "theorems": [
    "Etl.Flat.C18_refines",
    "Etl.Flat.C18_copy",
    "Etl.Flat.C18_move"
   ],
   "note": "One model for set/map (and the multi containers), any strict weak order, any capacity, any legal call sequence. Legal: iterators valid; operator [] only on the map; elements keep their key. Findings: emplace_existing_differs, assign_duplicates_refused; the const equal_range of the sets does not compile (reference_flat_set.h l.770). Transparent comparators not modelled separately."
  },
  {
   "property": "C19",
   "status": "proved",
   "theorems": [
    "Etl.PriorityQueue.C19_priority_queue",
    "Etl.PriorityQueue.C19_drain",
    "Etl.PriorityQueue.C19_move"
   ],
   "note": "Every legal history over any strict weak order; multiset specification. Finding: pop() on an empty queue is undefined although documented as safe (pop_empty_undefined)."
  },
  {
   "property": "C20",
   "status": "proved",
   "theorems": [
    "Etl.Algo.C20_shell_sort",
    "Etl.Algo.C20_insertion_sort",
    "Etl.Algo.C20_selection_sort",
    "Etl.Algo.C20_heap_sort",
    "Etl.Algo.C20_sort_heap"
   ],
   "note": "All lengths, contents and strict weak orders; insertion sort for every iterator kind via the rotate proofs. Finding: selection_sort of an empty range reads out of bounds."
  },
  {
   "property": "C21",
   "status": "proved",
   "theorems": [
    "Etl.Algo.C21_bounds_safe",
    "Etl.Algo.C21_lower_bound",
    "Etl.Algo.C21_upper_bound",
    "Etl.Algo.C21_equal_range",
    "Etl.Algo.C21_binary_search",
    "Etl.Algo.C21_binary_find"
   ],
   "note": "Heterogeneous comparators; in-range accesses for every predicate."
  },
  {
   "property": "C22",
   "status": "proved",
   "theorems": [
    "Etl.Base64.C22_encode",
    "Etl.Base64.C22_encode_overflow",
    "Etl.Base64.C22_encoded_size",
    "Etl.Base64.C22_decode",
    "Etl.Base64.C22_round_trip",
    "Etl.Base64.C22_decoded_size",
    "Etl.Base64.charset1_ok",
    "Etl.Base64.charset2_ok",
    "Etl.Base64.charset3_ok",
    "Etl.Base64.encoder_restart_keeps_overflow",
    "Etl.Base64.C22_decoder_restart",
    "Etl.Base64.C22_encoder_restart_partial"
   ],
   "note": "RFC 4648 spec stated on the bit stream; any split into calls; with callback the buffer must be a multiple of 4 (encoder, static_assert) or 3 (decoder; not checked by the code, see decoder_callback_size_unchecked)."
  },
  {
   "property": "C23",
   "status": "proved",
   "theorems": [
    "Etl.Crc.C23_crc",
    "Etl.Crc.C23_range",
    "Etl.Crc.C23_crc1",
    "Etl.Crc.C23_published"
   ],
   "note": "any polynomial/init/xor/reflection, widths 8/16/32/64, tables of 4/16/256, any history"
  },
  {
   "property": "C24",
   "status": "proved",
   "theorems": [
    "Etl.BitStream.C24_round_trip",
    "Etl.BitStream.C24_refused",
    "Etl.BitStream.C24_layout",
    "Etl.BitStream.C24_reader_safe",
    "Etl.BitStream.C24_reader_skip",
    "Etl.BitStream.value_nat",
    "Etl.BitStream.value_int",
    "Etl.BitStream.writer_skip_unaligned_wraps",
    "Etl.BitStream.writer_skip_unaligned_wrong",
    "Etl.BitStream.write_after_skip_mixes",
    "Etl.BitStream.empty_wrong",
    "Etl.BitStream.callback_full_out_of_bounds",
    "Etl.BitStream.flush_nothing_sends",
    "Etl.BitStream.write_zero_bits_undefined",
    "Etl.BitStream.C24_sizes"
   ],
   "note": "writer without callback (with one: finding callback_full_out_of_bounds); the writer's skip is broken inside a byte (findings)"
  },
  {
   "property": "C25",
   "status": "proved",
   "theorems": [
    "Etl.ByteStream.C25_round_trip",
    "Etl.ByteStream.C25_refused",
    "Etl.ByteStream.C25_layout",
    "Etl.ByteStream.C25_callback_partial",
    "Etl.ByteStream.bool_without_callback"
   ],
   "note": "C25_callback_partial is an extra claim on the callback, without bools"
  },
  {
   "property": "C26",
   "status": "partial",
   "theorems": [
    "Etl.Bitset.C26_histories_partial",
    "Etl.Bitset.C26_full_elements",
    "Etl.Bitset.flip_leaks",
    "Etl.Bitset.shift_and_number_leak",
    "Etl.Bitset.shift_by_width_undefined",
    "Etl.Bitset.find_next_64_undefined",
    "Etl.Bitset.empty_text_undefined",
    "Etl.Bitset.C26_extract",
    "Etl.Bitset.extract_empty_signed_undefined",
    "Etl.Bitset.C26_to_number",
    "Etl.Bitset.to_number_leaks"
   ],
   "note": "The property as stated is false of the code (unused top bits leak after flip, ~, << and the constructor from a number; some shifts and find_next calls are undefined): the counterexamples are theorems. Proved: agreement with ideal vectors for all histories of several bitsets, of any N and 8/16/32/64 bit elements, for the active bits always and for count/any/none/==/value/>> when the unused bits cannot be set; everything when N is a multiple of the element width (modulo undefined shifts)."
  },
  {
   "property": "C27",
   "status": "proved",
   "theorems": [
    "Etl.Binary.C27_rotate",
    "Etl.Binary.C27_gray",
    "Etl.Binary.C27_reverse_bits",
    "Etl.Binary.C27_reverse_bytes",
    "Etl.Binary.C27_reverse_involutive",
    "Etl.Binary.C27_interleave",
    "Etl.Binary.C27_count_bits",
    "Etl.Binary.C27_parity",
    "Etl.Binary.C27_fold_bits",
    "Etl.Binary.C27_sign_extend",
    "Etl.Binary.C27_masks",
    "Etl.Binary.C27_merge",
    "Etl.Binary.C27_odd_even",
    "Etl.Binary.C27_has_byte",
    "Etl.Binary.C27_first_bit"
   ],
   "note": "All unsigned words, widths 8..64 (rotate, masks: any width). Signed overloads of rotate/gray are wrong in the source: rotate_signed_wrong, gray_signed_wrong."
  },
  {
   "property": "C28",
   "status": "proved",
   "theorems": [
    "Etl.Timer.C28_callback_timer_meets_specification",
    "Etl.Timer.C28_fires_in_deadline_order",
    "Etl.Timer.C28_no_drift",
    "Etl.Timer.C28_ticks_can_be_divided",
    "Etl.Timer.C28_tick_returns"
   ],
   "note": "All histories of calls from the constructor, callbacks may call the timer. Findings: period_zero_never_returns (a repeating timer of period 0 makes tick loop), timers with equal deadlines fire in reverse start order. message_timer: see C66."
  },
  {
   "property": "C29",
   "status": "proved",
   "theorems": [
    "Etl.Timer.C29_calls_meet_specification",
    "Etl.Timer.C29_register_id",
    "Etl.Timer.C29_others_unaffected",
    "Etl.Timer.C29_stopped_never_fires",
    "Etl.Timer.C29_time_to_next"
   ],
   "note": "Ids passed in are slots or NO_TIMER; finding other_ids_out_of_bounds."
  },
  {
   "property": "C30",
   "status": "proved",
   "theorems": [
    "Etl.Scheduler.C30_add",
    "Etl.Scheduler.C30_single",
    "Etl.Scheduler.C30_single_fair",
    "Etl.Scheduler.C30_multiple",
    "Etl.Scheduler.C30_multiple_drains",
    "Etl.Scheduler.C30_highest",
    "Etl.Scheduler.C30_most_work",
    "Etl.Scheduler.C30_start",
    "Etl.Scheduler.ordered_unique"
   ],
   "note": "tasks do not add tasks while running"
  },
  {
   "property": "C31",
   "status": "proved",
   "theorems": [
    "Etl.Fsm.C31_receive",
    "Etl.Fsm.C31_not_started",
    "Etl.Fsm.C31_history",
    "Etl.Fsm.C31_start"
   ],
   "note": "receive refines the rules; every history replays; findings: start_redirect_skips_exit, last_state_unreachable"
  },
  {
   "property": "C32",
   "status": "proved",
   "theorems": [
    "Etl.Fsm.C32_receive",
    "Etl.Fsm.C32_start",
    "Etl.Fsm.C32_reset",
    "Etl.Fsm.C32_history"
   ],
   "note": "exits and entries of every transition; whole histories nest. Findings: transition_to_ancestor_reenters, self_transition_not_supported"
  },
  {
   "property": "C33",
   "status": "proved",
   "theorems": [
    "Etl.StateChart.C33_process",
    "Etl.StateChart.C33_total",
    "Etl.StateChart.C33_first",
    "Etl.StateChart.C33_start",
    "Etl.StateChart.C33_not_started",
    "Etl.StateChart.C33_history"
   ],
   "note": "for tables of fewer than 256 entries; finding: table_of_256_ignored"
  },
  {
   "property": "C34",
   "status": "proved",
   "theorems": [
    "Etl.Router.C34_static_dispatch",
    "Etl.Router.C34_chain",
    "Etl.Router.C34_exactly_once",
    "Etl.Router.C34_accepts",
    "Etl.Router.C34_addressed",
    "Etl.Router.C34_append_successor",
    "Etl.Router.C34_clear_chain"
   ],
   "note": "Chains of routers, null routers and producers of any length; message types are modelled by their ids; successor graphs are assumed acyclic."
  },
  {
   "property": "C35",
   "status": "proved",
   "theorems": [
    "Etl.Router.C35_subscriptions",
    "Etl.Router.C35_addressed",
    "Etl.Router.C35_broadcast",
    "Etl.Router.C35_accepts",
    "Etl.Router.C35_total"
   ],
   "note": "Networks of buses, nested buses, routers and successors of any shape without cycles. Messages addressed to the reserved id MESSAGE_BUS are excluded: finding addressed_to_bus_id_twice."
  },
  {
   "property": "C36",
   "status": "proved",
   "theorems": [
    "Etl.SharedMsg.C36_safe",
    "Etl.SharedMsg.C36_owned_alive",
    "Etl.SharedMsg.C36_released_once",
    "Etl.SharedMsg.C36_no_leak",
    "Etl.SharedMsg.C36_valid"
   ],
   "note": "Any number of threads and handles, all interleavings of the atomic counter steps; handles without a message are excluded as sources of copies and targets of assignment (findings copy_of_moved_from_undefined, assign_to_moved_from_undefined, wrap_of_shared_broken)."
  },
  {
   "property": "C37",
   "status": "proved",
   "theorems": [
    "Etl.Str.C37_history",
    "Etl.Str.C37_errors",
    "Etl.Str.C37_exact",
    "Etl.Str.C37_substr",
    "Etl.Str.C37_copy",
    "Etl.Str.C37_compare",
    "Etl.Str.C37_find",
    "Etl.Str.C37_rfind",
    "Etl.Str.C37_trim",
    "Etl.Str.C37_c_str",
    "Etl.Str.C37_assign_part",
    "Etl.Str.C37_uninitialized_resize",
    "Etl.Str.C37_fill",
    "Etl.Str.C37_initialize_free_space",
    "Etl.Str.C37_compare_part_view",
    "Etl.Str.C37_resize_and_overwrite",
    "Etl.Str.C37_finding_resize_and_overwrite",
    "Etl.Str.C37_history_all",
    "Etl.Str.C37_find_first",
    "Etl.Str.C37_find_last",
    "Etl.Str.C37_find_char",
    "Etl.Str.C37_rfind_char_partial",
    "Etl.Str.C37_starts_ends",
    "Etl.Str.C37_contains",
    "Etl.Str.C37_finding_starts_with_stale",
    "Etl.Str.C37_finding_starts_with_overread",
    "Etl.Str.C37_finding_rfind_char"
   ],
   "note": "every operation on sources outside the string (aliasing: insert_self_wrong); find for non empty texts and positions up to the size; rfind has its own meaning of the position (rfind_position_differs)"
  },
  {
   "property": "C38",
   "status": "proved",
   "theorems": [
    "Etl.Arith.C38_value",
    "Etl.Arith.C38_errors"
   ],
   "note": "Texts of char (codes below 256), integer types of 8 to 64 bits; floating point not modelled. In bases 2, 8 and 16 numbers without a sign are read as bit patterns. Finding: wide_character_accepted."
  },
  {
   "property": "C39",
   "status": "partial",
   "theorems": [
    "Etl.Arith.C39_text",
    "Etl.Arith.C39_round_trip_partial"
   ],
   "note": "Round trip for base 10 and, for non-negative numbers, bases 2, 8 and 16. The full statement is false of the code for negative numbers in bases other than 10 (negative_hex_wrong), with show_base (show_base_not_read) and for long long where int64_t is long (other_long_long_truncated). Floating point not modelled."
  },
  {
   "property": "C40",
   "status": "proved",
   "theorems": [
    "Etl.Cyclic.C40_cyclic_value_refines",
    "Etl.Cyclic.C40_advance_mod",
    "Etl.Cyclic.C40_constructed"
   ],
   "note": "Every history on a pair of objects, any integer type range. advance(INT_MIN) negates INT_MIN (advance_min_overflows), excluded by Legal."
  },
  {
   "property": "C41",
   "status": "proved",
   "theorems": [
    "Etl.Debounce.C41_debounce_refines",
    "Etl.Debounce.C41_responsive",
    "Etl.Debounce.C41_no_glitch"
   ],
   "note": "All four class templates, every sample sequence and 16 bit configuration."
  },
  {
   "property": "C42",
   "status": "proved",
   "theorems": [
    "Etl.Queue.C42_queue_refines",
    "Etl.Queue.C42_queue_fifo",
    "Etl.Queue.C42_queue_destroy",
    "Etl.Stack.C42_stack_refines",
    "Etl.Stack.C42_stack_lifo",
    "Etl.Stack.C42_stack_destroy"
   ],
   "note": "Any number of queues/stacks of one capacity, any precondition-respecting history including copies, moves, pop_into and reverse. Findings: clone_other_capacity_broken (iqueue::operator= between capacities), push_full_unchecked_undefined."
  },
  {
   "property": "C43",
   "status": "proved",
   "theorems": [
    "Etl.Observer.C43_notify",
    "Etl.Observer.C43_notify_toggling",
    "Etl.Observer.C43_results",
    "Etl.Observer.C43_added_is_called",
    "Etl.Observer.C43_removed_not_called"
   ],
   "note": "All histories of add/remove/enable/disable/clear; callbacks that leave the observable alone or toggle observers. Findings: remove_in_callback_skips, clear_in_callback_undefined."
  },
  {
   "property": "C44",
   "status": "proved",
   "theorems": [
    "Etl.Locked.C44_linearizable",
    "Etl.Locked.C44_lock_released",
    "Etl.Locked.throwing_push_keeps_lock",
    "Etl.Locked.front_reference_dies",
    "Etl.Locked.front_of_empty",
    "Etl.Locked.C44_throw_in_interrupt"
   ],
   "note": "One model for the three queues (same implementation functions): any number of threads plus an interrupt, one micro-step per shared access. Hypotheses: element constructors do not throw (otherwise the lock is never released: throwing_push_keeps_lock) and references returned by front() are not used after the call (front_reference_dies)."
  },
  {
   "property": "C45",
   "status": "proved",
   "theorems": [
    "Etl.Bloom.C45_no_false_negatives",
    "Etl.Bloom.C45_exact"
   ],
   "note": "On top of the bitset and fold_bits models; 64 bit size_t, width < 2^64."
  },
  {
   "property": "C46",
   "status": "proved",
   "theorems": [
    "Etl.Maths.C46_gcd_unsigned",
    "Etl.Maths.C46_gcd_signed",
    "Etl.Maths.C46_gcd_many",
    "Etl.Maths.C46_gcd_rec",
    "Etl.Maths.C46_lcm_unsigned",
    "Etl.Maths.C46_lcm_signed",
    "Etl.Maths.C46_lcm_many",
    "Etl.Maths.C46_sqrt",
    "Etl.Maths.C46_log",
    "Etl.Maths.C46_power",
    "Etl.Maths.C46_round_up",
    "Etl.Maths.C46_round_down",
    "Etl.Maths.C46_is_power_of_2",
    "Etl.Maths.C46_factorial",
    "Etl.Maths.C46_fibonacci"
   ],
   "note": "Within the range of the result type. power_of_2_round_down gives half of an exact power (round_down_of_power_is_half), is_power_of_2<1> is false."
  },
  {
   "property": "C47",
   "status": "proved",
   "theorems": [
    "Etl.SumT.C47_variant",
    "Etl.SumT.C47_optional",
    "Etl.SumT.C47_expected"
   ],
   "note": "Programs over any number of objects; a legal program names existing objects and supported types and does not pass an object a reference to its own content (findings optional_own_value_undefined, variant_own_value_undefined show why). Constructors that throw are outside the theorem (finding throw_destroys_twice); copy of a non-copyable alternative (copy_of_noncopyable_undefined), rvalue get (get_rvalue_unchecked) and expected<T,T> with unexpect (unexpect_of_same_type_is_value) are defects. optional::value without a value signals an error in debug builds only. expected<void,E> and visitors not modelled."
  },
  {
   "property": "C48",
   "status": "proved",
   "theorems": [
    "Etl.View.C48_slices",
    "Etl.View.C48_access",
    "Etl.View.C48_copy",
    "Etl.View.C48_compare",
    "Etl.View.C48_compare_text",
    "Etl.View.C48_starts_ends",
    "Etl.View.C48_find",
    "Etl.View.C48_contains",
    "Etl.View.C48_find_first",
    "Etl.View.C48_find_last",
    "Etl.View.C48_span_equal",
    "Etl.View.C48_rfind_partial"
   ],
   "note": "Chains of first/last/subspan/remove_prefix/remove_suffix within the size of the view they are applied to (their C++ precondition; ETL does not check it: first_unchecked) and of substr with any arguments; find with position <= size() (find_position_unchecked shows the precondition is needed). rfind is outside of the property; Etl.View.C48_rfind_partial covers it without a position, rfind_not_found_wrong and rfind_position_wrong show that it is wrong with one. fixed_span_ignores_size, find_empty_at_end are findings."
  },
  {
   "property": "C49",
   "status": "proved",
   "theorems": [
    "Etl.Algo.C49_find",
    "Etl.Algo.C49_quantifiers",
    "Etl.Algo.C49_partition_point",
    "Etl.Algo.C49_count",
    "Etl.Algo.C49_equal",
    "Etl.Algo.C49_lexicographical_compare",
    "Etl.Algo.C49_search",
    "Etl.Algo.C49_find_end",
    "Etl.Algo.C49_extrema",
    "Etl.Algo.C49_is_sorted_until",
    "Etl.Algo.C49_is_sorted",
    "Etl.Algo.C49_is_permutation",
    "Etl.Algo.C49_is_partitioned",
    "Etl.Algo.C49_partition_transform",
    "Etl.Algo.C49_transform_if",
    "Etl.Algo.C49_accumulate",
    "Etl.Algo.C49_clamp",
    "Etl.Algo.C49_copy_s",
    "Etl.Algo.C49_copy_s_random",
    "Etl.Algo.C49_copy_if_s",
    "Etl.Algo.C49_remove_if",
    "Etl.Algo.C49_partition_forward",
    "Etl.Algo.C49_partition",
    "Etl.Algo.C49_nth_element",
    "Etl.Algo.C49_rotate",
    "Etl.Algo.C49_reverse"
   ],
   "note": "Non-STL configuration. Findings: max_element returns the last maximum and minmax_element the first (std: opposite); four-iterator is_permutation ignores lengths; the predicate overloads of is_permutation count with ==; rotate with empty left block returns first; C++03 three-argument nth_element drops nth."
  },
  {
   "property": "C50",
   "status": "proved",
   "theorems": [
    "Etl.Hash.C50_checksums",
    "Etl.Hash.C50_fnv",
    "Etl.Hash.C50_jenkins",
    "Etl.Hash.C50_murmur32",
    "Etl.Hash.C50_murmur64"
   ],
   "note": "murmur3 over signed char ranges differs: murmur_signed_char_wrong"
  },
  {
   "property": "C51",
   "status": "partial",
   "theorems": [
    "Etl.Binary.C51_count_trailing_zeros",
    "Etl.Binary.C51_count_trailing_ones_partial",
    "Etl.Binary.C51_count_trailing_ones64_partial",
    "Etl.Binary.C51_count_leading_zeros_partial",
    "Etl.Binary.C51_count_leading_zeros64_partial",
    "Etl.Binary.C51_count_leading_ones_partial",
    "Etl.Binary.C51_count_leading_ones32_partial",
    "Etl.Binary.count_trailing_ones64_wrong",
    "Etl.Binary.count_leading_zeros64_wrong",
    "Etl.Binary.count_leading_ones_wrong"
   ],
   "note": "The claim is false of the code for some 32/64 bit words (wrong masks/shift distances in binary.h): proved for every width/value where it holds, counterexample theorems for the rest."
  },
  {
   "property": "C52",
   "status": "proved",
   "theorems": [
    "Etl.Crc.C52_burst_detected",
    "Etl.Crc.C52_all_polynomials_odd"
   ],
   "note": ""
  },
  {
   "property": "C53",
   "status": "proved",
   "theorems": [
    "Etl.Crc.C53_residue"
   ],
   "note": ""
  },
  {
   "property": "C54",
   "status": "partial",
   "theorems": [
    "Etl.Hash.C54_pearson_partial",
    "Etl.Hash.C54_table_permutation",
    "Etl.Hash.pearson_reset_wrong"
   ],
   "note": "proved for all histories without reset; the source's reset() does not restore the initial state (counterexample theorem)"
  },
  {
   "property": "C55",
   "status": "proved",
   "theorems": [
    "Etl.Base64.C55_decode",
    "Etl.Base64.decoder_callback_size_unchecked",
    "Etl.Base64.lone_character_accepted"
   ],
   "note": "Exact acceptance; a single left-over character is not examined by the code, which the specification Valid states."
  },
  {
   "property": "C56",
   "status": "proved",
   "theorems": [
    "Etl.Flat.C56_stable",
    "Etl.Flat.C56_erase",
    "Etl.Flat.C18_refines"
   ],
   "note": "C18_refines with multi = true gives the results of every call, count, equal_range and the full error."
  },
  {
   "property": "C57",
   "status": "proved",
   "theorems": [
    "Etl.UMap.C57_unordered_set",
    "Etl.UMap.C57_buckets"
   ],
   "note": ""
  },
  {
   "property": "C58",
   "status": "proved",
   "theorems": [
    "Etl.UMap.C58_unordered_multimap",
    "Etl.UMap.C58_unordered_multiset",
    "Etl.UMap.C58_multimap_buckets",
    "Etl.UMap.C58_multiset_buckets"
   ],
   "note": ""
  },
  {
   "property": "C59",
   "status": "partial",
   "theorems": [
    "Etl.UMap.C59_erase_range_partial"
   ],
   "note": "False as stated: Etl.UMap.stale_marker_runs_off, stale_marker_keeps_element, advanced_end_runs_off are counterexamples. Proved for a last that is an element, for the whole container, and for every range when nothing was erased since construction/clear."
  },
  {
   "property": "C60",
   "status": "proved",
   "theorems": [
    "Etl.Str.C60_secure",
    "Etl.Str.C60_assign",
    "Etl.Str.C60_finding_uninitialized_resize",
    "Etl.Str.C60_secure_all"
   ],
   "note": "set_secure alone does not wipe: set_secure_keeps_old; uninitialized_resize, which by its contract does not touch the memory, is outside: it leaves what it drops (C60_finding_uninitialized_resize)"
  },
  {
   "property": "C61",
   "status": "proved",
   "theorems": [
    "Etl.Arith.C61_denominated"
   ],
   "note": "Without show_base and upper_case flags; the findings denominated_wraps and denominated_half_wraps show that the no-overflow hypotheses are needed."
  },
  {
   "property": "C62",
   "status": "proved",
   "theorems": [
    "Etl.MTree.C62_step",
    "Etl.MTree.C62_history",
    "Etl.MTree.C62_any",
    "Etl.MTree.C62_any_history",
    "Etl.MTree.C62_sorted",
    "Etl.MTree.C62_stable",
    "Etl.MTree.C62_move"
   ],
   "note": "node-level model with parent pointers and the pool. Order after erase(iterator) only when no equivalent element comes before it: otherwise false of the code, findings erase_iterator_breaks_order, erase_key_removes_other"
  },
  {
   "property": "C63",
   "status": "proved",
   "theorems": [
    "Etl.IFList.C63_intrusive_forward_list_refines",
    "Etl.IFList.C63_removed_nodes_unreachable",
    "Etl.IFList.C63_sort_stable"
   ],
   "note": "All operations except single-element splice_after, which cannot be compiled (etl::unlink does not exist for forward_link). splice_after of an empty open range is excluded by the legality condition: it corrupts the lists (spliceRange_empty_broken)."
  },
  {
   "property": "C64",
   "status": "proved",
   "theorems": [
    "Etl.TimerIsr.C64_calls_and_ticks_linearizable",
    "Etl.TimerIsr.C64_fires_in_deadline_order",
    "Etl.TimerIsr.C64_tick_answer",
    "Etl.TimerIsr.C64_stopped_never_fires",
    "Etl.TimerIsr.C64_repeating_timers_are_safe",
    "Etl.TimerIsr.C64_tick_returns",
    "Etl.TimerIsr.C64_call_returns"
   ],
   "note": "Hypothesis Clean is necessary: without it stop/unregister_timer/set_period/set_mode write timer_array[255] (finding stop_races_with_tick, in all three files). Callbacks make no calls on the timer here (see C65)."
  },
  {
   "property": "C65",
   "status": "proved",
   "theorems": [
    "Etl.TimerIsr.C65_callbacks_may_use_other_timers"
   ],
   "note": "A callback that uses its own timer misbehaves in these files (findings unregister_self_out_of_bounds, stop_self_is_ignored, start_self_corrupts_list)."
  },
  {
   "property": "C66",
   "status": "proved",
   "theorems": [
    "Etl.MsgTimer.C66_message_timer_does",
    "Etl.MsgTimer.C66_stop_before_unregister",
    "Etl.MsgTimer.C66_no_deadline_missed"
   ],
   "note": "Finding unregister_running_fires_early: unregister_timer passes has_expired = true to remove, so the time of the removed timer is lost. In the last three files receivers must leave their own timer alone (as in C65). Concurrency of ticks: as in C64, not repeated here."
  },
  {
   "property": "C67",
   "status": "proved",
   "theorems": [
    "Etl.Broker.C67_broker_does",
    "Etl.Broker.C67_each_subscriber_once"
   ],
   "note": "Findings self_unsubscribe_cuts_delivery, self_replace_cuts_delivery, clear_does_not_stop_delivery: what happens outside the contract."
  },
  {
   "property": "C68",
   "status": "proved",
   "theorems": [
    "Etl.BufDesc.C68_exclusive_in_order",
    "Etl.BufDesc.C68_safe",
    "Etl.BufDesc.C68_wait_free"
   ],
   "note": "Flag accesses are taken as indivisible and sequentially consistent (TFlag an atomic type). Finding second_release_shares_buffer (outside the contract)."
  },
  {
   "property": "C69",
   "status": "proved",
   "theorems": [
    "Etl.IStackQ.C69_stacks_and_queues"
   ],
   "note": "Findings pop_into_empty_pushes_terminator (without exceptions pop_into of an empty stack pushes the stack's terminator), queue_pop_keeps_stale_back."
  },
  {
   "property": "C70",
   "status": "partial",
   "theorems": [
    "Etl.Line.C70_line_partial"
   ],
   "note": "Missing: lines at exactly 45 degrees, of which the claim is false: diagonal_never_ends proves that iterating any of them never ends, in every wrapping coordinate type; and iterations after an abandoned one (restart_runs_past_the_end: begin() does not reset the balance). Also second_iteration_differs: a second iteration may visit other points than the first. With a work type other than int16_t the iterators do not compile."
  },
  {
   "property": "C71",
   "status": "proved",
   "theorems": [
    "Etl.PVec.C71_refines",
    "Etl.PVec.C71_assign"
   ],
   "note": "resize(n) without a value is outside the claim: resize_exposes_stale_pointers. Also assign_overruns_without_throw and emplace_overruns_without_throw (builds where a failed check does not throw)."
  },
  {
   "property": "C72",
   "status": "proved",
   "theorems": [
    "Etl.IVec.C72_indirect_vectors",
    "Etl.IVec.C72_addresses_stable"
   ],
   "note": "Preconditions: calls that add several elements need as many free pool items (failed_insert_leaves_null), and the pool may exceed the lookup only where that is checked (shared_pool_overrun, full_emplace_leaks). The iterator returned by erase(first, last) is not covered: erase_range_returns_last shows it is not that of the following element."
  },
  {
   "property": "C73",
   "status": "proved",
   "theorems": [
    "Etl.StrUtil.C73_strings",
    "Etl.StrUtil.C73_replace_strings",
    "Etl.StrUtil.C73_views",
    "Etl.StrUtil.C73_tokens",
    "Etl.StrUtil.C73_pieces_join",
    "Etl.StrUtil.C73_find_first",
    "Etl.StrUtil.C73_find_last"
   ],
   "note": "Preconditions found: to_sentence_case needs a non-empty string (sentence_of_empty_runs_away), replace_strings needs non-empty search texts (replace_of_empty_never_ends), left_n_view a non-null view."
  },
  {
   "property": "C74",
   "status": "proved",
   "theorems": [
    "Etl.BitStream.Legacy.C74_round_trip",
    "Etl.BitStream.Legacy.C74_layout",
    "Etl.BitStream.Legacy.C74_any_history",
    "Etl.BitStream.Legacy.C74_null"
   ],
   "note": "Preconditions found: a signed type of 32 or 64 bits must not be read with one bit less than its width (sign_extend_overflows). Findings: failed_get_changes_variable, failed_put_uses_the_room, put_after_get_mixes."
  },
  {
   "property": "C75",
   "status": "proved",
   "theorems": [
    "Etl.Random.C75_range",
    "Etl.Random.C75_xorshift_never_dies",
    "Etl.Random.C75_xorshift_periodic",
    "Etl.Random.C75_pcg_full_period",
    "Etl.Random.C75_mwc",
    "Etl.Random.C75_lcg",
    "Etl.Random.C75_clcg",
    "Etl.Random.C75_pcg_output",
    "Etl.Random.C75_xorshift_recurrence",
    "Etl.Random.C75_mwc_output",
    "Etl.Random.C75_hash",
    "Etl.Random.hash_seed_mod_256",
    "Etl.Random.hash_reseed"
   ],
   "note": "Findings: range_of_everything_divides_by_zero, lsfr_is_even, lsfr_dies, lcg_overflows, lcg_dies, mwc_dies."
  },
  {
   "property": "C76",
   "status": "proved",
   "theorems": [
    "Etl.MultiRange.C76_all_combinations",
    "Etl.MultiRange.C76_empty",
    "Etl.MultiRange.C76_append",
    "Etl.MultiRange.C76_insert",
    "Etl.MultiRange.C76_detach",
    "Etl.MultiRange.C76_finding_empty_inner",
    "Etl.MultiRange.C76_finding_insert_loop"
   ],
   "note": "Findings: C76_finding_empty_inner, C76_finding_insert_loop."
  },
  {
   "property": "C77",
   "status": "proved",
   "theorems": [
    "Etl.BlockAlloc.C77_allocate",
    "Etl.BlockAlloc.C77_allocate_null",
    "Etl.BlockAlloc.C77_release",
    "Etl.BlockAlloc.C77_apart",
    "Etl.BlockAlloc.C77_write",
    "Etl.BlockAlloc.C77_set_successor",
    "Etl.BlockAlloc.C77_append_successor",
    "Etl.BlockAlloc.C77_clear",
    "Etl.BlockAlloc.C77_finding_append_loop"
   ],
   "note": "Finding: C77_finding_append_loop."
  },
  {
   "property": "C78",
   "status": "proved",
   "theorems": [
    "Etl.Memory.C78_no_ub",
    "Etl.Memory.C78_one_owner",
    "Etl.Memory.C78_no_leak",
    "Etl.Memory.C78_calls",
    "Etl.Memory.C78_calls_two",
    "Etl.Memory.C78_finding_swap"
   ],
   "note": "Finding: C78_finding_swap (swap leaves the deleters)."
  },
  {
   "property": "C79",
   "status": "proved",
   "theorems": [
    "Etl.Memory.C79_fill",
    "Etl.Memory.C79_copy",
    "Etl.Memory.C79_destroy",
    "Etl.Memory.C79_balanced",
    "Etl.Memory.C79_memory_set",
    "Etl.Memory.C79_finding_count_lost",
    "Etl.Memory.C79_finding_mem_compare"
   ],
   "note": "Findings: C79_finding_count_lost, C79_finding_mem_compare."
  },
  {
   "property": "C80",
   "status": "proved",
   "theorems": [
    "Etl.Arr.C80_insert",
    "Etl.Arr.C80_insert_range",
    "Etl.Arr.C80_erase",
    "Etl.Arr.C80_erase_range",
    "Etl.Arr.C80_erase_range_copies",
    "Etl.Arr.C80_erase_fill",
    "Etl.Arr.C80_erase_range_fill",
    "Etl.Arr.C80_fill",
    "Etl.Arr.C80_assign",
    "Etl.Arr.C80_assign_fill",
    "Etl.Arr.C80_swap",
    "Etl.Arr.C80_finding_alias",
    "Etl.Arr.C80_finding_self_move",
    "Etl.Arr.C80_finding_insert_end"
   ],
   "note": "Findings: C80_finding_alias, C80_finding_self_move, C80_finding_insert_end."
  },
  {
   "property": "C81",
   "status": "proved",
   "theorems": [
    "Etl.CircIter.C81_position",
    "Etl.CircIter.C81_deref",
    "Etl.CircIter.C81_inverse",
    "Etl.CircIter.C81_finding_least"
   ],
   "note": "Finding: C81_finding_least."
  },
  {
   "property": "C82",
   "status": "proved",
   "theorems": [
    "Etl.Histogram.C82_counts",
    "Etl.Histogram.C82_count",
    "Etl.Histogram.C82_sparse",
    "Etl.Histogram.C82_sparse_full",
    "Etl.Histogram.C82_finding_sparse_end",
    "Etl.Histogram.C82_finding_copy",
    "Etl.Histogram.C82_finding_sparse_count"
   ],
   "note": "Findings: C82_finding_sparse_end (end() is begin()), C82_finding_copy (start_index not copied), C82_finding_sparse_count."
  },
  {
   "property": "C83",
   "status": "proved",
   "theorems": [
    "Etl.Registry.C83_calls",
    "Etl.Registry.C83_queries",
    "Etl.Registry.C83_iteration",
    "Etl.Registry.C83_finding_second_same_id",
    "Etl.Registry.C83_finding_wrong_error"
   ],
   "note": "Findings: C83_finding_second_same_id (only the first router with an id is looked at: contains is false for a registered one, and it can be registered twice), C83_finding_wrong_error."
  },
  {
   "property": "C84",
   "status": "proved",
   "theorems": [
    "Etl.Unaligned.C84_store",
    "Etl.Unaligned.C84_load",
    "Etl.Unaligned.C84_any_bytes",
    "Etl.Unaligned.C84_roundtrip",
    "Etl.Unaligned.C84_copy",
    "Etl.Unaligned.C84_move",
    "Etl.Unaligned.C84_from_buffer",
    "Etl.Unaligned.C84_network",
    "Etl.Unaligned.C84_finding_null"
   ],
   "note": "Finding: C84_finding_null. The misspelled macro ETL_HAS_CONSTEXPR_ENDIANESS disables branches that would be wrong."
  },
  {
   "property": "C85",
   "status": "partial",
   "theorems": [
    "Etl.Rounding.C85_zero",
    "Etl.Rounding.C85_half_up",
    "Etl.Rounding.C85_half_down",
    "Etl.Rounding.C85_half_even",
    "Etl.Rounding.C85_half_odd",
    "Etl.Rounding.C85_ceiling_partial",
    "Etl.Rounding.C85_floor_partial",
    "Etl.Rounding.C85_infinity_partial",
    "Etl.Rounding.C85_scaled",
    "Etl.Rounding.C85_finding_ceiling",
    "Etl.Rounding.C85_finding_floor",
    "Etl.Rounding.C85_finding_infinity",
    "Etl.Rounding.C85_finding_least"
   ],
   "note": "The full statement is false: round_ceiling of multiples >= 0, round_floor of negative multiples and round_infinity of all multiples are off by one (C85_finding_ceiling, C85_finding_floor, C85_finding_infinity); round_half_even of the least value of a narrow type (C85_finding_least). Everything else is proved."
  },
  {
   "property": "C86",
   "status": "proved",
   "theorems": [
    "Etl.MovAvg.C86_value",
    "Etl.MovAvg.C86_settles",
    "Etl.MovAvg.C86_finding_stuck"
   ],
   "note": "Finding: C86_finding_stuck. Floating point classes not modelled."
  },
  {
   "property": "C87",
   "status": "partial",
   "theorems": [
    "Etl.MultiSpan.C87_ends",
    "Etl.MultiSpan.C87_equal",
    "Etl.MultiSpan.C87_next",
    "Etl.MultiSpan.C87_prev_partial",
    "Etl.MultiSpan.C87_deref",
    "Etl.MultiSpan.C87_forward",
    "Etl.MultiSpan.C87_backward_partial",
    "Etl.MultiSpan.C87_index",
    "Etl.MultiSpan.C87_size",
    "Etl.MultiSpan.C87_finding_empty_last",
    "Etl.MultiSpan.C87_finding_index"
   ],
   "note": "The full statement is false: --end() with an empty last span forms a pointer before that span (C87_finding_empty_last). Missing: decrementing from end() if the last span is empty; everything else is proved. Also C87_finding_index."
  },
  {
   "property": "C88",
   "status": "proved",
   "theorems": [
    "Etl.Atomic.Lock.C88_linearizable",
    "Etl.Atomic.Lock.C88_exclusion",
    "Etl.Atomic.Lock.C88_progress",
    "Etl.Atomic.Lock.C88_mutex",
    "Etl.Atomic.Lock.C88_finding_expected"
   ],
   "note": "What `expected` is after a failing compare_exchange is left open; finding C88_finding_expected: it is not updated."
  },
  {
   "property": "C89",
   "status": "partial",
   "theorems": [
    "Etl.Atomic.Prim.C89_linearizable_partial",
    "Etl.Atomic.Prim.C89_assign_effect_partial",
    "Etl.Atomic.Prim.C89_wait_free",
    "Etl.Atomic.Prim.C89_finding_assign",
    "Etl.Atomic.Prim.C89_finding_pointer",
    "Etl.Atomic.Prim.C89_finding_expected"
   ],
   "note": "The full statement is false: compound assignments return the old value (C89_finding_assign), fetch_add/fetch_sub of pointers add bytes (C89_finding_pointer), with the __atomic builtins a failing compare_exchange of pointers and bool does not update expected (C89_finding_expected). Proved for all other functions."
  },
  {
   "property": "C90",
   "status": "proved",
   "theorems": [
    "Etl.VPool.C90_defined",
    "Etl.VPool.C90_create",
    "Etl.VPool.C90_storage",
    "Etl.VPool.C90_values",
    "Etl.VPool.C90_count",
    "Etl.VPool.C90_destroy",
    "Etl.VPool.C90_finding_throw",
    "Etl.VPool.C90_finding_base",
    "Etl.VPool.C90_finding_base_release"
   ],
   "note": "Findings: C90_finding_throw, C90_finding_base, C90_finding_base_release."
  },
  {
   "property": "C91",
   "status": "partial",
   "theorems": [
    "Etl.CStr.C91_strlen",
    "Etl.CStr.C91_strlen_max",
    "Etl.CStr.C91_strlen_max_unterminated",
    "Etl.CStr.C91_assign",
    "Etl.CStr.C91_move",
    "Etl.CStr.C91_copy",
    "Etl.CStr.C91_compare",
    "Etl.CStr.C91_find",
    "Etl.CStr.C91_strcmp",
    "Etl.CStr.C91_strncmp_partial",
    "Etl.CStr.C91_strcpy",
    "Etl.CStr.C91_strncpy_partial",
    "Etl.CStr.C91_int_type",
    "Etl.CStr.C91_eof_partial",
    "Etl.CStr.C91_not_eof",
    "Etl.CStr.C91_strncmp_overread",
    "Etl.CStr.C91_strncpy_overwrite",
    "Etl.CStr.C91_eof_is_a_character",
    "Etl.CStr.C91_wchar32",
    "Etl.CStr.C91_strcmp_signed"
   ],
   "note": "False of the code: C91_strncmp_overread (reads n+1 characters), C91_strncpy_overwrite (writes n+1), C91_eof_is_a_character, C91_wchar32, C91_strcmp_signed. Proved: everything for terminated strings."
  },
  {
   "property": "C92",
   "status": "proved",
   "theorems": [
    "Etl.TreeLink.C92_rotate_left",
    "Etl.TreeLink.C92_rotate_right",
    "Etl.TreeLink.C92_rotate",
    "Etl.TreeLink.C92_rotate_in",
    "Etl.TreeLink.C92_history",
    "Etl.TreeLink.C92_link_left",
    "Etl.TreeLink.C92_link_right",
    "Etl.TreeLink.C92_mirror",
    "Etl.TreeLink.C92_clear",
    "Etl.TreeLink.C92_null",
    "Etl.TreeLink.C92_link_above"
   ],
   "note": "Finding: C92_link_above (a rotation alone leaves the link above pointing to the old child)."
  },
  {
   "property": "C93",
   "status": "proved",
   "theorems": [
    "Etl.Delegate.C93_refines",
    "Etl.Delegate.C93_equal",
    "Etl.Delegate.C93_same_call_unequal"
   ],
   "note": "Finding: C93_same_call_unequal."
  },
  {
   "property": "C94",
   "status": "proved",
   "theorems": [
    "Etl.Delegate.C94_service",
    "Etl.Delegate.C94_table",
    "Etl.Delegate.C94_copy",
    "Etl.Delegate.C94_wrap"
   ],
   "note": "Findings: C94_copy (a copied service refers to the original), C94_wrap (Offset + Range wraps)."
  },
  {
   "property": "C95",
   "status": "proved",
   "theorems": [
    "Etl.StrStream.C95_text",
    "Etl.StrStream.C95_cut",
    "Etl.StrStream.C95_bounded",
    "Etl.StrStream.C95_format",
    "Etl.StrStream.C95_width_wraps",
    "Etl.StrStream.C95_width_stays",
    "Etl.StrStream.C95_padding_pushes_out"
   ],
   "note": "Findings: C95_width_wraps (numbers are kept modulo 256), C95_width_stays, C95_padding_pushes_out."
  },
  {
   "property": "C96",
   "status": "proved",
   "theorems": [
    "Etl.Packet.C96_refines",
    "Etl.Packet.C96_storage",
    "Etl.Packet.C96_self_assignment",
    "Etl.Packet.C96_copy_leaks",
    "Etl.Packet.C96_same_id"
   ],
   "note": "Excluded, with counterexamples: C96_self_assignment, C96_copy_leaks (copy into a packet that holds a message), C96_same_id."
  },
  {
   "property": "C97",
   "status": "proved",
   "theorems": [
    "Etl.Stats.C97_mean",
    "Etl.Stats.C97_variance",
    "Etl.Stats.C97_standard_deviation",
    "Etl.Stats.C97_rms",
    "Etl.Stats.C97_covariance",
    "Etl.Stats.C97_correlation",
    "Etl.Stats.C97_one_sample",
    "Etl.Stats.C97_square_wraps"
   ],
   "note": "Doubles are exact real numbers in the model. Findings: C97_one_sample (not a number), C97_square_wraps (the square of the sum is calculated in TCalc)."
  },
  {
   "property": "C98",
   "status": "proved",
   "theorems": [
    "Etl.Flags.C98_refines",
    "Etl.Flags.C98_queries"
   ],
   "note": ""
  },
  {
   "property": "C99",
   "status": "proved",
   "theorems": [
    "Etl.Functor.C99_limiter",
    "Etl.Functor.C99_threshold",
    "Etl.Functor.C99_quantize",
    "Etl.Functor.C99_rescale",
    "Etl.Functor.C99_invert",
    "Etl.Functor.C99_quantize_empty",
    "Etl.Functor.C99_invert_lowest"
   ],
   "note": "rescale in exact arithmetic. Findings: C99_quantize_empty, C99_invert_lowest."
  },
  {
   "property": "C100",
   "status": "partial",
   "theorems": [
    "Etl.StdHash.C100_text",
    "Etl.StdHash.C100_text8",
    "Etl.StdHash.C100_int",
    "Etl.StdHash.C100_wide",
    "Etl.StdHash.C100_enum",
    "Etl.StdHash.C100_pointer",
    "Etl.StdHash.C100_float",
    "Etl.StdHash.C100_float_partial",
    "Etl.StdHash.C100_float_zeros",
    "Etl.StdHash.C100_enum_wide"
   ],
   "note": "Full statement false of the code: where size_t is not as wide as the floating point type, 0.0 and -0.0 hash differently (C100_float_zeros). Proved for everything else. long double (padding bytes) is not modelled."
  },
  {
   "property": "C101",
   "status": "partial",
   "theorems": [
    "Etl.Numeric.C101_iota",
    "Etl.Numeric.C101_unsigned",
    "Etl.Numeric.C101_signed",
    "Etl.Numeric.C101_signed_partial",
    "Etl.Numeric.C101_signed_narrow",
    "Etl.Numeric.C101_iterator",
    "Etl.Numeric.C101_float_partial",
    "Etl.Numeric.C101_float_overflow",
    "Etl.Numeric.C101_lerp"
   ],
   "note": "Full statement false of the code: signed types narrower than int with a < 0 <= b (C101_signed_narrow, wrong for every such pair), floating point sums that overflow (C101_float_overflow). Proved otherwise; floating point without rounding."
  },
  {
   "property": "C102",
   "status": "partial",
   "theorems": [
    "Etl.PolySpan.C102_access",
    "Etl.PolySpan.C102_iterators",
    "Etl.PolySpan.C102_subviews_partial",
    "Etl.PolySpan.C102_chain_partial",
    "Etl.PolySpan.C102_construct",
    "Etl.PolySpan.C102_hash",
    "Etl.PolySpan.C102_subspan_overrun",
    "Etl.PolySpan.C102_construct_overrun",
    "Etl.PolySpan.C102_distance",
    "Etl.PolySpan.C102_hash_short",
    "Etl.PolySpan.C102_construct_then_chain_partial"
   ],
   "note": "Full statement false of the code: subspan without count on the mixed extents overruns (C102_subspan_overrun), a fixed extent may exceed its source (C102_construct_overrun), iterator differences are in units of TBase (C102_distance), the hash leaves out the tail (C102_hash_short). The rest is proved."
  },
  {
   "property": "C103",
   "status": "proved",
   "theorems": [
    "Etl.TypeList.C103_nth",
    "Etl.TypeList.C103_index_of",
    "Etl.TypeList.C103_inverse",
    "Etl.TypeList.C103_duplicates",
    "Etl.TypeList.C103_lists",
    "Etl.TypeList.C103_lookup",
    "Etl.TypeList.C103_id_from_type",
    "Etl.TypeList.C103_largest",
    "Etl.TypeList.C103_smallest",
    "Etl.TypeList.C103_best_fit",
    "Etl.TypeList.C103_id_minus_one",
    "Etl.TypeList.C103_too_many_bits"
   ],
   "note": "C++11 variadic versions. Findings: C103_id_minus_one, C103_too_many_bits."
  },
  {
   "property": "C104",
   "status": "partial",
   "theorems": [
    "Etl.Algo.Loops.C104_transform",
    "Etl.Algo.Loops.C104_transform2",
    "Etl.Algo.Loops.C104_transform_n",
    "Etl.Algo.Loops.C104_transform_s",
    "Etl.Algo.Loops.C104_transform_if",
    "Etl.Algo.Loops.C104_transform_n_if",
    "Etl.Algo.Loops.C104_transform_if2",
    "Etl.Algo.Loops.C104_for_each",
    "Etl.Algo.Loops.C104_for_each_if",
    "Etl.Algo.Loops.C104_replace",
    "Etl.Algo.Loops.C104_generate",
    "Etl.Algo.Loops.C104_fill_n",
    "Etl.Algo.Loops.C104_reverse_copy",
    "Etl.Algo.Loops.C104_swap_ranges",
    "Etl.Algo.Loops.C104_partition_point",
    "Etl.Algo.Loops.C104_partition_copy",
    "Etl.Algo.Loops.C104_copy_n_s",
    "Etl.Algo.Loops.C104_copy_n_if",
    "Etl.Algo.Loops.C104_move_s",
    "Etl.Algo.Loops.C104_multimax",
    "Etl.Algo.Loops.C104_multimin",
    "Etl.Algo.Loops.C104_replace_alias",
    "Etl.Algo.Loops.C104_fill_n_negative"
   ],
   "note": "Partial because false as stated of fill_n and copy_n with a negative count (C104_fill_n_negative) and of replace with a value inside the range (C104_replace_alias); proved for everything else."
  },
  {
   "property": "C105",
   "status": "proved",
   "theorems": [
    "Etl.Iter.C105_pointer",
    "Etl.Iter.C105_reverse",
    "Etl.Iter.C105_move",
    "Etl.Iter.C105_operators",
    "Etl.Iter.C105_advance",
    "Etl.Iter.C105_distance",
    "Etl.Iter.C105_traverse",
    "Etl.Iter.C105_reverse_traverse",
    "Etl.Iter.C105_fixed",
    "Etl.Iter.C105_inserters"
   ],
   "note": ""
  },
  {
   "property": "C106",
   "status": "proved",
   "theorems": [
    "Etl.SumT.C106_visit",
    "Etl.SumT.C106_visit_valueless",
    "Etl.SumT.C106_accept",
    "Etl.SumT.C106_variant_compare",
    "Etl.SumT.C106_variant_order",
    "Etl.SumT.C106_optional_compare",
    "Etl.SumT.C106_optional_order",
    "Etl.SumT.C106_expected_compare",
    "Etl.SumT.C106_expected_void",
    "Etl.SumT.C106_expected_void_compare",
    "Etl.SumT.C106_result",
    "Etl.SumT.C106_result_void",
    "Etl.SumT.result_value_moves_out",
    "Etl.SumT.compare_repeated_type_fails"
   ],
   "note": "Variant comparisons for lists of types without repetition (they fail otherwise: compare_repeated_type_fails)."
  },
  {
   "property": "C107",
   "status": "proved",
   "theorems": [
    "Etl.SList.C107_shared_pool_refines",
    "Etl.SList.C107_fresh_lists",
    "Etl.SList.C107_clear_gives_room",
    "Etl.SList.C107_move_never_fails",
    "Etl.SList.splice_full_pool_fails"
   ],
   "note": "Not modelled for shared pools: merge, unique, reverse, splice of an rvalue list, splice within one list."
  },
  {
   "property": "C108",
   "status": "partial",
   "theorems": [
    "Etl.Binary.C108_bit_width_partial",
    "Etl.Binary.C108_bit_ceil_partial",
    "Etl.Binary.C108_has_single_bit_partial",
    "Etl.Binary.C108_rotate",
    "Etl.Binary.C108_byte",
    "Etl.Binary.C108_function_objects",
    "Etl.Binary.bit_ceil_overflow",
    "Etl.Binary.bit_floor64_wrong",
    "Etl.Binary.has_single_bit_zero"
   ],
   "note": "The full statement is false of the code: the width of 64 bit values in [2^28, 2^32) is wrong (C51) and has_single_bit(0) is true; both are proved, and the property is proved for all other values."
  },
  {
   "property": "C109",
   "status": "proved",
   "theorems": [
    "Etl.View.C109_cut",
    "Etl.View.C109_make",
    "Etl.View.C109_access",
    "Etl.View.C109_write",
    "Etl.View.C109_fill",
    "Etl.View.C109_compare",
    "Etl.View.C109_wrapper",
    "Etl.View.array_view_unchecked"
   ],
   "note": "front, back and operator [] are unchecked (finding). Hashes of views and wrappers: C100 covers generic_hash."
  },
  {
   "property": "C110",
   "status": "partial",
   "theorems": [
    "Etl.MemCast.C110_assign_at_partial",
    "Etl.MemCast.C110_assign",
    "Etl.MemCast.C110_null",
    "Etl.MemCast.C110_history",
    "Etl.MemCast.C110_alignment",
    "Etl.MemCast.offset_beyond_accepted",
    "Etl.MemCast.alignment_null"
   ],
   "note": "The full statement is false of the code: an offset beyond the buffer passes the size check, because Size - offset wraps (offset_beyond_accepted), and writes outside the buffer; it is proved for all offsets up to the size. Object lifetimes and alignment of the accesses are not modelled."
  },
  {
   "property": "C111",
   "status": "proved",
   "theorems": [
    "Etl.IoPort.C111_ops",
    "Etl.IoPort.C111_rw",
    "Etl.IoPort.C111_access",
    "Etl.IoPort.C111_wos",
    "Etl.IoPort.C111_wos_new",
    "Etl.IoPort.C111_wos_address",
    "Etl.IoPort.C111_memory",
    "Etl.IoPort.C111_shadow_is_memory",
    "Etl.IoPort.C111_copy_to",
    "Etl.IoPort.C111_copy_to_wos",
    "Etl.IoPort.C111_copy_from"
   ],
   "note": "Unsigned types; the overflow of int in the left shift of a promoted value is taken to wrap."
  },
  {
   "property": "C112",
   "status": "partial",
   "theorems": [
    "Etl.Instance.C112_singleton",
    "Etl.Instance.C112_singleton_base_partial",
    "Etl.Instance.C112_instance_count",
    "Etl.Instance.C112_reset",
    "Etl.Instance.C112_debug_count",
    "Etl.Instance.C112_swap",
    "Etl.Instance.copy_kills_registration",
    "Etl.Instance.second_object_unchecked",
    "Etl.Instance.sub_below_zero"
   ],
   "note": "The full statement is false of the code for singleton_base: a copy of the instance can be made and its destruction makes the singleton invalid (copy_kills_registration); proved for histories without copies, with assertions that throw. debug_count -= does not assert (sub_below_zero). Concurrent calls are not modelled."
  },
  {
   "property": "C113",
   "status": "partial",
   "theorems": [
    "Etl.Bitset.Legacy.C113_histories_partial",
    "Etl.Bitset.Legacy.C113_small_elements",
    "Etl.Bitset.Legacy.shift_undefined",
    "Etl.Bitset.Legacy.find_undefined",
    "Etl.Bitset.Legacy.empty_undefined"
   ],
   "note": "The full statement is false of the code: shifts by 0 and by multiples of the width (other than one) of 32 and 64 bit elements shift an element by its width (shift_undefined), find_next shifts an int (find_undefined), bitset<0> (empty_undefined). With the default 8 bit elements, N >= 1, every sequence is covered (C113_small_elements)."
  },
  {
   "property": "C114",
   "status": "partial",
   "theorems": [
    "Etl.Ratio.C114_arithmetic_partial",
    "Etl.Ratio.C114_product",
    "Etl.Ratio.C114_compiles",
    "Etl.Ratio.C114_compare",
    "Etl.Ratio.C114_permutations",
    "Etl.Ratio.C114_combinations_partial",
    "Etl.Ratio.C114_digits10",
    "Etl.Ratio.divide_by_zero",
    "Etl.Ratio.negative_denominator",
    "Etl.Ratio.product_not_reduced",
    "Etl.Ratio.combinations_overflow"
   ],
   "note": "The full statement is false of the code: division by a ratio that is zero compiles and gives denominator 0 (divide_by_zero), division by a negative ratio gives a negative denominator and then wrong comparisons (negative_denominator), ratios are not reduced, so ratio_equal of equal values can be false (product_not_reduced), combinations goes through the number of arrangements, which overflows when the coefficient does not (combinations_overflow)."
  },
  {
   "property": "C115",
   "status": "partial",
   "theorems": [
    "Etl.Compare.C115_compare",
    "Etl.Compare.C115_weak",
    "Etl.Compare.C115_enum_type",
    "Etl.Compare.C115_three_way_partial",
    "Etl.Compare.three_way_ignores_less",
    "Etl.Compare.enum_out_of_range"
   ],
   "note": "Proved for compare with every order and for enum_type. False of the code, and hence partial: three_way_compare<T, TLess> ignores TLess (three_way_ignores_less), so only the default order is right; numbers outside the range of the enumeration cannot be converted (enum_out_of_range)."
  },
  {
   "property": "C116",
   "status": "partial",
   "theorems": [
    "Etl.SumT.Legacy.C116_histories",
    "Etl.SumT.Legacy.C116_same_type_partial",
    "Etl.SumT.Legacy.C116_upcast_partial",
    "Etl.SumT.Legacy.own_value_undefined",
    "Etl.SumT.Legacy.empty_is_unsupported_type",
    "Etl.SumT.Legacy.same_type_empty",
    "Etl.SumT.Legacy.upcast_offset"
   ],
   "note": "The histories theorem is complete for the operations. False of the code, and hence partial: assigning or emplacing a variant's own value reads a destroyed object (own_value_undefined), an empty variant is_type of unsupported types and is_same_type of other declarations (empty_is_unsupported_type, same_type_empty), upcast_ptr ignores the offset of the base (upcast_offset)."
  },
  {
   "property": "C117",
   "status": "partial",
   "theorems": [
    "Etl.TPacket.C117_packet_partial",
    "Etl.TPacket.C117_rejects",
    "Etl.TPacket.C117_aligned",
    "Etl.TPacket.C117_is_aligned",
    "Etl.TPacket.C117_self_assignment",
    "Etl.TPacket.C117_throwing_assignment",
    "Etl.TPacket.C117_second_base",
    "Etl.TPacket.C117_not_virtual"
   ],
   "note": "Proved for types with the base at their beginning, a virtual destructor, and copies from elsewhere that do not throw. The rest is false of the code: self assignment copies from a destroyed object (C117_self_assignment), a throwing constructor leaves a packet without an object (C117_throwing_assignment), a base that is not at the beginning is not found (C117_second_base), a destructor that is not virtual leaves the derived part (C117_not_virtual)."
  },
  {
   "property": "C118",
   "status": "partial",
   "theorems": [
    "Etl.Limits.C118_numeric_limits_partial",
    "Etl.Limits.C118_integral_limits_partial",
    "Etl.Limits.C118_traits_partial",
    "Etl.Limits.C118_which",
    "Etl.Limits.C118_char8",
    "Etl.Limits.C118_char8_unsigned",
    "Etl.Limits.C118_value_type",
    "Etl.Limits.C118_wide_char"
   ],
   "note": "Proved for every type but char8_t. False of the code: the limits of char8_t are those of char (C118_char8: min 128, max 127 where char is signed; C118_char8_unsigned), value_type of integral_limits<unsigned long long> (C118_value_type), is_unsigned of the three Unicode character types (C118_traits_partial); integral_limits of bool, wchar_t and the Unicode types is not defined (C118_which). With bytes of 16 bits is_signed<char> is wrong (C118_wide_char)."
  },
  {
   "property": "C119",
   "status": "partial",
   "theorems": [
    "Etl.FunctionObj.C119_compare",
    "Etl.FunctionObj.C119_transparent_partial",
    "Etl.FunctionObj.C119_greater_equal_void_is_greater",
    "Etl.FunctionObj.C119_not_comparable",
    "Etl.FunctionObj.C119_bind",
    "Etl.FunctionObj.C119_bind_any",
    "Etl.FunctionObj.C119_arith",
    "Etl.FunctionObj.C119_modulus",
    "Etl.FunctionObj.C119_bits",
    "Etl.FunctionObj.C119_logical",
    "Etl.FunctionObj.greater_equal_differs"
   ],
   "note": "False of the code: greater_equal<void> computes rhs < lhs, the strict relation, so it is false of all equal values (C119_greater_equal_void_is_greater). Everything else is proved. Without totality (NaN) less_equal and greater_equal hold of values that cannot be compared (C119_not_comparable)."
  },
  {
   "property": "C120",
   "status": "proved",
   "theorems": [
    "Etl.FunctionObj.TypeDef.C120_histories",
    "Etl.FunctionObj.TypeDef.C120_defined",
    "Etl.FunctionObj.TypeDef.C120_compare",
    "Etl.FunctionObj.C119_modulus"
   ],
   "note": "Shifts as in C++14: a left shift of a negative value counts as undefined. `<` and `<=` of type_def are not defined by the header: they are those of the value, reached by the conversion."
  },
  {
   "property": "C121",
   "status": "proved",
   "theorems": [
    "Etl.Pair.C121_compare",
    "Etl.Pair.C121_coordinate",
    "Etl.Pair.C121_swap",
    "Etl.Pair.C121_swap_array",
    "Etl.Pair.C121_pair",
    "Etl.Pair.C121_exchange",
    "Etl.Pair.C121_equal_ignores_equality"
   ],
   "note": "The swap of arrays is for arrays that do not overlap. operator == of pairs uses < and > of the second members, not ==: without totality (NaN) unequal pairs are equal (C121_equal_ignores_equality). Moving is taken to give the value."
  }
 ]
}