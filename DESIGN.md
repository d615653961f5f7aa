# A Lean 4 model of ETLCPP/etl

Status: living document. Section 1 gives conventions and the trusted base, section 2 the plan per
property (written before the proofs), section 3 the findings, section 4 what is modelled and what is not.

## 1. Conventions and trusted base

* **Trusted:** Lean 4.33 kernel; the axioms `propext`, `Classical.choice`, `Quot.sound` at most (see
  the axiom audit in section 5); our reading of the C++ text (each definition cites file:lines); the C++ abstract
  machine facts listed per module (e.g. release/acquire semantics as view passing).
* **Untrusted / not modelled in general:** compilers, templates instantiation rules, `constexpr`/SFINAE
  overload selection, exceptions thrown by user types' constructors, floating point, timing, code size.
* **Undefined behaviour** is a distinct outcome: functions that can hit UB return
  `Except UB _` (`Verif/Common/Res.lean`), with a reason. A theorem "`∃ s, f .. = .ok s`" is therefore
  the claim "no UB".
* **ETL_ASSERT**: several build configurations exist (`error_handler.h` 240-300). Unless a definition says
  otherwise we model the configuration in which a failed assertion *throws* (`ETL_USING_EXCEPTIONS`), i.e. the
  operation stops there, and the error is an observable output. Where the configuration matters (assertion does nothing) it is
  a parameter or the operation is mapped to UB.
* **Integers**: `Nat`/`Int` where the code's static asserts/invariants exclude overflow (then the bound is
  stated and proved or noted); `BitVec`/`UIntN` where wrap-around is the point.
* **Layout**: `lean/Verif/<Component>/Model.lean` (model, with citations), `.../Lemmas.lean` (helpers),
  `.../Props.lean` (specification + property theorems + non-vacuity examples).

## 2. Plan per property

| id | model | proof |
|----|-------|-------|
| C01-C03 | `Spsc`: two threads, one micro-step per atomic access, per-location store histories with released vector clocks; loads may return any coherent stale value; slots carry liveness and last-access epochs (race detector) | inductive invariant over all action lists |
| C04 | `BipBuffer`: same memory model, three atomics | invariant with ghost stream offsets |
| C05, C06 | `Pool`: byte-offset addresses, free list threaded through the items' memory | invariant: free-list walk enumerates exactly the non-allocated initialised items |
| C07, C08 | `CircularBuffer`: slots + in/out | refinement to bounded list |
| C09, C10 | `Vector`: slots with liveness, uninitialized_copy/move loops | refinement to list; liveness invariant |
| C11 | `Deque`: ring with `_begin/_end` and iterator arithmetic | refinement |
| C12-C14 | `List`, `ForwardList`, `IntrusiveList`: heap of nodes with next/prev | separation-style "list segment" predicate, refinement |
| C15, C16 | `Map`: the tree insertion/erase with balance flags | BST + height-balance invariant, refinement to sorted list |
| C17 | `UnorderedMap`: buckets of chains + first/last bucket pointers | refinement to finite map |
| C18 | `FlatSet/FlatMap`: sorted vector with lower_bound | refinement |
| C19, C20 | `Heap`, `Sort`: heap and sort loops over arrays | permutation + sortedness |
| C21, C49 | `Algorithm` | loop invariants |
| C22 | `Base64`: encoder/decoder state machines | round trip |
| C23 | `Crc`: tables and bitwise | GF(2) linearity of the shift register |
| C24, C25 | `BitStream`, `ByteStream` | round trip over write scripts |
| C26, C27 | `Bitset`, `Binary` | bit-level extensionality |
| C28, C29 | `Timer`: delta list with uint32 deltas | refinement to set of absolute deadlines |
| C30 | `Scheduler` | policy loops |
| C31-C33 | `Fsm`, `Hfsm`, `StateChart` with callbacks as parameters | trace equality with specification |
| C34, C35 | `Router`, `MessageBus` | trace equality |
| C36 | `SharedMessage` | ownership count invariant |
| C37 | `Str` | refinement to truncating list ops |
| C38, C39 | `ToArithmetic`, `ToString` | round trip / exact range |
| C40, C41 | `CyclicValue`, `Debounce` | invariants over histories |
| C42 | `QueueStack` | refinement |
| C43 | `Observer` | refinement |
| C44 | `LockedQueue`: threads with micro-steps and a lock | linearizability by invariant |
| C45, C50 | `Bloom`, `Hash` | fold laws |
| C46 | `Maths` | number theory |
| C47 | `Optional/Variant` | lifetime invariant |
| C48 | `Span` | slices |
| C51 | `Binary`: the mask/shift chains as interpreted tables | run-length characterisation, per width; counterexamples where the chain is wrong |
| C52, C53 | `Crc` over GF(2) polynomials | linearity of the register |
| C54 | `Hash` | fold law, table is a permutation |
| C55 | `Base64` decoder | decoder as an automaton vs. grammar of valid texts |
| C56 | `Flat` (multi) | refinement to sorted list with stable insertion |
| C57-C59 | `UMap`: buckets, marker pointers, pool | refinement; range erase with the markers as written |
| C60 | `Str`: buffer beyond the terminator | invariant "all zero beyond size" for secure strings |
| C62 | `MTree`: the tree of `multimap.h` with parent pointers, on top of `Tree` | zipper (`plug`/`Frame`) invariants for rotations, marking, replacement and detaching; refinement to a sequence |
| C61 | `Arith`: denominated decimals | correct rounding, integer arithmetic with wrap-around |
| C63 | `IFList`: heap of `forward_link`s shared by any number of lists and nodes | ownership invariant (`Sys`: disjoint lines to the terminator, free nodes null) preserved by every operation; refinement of histories |
| C64 | `TimerIsr`: thread calls cut into steps, ticks between any two of them, three variants | linearization points as ghost events; coupling invariant between concrete list, pc and specification state; induction over schedules |
| C65 | `TimerIsr.tickA` with callbacks that make calls | simulation of the deadline specification through the reentrant tick loop |
| C66 | `MsgTimer`: the list of `Timer`, `unregister_timer` and `tick` of the message timers | exact specification `DoesRun` (deadlines move when a running timer is unregistered); reduction to the callback timers if timers are stopped first |
| C67 | `Broker`: pointers of heads and subscriptions, calls run by a machine with an explicit stack | step simulation against ordered lists of subscriptions; exact set of calls for handlers that leave the brokers alone |
| C68 | `BufDesc`: flags, `next`, memory; micro-steps of `allocate` interleaved with the owners' accesses | invariant over all interleavings; statement over the visible history only (`owned`, `handed`, `contents`) |
| C69 | `IStackQ`: one heap of links, terminators, `p_top`/`p_back`, sizes of all containers | simulation against one list per container |
| C70 | `Line`: `initialise`, `next`, `begin`, `operator++`, `size` with a bounded work type | partial; the state after `k` steps in closed form, by induction; counterexamples for 45 degrees |
| C71 | `PVec`: the pointer buffer with its copy, copy_backward and fill loops | refinement to lists, loops in closed form by induction |
| C72 | `IVec`: the lookups (`PVec`) of all vectors and the pools as stacks of free items | invariant that the objects of the pools are the disjoint union of the vectors; refinement to lists of (address, value) |
| C73 | `StrUtil`: the utilities over the string (`Str`) and view (`View`) models, character by character | each call refines a list function; replace_strings against an inductive relation; tokens by induction on the text left |
| C74 | `Stream/Legacy`: class bit_stream over the chunk operations of `Stream` | the loops write and read exactly the bits of the value; induction over the sequences; invariant for any order of calls |
| C75 | `Random`: the generators on `BitVec` | xor-shifts undone bit by bit; pcg by the 2-adic value of the 2^k-fold step; mwc by bounds |
| C76 | `MultiRange`: a heap of ranges and their links | the combination number as an odometer (mixed radix), induction on the chain |
| C77 | `BlockAlloc`: allocators over the pool model, links as in `MultiRange` | the pool invariant for each allocator with the user's blocks in its buffer; induction on the chain |
| C78 | `Memory`: unique_ptr objects with pointer and deleter, log of deletions | invariant: made = hand + owned + deleted, disjoint, preserved by every call |
| C79 | `Memory`: memory as cells with or without objects | induction on the range |
| C80 | `Arr`: the buffer as a list, the loops of algorithm.h with moved-from values | pointwise description of each loop by induction, then lists compared element by element |
| C81 | `CircIter`: positions as integers | each operation adds its offset modulo the length; induction on the history |
| C82 | `Histogram`: counters as a list; the sparse one over the model of flat_map | ghost counters that do not wrap; for the sparse one the refinement of flat_map (C18) |
| C83 | `Registry`: over the model of flat_multimap (C18) | the map is a stable sort of the routers in registration order; induction on the history |
| C84 | `Unaligned`: memory as bytes, host byte order as a parameter, memcpy, reverse (C49), reverse_bytes (C27) | encodings as lists of bytes, reverse_bytes bit by bit from C27 |
| C85 | `Rounding`: promotions, wrapping and overflow explicit | quotients from div/mod facts, ties by congruence |
| C86 | `MovAvg`: over the arithmetic of `Rounding` | invariant on the history; contraction of one step, iterated |
| C87 | `MultiSpan`: iterators as (span, position) | relation `At` between iterators and positions in the concatenation, kept by every operation |
| C88 | `Atomic.Lock`: threads, a flag without owner, copies unit by unit | invariant: flag = somebody inside, value in transit; generic definition of linearizability in `Atomic.Spec` |
| C89 | `Atomic.Prim`: builtins as indivisible steps, compare_exchange_strong as a loop | invariant over all interleavings |
| C90 | `VPool`: objects in the memory of the items of `Pool`, layout of the union | invariant over the reachable states of `Pool`; frame lemmas; powers of two |
| C91 | `CStr`: one memory array, pointers are indexes; `strlen` … `strncpy`, `char_traits` | induction over the loops; explicit description of the memory afterwards |
| C92 | `TreeLink`: heap of parent/left/right pointers, trees in memory as a recursive predicate | frame lemmas, replacing a subtree at a path, induction over the history |
| C93 | `Delegate`: object pointer and stub; user functions are arbitrary functions on an arbitrary world | simulation by variables that hold nothing or a function with its object |
| C94 | `Delegate`: lookup tables whose default entries point to a service object | simulation by the registered functions per id |
| C95 | `StrStream`: text and format; integers by the model of C39 | induction over the history, the format in force as a fold |
| C96 | `Packet`: storage with lifetimes, `valid`, constructor and destructor counts per packet | simulation by variables that do not exist, are empty or hold a message |
| C97 | `Stats`: sums in arbitrary types, exact doubles, the recalculate flag | invariant over histories; algebra of deviations; Cauchy-Schwarz |
| C98 | `Flags`: words of any width and a mask | simulation by sets of positions |
| C99 | `Functor`: arbitrary orders, exact rationals, two's complement words | induction over the table; floor and ceiling; ring identities |
| C100 | `StdHash`: words, IEEE 754 bit patterns with an independent decoding, the platform a parameter | injectivity of the decoding; FNV from C50 |
| C101 | `Numeric`: words with C++ promotion; rationals with overflow | uniqueness of residues |
| C102 | `PolySpan`: byte addresses, element size a member | induction over the iteration and over chains of subviews |
| C103 | `TypeList`: templates over packs as recursive functions on lists | induction over the list |
| C104 | `Algo.Loops`: loops over one memory with positions as iterators; functions with state | induction over the number of elements, all overlaps not starting inside the source |
| C105 | `Iter`: an iterator type as the record of its operations, adaptors as functions on records | the law `Walks` (operations agree with positions in a list) is preserved by the adaptors |
| C106 | `SumT.More`: the comparison operators, `visit`, `accept`, `result`, `expected<void, E>` over the storage model of C47 | refinement of the abstract variant, optional and expected; case analysis; induction on the list of variants and on the program |
| C107 | `SharedList`: `k` terminal nodes and one pool of `cap` nodes in one heap of links | refinement; each operation is proved for the list in focus with a frame clause for the nodes of all other lists, then lifted |
| C108 | `Binary.Bit`: functions on naturals below 2^w over the counters of `Binary` (C51); promotion to 32 bits explicit in shifts and complements | bit-wise; the counter of leading zeros gives the two bounds of the width |
| C109 | `View.ArrayView`: the pair of positions of `View`, writes change the list behind; `array_wrapper` on the list | list algebra, loop invariant for `fill` |
| C110 | `MemCast`: a list of bytes, casts as position and size, `size_t` subtraction wrapping at 2^W | per operation in bytes; induction over histories; `alignment` from `count_trailing_zeros` (C51) |
| C111 | `IoPort`: the history of accesses, the device a function of it | per operation; induction over histories; `memory` as a device |
| C112 | `Instance`: flag and storage of `singleton`, `m_self`, counters on `BitVec` | refinement to a variable that holds nothing or an object; invariant `live i <-> m_self = i`; induction over histories |
| C113 | `Bitset/Legacy`: the legacy functions on the buffers and loops of `Bitset` | effect of each function on the bit function, unused bits clear as invariant; induction over sequences |
| C114 | `Ratio`: the template recursions over checked 64 bit integers; an expression that overflows does not compile | gcd by induction on the recursion; values in ℚ; sufficient conditions for compiling |
| C115 | `Compare`: functions of an arbitrary `less`; a declaration as a list of enumerators and names | from the axioms of strict weak orders; list induction for the `switch` |
| C116 | `SumT/Legacy`: the storage cells of C47 with an identifier | refinement to optional typed values; induction over histories |
| C117 | `TPacket`: one cell for the object in the storage, a log of objects made and destroyed | the log and the reads computed from the history; induction over histories |
| C118 | `Limits`: tables of the members over a parametric platform | the ranges of the language as specification; per type, for all widths |
| C119 | `FunctionObj`: the operators of the type as parameters; arithmetic on integers with promotion and conversion | the relations on keys in a linear order; the unique congruent value of the type, bits by `Int.testBit` |
| C120 | `FunctionObj/TypeDef`: histories over numbered variables | per expression the congruent value of the type, old or new value returned, nothing else changed; exactly when undefined |
| C121 | `Pair`: operators as parameters; objects in a store | lexicographic order on keys; exchange of cells, frame |

## 3. Findings (model and property disagree)

Each name is a theorem about the model of the real code (a concrete run whose result contradicts what the documentation, `std::`, or the
property says).  Entries without a code name were read off the source and are not modelled.

| component | findings |
|---|---|
| map, set | `Tree.insert_existing_when_full` (a full map throws for a key that is present, a set does not); `Tree.set_move_loses_elements` (moving a set whose order changes under moved-from elements silently leaves elements behind). Set iterators give mutable keys; `find_parent_node` does not end with equivalent keys in different nodes |
| multimap, multiset | `MTree.erase_iterator_breaks_order` (erase(iterator) of one of several equals can put a greater key before a smaller one; count and find then miss elements), `MTree.erase_key_removes_other`; `multimap&&` assignment does not clear the target (example of `C62_move`) |
| forward_list | `move_after_itself_loses`, `move_after_last_null`, `move_empty_range_broken`, `insert_n_full`, `remove_own_element_dead`; `insert_after(n)` returns the first inserted element (std: the last) |
| pool | `double_release_not_detected` |
| bip_buffer | `stale_wrap_reads_old_data`, `C04_false_without_condition` (the wrapping commit does not store `last`), `optimal_reserve_overflows`; the assert in the wrapped branch ignores `windex` |
| locked queues | `throwing_push_keeps_lock`, `front_reference_dies`, `front_of_empty` |
| unordered containers | `stale_marker_runs_off`, `stale_marker_keeps_element`, `advanced_end_runs_off`, `insert_existing_when_full`, `insert_existing_returns_end` |
| bit_stream | `writer_skip_unaligned_wraps`, `writer_skip_unaligned_wrong`, `write_after_skip_mixes`, `empty_wrong`, `callback_full_out_of_bounds`, `flush_nothing_sends`, `write_zero_bits_undefined` |
| byte_stream | `bool_without_callback`; the constructors from arrays do not compile |
| callback_timer | `period_zero_never_returns`, `other_ids_out_of_bounds`; equal deadlines fire in reverse start order |
| bitset | `flip_leaks`, `shift_and_number_leak`, `shift_by_width_undefined`, `find_next_64_undefined`, `empty_text_undefined` |
| string_view, span | `rfind_not_found_wrong`, `rfind_position_wrong`, `find_position_unchecked`, `find_empty_at_end`, `fixed_span_ignores_size`, `first_unchecked` |
| string | `set_secure_keeps_old`, `find_count_ignored`, `find_npos_wraps`, `rfind_position_differs`, `rfind_view_never_finds`, `assign_sub_unclamped`, `erase_position_unchecked`, `insert_self_wrong`, `uninitialized_resize_silent`, `compare_view_unlimited`, `C37_finding_starts_with_stale` (`starts_with(view)` compares with the memory behind the string), `C37_finding_starts_with_overread`, `C37_finding_rfind_char`, `C37_finding_resize_and_overwrite`, `C60_finding_uninitialized_resize`; `substr` of a secure string is not secure |
| flat containers | `emplace_existing_differs`, `assign_duplicates_refused`; const `equal_range` of flat_set does not compile |
| deque | `insertMove_front_broken`; empty range middle insert/erase self-move-assigns; `assign(range)` truncates, then throws; `erase(end())` passes its assertion (`erase_end_unchecked`) |
| list | `splice_rvalue_reverses`, `selfsplice_empty_range_broken`; `initialise()` reads a node after its release |
| intrusive_list | `spliceRange_broken`, `spliceOne_before_self_broken`, `assign_leaves_old_linked`; insert/assign do not check `is_linked` |
| circular_buffer | `far_negative_move_wrong` |
| vector | `insert_alias_wrong`; `assign(range)` is checked in debug builds only |
| cyclic_value | `advance_min_overflows` |
| power/round | `round_down_of_power_is_half`; `is_power_of_2<1>` is false |
| binary.h | `rotate_signed_wrong`, `gray_signed_wrong`, `count_trailing_ones64_wrong`, `count_leading_zeros64_wrong`, `count_leading_zeros_signed_wrong`, `count_leading_ones_wrong`; signed `binary_interleave` truncates |
| hashes | `pearson_reset_wrong`, `murmur_signed_char_wrong` |
| base64 | `decoder_callback_size_unchecked`, `lone_character_accepted`, `encoder_restart_keeps_overflow` |
| priority_queue | `pop_empty_undefined` |
| algorithm.h | `selection_sort_empty_undefined`, `max_element_differs_from_std`, `is_permutation4_ignores_length`, `rotate_empty_left_result` |
| queue, stack | `clone_other_capacity_broken`, `push_full_unchecked_undefined`; move assignment of `iqueue` does not compile |
| observer | `remove_in_callback_skips`, `clear_in_callback_undefined` |
| message_bus | `addressed_to_bus_id_twice` |
| shared_message | `copy_of_moved_from_undefined`, `assign_to_moved_from_undefined`, `wrap_of_shared_broken` |
| fsm, hfsm | `start_redirect_skips_exit`, `last_state_unreachable`, `transition_to_ancestor_reenters`, `self_transition_not_supported`; `set_states` truncates sizes above 255 |
| state_chart | `table_of_256_ignored` |
| scheduler | `set_task_running` is never consulted |
| to_arithmetic, to_string | `negative_hex_wrong`, `other_long_long_truncated`, `show_base_not_read`, `wide_character_accepted`, `small_string_keeps_low_digits`, `denominated_wraps`, `denominated_half_wraps`, `denominated_minus_zero` |
| optional, variant, expected | `optional_own_value_undefined`, `variant_own_value_undefined`, `copy_of_noncopyable_undefined`, `throw_destroys_twice`, `get_rvalue_unchecked`, `unexpect_of_same_type_is_value` |
| intrusive_forward_list | `IFList.spliceRange_empty_broken` (splice_after of an empty open range swaps the tails of the two lists); single-element `splice_after` does not compile |
| callback_timer_atomic/interrupt/locked | `TimerIsr.stop_races_with_tick` (a one-shot timer that expires between the look and the removal: write to `timer_array[255]`), `TimerIsr.unregister_self_out_of_bounds`, `TimerIsr.stop_self_is_ignored`, `TimerIsr.start_self_corrupts_list` |
| message_timer* | `MsgTimer.unregister_running_fires_early` (unregistering a running timer makes the timers behind it fire early; all four files) |
| message_broker | `Broker.self_unsubscribe_cuts_delivery`, `Broker.self_replace_cuts_delivery` (later subscribers miss the message), `Broker.clear_does_not_stop_delivery` |
| buffer_descriptors | `BufDesc.second_release_shares_buffer` (a stale copy of a descriptor can free somebody else's buffer; outside the contract) |
| intrusive_stack / intrusive_queue | `IStackQ.pop_into_empty_pushes_terminator`, `IStackQ.queue_pop_keeps_stale_back` |
| bresenham_line | `Line.diagonal_never_ends`, `Line.restart_runs_past_the_end`, `Line.second_iteration_differs` |
| vector<T*> | `PVec.resize_exposes_stale_pointers`, `PVec.assign_overruns_without_throw`, `PVec.emplace_overruns_without_throw` |
| indirect_vector | `IVec.erase_range_returns_last`, `IVec.failed_insert_leaves_null`, `IVec.shared_pool_overrun`, `IVec.full_emplace_leaks` |
| string_utilities | `StrUtil.sentence_of_empty_runs_away`, `StrUtil.replace_of_empty_never_ends` |
| bit_stream (class) | `BitStream.Legacy.sign_extend_overflows`, `failed_get_changes_variable`, `failed_put_uses_the_room`, `put_after_get_mixes` |
| random | `Random.range_of_everything_divides_by_zero`, `lsfr_is_even`, `lsfr_dies`, `lcg_overflows`, `lcg_dies`, `mwc_dies`, `hash_seed_mod_256`, `hash_reseed` |
| multi_range | `MultiRange.C76_finding_empty_inner`, `C76_finding_insert_loop` |
| successor, memory block allocators | `BlockAlloc.C77_finding_append_loop` |
| unique_ptr | `Memory.C78_finding_swap` |
| uninitialised memory | `Memory.C79_finding_count_lost`, `Memory.C79_finding_mem_compare` |
| array | `Arr.C80_finding_alias`, `Arr.C80_finding_self_move`, `Arr.C80_finding_insert_end` |
| circular_iterator | `CircIter.C81_finding_least` |
| histogram | `Histogram.C82_finding_sparse_end`, `Histogram.C82_finding_copy`, `Histogram.C82_finding_sparse_count` |
| message_router_registry | `Registry.C83_finding_second_same_id`, `Registry.C83_finding_wrong_error` |
| unaligned_type_ext | `Unaligned.C84_finding_null` |
| scaled_rounding | `Rounding.C85_finding_ceiling`, `Rounding.C85_finding_floor`, `Rounding.C85_finding_infinity`, `Rounding.C85_finding_least` |
| pseudo_moving_average | `MovAvg.C86_finding_stuck` |
| multi_span | `MultiSpan.C87_finding_empty_last`, `MultiSpan.C87_finding_index` |
| atomic | `Atomic.Lock.C88_finding_expected`, `Atomic.Prim.C89_finding_assign`, `Atomic.Prim.C89_finding_pointer`, `Atomic.Prim.C89_finding_expected` |
| variant_pool, generic_pool | `VPool.C90_finding_throw`, `VPool.C90_finding_base`, `VPool.C90_finding_base_release` |
| strncmp, strncpy, char_traits | `CStr.C91_strncmp_overread`, `CStr.C91_strncpy_overwrite`, `CStr.C91_eof_is_a_character`, `CStr.C91_wchar32`, `CStr.C91_strcmp_signed` |
| tree_link rotations | `TreeLink.C92_link_above` |
| delegate | `Delegate.C93_same_call_unequal` |
| delegate_service, callback_service | `Delegate.C94_copy`, `Delegate.C94_wrap` |
| string_stream | `StrStream.C95_width_wraps`, `StrStream.C95_width_stays`, `StrStream.C95_padding_pushes_out` |
| message_packet | `Packet.C96_self_assignment`, `Packet.C96_copy_leaks`, `Packet.C96_same_id` |
| variance, standard_deviation, covariance, correlation | `Stats.C97_one_sample`, `Stats.C97_square_wraps` |
| quantize, invert | `Functor.C99_quantize_empty`, `Functor.C99_invert_lowest` |
| hash of floating point zeros | `StdHash.C100_float_zeros` |
| midpoint | `Numeric.C101_signed_narrow`, `Numeric.C101_float_overflow` |
| poly_span | `PolySpan.C102_subspan_overrun`, `PolySpan.C102_construct_overrun`, `PolySpan.C102_distance`, `PolySpan.C102_hash_short` |
| type lookup, best fit | `TypeList.C103_id_minus_one`, `TypeList.C103_too_many_bits` |
| fill_n, copy_n with a negative count; replace with an element of the range | `Algo.Loops.C104_fill_n_negative`, `Algo.Loops.C104_replace_alias` |
- `result::value()` and `error()` of a non-const result return an rvalue reference: reading the value moves it out, and the result still claims to have one (`result_value_moves_out`).
- Comparing variants with a repeated type looks up the value by type: equal variants with the second of two equal types fail with bad access (`compare_repeated_type_fails`).
- `splice` between two lists that share a pool copies the elements before erasing them: with a full pool it fails although no memory is needed (`splice_full_pool_fails`), and a failed splice leaves the elements copied so far in both lists.
- `bit_width`, `bit_floor` and `bit_ceil` inherit the wrong mask of the 64 bit `count_leading_zeros`: `bit_floor(2^30)` of a 64 bit value is 2^31 (`bit_floor64_wrong`).
- `has_single_bit(0)` is true (`has_single_bit_zero`). `bit_ceil` of a value above the greatest power of two yields 0 for narrow types and shifts by the width for wide ones (`bit_ceil_overflow`).
- `rotl(v, n)`/`rotr(v, n)` negate `n` before use: the least `int` overflows.
- `mem_cast::assign_at_offset`, `ref_at_offset`, `emplace_at_offset` (and those of `mem_cast_ptr`) check `sizeof(T) <= Size - offset`: for an offset beyond the size the difference wraps and the access outside the buffer is accepted (`MemCast.offset_beyond_accepted`). `mem_cast_ptr::alignment()` of a null pointer shifts by the width (`alignment_null`).
- A new `io_port_wos` gives 0 for a register that it has not written (`IoPort.shadow_differs_before_first_write`), and `set_address` keeps the shadow of the old register (`set_address_keeps_shadow`): a compound operator right after that writes bits of the other register.
- `singleton_base` has an implicit copy constructor: a copy of the instance is allowed, and its destruction makes the singleton invalid while the instance lives (`Instance.copy_kills_registration`). With assertions that do not throw a second object replaces the first (`second_object_unchecked`). `debug_count -= n` below zero is not asserted (`sub_below_zero`); without atomics `debug_count::swap` does not compile (it calls itself with two arguments). `delegate_observer.h` does not compile when used (`~observable()`, `p_observer->notification`).
- Legacy bitset: `find_next` from a position of 32 or more in a one element bitset is undefined (`Bitset.Legacy.find_undefined`), shifts by 0 of 32 and 64 bit elements (`shift_undefined`), `bitset<0>::set()`, `flip()`, `~` (`empty_undefined`).
- Ratios: `ratio_divide` by zero compiles (`Ratio.divide_by_zero`); negative denominators make the comparisons wrong (`Ratio.negative_denominator`); `ratio_equal<ratio<2,4>, ratio<1,2>>` is false (`Ratio.product_not_reduced`); `combinations<30,15>` overflows (`Ratio.combinations_overflow`).
- `three_way_compare<T, TLess>` ignores `TLess` (`Compare.three_way_ignores_less`).
- Legacy variant: `v = v.get<T>()` is undefined (`SumT.Legacy.own_value_undefined`); `is_type`/`is_same_type` of an empty variant (`SumT.Legacy.empty_is_unsupported_type`, `same_type_empty`); `upcast_ptr` to a base with an offset (`SumT.Legacy.upcast_offset`).
- `packet`: assigning its own object (`TPacket.C117_self_assignment`), a throwing constructor in an assignment (`TPacket.C117_throwing_assignment`), a base class that is not at the beginning of the object (`TPacket.C117_second_base`), no virtual destructor required (`TPacket.C117_not_virtual`).
- `numeric_limits<char8_t>` (without the STL) has min 128 and max 127 where `char` is signed (`Limits.C118_char8`); `integral_limits<unsigned long long>::value_type` is `unsigned long` (`Limits.C118_value_type`); `is_unsigned` is false for `char8_t`, `char16_t`, `char32_t` (`Limits.C118_traits_partial`); `integral_limits<wchar_t>` is not defined (`Limits.C118_which`).
- `greater_equal<void>` (the default argument, `greater_equal<>`) returns `rhs < lhs`: it is `>` instead of `>=` (`FunctionObj.C119_greater_equal_void_is_greater`); `less_equal<T>` and `greater_equal<T>` are true of values that cannot be compared, such as NaN (`FunctionObj.C119_not_comparable`).
- `deque::iterator::swap` and `const_iterator::swap` exchange the indices only: iterators of two deques stay in their deques, at the index of the other (`Deque.swap_of_two_deques`, `Deque.swap_of_two_deques_reads`).
- `vector::uninitialized_resize` to a smaller size destroys nothing: the elements behind the new end are never destroyed and the next `push_back` constructs over them (`Vector.uninitialized_shrink_leaks`).
- `operator ==` of `etl::pair` compares the second members by `<` and `>`: pairs with second members that cannot be compared (NaN) are equal whatever `==` says (`Pair.C121_equal_ignores_equality`).

<!-- findings:more -->

## 4. Modelled / not modelled

The header comment of every `Model.lean` names its source files, the simplifications, and what is left out; every definition cites lines.
Summary (all paths under `/repo/include/etl`):

| module (`lean/Verif/…`) | modelled source | not modelled |
|---|---|---|
| `Common/*` | lifetimes of raw storage (`memory.h` loops), links and merge sort of `list.h`, `intrusive_list.h`, `forward_list.h`, `intrusive_forward_list.h` | `int` overflow of the sort's counters (lists above 2^30) |
| `Spsc` | `queue_spsc_atomic.h` | other users of `atomic` |
| `Bip` | `bip_buffer_spsc_atomic.h` | `size`, `available` |
| `Pool` | `ipool.h`, `generic_pool.h` | buffers above 4 GiB |
| `CircularBuffer` | `circular_buffer.h` | debug counters |
| `Vector`, `Deque` | `vector.h`, `deque.h` | throwing element operations |
| `List`, `FList`, `IntrusiveList` | `list.h`, `forward_list.h`, `intrusive_list.h` | shared pools |
| `Tree` | `map.h`, `set.h` | shared pools |
| `UMap` | `unordered_{map,set,multimap,multiset}.h` | shared pools; `bucket_size` (it calls a function `bucket` that does not exist, so it does not compile) |
| `Flat` | `flat_*.h`, `reference_flat_*.h` | iterators of other containers |
| `Queue`, `Stack`, `Heap` | `queue.h`, `stack.h`, `priority_queue.h` | |
| `Locked` | `queue_mpmc_mutex.h`, `queue_spsc_locked.h`, `queue_spsc_isr.h`, `queue_lockable.h` | weak memory below the lock |
| `Algo` | `algorithm.h` | the `std::` forwarding configuration |
| `Base64`, `Crc`, `Hash`, `Bloom` | `base64_*.h`, `crc*.h` & `private/crc_implementation.h`, `checksum.h`, `fnv_1.h`, `jenkins.h`, `murmur3.h`, `pearson.h`, `bloom_filter.h` | |
| `Stream` | `bit_stream.h` (writer/reader), `byte_stream.h` | legacy `bit_stream` |
| `Bitset`, `Binary`, `Maths`, `Cyclic`, `Debounce` | `private/bitset_new.h`, `binary.h`, integer maths headers, `cyclic_value.h`, `debounce.h` (with `bitset::extract`) | floating point |
| `Timer`, `Scheduler` | `callback_timer.h`, `scheduler.h`, `task.h` | interrupts during `tick`, tasks added during a run |
| `Fsm`, `StateChart`, `Router`, `Observer` | `fsm.h`, `hfsm.h`, `state_chart.h`, `message_router.h`, `message_bus.h`, `observer.h` | re-entrant calls from handlers (except observer scripts) |
| `SharedMsg` | `shared_message.h`, `reference_counted_*.h` | counter overflow |
| `Str`, `View`, `Arith` | `basic_string.h`, `string.h`, `string_view.h`, `span.h`, `to_arithmetic.h`, `private/to_string_helper.h` | floating point conversions, `string_stream`, `format_spec` merging |
| `SumT` | `optional.h`, `private/variant_variadic.h`, `expected.h` | visitors, C++03 variants |
| `MTree` | `multimap.h`, `multiset.h` | shared pools |
| `IFList` | `intrusive_forward_list.h`, `intrusive_links.h` (forward_link) | single-element `splice_after` (does not compile) |
| `TimerIsr` | `callback_timer_atomic.h`, `callback_timer_interrupt.h`, `callback_timer_locked.h` | `is_running`; callbacks that make calls while another call is interrupted; a tick on another core that is itself overtaken by a call (locked: the lock excludes it; stop during the callback is not covered) |
| `MsgTimer` | `message_timer.h`, `message_timer_atomic.h`, `message_timer_interrupt.h`, `message_timer_locked.h` | null routers, message contents, ticks in the middle of calls |
| `Broker` | `message_broker.h` | shared-message overloads (same body), id assertions of the constructors |
| `BufDesc` | `buffer_descriptors.h` | callbacks/notifications; memory model of `volatile bool` flags |
| `IStackQ` | `intrusive_stack.h`, `intrusive_queue.h`, `forward_link` of `intrusive_links.h` | `ETL_NO_CHECKS` builds, bidirectional links |
| `Line` | `bresenham_line.h` | `resize`, work types other than `int16_t` (iterators do not compile) |
| `PVec` | `pvoidvector.h`, `ivectorpointer.h`, `vector<T*>` of `vector.h` | ranges that are part of the vector itself; `repair` |
| `IVec` | `indirect_vector.h` | copies that throw; ranges that lie in the vectors themselves |
| `StrUtil` | `string_utilities.h`, `basic_string.h` (find_first_of family) | iterator forms of find_first_of other than on pointers; `toupper`/`tolower` are arbitrary functions |
| `Stream/Legacy` | `bit_stream.h` (class bit_stream), `sign_extend` | the floating point formats: a value is its bytes |
| `Random` | `random.h` | the seeds of the default constructors; statistical quality |
| `MultiRange` | `multi_range.h` | the step and comparison classes are any functions |
| `BlockAlloc` | `successor.h`, `imemory_block_allocator.h`, `fixed_sized_memory_block_allocator.h` | |
| `Memory` | `memory.h`: unique_ptr, uninitialized_*, destroy*, memory_set, memory_clear, mem_compare | exceptions thrown by constructors; the iterators are pointers |
| `Arr` | `array.h`: the calls that change an array | comparisons (C49), element access |
| `CircIter` | `circular_iterator.h` | comparisons, difference of two iterators |
| `Histogram` | `histogram.h` | signed counters (overflow) |
| `Registry` | `message_router_registry.h` | accepts, sending to routers (C24) |
| `Unaligned` | `unaligned_type.h`, `endianness.h` (hton, ntoh) | the iterators over the bytes |
| `Rounding` | `scaled_rounding.h` | floating point |
| `MovAvg` | `pseudo_moving_average.h` for integral types | floating point, the insert iterator |
| `MultiSpan` | `multi_span.h` | constructors from containers, `data_at`-like pointers |
| `Atomic` | `atomic/atomic_gcc_sync.h` (all classes), `mutex/mutex_gcc_sync.h` | memory orders weaker than `seq_cst`; `atomic_std.h` (only wraps the standard library) |
| `VPool` | `variant_pool.h`, `generic_pool.h` (create, destroy), `largest.h` | `release_all` of a pool with live objects (no destructors run) |
| `CStr` | `char_traits.h` | `eq`, `lt`; the library functions `std::copy_n`, `std::fill_n` used in C++20 |
| `TreeLink` | `intrusive_links.h` (tree_link) | |
| `Delegate` | `private/delegate_cpp11.h`, `delegate_service.h`, `callback_service.h` | overload resolution; `private/delegate_cpp03.h` |
| `StrStream` | `basic_string_stream.h`, `basic_format_spec.h`, `private/to_string_helper.h` (booleans, pointers, strings) | floating point insertion; inserting a string into itself |
| `Packet` | `message_packet.h` (C++17), `message.h` | the C++03 implementation; throwing copy constructors |
| `Stats` | `mean.h`, `variance.h`, `standard_deviation.h`, `rms.h`, `covariance.h`, `correlation.h` | rounding, overflow and special values of double |
| `Flags` | `flags.h` | |
| `Functor` | `limiter.h`, `threshold.h`, `quantize.h`, `rescale.h`, `invert.h` | rounding of double in `rescale`; limits of its integer types |
| `StdHash` | `hash.h`, `math.h` `is_zero`, the hashes of strings and views | `long double` |
| `Numeric` | `numeric.h` | rounding of floating point |
| `PolySpan` | `poly_span.h` | |
| `TypeList` | `nth_type.h`, `type_list.h`, `parameter_pack.h`, `type_select.h`, `type_lookup.h`, `largest.h`, `smallest.h`, parts of `utility.h`, `type_traits.h` | C++03 versions of fixed length |
| `Algo.Loops` | `algorithm.h`: the one-pass algorithms not in the rows above | the C++20 forwarding to std |
| `Iter` | `iterator.h`, `fixed_iterator.h` | traits, begin/end overloads |
| `SumT.More` | comparison operators of `optional.h`, `expected.h`, `variant_variadic.h`; `visit`, `accept`; `result.h`; `expected<void, E>` | return-type deduction of `visit`; `<=>` |
| `SharedList` | `list.h`: `list_ext` over one shared pool | `merge`, `unique`, `reverse`, rvalue `splice` of shared-pool lists; `set_pool` during a history |
| `Binary.Bit` | `bit.h`, `byte.h`, function objects of `binary.h` | `bit_cast` through memory |
| `View.ArrayView` | `array_view.h`, `array_wrapper.h` | deduction guides |
| `MemCast` | `mem_cast.h` | object lifetimes, alignment of accesses, conversion between `mem_cast`s of different sizes (it does not compile: the buffer is private) |
| `IoPort` | `io_port.h` | signed types |
| `Instance` | `singleton.h`, `singleton_base.h`, `instance_count.h`, `debug_count.h` | concurrent calls |
| `Bitset/Legacy` | `private/bitset_legacy.h` | `span` (writes through it can set unused bits) |
| `Ratio` | `ratio.h`, `permutations.h`, `combinations.h`, `digits10` of `limits.h` | the floating point parts of `limits.h` |
| `Compare` | `compare.h`, `enum_type.h` | none |
| `SumT/Legacy` | `private/variant_legacy.h` | moved-from arguments of `emplace` |
| `TPacket` | `packet.h`, `aligned_storage` and `is_aligned` of `alignment.h` | bytes, `type_with_alignment` |
| `Limits` | `limits.h` and `integral_limits.h` (integral types), `is_signed`, `is_unsigned` | floating point limits, 20 bit types |
| `FunctionObj` | `functional.h` | `reference_wrapper`, `mem_fn`, the return type of `equal_to<void>` (declared by way of `<`) |
| `FunctionObj/TypeDef` | `type_def.h`, `user_type.h` | value types that are not integral, the enumerators |
| `Pair` | `pair`, `swap`, `exchange`, `coordinate_2d` of `utility.h` | conversions between pairs of other types, moved-from states, `functor` wrappers |
<!-- modelled:more -->

Not modelled at all: type traits and other compile time machinery beyond the rows above, formatted output of dates, the GCC and MSVC builtins under `atomic` (taken as
atomic operations), platform and profile selection, the code forwarded to the C++ standard library when `ETL_USING_STL` is set (the branches written in ETL itself are the ones modelled).

## 5. Axiom audit

`#print axioms` was run on every theorem named in MANIFEST.json (`tools/axioms.sh`). Result: see below.

Of the 776 theorems named in MANIFEST.json when this was last run, 455 depend on `propext`, `Classical.choice` and `Quot.sound`, 186 on `propext` and `Quot.sound`, 102 on `propext` only, 0 on another part of these three, and 33 on no axiom; no theorem depends on anything else.
