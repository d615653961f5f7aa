{"id": "C01", "title": "SPSC atomic queue is FIFO under every interleaving", "statement": "For etl::queue_spsc_atomic used by one producer thread and one consumer thread, the sequence of values returned by successful pop(value) calls is a prefix of the sequence of values passed to successful push/emplace calls: nothing is lost, duplicated, reordered or invented.", "quantifier": "every capacity, every program of push/pop/front/size calls by the two threads, every interleaving of their individual atomic accesses, and every stale value an acquire/relaxed load may legally return", "why_tests_cant": "the interleavings and stale loads are unbounded and are chosen by the CPU/scheduler; a passing stress test only samples them", "anchors": ["include/etl/queue_spsc_atomic.h: push, emplace, pop, front, get_next_index"]}
{"id": "C02", "title": "SPSC atomic queue has no data race and never touches a dead slot", "statement": "While one producer and one consumer run concurrently, an element is constructed only in raw storage, read/destroyed only after its construction happens-before the access, and no slot is accessed by both threads without a release/acquire edge between them; every pushed element is destroyed exactly once by pop/clear.", "quantifier": "every capacity, call history and interleaving with release/acquire visibility", "why_tests_cant": "data races and lifetime errors are schedule dependent and usually silent", "anchors": ["include/etl/queue_spsc_atomic.h: push, pop, clear"]}
{"id": "C03", "title": "SPSC atomic queue full/empty/size answers", "statement": "The number of queued elements never exceeds the requested Size; push fails only if the queue held Size elements at the moment the producer last observed the consumer, pop fails only if it was empty from the consumer's view; full() from the producer and empty() from the consumer never give a false negative (accurate from own side), and in a quiescent state size()+available()==capacity().", "quantifier": "every reachable state and interleaving", "why_tests_cant": "bounds must hold on every schedule and after any number of index wrap-arounds", "anchors": ["include/etl/queue_spsc_atomic.h: full, empty, size, available, capacity"]}
{"id": "C04", "title": "bip_buffer byte stream is FIFO and regions never overlap", "statement": "For etl::bip_buffer_spsc_atomic, the concatenation of all committed read regions equals a prefix of the concatenation of all committed write regions, regions handed to the writer never overlap data that is committed but unread or handed to the reader, for any trimming of reserves before commit.", "quantifier": "every capacity, every reserve/commit history and every interleaving of the two threads' atomic accesses", "why_tests_cant": "wrap-around point, trim size and interleaving combine to an unbounded space", "anchors": ["include/etl/bip_buffer_spsc_atomic.h: get_write_reserve, apply_write_reserve, get_read_reserve, apply_read_reserve"]}
{"id": "C05", "title": "pool never hands out overlapping or foreign storage", "statement": "etl::ipool/pool/generic_pool: every successful allocate returns the address of an item inside the pool's buffer, on an item boundary, that is not currently allocated; two live allocations never overlap.", "quantifier": "every pool size, item size and every history of allocate/release/release_all by a client that releases only what it owns", "why_tests_cant": "the lazily-initialised free list depends on the entire history", "anchors": ["include/etl/ipool.h: allocate_item, release_item, release_all", "include/etl/generic_pool.h"]}
{"id": "C06", "title": "pool exhaustion, accounting and misuse detection", "statement": "allocate fails (pool_no_allocation / null) exactly when capacity() items are live; size()+available()==capacity(); release of an address outside the buffer (or misaligned, in debug) is rejected and changes nothing; after release the item can be allocated again.", "quantifier": "every history including misuse", "why_tests_cant": "accounting must survive any interleaving of allocates and releases", "anchors": ["include/etl/ipool.h: allocate_item, release_item, is_item_in_pool, size, available, full, empty"]}
{"id": "C07", "title": "circular_buffer keeps exactly the newest N items", "statement": "etl::circular_buffer<T,N> behaves as a bounded FIFO that overwrites the oldest: after any history front..back, operator[] and iteration show the last min(N, pushed-popped) items in push order.", "quantifier": "every N>0, every history of push/pop/clear/assignment", "why_tests_cant": "index wrap-around depends on the whole history", "anchors": ["include/etl/circular_buffer.h: push, pop, front, back, operator[], size, full, empty"]}
{"id": "C08", "title": "circular_buffer iterator arithmetic", "statement": "For iterators of one circular_buffer: ++/--/+=n/-=n move by that many logical positions, it2-it1 is the logical distance and operator< orders by logical position, wherever the physical wrap point lies.", "quantifier": "every buffer state and every pair of in-range iterators", "why_tests_cant": "wrap positions × offsets are unbounded", "anchors": ["include/etl/circular_buffer.h: iterator operators, distance"]}
{"id": "C09", "title": "vector refines a bounded sequence", "statement": "etl::vector<T,N> gives the same contents as an ideal sequence for push_back, pop_back, insert (single, n, range), erase (single, range), resize, assign, emplace, and rejects (vector_full / out_of_bounds) exactly the calls that would exceed N, leaving the contents unchanged.", "quantifier": "every capacity and operation history", "why_tests_cant": "positions × sizes × moved-from overlap cases are unbounded", "anchors": ["include/etl/vector.h: insert, erase, assign, resize, push_back, pop_back"]}
{"id": "C10", "title": "vector object lifetimes", "statement": "Slots [0,size) of a vector hold live objects and slots [size,capacity) hold none after every operation; no operation constructs over a live object, or reads/assigns/destroys a dead one; destruction leaves no live object.", "quantifier": "every history", "why_tests_cant": "a leaked or doubly destroyed element of trivially destructible test types is invisible", "anchors": ["include/etl/vector.h", "include/etl/memory.h"]}
{"id": "C11", "title": "deque refines a bounded double-ended sequence", "statement": "etl::deque<T,N>: push/pop at both ends, insert/emplace and erase anywhere (single, n copies, ranges), resize, assign, clear, operator[], at, front, back and iterators behave as on an ideal sequence of at most N items; full/empty/out-of-range errors are raised exactly when they should be; exactly size() objects are alive. insert(position, T&&) is covered at either end and in the back half; in the front half it loses the first element (proved as a defect).", "quantifier": "every N and history of calls with valid iterators", "why_tests_cant": "the ring origin is history dependent", "anchors": ["include/etl/deque.h"]}
{"id": "C12", "title": "list refines a sequence over its node pool", "statement": "etl::list: insert/erase/push/pop/splice/reverse/remove/unique/sort/merge yield the same sequence as the ideal list, forward and backward traversals agree, and nodes in use = size().", "quantifier": "every capacity and history", "why_tests_cant": "pointer surgery correctness depends on every neighbour configuration", "anchors": ["include/etl/list.h"]}
{"id": "C13", "title": "forward_list refines a sequence", "statement": "etl::forward_list insert_after/erase_after/push_front/pop_front/reverse/remove/unique/sort act as on the ideal sequence.", "quantifier": "every capacity and history", "why_tests_cant": "pointer surgery", "anchors": ["include/etl/forward_list.h"]}
{"id": "C14", "title": "intrusive_list links stay consistent", "statement": "For any number of etl::intrusive_list objects sharing any user-owned nodes: assign (to an empty list), push/pop, insert, erase, remove, unique, reverse, sort, merge, splice of a whole list and splice of one element keep every list one well formed doubly-linked circle holding the specified sequence: forward and backward traversals are reverses, size() matches, no node is in two lists, pushing a linked node is refused, and removed nodes are unlinked and unreachable.", "quantifier": "every history of operations on any number of lists and nodes (splice of a range of two or more elements excluded: it is proved to lose a backward link)", "why_tests_cant": "pointer aliasing between user owned nodes", "anchors": ["include/etl/intrusive_list.h", "include/etl/intrusive_links.h"]}
{"id": "C15", "title": "map behaves as an ordered finite map", "statement": "etl::map: insert/erase/find/lower_bound/upper_bound/equal_range/iteration agree with an ideal ordered map, full errors appear exactly at capacity, keys are unique and iteration is ascending.", "quantifier": "every strict weak ordering, capacity and history", "why_tests_cant": "tree shapes grow exponentially", "anchors": ["include/etl/map.h"]}
{"id": "C16", "title": "map trees stay balanced", "statement": "The tree behind etl::map/set/multimap/multiset has, after every insert and erase, a height logarithmic in its size; for map and set it also keeps its search order (for multimap and multiset see C62), so that a search takes a logarithmic number of steps.", "quantifier": "every history", "why_tests_cant": "shape explosion; performance guarantee never observed by functional tests", "anchors": ["include/etl/map.h", "include/etl/set.h", "include/etl/multimap.h", "include/etl/multiset.h"]}
{"id": "C17", "title": "unordered_map behaves as a finite map for any hash", "statement": "etl::unordered_map insert/erase/find/iteration agree with an ideal finite map whatever the hash function does, full error exactly at capacity, and iteration visits each element exactly once.", "quantifier": "every hash function, bucket count, capacity, history", "why_tests_cant": "collision patterns unbounded", "anchors": ["include/etl/unordered_map.h"]}
{"id": "C18", "title": "flat_map/flat_set stay sorted and unique", "statement": "etl::flat_set/flat_map insert/erase/find/lower_bound/upper_bound agree with an ideal ordered set/map and the storage stays strictly sorted.", "quantifier": "every ordering, capacity and history", "why_tests_cant": "binary search boundaries depend on every size", "anchors": ["include/etl/flat_set.h", "include/etl/flat_map.h", "include/etl/reference_flat_set.h", "include/etl/reference_flat_map.h", "include/etl/algorithm.h: lower_bound"]}
{"id": "C19", "title": "priority_queue always pops a maximum", "statement": "etl::priority_queue: top() is a maximum of the pushed-not-popped multiset, pops come out in non-increasing order, full/empty detection exact.", "quantifier": "every comparator, capacity, history", "why_tests_cant": "heap shapes unbounded", "anchors": ["include/etl/priority_queue.h", "include/etl/algorithm.h: push_heap, pop_heap, make_heap"]}
{"id": "C20", "title": "sorting algorithms produce sorted permutations", "statement": "etl::sort (shell), insertion_sort, heap_sort and, on non-empty ranges, selection_sort return a sorted permutation of their input; insertion/stable sorts keep the order of equal elements. (selection_sort of an empty range is a defect, see selection_sort_empty_undefined.)", "quantifier": "every range and comparator", "why_tests_cant": "all permutations of all lengths", "anchors": ["include/etl/algorithm.h: shell_sort, insertion_sort, selection_sort, heap_sort, stable_sort"]}
{"id": "C21", "title": "binary searches return the boundary", "statement": "etl::lower_bound/upper_bound/equal_range/binary_search on a partitioned range return the exact partition point, touching only elements of the range.", "quantifier": "every length and predicate", "why_tests_cant": "off-by-one at every size", "anchors": ["include/etl/algorithm.h: lower_bound, upper_bound, equal_range, binary_search"]}
{"id": "C22", "title": "base64 encode/decode round trip", "statement": "For every byte string, decoding the output of the RFC4648 (padded, unpadded, url-safe) encoder with the matching decoder returns the original bytes; encoded length is as documented, and the streaming (chunked) interface gives the same result for every split into chunks.", "quantifier": "every byte string, alphabet variant and chunking", "why_tests_cant": "inputs unbounded", "anchors": ["include/etl/base64_encoder.h", "include/etl/base64_decoder.h"]}
{"id": "C23", "title": "table driven CRCs equal the bitwise CRC", "statement": "For every polynomial/reflection parameter set in ETL, the 256-entry, 16-entry and 4-entry table implementations give the same checksum as the bit-by-bit definition, for every input and every split into add() calls.", "quantifier": "all byte strings; every width/polynomial", "why_tests_cant": "2^n inputs", "anchors": ["include/etl/private/crc_implementation.h", "include/etl/private/crc_parameters.h", "include/etl/frame_check_sequence.h"]}
{"id": "C24", "title": "bit_stream write/read round trip", "statement": "Values written to etl::bit_stream_writer with given bit widths are read back identically by bit_stream_reader, big and little endian, at any alignment; writes that do not fit fail without altering the stream.", "quantifier": "every sequence of (value,width), buffer size", "why_tests_cant": "alignments × widths × values", "anchors": ["include/etl/bit_stream.h"]}
{"id": "C25", "title": "byte_stream write/read round trip", "statement": "Values written with etl::byte_stream_writer are read back by byte_stream_reader, for both endiannesses, and a write/read that does not fit is refused leaving position unchanged.", "quantifier": "all value sequences and buffer sizes", "why_tests_cant": "unbounded sequences", "anchors": ["include/etl/byte_stream.h"]}
{"id": "C26", "title": "bitset is a finite set of bit positions", "statement": "etl::bitset<N> set/reset/flip/test/count/any/all/none/find_first/find_next/shift/and/or/xor/to_string/value/extract agree with the ideal bit vector of N bits for any element width; unused bits of the top element never leak into results.", "quantifier": "every N and element width, every history", "why_tests_cant": "N × element boundary cases unbounded", "anchors": ["include/etl/bitset.h", "include/etl/private/bitset_new.h"]}
{"id": "C27", "title": "bit-twiddling utilities satisfy their mathematical definitions", "statement": "On unsigned words of every supported width, reverse_bits, reverse_bytes, gray_to_binary/binary_to_gray, count_bits, parity, odd/even, rotate_left/right, rotate, sign_extend, fold_bits, first_set/clear/bit_position, binary_interleave, binary_merge, has_zero_byte/has_byte_n, make_lsb/msb_mask equal their bitwise definitions, and are mutual inverses / involutions where documented.", "quantifier": "all machine words of each width", "why_tests_cant": "2^64 inputs", "anchors": ["include/etl/binary.h"]}
{"id": "C28", "title": "callback_timer fires in deadline order without drift", "statement": "etl::callback_timer: after tick(count), exactly the timers whose deadlines lie within the elapsed time have been called, once per deadline, in deadline order; repeating timers are rescheduled from their deadline, not from the tick (no drift), however the elapsed time is divided into ticks.", "quantifier": "every set of timers/periods, every tick sequence, every start/stop/register history", "why_tests_cant": "timer list states × tick splits", "anchors": ["include/etl/callback_timer.h", "include/etl/message_timer.h"]}
{"id": "C29", "title": "timer registration and bookkeeping", "statement": "register_timer returns an unused id or NO_TIMER exactly when MAX_TIMERS are registered; stop/unregister removes a timer so that it never fires again; other timers' deadlines are unaffected; time_to_next is the least remaining time.", "quantifier": "every history", "why_tests_cant": "delta-list surgery depends on neighbours", "anchors": ["include/etl/callback_timer.h"]}
{"id": "C30", "title": "scheduler policies are fair as documented", "statement": "etl::scheduler: tasks are kept in descending priority, in order of addition among equal priorities, and no added task is lost. One pass of sequential_single runs one unit of every task that has work when asked, in that order; sequential_multiple runs each task until it reports no work; highest_priority runs one unit of the first task with work only; most_work runs one unit of a task reporting the most work (the first of these). The pass reports idle exactly when nothing was run.", "quantifier": "every task set, workload and history", "why_tests_cant": "unbounded workloads", "anchors": ["include/etl/scheduler.h", "include/etl/task.h"]}
{"id": "C31", "title": "fsm state transitions call exit/enter exactly as specified", "statement": "etl::fsm::receive: an event goes only to the current state; a new state id triggers on_exit_state of the old and on_enter_state of the new (repeatedly if enter redirects), the current state id afterwards is the final one; No_State_Change and Self_Transition behave as documented; invalid ids error.", "quantifier": "every state table and message history", "why_tests_cant": "state tables and histories unbounded", "anchors": ["include/etl/fsm.h"]}
{"id": "C32", "title": "hfsm transitions exit to, and enter from, the common ancestor", "statement": "etl::hfsm: on a transition from state A to B, exactly the states from A up to (not including) the lowest common ancestor are exited innermost first and those from it down to B (and default children) entered outermost first.", "quantifier": "every state hierarchy and transition", "why_tests_cant": "trees unbounded", "anchors": ["include/etl/hfsm.h"]}
{"id": "C33", "title": "state_chart takes the first enabled transition", "statement": "etl::state_chart (and _ct/_ctp): process_event takes the first transition in the table whose event matches, whose source is the current state (or any state) and whose guard, if any, returns true; guards of earlier applicable transitions are asked in table order and no others. It calls the action, then, if the state changes, on_exit of the old state, sets the new state, and on_entry of the new one; if no transition is enabled the state stays. start calls on_entry of the initial state once; events before start are ignored.", "quantifier": "every transition table, guard valuation and event history", "why_tests_cant": "tables and histories unbounded", "anchors": ["include/etl/state_chart.h"]}
{"id": "C34", "title": "message_router delivers each message exactly once", "statement": "A message accepted by a router is handled by exactly its handler; unaccepted ones go to the successor chain exactly once, or to on_receive_unknown; accepts() predicts delivery.", "quantifier": "every router chain and message", "why_tests_cant": "chains unbounded", "anchors": ["include/etl/message_router.h", "include/etl/successor.h"]}
{"id": "C35", "title": "message_bus delivers by id to every subscribed router", "statement": "A message sent to an etl::message_bus with a destination id reaches exactly the subscribed routers with that id (or all, for ALL_MESSAGE_ROUTERS) that accept it, in ascending router id order, nested buses included; subscribe fails exactly when full.", "quantifier": "every set of routers, nested buses and messages", "why_tests_cant": "topologies unbounded", "anchors": ["include/etl/message_bus.h"]}
{"id": "C36", "title": "reference counted messages are released exactly once", "statement": "With etl::shared_message / reference_counted_message_pool a message stays allocated while at least one owner exists and is released to its pool exactly once when the last owner goes, for any copying/moving/assigning history.", "quantifier": "every history of copies and destructions", "why_tests_cant": "ownership histories unbounded", "anchors": ["include/etl/shared_message.h", "include/etl/reference_counted_message_pool.h", "include/etl/reference_counted_object.h"]}
{"id": "C37", "title": "string operations refine bounded strings with truncation", "statement": "etl::string<N> append/insert/replace/erase/resize/substr/find agree with the ideal string operation followed by truncation to N characters, is_truncated() is set exactly if characters were lost (and stays until cleared), and the buffer is always null terminated.", "quantifier": "every N and history", "why_tests_cant": "positions × counts × lengths", "anchors": ["include/etl/basic_string.h"]}
{"id": "C38", "title": "to_arithmetic parses exactly the representable numbers", "statement": "etl::to_arithmetic<integral>(text, radix) returns a value iff the text is a valid numeral of that radix within the range of the type, and then the right value; overflow is always detected.", "quantifier": "all strings, radices and integer types", "why_tests_cant": "strings unbounded", "anchors": ["include/etl/to_arithmetic.h"]}
{"id": "C39", "title": "to_string/to_arithmetic round trip", "statement": "For every integer and base the text made by etl::to_string parses back to the same integer.", "quantifier": "all integers, all bases", "why_tests_cant": "2^64 inputs × formats", "anchors": ["include/etl/to_string.h", "include/etl/private/to_string_helper.h", "include/etl/to_arithmetic.h"]}
{"id": "C40", "title": "cyclic_value stays within range and wraps", "statement": "etl::cyclic_value: any history of ++,--,advance,set keeps first<=value<=last, and advance(n) equals n single steps modulo the cycle length.", "quantifier": "all ranges, all n, all histories", "why_tests_cant": "n unbounded", "anchors": ["include/etl/cyclic_value.h"]}
{"id": "C41", "title": "debounce reports state changes only after N stable samples", "statement": "etl::debounce<Valid,Hold,Repeat>::add changes state exactly when the same sample has been seen the configured number of consecutive times, and held/repeat events appear at the configured counts.", "quantifier": "every sample sequence and configuration", "why_tests_cant": "sequences unbounded", "anchors": ["include/etl/debounce.h"]}
{"id": "C42", "title": "queue/stack refine FIFO/LIFO", "statement": "etl::queue is a bounded FIFO and etl::stack a bounded LIFO with live slots exactly those elements.", "quantifier": "every capacity/history", "why_tests_cant": "wrap points", "anchors": ["include/etl/queue.h", "include/etl/stack.h"]}
{"id": "C43", "title": "observer notifications reach exactly the registered, enabled observers", "statement": "etl::observable::notify_observers calls each currently registered and enabled observer exactly once in registration order; add of a duplicate is idempotent; add beyond capacity is an error.", "quantifier": "every history", "why_tests_cant": "histories unbounded", "anchors": ["include/etl/observer.h"]}
{"id": "C44", "title": "mutex/interrupt protected queues are linearizable", "statement": "etl::queue_mpmc_mutex, queue_spsc_locked, queue_spsc_isr, queue_lockable: concurrent push/pop by any number of threads is equivalent to a sequential bounded FIFO history, the lock is always released.", "quantifier": "every number of threads and interleavings", "why_tests_cant": "schedules unbounded", "anchors": ["include/etl/queue_mpmc_mutex.h", "include/etl/queue_spsc_locked.h", "include/etl/queue_spsc_isr.h", "include/etl/queue_lockable.h"]}
{"id": "C45", "title": "bloom_filter has no false negatives", "statement": "etl::bloom_filter: exists(key) is true for every key added since the last clear, whatever the hash functions are.", "quantifier": "all hash functions and histories", "why_tests_cant": "keys unbounded", "anchors": ["include/etl/bloom_filter.h"]}
{"id": "C46", "title": "gcd/lcm/sqrt/power/log/factorial/fibonacci are mathematically right", "statement": "etl::gcd is the greatest common divisor, lcm the least common multiple (within range), sqrt the integer square root, log the floor logarithm, power/factorial/fibonacci their mathematical values.", "quantifier": "all inputs in range", "why_tests_cant": "unbounded inputs", "anchors": ["include/etl/gcd.h", "include/etl/lcm.h", "include/etl/sqrt.h", "include/etl/log.h", "include/etl/power.h", "include/etl/factorial.h", "include/etl/fibonacci.h"]}
{"id": "C47", "title": "optional/variant/expected manage exactly one live object", "statement": "etl::optional/variant/expected: after any history of assignments, emplace, reset, swap and copies exactly the active alternative is alive, is destroyed once, and value access returns the last stored value or signals an error.", "quantifier": "every history", "why_tests_cant": "lifetimes invisible to value tests", "anchors": ["include/etl/optional.h", "include/etl/variant.h", "include/etl/expected.h"]}
{"id": "C48", "title": "span/string_view never address outside their source", "statement": "subspan/first/last/substr/remove_prefix/find of spans and views stay in the parent range and denote the expected slice.", "quantifier": "all lengths and offsets", "why_tests_cant": "offset combinations", "anchors": ["include/etl/span.h", "include/etl/string_view.h"]}
{"id": "C49", "title": "algorithm.h range algorithms satisfy their specifications", "statement": "find/find_if/find_if_not, all/any/none_of, count, equal, lexicographical_compare, search, find_end, min/max/minmax_element, is_sorted(_until), three-iterator is_permutation, is_partitioned, partition_point, partition_copy/partition_transform, copy_if/transform_if, accumulate, clamp, the size-checked copies (copy_s, copy_if_s, ...), remove/remove_if, reverse, rotate, partition and nth_element satisfy their input/output specification and stay inside their ranges.", "quantifier": "every range", "why_tests_cant": "all lengths", "anchors": ["include/etl/algorithm.h"]}
{"id": "C50", "title": "hash and checksum functions are chunking independent", "statement": "fnv_1(a)_32/64, jenkins, murmur3 (over unsigned bytes) and the five checksum classes: the value equals the published function of the bytes added since the last reset, and does not depend on how they were split into add() calls; adding to a finalised jenkins/murmur3 raises hash_finalised; reset restores the initial state.", "quantifier": "all byte strings and splits", "why_tests_cant": "splits unbounded", "anchors": ["include/etl/fnv_1.h", "include/etl/murmur3.h", "include/etl/jenkins.h", "include/etl/checksum.h"]}
{"id": "C51", "title": "count_leading/trailing zeros/ones equal the length of the bit run", "statement": "count_trailing_zeros, count_trailing_ones, count_leading_zeros, count_leading_ones of an unsigned word return the length of the maximal run of equal bits at that end, with the full width for a uniform word.", "quantifier": "every word of every width (8, 16, 32, 64 bits)", "why_tests_cant": "2^64 inputs", "anchors": ["include/etl/binary.h: count_trailing_zeros, count_trailing_ones, count_leading_zeros, count_leading_ones"]}
{"id": "C52", "title": "CRCs detect every burst error up to their width", "statement": "For every published CRC, two messages whose transmitted bit streams agree except within a window of at most w consecutive bits have different check values.", "quantifier": "every message, every burst of length <= w, every odd polynomial, all three table sizes", "why_tests_cant": "all pairs of messages of unbounded length", "anchors": ["include/etl/private/crc_implementation.h", "include/etl/private/crc_parameters.h"]}
{"id": "C53", "title": "message plus CRC has a constant residue", "statement": "Running a CRC over a message followed by its own check value (in transmission byte order) yields a value that depends only on the CRC's parameters (0 when there is no final xor).", "quantifier": "every message and parameter set", "why_tests_cant": "unbounded messages", "anchors": ["include/etl/private/crc_implementation.h"]}
{"id": "C54", "title": "pearson hash is chunking independent and resettable", "statement": "pearson<N>: value() is the published N-lane Pearson hash of the bytes added since construction or the last reset(), however split; table lookups stay in bounds.", "quantifier": "every byte string, split and N", "why_tests_cant": "unbounded splits/histories", "anchors": ["include/etl/pearson.h"]}
{"id": "C55", "title": "The base64 decoder accepts exactly the valid texts", "statement": "For any input text split in any way over decode() calls followed by flush(), every call succeeds if and only if the text is characters of the alphabet followed only by padding characters and the decoded bytes fit the output buffer (or a callback drains it); then exactly the bytes the text denotes are delivered. Misplaced padding, characters outside the alphabet and lack of room are reported, never decoded.", "quantifier": "every alphabet, text, split into calls, buffer size, callback or not", "why_tests_cant": "tests use a few texts and chunkings; acceptance must hold for every text and split", "anchors": ["include/etl/base64_decoder.h: decode, flush, decode_block, push_to_input_buffer, get_index_from_sextet"]}
{"id": "C56", "title": "flat_multiset/flat_multimap keep equivalent elements in insertion order", "statement": "Filling an etl::flat_multiset or flat_multimap gives the stable sort of the inserted sequence; erase(key) removes all equivalent elements and returns their number; count and equal_range cover exactly them; insertion into a full container is refused without an effect.", "quantifier": "every strict weak order, every insertion sequence, every capacity", "why_tests_cant": "all orders of equivalent and different keys", "anchors": ["include/etl/flat_multiset.h", "include/etl/flat_multimap.h", "include/etl/reference_flat_multiset.h", "include/etl/reference_flat_multimap.h"]}
{"id": "C57", "title": "unordered_set holds each key once and every call is exact for every history", "statement": "For every sequence of insert, erase, find, count, equal_range, clear and iteration on an unordered_set, for every hash function compatible with the key comparison and any number of buckets (including heavy collisions), the elements met by begin()..end() have pairwise different keys, size() is their number, insert adds exactly the given element when no equal key is present and there is room (and otherwise changes nothing and says so), erase(key) and erase(iterator) remove exactly the matching element, and find/count/equal_range agree with the elements.", "quantifier": "all element and key types, hash functions, bucket counts, capacities and histories of calls", "why_tests_cant": "tests fix a hash function, a bucket count and a few histories; the bucket chains and first/last markers depend on the whole history", "anchors": ["include/etl/unordered_set.h:iunordered_set"]}
{"id": "C58", "title": "unordered_multimap/multiset keep all insertions, with equal keys together", "statement": "For every history, unordered_multimap and unordered_multiset contain exactly the inserted and not erased elements; elements with equal keys stand next to each other in the iteration; count(key) is the number of equal elements, equal_range(key) is exactly the run of them, erase(key) removes all of them and returns how many, erase(iterator) removes one.", "quantifier": "all element and key types, hash functions, bucket counts, capacities and histories of calls", "why_tests_cant": "the grouping is an invariant of the whole history and must hold for all hash functions", "anchors": ["include/etl/unordered_multimap.h:iunordered_multimap", "include/etl/unordered_multiset.h:iunordered_multiset"]}
{"id": "C59", "title": "erase(first, last) of the unordered containers removes exactly the range", "statement": "For every reachable unordered container and every range [first, last) of it, erase(first, last) removes exactly the elements of the range, keeps all others in order, and returns an iterator to the element after the range.", "quantifier": "all containers, hash functions, reachable states and ranges", "why_tests_cant": "depends on bucket markers that depend on the history of erasures", "anchors": ["include/etl/unordered_map.h:erase", "include/etl/unordered_set.h:erase"]}
{"id": "C60", "title": "Secure strings leave nothing behind", "statement": "After set_secure() (or an assignment from a secure string) and a call that replaces or resizes the content, no character that is not part of the string is left in the string's memory, whatever was stored before and whatever operations follow (uninitialized_resize apart, which by its contract leaves the memory as it is).", "quantifier": "every capacity, every earlier content of the memory, every history of operations before and after", "why_tests_cant": "A test inspects the memory after some operations; one forgotten clean-up in one branch of one operation leaves a secret behind.", "anchors": ["include/etl/basic_string.h: cleanup, initialise, set_secure, assign_impl, resize, erase"]}
{"id": "C61", "title": "Fixed point numbers are written correctly rounded", "statement": "to_string(value, exponent, str, format) writes value divided by ten to the exponent in decimal with min(precision, exponent) decimals, rounded to nearest with halves away from zero, with a minus sign for negative values, padded to the width with the fill character on the chosen side, appended or replacing, whenever the power of ten and the rounded absolute value fit into the unsigned type of the value and the rounding half into 32 bits, and the text fits into the string.", "quantifier": "all values, exponents, precisions, widths, fills, sides, string contents and capacities", "why_tests_cant": "values, exponents and precisions are too many to enumerate; the carry of the rounding across decimals and into the integral part must be right for all of them", "anchors": ["include/etl/private/to_string_helper.h: add_integral_denominated, add_integral_and_fractional", "include/etl/to_string.h: to_string"]}
{"id": "C62", "title": "multimap and multiset keep every insertion in order, equivalents in insertion order", "statement": "etl::multimap/multiset: insertion keeps the elements ordered by key with equivalent keys in insertion order and fails exactly when the container is full; find/lower_bound/upper_bound/count/contains/erase(key) and iteration both ways agree with the ideal ordered multimap; erase through iterators removes exactly the elements designated, returns the iterator to the next element and never loses, duplicates or leaks others, and keeps the order if no element before the erased ones is equivalent to them (erasing another one of several equals may break the order: see the finding); moving from another container inserts its elements one after the other.", "quantifier": "every strict weak ordering, capacity and history of calls, every iterator and range", "why_tests_cant": "tree shapes and duplicate patterns grow exponentially; the ordering bug of erase(iterator) only shows for particular shapes", "anchors": ["include/etl/multimap.h", "include/etl/multiset.h"]}
{"id": "C63", "title": "Intrusive forward lists stay consistent under every history", "statement": "For any number of etl::intrusive_forward_list objects and user-owned nodes, after any legal history of assign, push_front, pop_front, clear, reverse, insert_after, erase_after, erase, remove, remove_if, unique, sort, splice_after and merge: iteration of every list gives exactly the specified sequence, size() and empty() match, no node is in two lists or twice in one, a node reports is_linked() exactly if it is in a list, inserting a linked node reports an error and changes nothing, sort and merge are stable.", "quantifier": "every number of lists and nodes, every history, every predicate and strict weak ordering", "why_tests_cant": "the number of histories and of link configurations is unbounded; one wrong link in a rare case corrupts a list silently", "anchors": ["include/etl/intrusive_forward_list.h: intrusive_forward_list", "include/etl/intrusive_links.h: forward_link, link_splice, unlink_after"]}
{"id": "C64", "title": "Callback timers ticked from an interrupt or another thread are linearizable", "statement": "For etl::callback_timer_atomic, callback_timer_interrupt and callback_timer_locked: whatever calls one thread makes (register, unregister, start, stop, set_period, set_mode, clear, enable, has_active_timer, time_to_next, is_active) and at whatever moments ticks come in, in the middle of any call, nothing undefined happens, and the calls and accepted ticks behave as if each took effect at one moment between its begin and end; timers fire in the order of deadlines, none early; a tick is answered false only when ticking is disabled or the list is protected; a stopped timer does not fire again until started. Side condition: no tick that comes in between the look whether a one-shot timer runs and its removal makes that very timer expire.", "quantifier": "every variant, every number of timers up to 254, every sequence of calls, every interleaving of ticks of any size", "why_tests_cant": "the interleavings of ticks with the steps of calls are unbounded in number and cannot be forced by unit tests", "anchors": ["include/etl/callback_timer_atomic.h: callback_timer_atomic", "include/etl/callback_timer_interrupt.h: callback_timer_interrupt", "include/etl/callback_timer_locked.h: callback_timer_locked"]}
{"id": "C65", "title": "Callbacks of the interrupt-safe timers may use other timers", "statement": "In callback_timer_atomic, callback_timer_interrupt and callback_timer_locked, a callback that makes any calls on timers other than its own (register, unregister, start, stop, set_period, set_mode, enable; no clear) leaves the timer list consistent, and every history of calls and ticks behaves as the deadline specification says.", "quantifier": "every callback behaviour depending on the history, every history of calls and ticks", "why_tests_cant": "callbacks that change the list while tick walks it give an unbounded number of reentrant histories", "anchors": ["include/etl/callback_timer_atomic.h: tick"]}
{"id": "C66", "title": "Message timers deliver at their deadlines", "statement": "For etl::message_timer, message_timer_atomic, message_timer_interrupt and message_timer_locked used from one thread: after any history of calls, including calls made by the receiving routers, nothing undefined happens, messages are delivered in the order of deadlines and none is missed; and if every unregister_timer(i) comes right after stop(i), every timer fires exactly at its deadline, answers and firings being those of the timer specification. Without the stop, unregistering a running timer makes exactly the timers behind it fire early, by the time between it and its predecessor.", "quantifier": "every number of timers up to 254, every history of calls and ticks, every behaviour of the receivers", "why_tests_cant": "deadlines depend on the whole history of starts, stops and ticks; the early firing shows up only for particular orders of deadlines", "anchors": ["include/etl/message_timer.h: imessage_timer", "include/etl/message_timer_atomic.h: imessage_timer_atomic", "include/etl/message_timer_interrupt.h: imessage_timer_interrupt", "include/etl/message_timer_locked.h: imessage_timer_locked"]}
{"id": "C67", "title": "Message brokers deliver to exactly the subscribers", "statement": "For etl::message_broker: after any history of subscribe, unsubscribe, clear and receive calls on any number of brokers, made by the program or by the handlers of messages being delivered, a message goes to exactly the routers whose current subscription lists its id and whose id is the destination (all, for receive(msg)), each once, in subscription order, and then to the successor; a router has at most one subscription per broker, a new one taking the place of the old; empty() and accepts() answer accordingly. Contract: a subscription object is subscribed at one broker at a time, and no handler removes the subscription it is being called for.", "quantifier": "every set of brokers, subscriptions, routers and successors, every program, every re-entrant behaviour of handlers, every number of steps", "why_tests_cant": "the list can change during the walk over it in unboundedly many ways", "anchors": ["include/etl/message_broker.h: message_broker"]}
{"id": "C68", "title": "Buffer descriptors hand out each buffer to one owner at a time", "statement": "For etl::buffer_descriptors with one allocating thread: whatever other threads write, read and release between the allocator's accesses, allocate() hands out a buffer only while nobody owns it, in cyclic order, refuses only while the next buffer is still owned, returns after at most BUFFER_SIZE+4 accesses of its own, and nothing is accessed out of bounds; an owner reads what was last written through its own descriptor or the fill value; is_allocated() is true of every owned buffer. Contract: only owners use or release a buffer, once.", "quantifier": "every number and size of buffers, every interleaving of the allocator's accesses with the owners' accesses, every history", "why_tests_cant": "the moment of a release inside another thread's allocate() cannot be controlled by a test", "anchors": ["include/etl/buffer_descriptors.h: buffer_descriptors"]}
{"id": "C69", "title": "Intrusive stacks and queues keep order and links", "statement": "For any number of etl::intrusive_stack and etl::intrusive_queue objects sharing items: after any history of push, pop, pop_into (also into itself or the other kind), reverse and clear, nothing undefined has happened, empty, size, top/front and back show last-in-first-out respectively first-in-first-out order, an item is in at most one container, is_linked() is true exactly while it is in one, and pushing a linked item is refused without effect. Contract: no pop of an empty container unless ETL_CHECK_PUSH_POP (and exceptions, for pop_into).", "quantifier": "every number of containers and items, every history, every build option for checks", "why_tests_cant": "the links are shared by all containers; errors depend on the history of all of them", "anchors": ["include/etl/intrusive_stack.h: intrusive_stack", "include/etl/intrusive_queue.h: intrusive_queue", "include/etl/intrusive_links.h: forward_link"]}
{"id": "C70", "title": "Bresenham lines are complete and close to the ideal line", "statement": "For an etl::bresenham_line from any first to any last point (up to 10922 apart, in any coordinate type that has the values in between): every iteration from begin() to end(), the first or any later one, ends and visits exactly size() points, the first point first and the last point last, each one step from the one before along the longer axis and at most one along the other, all less than one unit off the ideal line.", "quantifier": "every pair of end points, every coordinate type, every number of earlier iterations", "why_tests_cant": "the accumulated error depends on both distances; rounding errors show only for particular slopes and lengths", "anchors": ["include/etl/bresenham_line.h: bresenham_line, const_iterator"]}
{"id": "C71", "title": "Vectors of pointers refine a bounded sequence", "statement": "An etl::vector<T*, N> (and etl::ivector<T*>): after every history of push_back, emplace_back, pop_back, insert, emplace, erase, assign, resize(n, value), clear, writes and copy/move assignment, whatever the buffer held before and for every combination of checks, iterating shows exactly the pointers of the bounded list in order; a call that does not fit reports vector_full and changes nothing (copy/move assignment: leaves the target empty); nothing outside the buffer is touched.", "quantifier": "every capacity, every history, every prior buffer content, every build option for checks", "why_tests_cant": "the specialisation shares no code with vector<T>; off-by-one errors in the shifting loops depend on position, count and size together", "anchors": ["include/etl/private/pvoidvector.h: pvoidvector", "include/etl/private/ivectorpointer.h: ivector<T*>", "include/etl/vector.h: vector<T*, MAX_SIZE>"]}
{"id": "C72", "title": "Indirect vectors: sequences with stable addresses over shared pools", "statement": "etl::indirect_vector and indirect_vector_ext: several vectors, with any pools, shared or not. After every history of push_back, emplace_back, pop_back, resize, clear, assign, insert, emplace, erase, writes through references, and assignment between the vectors, each vector is the sequence a list would be; the elements are at pairwise distinct addresses of its pool, the pools hold exactly the elements of the vectors (no leak, no double use); a call places new elements at addresses not in use and no other element changes its value or address, in any vector; a call that throws vector_full or pool_no_allocation changes nothing. Arguments may be references to elements.", "quantifier": "every number of vectors and pools, every capacity, every sharing, every history of calls that respect the preconditions, every build option for checks", "why_tests_cant": "leaks, double frees and aliasing between vectors that share a pool depend on the whole history of all of them", "anchors": ["include/etl/indirect_vector.h: iindirect_vector, indirect_vector, indirect_vector_ext", "include/etl/ipool.h: create, destroy"]}
{"id": "C73", "title": "String utilities: trimming, padding, replacing, cases and tokens", "statement": "etl::string_utilities (and the character searches of etl::string they use). For every string, capacity and argument: find_first_of / find_first_not_of give the first position from the start position on whose character is (not) one of the given ones and find_last_of / find_last_not_of the last one, or npos when there is none; trim_from_left/right, trim_left/right, trim_from, trim, left_n, right_n, reverse, replace_characters, pad_left, pad_right, to_upper/lower/sentence_case (of a non-empty string) leave exactly the text the documentation says, terminated by a null, with no access outside the buffer, in any order of calls; replace_strings with non-empty search texts replaces, for each pair in turn, all non-overlapping occurrences from the left whenever the results fit, and if they do not, the truncated flag tells. The view forms give a sub-view of the given view with that text. Calling get_token until it returns nothing gives, in order, exactly the pieces of the text between delimiters (without the empty ones if so asked), each a view into the text; joined by the delimiters they are the text.", "quantifier": "all strings and capacities, all texts and delimiter sets, all histories of calls, all token loops", "why_tests_cant": "The positions, the delimiters and their repetition, the lengths before and after each replacement and the capacity vary without bound; a loop that stops a character early, skips a token at the end or restarts behind the wrong character is seen only for particular layouts.", "anchors": ["include/etl/string_utilities.h: trim_from_left, trim_from_view_left, trim_left, trim_view_left, trim_from_right, trim_right, trim_from, trim, left_n, right_n, reverse, replace_characters, replace_strings, get_token, pad_left, pad_right, to_upper_case, to_lower_case, to_sentence_case", "include/etl/basic_string.h: find_first_of, find_first_not_of, find_last_of, find_last_not_of"]}
{"id": "C74", "title": "bit_stream: one cursor for puts and gets", "statement": "etl::bit_stream (the read/write class). For every buffer with any contents and any previous use: after restart, any sequence of put calls (bools, unsigned and signed values of any width with any number of bits, floating point values) answers true exactly for those with enough room, and after another restart the same sequence of get calls gives back the accepted values (cut to their bits, with sign). Values are stored most significant bit first, without gaps; earlier bits are not disturbed and no later byte is touched. For puts, gets and restarts in any order every call stays inside the buffer and answers true exactly when there is room; bits(), size() and at_end() tell the bits used. (A floating point value that does not fit leaves those of its bytes that fit.)", "quantifier": "all buffers, lengths and previous contents, all sequences of values, widths and calls", "why_tests_cant": "Fields straddle bytes at every alignment; number of fields, widths, old contents and refused values are unbounded.", "anchors": ["include/etl/bit_stream.h: bit_stream", "include/etl/binary.h: sign_extend"]}
{"id": "C75", "title": "Random generators: ranges, no dying states, full period", "statement": "etl::random_*: for every generator, in every state and for all bounds low <= high other than the whole of uint32_t, range(low, high) gives a number from low to high (the next number modulo the width of the range). random_xorshift: for every seed the state never becomes zero and the sequence is purely periodic. random_pcg: from every state all 2^64 states are visited before one returns. random_mwc: the products never overflow, and with a seed other than zero neither half ever becomes zero. The numbers of random_xorshift satisfy the recurrence of xorshift128 (11, 8, 19), those of random_pcg are the XSH RR permutation of the state, those of random_mwc are the low half of one recurrence and the other, those of random_lcg and random_clcg are one congruential generator with a 32 bit product, and the exact sum of two.", "quantifier": "all seeds, all states, any number of calls, all bounds", "why_tests_cant": "Periods are 2^64 and more, and the states that make a generator degenerate are isolated points among 2^32 or more.", "anchors": ["include/etl/random.h: random_xorshift, random_lcg, random_clcg, random_lsfr, random_mwc, random_pcg, random_hash"]}
{"id": "C76", "title": "multi_range: nested loops", "statement": "etl::multi_range: for every chain of ranges of any types of values, steps and comparisons, none of them empty, `for (start(); !completed(); next())` goes through every combination of the values exactly once, in the order of nested loops, and ends with every range at its first value; number_of_iterations() is the product of the sizes. With an empty outermost range there is no round. append() puts a chain after the innermost range and is refused exactly when the chains have a range in common; insert() puts a chain right after this range; detach(), detach_all() and number_of_ranges() act on the chain as a list.", "quantifier": "all chains of ranges of any length, all values, steps and comparisons", "why_tests_cant": "The number of ranges, their sizes and the links are unbounded; a test runs two or three ranges.", "anchors": ["include/etl/multi_range.h: imulti_range, multi_range"]}
{"id": "C77", "title": "Memory block allocators and successor chains", "statement": "etl::imemory_block_allocator, etl::fixed_sized_memory_block_allocator, etl::successor: for every history of allocations, releases, writes into blocks and changes of the successors: allocate(size, alignment) gives a block of the first allocator of the chain that has one big enough, aligned enough and free; the block is aligned as asked, inside that allocator's buffer and apart from every block in use; null exactly when there is none. release() and is_owner_of() of a block in use succeed exactly when its allocator is in the chain; of anything else in no buffer they fail and change nothing. set_successor, append_successor (with any number of arguments), clear_successor and clear_successor_chain act on the chain as a list.", "quantifier": "all configurations, all histories, chains of any length", "why_tests_cant": "Histories, chain lengths, sizes and alignments are unbounded; overlaps would show up only for particular interleavings of allocations and releases.", "anchors": ["include/etl/imemory_block_allocator.h", "include/etl/fixed_sized_memory_block_allocator.h", "include/etl/successor.h", "include/etl/generic_pool.h"]}
{"id": "C78", "title": "unique_ptr: one owner, one deletion", "statement": "etl::unique_ptr (single object and array): for every history of construction from a pointer, move construction, move assignment (also to itself), release, reset (also with the object it has), swap between pointers with equal deleters, assignment of null and destruction, by a user who gives only objects in their own hands: every object is at every time in exactly one place (with the user, with exactly one unique_ptr, or deleted); it is deleted at most once and with the deleter it was given for; when all unique_ptrs are gone and the user has nothing left every object has been deleted.", "quantifier": "all histories, any number of unique_ptrs and objects, any deleters", "why_tests_cant": "Double deletes and leaks depend on the history; tests see only a few histories.", "anchors": ["include/etl/memory.h: unique_ptr"]}
{"id": "C79", "title": "Algorithms on uninitialised memory", "statement": "etl::uninitialized_fill, _fill_n, _copy, _move, _default_construct, _value_construct, etl::destroy, destroy_n, and their versions with a counter: on raw memory of any size exactly the objects asked for are constructed, each once, in order; nothing else changes; the counter goes up by their number; destroy destroys each object of the range once and counts down by their number, so that fill followed by destroy restores memory and counter. memory_set and memory_clear write exactly the given bytes.", "quantifier": "all memories, ranges, values, trivial and other types", "why_tests_cant": "The size of the ranges is unbounded and the state of all other memory is part of the statement.", "anchors": ["include/etl/memory.h: uninitialized_*, destroy*, memory_set, memory_clear, mem_compare"]}
{"id": "C80", "title": "array: insert, erase, assign", "statement": "etl::array: for every size, contents and position: insert(pos, value) puts the value before the element at pos and drops the last one (also for a value that is an element before pos); insert(pos, first, last) puts as much of the range as fits and drops what is pushed over the end; erase(pos), erase(first, last) close the gap and leave the last elements (moved from where they were moved); with a value they are set to it; assign copies as much as fits, leaves the rest or sets it to the value and returns the first element not assigned; fill and swap. No access outside the array.", "quantifier": "all sizes, contents, positions, ranges, element types with any moved-from state", "why_tests_cant": "Sizes, positions and ranges are unbounded.", "anchors": ["include/etl/array.h", "include/etl/algorithm.h: move, move_backward, copy_s, fill"]}
{"id": "C81", "title": "circular_iterator", "statement": "etl::circular_iterator: for every range that is not empty, every start in it and every history of ++, --, += and -= with any offsets of difference_type (for -= not the least one): the iterator never leaves the range, always has an element, and stands where all the steps together lead it, modulo the length of the range; -- undoes ++, -= undoes +=, a full round comes back.", "quantifier": "all ranges, starts, histories and offsets", "why_tests_cant": "Histories and offsets are unbounded; the code has separate cases for both signs and for wrapping.", "anchors": ["include/etl/circular_iterator.h"]}
{"id": "C82", "title": "Histograms", "statement": "etl::histogram, etl::sparse_histogram: whatever keys (in range) are added, in whatever order, operator[] gives for every key how often it was added, modulo the width of the counters; count() of a histogram is the number of keys added if no counter wrapped; a sparse histogram needs room for the different keys only, size() is their number, a new key without room is refused and changes nothing; clear() brings all counts to 0.", "quantifier": "all sequences of keys, sizes, start indices, counter widths", "why_tests_cant": "The sequences are unbounded.", "anchors": ["include/etl/histogram.h"]}
{"id": "C83", "title": "message_router_registry", "statement": "etl::message_router_registry: after every history of add (of a router, a null pointer, a range) and remove(id), with any ids, also the same id for several routers: a router is refused with an error exactly if the registry is full or if it is the first router registered with its id; remove(id) takes out all routers with the id; find(id) gives the one registered first of those with the id, null if none; contains and count agree with it; iteration shows every router registered once, ordered by id, those with the same id in the order of registration; lower_bound to upper_bound those of the id.", "quantifier": "all histories, ids, capacities", "why_tests_cant": "The histories are unbounded and the ids arbitrary.", "anchors": ["include/etl/message_router_registry.h", "include/etl/flat_multimap.h"]}
{"id": "C84", "title": "Unaligned types and byte order", "statement": "etl::unaligned_type, unaligned_type_ext, hton, ntoh: for every value, address, size and byte order of type and host: a value stored is in memory in the byte order of the type, on every host, and no other byte changes; the value read depends only on the bytes and the byte order of the type, so what one host writes another one reads; copying and moving between types of different byte order keeps the value; every sequence of bytes stands for exactly one value; hton gives the value whose bytes in the memory of the host are big endian and ntoh undoes it.", "quantifier": "all values, positions, memory contents, sizes (1, 2, 4, 8; any for floating point), byte orders of host and types", "why_tests_cant": "All values and both kinds of host: a test runs on one host.", "anchors": ["include/etl/unaligned_type.h", "include/etl/endianness.h: hton, ntoh", "include/etl/binary.h: reverse_bytes"]}
{"id": "C85", "title": "Rounding of scaled integers", "statement": "scaled_rounding.h: for every integral type, scaling and value for which nothing overflows: round_zero gives value / scaling rounded toward zero; round_half_up and round_half_down the nearest integer, halves away from and toward zero; round_half_even and round_half_odd the nearest, halves to the even and odd one; round_ceiling the least integer not below, round_floor the greatest not above, round_infinity the next one away from zero; the ..._scaled functions give this times the scaling.", "quantifier": "all values, scalings and types (any width, signed or not)", "why_tests_cant": "All values of all types.", "anchors": ["include/etl/scaled_rounding.h", "include/etl/absolute.h"]}
{"id": "C86", "title": "pseudo_moving_average", "statement": "etl::pseudo_moving_average of integral types: after every history of add, clear and set_sample_size the value is between the least and the greatest of the scaled values given, and it is exactly what the formula gives in exact integers, if the type can hold (sample size + 1) times these bounds; with a constant input the value never moves away from it and comes within the sample size of it after at most as many additions as it was away.", "quantifier": "all histories, values, sample sizes, scalings and integral types", "why_tests_cant": "Histories are unbounded.", "anchors": ["include/etl/pseudo_moving_average.h"]}
{"id": "C87", "title": "multi_span shows the concatenation of its spans", "statement": "etl::multi_span over any list of spans, empty ones included: iterating from begin() to end() sees exactly the elements of the spans in order, iterating backwards sees them in the opposite order, [i] is the element i, two iterators are equal exactly if they stand at the same element, and size, empty and size_spans are right.", "quantifier": "all lists of spans, all positions", "why_tests_cant": "All lists, with empty spans anywhere.", "anchors": ["include/etl/multi_span.h"]}
{"id": "C88", "title": "atomic of class types is linearizable; mutex excludes", "statement": "etl::atomic<T> for types that are neither integral nor pointers (builtin implementations): for every type, any number of threads and every interleaving of their steps, load, store, exchange and compare_exchange are linearizable, values are never torn, no two threads access the value at the same time, and a thread inside waits for nobody. etl::mutex (builtin implementations): never two threads inside; try_lock succeeds exactly if nobody is.", "quantifier": "all types, values, numbers of threads, call histories and interleavings", "why_tests_cant": "Interleavings of unboundedly many threads and calls.", "anchors": ["include/etl/atomic/atomic_gcc_sync.h: atomic<T, false>", "include/etl/mutex/mutex_gcc_sync.h"]}
{"id": "C89", "title": "atomic of integral types, pointers and bool keeps the contract of std::atomic", "statement": "etl::atomic of integral types, pointers and bool (builtin implementations): for both families of builtins, all widths, any number of threads and every interleaving, every function is linearizable with the results and effects that std::atomic has (compound assignments give the new value, pointers move by objects, a failing compare_exchange stores the current value in expected, the strong one never fails without reason), and no call waits for another thread.", "quantifier": "all values, widths, numbers of threads, call histories and interleavings", "why_tests_cant": "Interleavings of unboundedly many threads and calls.", "anchors": ["include/etl/atomic/atomic_gcc_sync.h: atomic"]}
{"id": "C90", "title": "Objects of several types in one pool", "statement": "variant_pool and generic_pool create/destroy: for every set of types and every history of create, use and destroy by a user who destroys each object once: every object is placed in suitably aligned storage of sufficient size that overlaps no other live object, no constructor runs on a live object and no destructor on a dead one, objects keep their values whatever happens to others, create succeeds exactly if fewer than max objects live, and constructions = destructions + live objects.", "quantifier": "all lists of types (sizes, alignments), pool sizes, build modes and histories", "why_tests_cant": "Histories and type lists are unbounded.", "anchors": ["include/etl/variant_pool.h", "include/etl/generic_pool.h: create, destroy", "include/etl/ipool.h: create, destroy", "include/etl/largest.h: largest_type, largest_alignment"]}
{"id": "C91", "title": "C string functions and char_traits", "statement": "strlen, strcmp, strncmp, strcpy, strncpy and char_traits length/assign/move/copy/compare/find: for every memory content, every placement of the arguments (overlapping where the call allows it) and every character type, the answer is that of the C function, nothing outside the arguments is read or written, to_char_type undoes to_int_type, and eof is no character.", "quantifier": "all memory contents, pointers, lengths, overlaps and character types", "why_tests_cant": "Memory contents and overlaps are unbounded.", "anchors": ["include/etl/char_traits.h: char_traits, strlen, strcmp, strncmp, strcpy, strncpy"]}
{"id": "C92", "title": "Intrusive tree links", "statement": "tree_link with link_left, link_right, link_rotate_left/right, link_rotate, mirror, clear: for every tree of links in memory, hanging a tree under a free side, mirroring and every history of rotations (with the link above set by the caller) leave a well formed tree: every child points to its parent, every parent to its children, the links from left to right are the same in the same order, and no link outside the tree is touched; null pointers are ignored.", "quantifier": "all trees, all links in them, all histories of rotations", "why_tests_cant": "Trees and histories are unbounded.", "anchors": ["include/etl/intrusive_links.h: tree_link, link_left, link_right, link_rotate_left, link_rotate_right, link_rotate, link_clear, is_linked"]}
{"id": "C93", "title": "Delegates call what they were made from", "statement": "delegate: for every history of making, copying, clearing, comparing and calling delegates and for all user functions, a call runs exactly the function the delegate was made from, on its object, once, with the arguments, and returns its result; an empty delegate fails its assertion, is skipped by call_if and replaced by the alternative in call_or; equal delegates call the same.", "quantifier": "all histories, all functions, objects and arguments", "why_tests_cant": "Histories and user functions are arbitrary.", "anchors": ["include/etl/private/delegate_cpp11.h: delegate"]}
{"id": "C94", "title": "Delegate and callback services dispatch by id", "statement": "delegate_service, callback_service: for every history over any number of services, a call with an id reaches exactly what was last registered for that id at that service, once, with the id; otherwise what is registered for unhandled ids; otherwise nothing. Ids outside Offset .. Offset+Range-1 are unhandled and registrations for them ignored.", "quantifier": "all histories, ranges, offsets and ids", "why_tests_cant": "Histories are unbounded.", "anchors": ["include/etl/delegate_service.h: delegate_service", "include/etl/callback_service.h: callback_service"]}
{"id": "C95", "title": "String streams write every item in the format in force", "statement": "string_stream: for every string, capacity, format and history of manipulators, formats, insertions of strings, booleans, integers and pointers and resets: as long as it fits, the string is its initial (or reset) text followed by every inserted item, in order, in the format in force when it was inserted, padded to the width; whether it fits or not, nothing is written beyond the capacity and the text before an insertion stays unchanged. Formats are equal exactly if all settings are.", "quantifier": "all strings, capacities, formats and histories", "why_tests_cant": "Histories are unbounded.", "anchors": ["include/etl/basic_string_stream.h: basic_string_stream", "include/etl/basic_format_spec.h: basic_format_spec", "include/etl/private/to_string_helper.h: add_boolean, add_string, add_pointer"]}
{"id": "C96", "title": "Message packets hold one message and destroy it once", "statement": "message_packet: for every list of message types with different ids, with virtual and non-virtual messages, and every history of constructing, copying, moving, assigning, reading, writing and destroying any number of packets: a packet returns the message last put there, with its type; only listed ids are accepted; a moved-from packet keeps the moved-from message; every message constructed is destroyed exactly once, never read after that, never overwritten alive; the storage fits every type.", "quantifier": "all type lists, builds and histories", "why_tests_cant": "Histories are unbounded.", "anchors": ["include/etl/message_packet.h: message_packet", "include/etl/message.h: imessage", "include/etl/largest.h: largest"]}
{"id": "C97", "title": "Statistics are those of the values since the last clear", "statement": "mean, variance, standard_deviation, rms, covariance, correlation: after every history of adding values one by one and in ranges, asking and clearing, in any order, the result is the exact statistic (population or sample) of the values added since the last clear, however often it was asked for before; variances are never negative and correlations lie between -1 and 1. Doubles are taken as exact; the types in which inputs are multiplied and summed need only hold the sums that occur.", "quantifier": "all histories, values and calculation types", "why_tests_cant": "Histories and values are unbounded.", "anchors": ["include/etl/mean.h: mean", "include/etl/variance.h: variance", "include/etl/standard_deviation.h: standard_deviation", "include/etl/rms.h: rms", "include/etl/covariance.h: covariance", "include/etl/correlation.h: correlation"]}
{"id": "C98", "title": "Flags are sets of positions inside the mask", "statement": "flags: for every unsigned type, mask and history over any number of flags, each flag holds exactly the positions the history leaves in it, never one outside the mask, and every question (test, all, all_of, any, any_of, none, none_of, ==) is answered for that set.", "quantifier": "all widths, masks, patterns and histories", "why_tests_cant": "Histories are unbounded and patterns have up to 64 bits.", "anchors": ["include/etl/flags.h: flags"]}
{"id": "C99", "title": "Limiter, threshold, quantizer, rescaler and inverter", "statement": "limiter: the nearest value between the limits. threshold, quantize: the value of the first threshold the input comes before, for every order, without reading outside the arrays. rescale: (exact arithmetic) ends to ends, within one of the straight line, monotone, into the output range. invert: its own inverse for all offsets, minuends and values.", "quantifier": "all values, ranges, orders, tables", "why_tests_cant": "Values and ranges are unbounded.", "anchors": ["include/etl/limiter.h: limiter", "include/etl/threshold.h: threshold", "include/etl/quantize.h: quantize", "include/etl/rescale.h: rescale", "include/etl/invert.h: invert"]}
{"id": "C100", "title": "hash agrees with equality", "statement": "etl::hash: values that compare equal have equal hashes on every platform: integers, enumerations, pointers, texts (whatever object holds them) and floating point numbers, the two zeros included; values no wider than size_t of one signedness never collide; wider ones and texts get the FNV-1a hash of their bytes.", "quantifier": "all values, all widths of size_t, both byte orders, all texts", "why_tests_cant": "2^64 values; platforms the tests do not run on.", "anchors": ["include/etl/hash.h: hash, private_hash::generic_hash, hash_base", "include/etl/math.h: is_zero", "include/etl/string.h: hash<istring>", "include/etl/string_view.h: hash<string_view>"]}
{"id": "C101", "title": "iota, midpoint and lerp", "statement": "iota fills a range with value, value + 1, ...; midpoint of integers of every type is defined and half way, rounded towards the first argument; of positions half way; of finite floating point numbers their finite mean; lerp is a at 0, b at 1, monotone and between a and b.", "quantifier": "all widths and values; all positions; exact arithmetic with overflow for floating point", "why_tests_cant": "Pairs of 64 bit values.", "anchors": ["include/etl/numeric.h: iota, midpoint, lerp"]}
{"id": "C102", "title": "poly_span shows the objects of its array", "statement": "poly_span: whatever the size of the derived type, indexing, front, back, iteration in both directions and iterator arithmetic reach exactly the objects of the viewed array; construction, first, last and subspan, chained to any depth within bounds, show exactly the objects requested; iterator differences count elements; the hash covers the elements.", "quantifier": "all addresses, element sizes, extents, chains of subviews, both kinds of extent", "why_tests_cant": "Element sizes, extents and chains are unbounded.", "anchors": ["include/etl/poly_span.h: poly_span, private_poly_span::iterator, hash<poly_span>"]}
{"id": "C103", "title": "Programs over lists of types", "statement": "nth_type, type_select, parameter_pack, type_list_select, type_list_cat, make_index_sequence, is_one_of, has_duplicates, count_of, type_id_lookup, type_type_lookup, largest_type, largest_alignment, smallest_type and the best-fit integer types compute, for every list of types, the element, index, sublist, concatenation, first match, extreme or narrowest type they name, and do not compile where there is none.", "quantifier": "all lists of types of any length, indices, ids, sizes, values up to 64 bits", "why_tests_cant": "Lists are unbounded; tests instantiate a few.", "anchors": ["include/etl/nth_type.h", "include/etl/type_list.h", "include/etl/parameter_pack.h", "include/etl/type_select.h", "include/etl/type_lookup.h", "include/etl/largest.h", "include/etl/smallest.h", "include/etl/utility.h: make_index_sequence", "include/etl/type_traits.h: is_one_of, has_duplicates, count_of"]}
{"id": "C104", "title": "One-pass algorithms, also in place and overlapping", "statement": "swap_ranges, generate, fill_n, copy_n, copy_n_s, copy_n_if, reverse_copy, move_s, replace, replace_if, for_each and for_each_if (and their n forms), transform (one and two ranges; s, n, if, n_if forms), partition_copy, partition_point, multimax and multimin call the user's function exactly once per selected element in order, write exactly the results one after the other, touch nothing else, never go past the shorter range in the safe forms, and return the end of what they wrote, also when the destination is the source or starts before it.", "quantifier": "all memories, positions, lengths, functions with state, predicates and (signed) counts; any overlap that does not start inside the source", "why_tests_cant": "Tests use disjoint arrays of a few elements; overlap, state and length are unbounded.", "anchors": ["include/etl/algorithm.h"]}
{"id": "C105", "title": "Iterator adaptors and iterator functions", "statement": "For every iterator type that walks a sequence, reverse_iterator walks it backwards (and reverse_iterator over reverse_iterator forwards), move_iterator walks it unchanged, with all comparisons, differences and indexing agreeing with positions; advance, next, prev and distance move by and measure the distance for every iterator category; fixed_iterator never moves; copying to back_inserter and push_inserter appends in order, to front_inserter reverses, and stops with the container's error when it is full.", "quantifier": "all sequences, positions, offsets (signed), iterator categories, underlying iterator types, nestings of adaptors, containers", "why_tests_cant": "Tests use arrays and lists of a few elements.", "anchors": ["include/etl/iterator.h", "include/etl/fixed_iterator.h"]}
{"id": "C106", "title": "Comparisons and visits of the sum types, and result", "statement": "Comparisons of variants order by alternative then value with a valueless variant first; comparisons of optionals, with optionals, nullopt and values in both orders, order an empty optional first, agree with each other and never read an absent value; an expected that holds an error never equals one that holds a value; visit of any number of variants calls the function exactly once with the values they hold, and fails without calling it if one is valueless; accept calls the visitor once even if it changes the variant; result, result<void, E>, result<T, void> and expected<void, E> hold, through every sequence of operations, exactly the value or the error last stored.", "quantifier": "all types, values, orders, numbers of variants, visitors, programs", "why_tests_cant": "Tests compare a few values and visit one or two variants.", "anchors": ["include/etl/optional.h", "include/etl/expected.h", "include/etl/result.h", "include/etl/private/variant_variadic.h: visit, accept, operator =="]}
{"id": "C107", "title": "Lists that share one pool", "statement": "Any number of lists that share a node pool behave, through every history of their operations, as ideal lists with one common bound on the sum of their sizes: a push or insertion fails exactly when the elements of all lists together fill the pool, every operation leaves the other lists as they were, size, contents in both directions, front, back, full and available are right for every list, moving one list into another needs no room and never fails, and an element given up by one list can be used by another; no item is lost, used twice or leaked.", "quantifier": "all numbers of lists, pool sizes, histories, element values, predicates", "why_tests_cant": "The lists interfere only through the free list of the pool: the interleavings of their operations cannot be enumerated by tests.", "anchors": ["include/etl/list.h: list_ext, initialise, move_container, splice"]}
{"id": "C108", "title": "The functions of bit.h and the operators of byte act on the bits as specified", "statement": "bit_width is the number of bits needed to write a value, bit_floor the greatest power of two not above it (0 for 0), bit_ceil the least power of two not below it whenever that fits the type; has_single_bit is true exactly for powers of two; rotl and rotr rotate by the signed distance modulo the width, in opposite directions; the shifts, the bitwise operators and the complement of etl::byte, and the function objects binary_not, binary_and, binary_or and binary_xor, act bit by bit with the result cut to the type.", "quantifier": "all values of 8, 16, 32 and 64 bits, all distances and parameters", "why_tests_cant": "There are 2^64 values and the promotions to int make the narrow types behave differently: tests sample.", "anchors": ["include/etl/bit.h: bit_width, bit_ceil, bit_floor, has_single_bit, rotl, rotr", "include/etl/byte.h: operators", "include/etl/binary.h: binary_not, binary_and, binary_or, binary_xor"]}
{"id": "C109", "title": "Array views and array wrappers act on exactly the elements they denote", "statement": "An array_view made from a range or from a start and a size inside an array denotes those elements; removing a prefix or a suffix of any length never leaves the view and keeps the rest; at gives the element or reports an error, and a write or fill through a mutable view changes the elements of the view and no other element of the array; the six comparisons, of views of one array or of two, are equality and lexicographic order of the elements; array_wrapper does the same for the whole of the wrapped array, and swap exchanges the contents of two.", "quantifier": "all arrays, views, indexes, lengths, element values, and strict total orders", "why_tests_cant": "Sizes, offsets and overlaps are unbounded.", "anchors": ["include/etl/array_view.h: array_view", "include/etl/array_wrapper.h: array_wrapper"]}
{"id": "C110", "title": "mem_cast and mem_cast_ptr store and return values at the bytes asked for, inside the buffer", "statement": "assign, assign_at_offset, emplace and emplace_at_offset accept a value exactly when it fits the buffer behind the offset; then exactly those bytes change, the value can be read back through ref and ref_at_offset, and every value elsewhere is unchanged; after any history of assignments, overlapping or not, through any casts, each byte is that of the last assignment that covers it; a refused access reports the size error, or the null pointer error when no buffer is set, and changes nothing; alignment() is the greatest power of two dividing the address of the buffer.", "quantifier": "all buffer sizes, offsets, value sizes, histories, addresses", "why_tests_cant": "The overlaps of values of different sizes at all offsets cannot be enumerated; nor can the wrap of the size computation.", "anchors": ["include/etl/mem_cast.h: mem_cast, mem_cast_ptr"]}
{"id": "C111", "title": "io ports access the device exactly as written", "statement": "etl::io_port_rw/ro/wo/wos: whatever the device does, a read makes exactly one read of the address of the port, a write exactly one write, a compound operator exactly one read followed by one write of the result of the operation, bit by bit, on the value read. A write only port with a shadow never reads: it writes the values of a variable that starts at zero and gives back the last one. On a device that is a memory, ports are independent variables after any history of operations. Copying through the iterator of a port makes one access per element, in order.", "quantifier": "all devices (functions of the history of accesses), widths, addresses, operations, histories, lengths", "why_tests_cant": "A device may react to every access, so that one access too many or in another order matters, and the histories are unbounded.", "anchors": ["include/etl/io_port.h: io_port_rw, io_port_ro, io_port_wo, io_port_wos"]}
{"id": "C112", "title": "singletons and instance counters follow the life of objects", "statement": "etl::singleton: after any history of create (also one that throws), destroy and instance, nothing is constructed over a living object, destroyed twice or used dead; create while an object lives does nothing; instance gives the living object or throws; is_valid is true exactly while it lives; constructed = destroyed + living. etl::singleton_base: at most one object of the type lives and instance gives it; is_valid is true exactly while one lives. etl::instance_count: the count is the number of living objects, and after a reset the difference since. etl::debug_count: the count is exact, an assertion fails exactly when a decrement goes below zero, and at destruction exactly when it is not zero.", "quantifier": "all histories of calls, all values, all widths of the counter", "why_tests_cant": "Histories are unbounded, and the failing cases are particular orders of constructions, exceptions and destructions.", "anchors": ["include/etl/singleton.h: singleton", "include/etl/singleton_base.h: singleton_base", "include/etl/instance_count.h: instance_count", "include/etl/debug_count.h: debug_count"]}
{"id": "C113", "title": "the legacy bitset is a vector of N bits", "statement": "With ETL_USE_LEGACY_BITSET, after any sequence of set, reset, flip, ~, set/reset/flip of a position, bit references, texts, numbers, &=, |=, ^=, =, swap, << and >> on any bitsets of the same size, every answer (test, all, any, none, count, to_string, find_first, find_next, value, ==) is that of the corresponding vector of N bits; exactly the positions >= N raise the error and change nothing; no access leaves the storage.", "quantifier": "all N, element widths 8 to 64, initial memory and sequences of operations", "why_tests_cant": "Every combination of size modulo the width, shift modulo the width and operation order is a different path; a bit left in the unused part of the last element shows only after later operations.", "anchors": ["include/etl/private/bitset_legacy.h: ibitset, bitset, bit_reference"]}
{"id": "C114", "title": "Compile-time ratios are exact rationals", "statement": "Whatever etl::ratio_add, ratio_subtract, ratio_multiply, ratio_divide give is the exact sum, difference, product or quotient of the rational numbers; sums and differences are in lowest terms with a positive denominator for all operands, products and quotients of reduced positive ratios too; the six comparisons are those of the rational numbers; a product that can be represented compiles. permutations and combinations are the numbers of arrangements and subsets; digits10 of an integral type is the number of decimal digits each of its values can hold.", "quantifier": "all ratios over intmax_t, all N and K, all integral widths", "why_tests_cant": "The operands are template arguments: each test instantiates a few; the remainders, signs and overflows of the template recursion differ with each.", "anchors": ["include/etl/ratio.h: ratio, ratio_add, ratio_subtract, ratio_multiply, ratio_divide, ratio_less", "include/etl/permutations.h: permutations", "include/etl/combinations.h: combinations", "include/etl/limits.h: digits10"]}
{"id": "C115", "title": "All comparisons follow from less-than; named enumerations", "statement": "For every strict weak order TLess, etl::compare<T, TLess>::lt, gt, lte, gte, eq, ne and cmp are the relations of that order: exactly one of lt, eq, gt holds, eq is an equivalence, lte a total preorder, and with a key in a linear order they are <, >, <=, >=, ==, != of the keys; three_way_compare gives cmp of the same order. An ETL_DECLARE_ENUM_TYPE enumeration converts each enumerator to its value and back, and c_str() gives the name of exactly the named values and ? for all others.", "quantifier": "all value types, all strict weak orders, all pairs and triples of values; all declarations of enumerators and names, all values", "why_tests_cant": "The relations are claims about all triples of values and all orders; tests use int with the default order, for which an ignored template argument does not show.", "anchors": ["include/etl/compare.h: compare, three_way_compare", "include/etl/enum_type.h: ETL_DECLARE_ENUM_TYPE, ETL_ENUM_TYPE, ETL_END_ENUM_TYPE"]}
{"id": "C116", "title": "The legacy variant is nothing or one value with its type", "statement": "For every declaration of up to eight different types and every sequence of legal operations on any number of etl::legacy::variant objects (constructions from values, by index and by copy, emplace, assignments, constructors that throw, clear, destruction): nothing is constructed over a live object, no dead object is read or destroyed, nothing stays alive in a destroyed variant, and each variant shows exactly what an ideal variant holds through is_valid, index, is_type, get (the error for the other types), call, visit, is_base_of, upcast_ptr and is_same_type.", "quantifier": "all declarations, all histories of operations on any number of variants, all values", "why_tests_cant": "The histories and the declarations are unbounded; a missing destructor call or a wrong identifier shows only for particular sequences of types.", "anchors": ["include/etl/private/variant_legacy.h: variant, destruct_current, emplace, operator =, get, is_type, is_same_type, call, visit, upcast_ptr"]}
{"id": "C117", "title": "A packet always holds the one object stored last", "statement": "For every base class, storage size and alignment, every table of derived types and every sequence of assignments and get() calls on an etl::packet: types that are not derived from the base or do not fit the storage do not compile, the others lie at their alignment; get() shows the object stored last, every object is destroyed exactly once, by its own destructor and before the next is made, and nothing is left when the packet is destroyed.", "quantifier": "all types and storage parameters, all histories of assignments and reads, all values", "why_tests_cant": "The types stored are the user's; a size, an alignment or a base at another place than those of the tests, or a throwing constructor, is not seen by them.", "anchors": ["include/etl/packet.h: packet, operator =, get, ~packet", "include/etl/alignment.h: aligned_storage, is_aligned"]}
{"id": "C118", "title": "The limits of the integral types are those of the platform", "statement": "For every platform (sizes of the types, signedness of char and wchar_t, bytes of eight bits) and every integral type: numeric_limits::min, max and lowest are the ends of the range of values of the type, digits is the number of its value bits, digits10 the number of decimal digits that always fit, is_signed and is_modulo are right; the same holds of min, max, bits, is_signed and value_type of integral_limits, and of the traits is_signed and is_unsigned.", "quantifier": "all integral types, all platforms with bytes of eight bits", "why_tests_cant": "Tests run on one platform; the limits of another, with other sizes or another signedness of char, are not seen.", "anchors": ["include/etl/limits.h: numeric_limits", "include/etl/integral_limits.h: integral_limits", "include/etl/type_traits.h: is_signed, is_unsigned"]}
{"id": "C119", "title": "The function objects compare, compute and bind as their names say", "statement": "For every type whose < and == are those of a total order and all values, less, less_equal, greater, greater_equal, equal_to and not_equal_to hold exactly if the relation they name does, in the form for one type and in the transparent form for void; bind1st and bind2nd pass the stored value first and second; for every integral type T and all values plus, minus, negate, multiplies, divides, modulus, the logical and the bit objects give the value of T congruent to the exact result, and are undefined exactly if the type computed in is signed and has not that value, or the divisor is 0.", "quantifier": "all totally ordered types, all integral types, all values", "why_tests_cant": "A test compares a few pairs and rarely equal ones in every form; overflow and promotion depend on the width.", "anchors": ["include/etl/functional.h: less, less_equal, greater, greater_equal, equal_to, not_equal_to, bind1st, bind2nd, plus, minus, negate, multiplies, divides, modulus, logical_and, logical_or, logical_not, bit_and, bit_or, bit_xor, bit_not"]}
{"id": "C120", "title": "A type_def or user type variable behaves like a variable of its value type", "statement": "For every integral value type, any number of variables and every sequence of ++, -- (prefix and postfix), compound assignments with a value or another variable, and assignments: each expression is defined exactly if it is for the value type, has the same value, stores in the variable named the value of the value type congruent to the exact result and changes no other; the comparisons are those of the values.", "quantifier": "all widths and signednesses, all histories, all operands including the variable itself", "why_tests_cant": "A test applies each operator once to small numbers; it does not see wrap, promotion, an operand that is the variable itself, or a sequence.", "anchors": ["include/etl/type_def.h: type_def", "include/etl/user_type.h: ETL_DECLARE_USER_TYPE"]}
{"id": "C121", "title": "Pairs compare lexicographically; swap and exchange exchange", "statement": "For all member types whose operators are those of total orders and all values, the six comparisons of pair are those of the lexicographic order, and coordinates are equal exactly if both members are; for all objects, the object itself included, swap of objects, of pairs and of arrays of any size that do not overlap exchanges the values and changes nothing else; assignment of pairs copies both members; exchange returns the old value and stores the new one, which may be that of the object itself.", "quantifier": "all totally ordered member types, all values, all objects and aliases, all array sizes", "why_tests_cant": "Tests compare a handful of pairs, and swap distinct objects of one size.", "anchors": ["include/etl/utility.h: pair, make_pair, swap, exchange, coordinate_2d"]}
