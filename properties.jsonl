{"id": "C01", "title": "Live external blocks never overlap", "statement": "Every block handed out by the disk allocator and not yet deleted occupies a byte range inside the disk file that is disjoint from the range of every other live block; two users of external memory never share bytes.", "quantifier": "every history of new_blocks / delete_block calls (any block sizes, any counts, any interleaving of the two halves of a split allocation), with and without autogrow", "why_tests_cant": "the overlap depends on the whole allocation/free history and on fragmentation; tests sample a handful of histories", "anchors": ["include/stxxl/bits/mng/disk_allocator.h: disk_allocator::new_blocks, grow_file, delete_block", "lib/mng/disk_allocator.cpp: add_free_region"]}
{"id": "C02", "title": "Free-space accounting is exact and freed space is fully coalesced", "statement": "At any time free bytes + bytes of live blocks = total bytes of the disk, free bytes equals the size of the free map, and adjacent free regions are always merged, so after every block has been deleted the free map is one region covering the whole file and the next request of any size up to the file size succeeds contiguously.", "quantifier": "every history of allocations and deallocations, every order in which blocks are freed", "why_tests_cant": "coalescing has predecessor/successor/both/neither cases that combine differently in every free order", "anchors": ["include/stxxl/bits/mng/disk_allocator.h: get_free_bytes, get_used_bytes, get_total_bytes", "lib/mng/disk_allocator.cpp: add_free_region"]}
{"id": "C03", "title": "Deleting a block that is (partly) free is rejected without effect", "statement": "delete_block of a block that overlaps currently free external memory (double deallocation) throws bad_ext_alloc and changes nothing; delete_block of a live block never throws.", "quantifier": "every reachable allocator state and every block position/size", "why_tests_cant": "needs every possible free map and every overlap shape", "anchors": ["lib/mng/disk_allocator.cpp: add_free_region", "include/stxxl/bits/mng/disk_allocator.h: delete_block"]}
{"id": "C04", "title": "Allocation succeeds whenever it can and fails cleanly", "statement": "A request for n>=1 blocks of the fixed block size always terminates; it throws only if autogrow is off and fewer free bytes than requested remain, in which case nothing changes; otherwise every one of the n blocks gets a place even if free space is fragmented.", "quantifier": "every reachable free map, every request size", "why_tests_cant": "fragmentation patterns are unbounded; termination of the splitting recursion is a property of all of them", "anchors": ["include/stxxl/bits/mng/disk_allocator.h: new_blocks"]}
{"id": "C05", "title": "Allocation strategies stay on configured disks and stripe evenly", "statement": "For every block index the striping, simple-randomized, randomized-cycling and fully-randomized strategies return a disk inside [begin,end); striping, SR and RC send any (end-begin) consecutive blocks to pairwise different disks, so each disk gets exactly one.", "quantifier": "every disk range, every block index, every outcome of the random generator", "why_tests_cant": "depends on all random outcomes and all indices", "anchors": ["include/stxxl/bits/mng/block_alloc.h: striping, FR, SR, RC, single_disk, offset_allocator"]}
{"id": "C06", "title": "The block manager assigns every requested block to the disk chosen by the strategy", "statement": "new_blocks returns one block id per requested block, block i lies on disk strategy(offset+i), and all returned ids are pairwise disjoint from each other and from all live blocks on all disks.", "quantifier": "every number of disks, every strategy function, every request and history", "why_tests_cant": "the scatter through per-disk arrays must be right for all strategy functions", "anchors": ["include/stxxl/bits/mng/block_manager.h: new_blocks_int, delete_block, delete_blocks"]}
{"id": "C07", "title": "The LRU pager evicts the least recently used page", "statement": "kick() always returns a valid page slot, namely the one whose last hit (or initial position) is the oldest; hits of other slots never change the relative order of the rest.", "quantifier": "every number of pages and every history of hits", "why_tests_cant": "order depends on the whole hit history", "anchors": ["include/stxxl/bits/containers/pager.h: lru_pager"]}
{"id": "C08", "title": "An external vector behaves like an in-memory array", "statement": "Reading element i of an stxxl::vector returns the value last written to element i, no matter how pages are cached, evicted, flushed or reloaded in between, for every pager decision; push_back/pop_back/resize keep all surviving elements.", "quantifier": "every history of element writes/reads, push_back, pop_back, resize, flush, every page size, block size, number of cache pages (>=1) and every victim choice of the pager", "why_tests_cant": "write-back cache bugs need a specific order of evictions and accesses", "anchors": ["include/stxxl/bits/containers/vector.h: vector::element, const_element, read_page, write_page, flush, _resize, reserve, push_back, pop_back"]}
{"id": "C09", "title": "Flushing or destroying a vector makes external memory complete", "statement": "After flush() (and in the destructor) the blocks of the vector on disk contain every element's current value, so a second vector/stream opened on the same blocks or file reads the same data.", "quantifier": "every history before the flush", "why_tests_cant": "dirty-flag bugs lose data only after particular histories", "anchors": ["include/stxxl/bits/containers/vector.h: flush, write_page, ~vector"]}
{"id": "C10", "title": "Shrinking a vector's capacity gives blocks back", "statement": "resize(n, true) with fewer blocks keeps the first n elements readable and returns the blocks no longer needed to the block manager.", "quantifier": "every vector state and every n", "why_tests_cant": "leaks are invisible to functional tests", "anchors": ["include/stxxl/bits/containers/vector.h: _resize_shrink_capacity"]}
{"id": "C11", "title": "External stack (normal_stack) is LIFO", "statement": "top() after any sequence of push/pop/modify-through-top returns exactly what an in-memory stack would, size() and empty() agree, whatever the block size and blocks per page.", "quantifier": "every history of push, pop, top-modification; every page geometry", "why_tests_cant": "page overflow/underflow boundaries combine with every history", "anchors": ["include/stxxl/bits/containers/stack.h: normal_stack"]}
{"id": "C12", "title": "External stack (grow_shrink_stack) is LIFO under every I/O schedule", "statement": "Same as C11 for grow_shrink_stack, whose writes and prefetch reads are asynchronous: for every moment at which a disk request happens to be served, the observable stack is the in-memory stack and no block in flight is modified by the user.", "quantifier": "every history and every completion schedule of outstanding disk requests", "why_tests_cant": "thread/IO schedules cannot be enumerated by tests", "anchors": ["include/stxxl/bits/containers/stack.h: grow_shrink_stack"]}
{"id": "C13", "title": "External stack (grow_shrink_stack2) is LIFO with any pool and prefetch setting", "statement": "Same as C11 for grow_shrink_stack2 with a shared read/write pool and arbitrary changes of the prefetch aggressiveness.", "quantifier": "every history including set_prefetch_aggr, every pool size", "why_tests_cant": "hint/invalidate interplay depends on history", "anchors": ["include/stxxl/bits/containers/stack.h: grow_shrink_stack2", "include/stxxl/bits/mng/read_write_pool.h"]}
{"id": "C14", "title": "Migrating stack preserves contents when moving to external memory", "statement": "A migrating_stack behaves as one LIFO stack; when it grows to the critical size its whole contents move to the external implementation in order, and it never moves back.", "quantifier": "every critical size and history", "why_tests_cant": "off-by-one at migration boundary", "anchors": ["include/stxxl/bits/containers/stack.h: migrating_stack, normal_stack(const StackType&)"]}
{"id": "C15", "title": "External queue is FIFO", "statement": "front(), back(), size() after any sequence of push and pop equal those of an in-memory FIFO queue, for every block size and every prefetch setting; no element is lost, duplicated or reordered when blocks are shifted in memory, spilled or prefetched.", "quantifier": "every history of push/pop, every block size>=1", "why_tests_cant": "needs long histories that cross many block states", "anchors": ["include/stxxl/bits/containers/queue.h: queue::push, pop, front, back"]}
{"id": "C16", "title": "External sequence is a double-ended list", "statement": "push_front/push_back/pop_front/pop_back/front/back/size of stxxl::sequence equal those of an in-memory deque for every history and block size.", "quantifier": "every history of the four updates, every block size>=1", "why_tests_cant": "gap-closing in both directions and block spills interact", "anchors": ["include/stxxl/bits/containers/sequence.h: push_front, push_back, pop_front, pop_back"]}
{"id": "C17", "title": "Sequence streams enumerate the container", "statement": "get_stream() yields exactly the elements front to back, get_reverse_stream() exactly the reverse, and both report the number of remaining elements.", "quantifier": "every reachable sequence", "why_tests_cant": "depends on the layout produced by arbitrary histories", "anchors": ["include/stxxl/bits/containers/sequence.h: stream, reverse_stream"]}
{"id": "C18", "title": "External deque is a double-ended random access list", "statement": "push/pop at both ends and indexed access of stxxl::deque (a circular buffer in a vector, doubled when full) equal those of an in-memory deque.", "quantifier": "every history", "why_tests_cant": "wrap-around plus doubling in every rotation state", "anchors": ["include/stxxl/bits/containers/deque.h: deque"]}
{"id": "C19", "title": "Read/write pool returns the last written block", "statement": "A block read through read_write_pool (or write_pool+prefetch_pool) after any sequence of write, hint, invalidate, steal, resize and reads contains the data of the latest write to that block id, for every completion order of the outstanding requests.", "quantifier": "every history, every pool size, every I/O completion schedule", "why_tests_cant": "stale prefetch copies only show under particular schedules", "anchors": ["include/stxxl/bits/mng/read_write_pool.h", "include/stxxl/bits/mng/write_pool.h", "include/stxxl/bits/mng/prefetch_pool.h"]}
{"id": "C20", "title": "Pools never lose, duplicate or alias buffers", "statement": "Every buffer is at any time in exactly one of: free list, in-flight list, or the user's hands; the number of buffers owned by a pool changes only by add, steal, write, resize and by exchanges.", "quantifier": "every history of pool operations", "why_tests_cant": "leaks/aliases accumulate silently", "anchors": ["include/stxxl/bits/mng/write_pool.h", "include/stxxl/bits/mng/prefetch_pool.h"]}
{"id": "C21", "title": "Varint and string encoding round-trips", "statement": "Decoding what put_varint (32 bit) / put_varint (64 bit) / put_string wrote returns the same value and leaves the cursor right after it, so any sequence of put operations is read back by the same sequence of get operations.", "quantifier": "every 32/64-bit value, every string shorter than 2^32, every sequence of puts", "why_tests_cant": "2^64 values and unbounded strings", "anchors": ["include/stxxl/bits/common/binary_buffer.h: put_varint, get_varint, get_varint64, put_string, get_string"]}
{"id": "C22", "title": "The binary reader never reads outside its buffer", "statement": "Every get/read/skip either stays within the buffer and advances the cursor by exactly the bytes consumed, or throws; malformed varints are rejected.", "quantifier": "every byte string and every sequence of reads", "why_tests_cant": "all malformed inputs cannot be enumerated", "anchors": ["include/stxxl/bits/common/binary_buffer.h: binary_reader"]}
{"id": "C23", "title": "uint40/uint48 behave as 40/48-bit unsigned integers", "statement": "Conversion from/to uint64 is lossless for values in range, +=, ++, -- agree with arithmetic modulo 2^40 (2^48), and all comparisons agree with the comparison of the values.", "quantifier": "all values", "why_tests_cant": "2^48 pairs", "anchors": ["include/stxxl/bits/common/uint_types.h: uint_pair"]}
{"id": "C24", "title": "The loser tree merges k sorted runs into one sorted run", "statement": "Merging with loser_tree yields a sorted permutation of the union of the sorted input runs, for every k (padded to a power of two) and every output chunking.", "quantifier": "every number and content of runs, every chunking of multi_merge calls", "why_tests_cant": "tree shapes and tie patterns are unbounded", "anchors": ["include/stxxl/bits/algo/losertree.h: loser_tree, init_winner, multi_merge_k, multi_merge_unrolled"]}
{"id": "C25", "title": "External sort returns a sorted permutation of its input", "statement": "stxxl::sort on any range leaves the range sorted by the comparator, a permutation of what it was, and does not touch elements outside the range, for every begin/end offset inside blocks, with one exception found in the code: if the range is sorted externally, begins inside a block and ends exactly at a block boundary, the code reads past the end of the run and overwrites the id of the next block (undefined behaviour, for every such input).", "quantifier": "every input, memory size, block size and range alignment", "why_tests_cant": "boundary blocks, number of runs and recursion depth vary with all parameters", "anchors": ["include/stxxl/bits/algo/sort.h: sort, sort_blocks, create_runs, merge_runs"]}
{"id": "C26", "title": "The prefetch schedule is a permutation", "statement": "compute_prefetch_schedule outputs every block index 0..L-1 exactly once.", "quantifier": "every disk assignment, every L, D and every m>=1", "why_tests_cant": "simulation outcome depends on all disk assignments", "anchors": ["lib/algo/async_schedule.cpp: compute_prefetch_schedule, simulate_async_write"]}
{"id": "C27", "title": "Prefetching cannot deadlock", "statement": "With m prefetch buffers and the computed schedule the k-th block to be consumed is among the first m+k blocks fetched, so the consumer always finds its next block requested.", "quantifier": "every disk assignment and m", "why_tests_cant": "deadlock only for rare assignments", "anchors": ["lib/algo/async_schedule.cpp", "include/stxxl/bits/mng/block_prefetcher.h: block_prefetcher"]}
{"id": "C28", "title": "Buffered block streams round-trip", "statement": "Records written with buf_ostream (padded with fill) and read with buf_istream over the same block ids come back in order, for every buffer count and every completion schedule.", "quantifier": "every record sequence, block size, buffer count, schedule", "why_tests_cant": "overlapped I/O schedules", "anchors": ["include/stxxl/bits/mng/buf_ostream.h", "include/stxxl/bits/mng/buf_writer.h: buffered_writer", "include/stxxl/bits/mng/buf_istream.h", "include/stxxl/bits/mng/block_prefetcher.h"]}
{"id": "C29", "title": "Priority queue returns elements in order", "statement": "For every strict weak ordering, every history of push (of elements greater than min_value()), pop and top (on a non-empty queue), size and empty: no assertion fails, nothing is thrown, no access is out of range; top() is a largest element of the multiset of elements pushed and not yet popped, repeated top()s agree, pop() removes exactly the element top() returns, size() and empty() are those of the multiset. This holds for configurations with a power-of-two internal arity larger than the number of groups, at most four groups, and a delete buffer no longer than N; each of these conditions is necessary although the code does not check it, and PRIORITY_QUEUE_GENERATOR violates the first for small memory.", "quantifier": "every history", "why_tests_cant": "insert heap, delete buffer, group buffers, internal/external mergers interact in every history", "anchors": ["include/stxxl/bits/containers/priority_queue.h", "include/stxxl/bits/containers/pq_helpers.h", "include/stxxl/bits/containers/pq_mergers.h", "include/stxxl/bits/containers/pq_int_merger.h", "include/stxxl/bits/containers/pq_ext_merger.h"]}
{"id": "C30", "title": "stxxl::map behaves as a sorted map", "statement": "Every history of insert, operator[] (read and write), erase (by key, iterator, range), find, count, lower_bound, upper_bound, equal_range, begin/end, iterator copy, ++, --, dereference, assignment through an iterator, comparison, size and clear on stxxl::map gives exactly the results of a finite map ordered by key; iterators stay valid and keep denoting their element across insertions and erasures of other keys; no undefined behaviour occurs while the interface's preconditions hold; the destructor gives back exactly the blocks the tree allocated. Bulk construction from a sorted range is equivalent to inserting its elements. An insertion throws only if the tree becomes higher than the node cache has nodes (at least 2^(nodes+2) elements), and then the element has been inserted. (Found: upper_bound(max_value()) is undefined behaviour even if that key can be stored; a comparator coarser than == makes insert/find/erase contradict each other; clear() and erase(begin(),end()) invalidate end() iterators; bulk construction that throws leaks its blocks and silently drops leading max_value() keys.)", "quantifier": "every history of calls whose preconditions hold, every leaf and node capacity \u2265 4, every fill factor in [1/2,1], every allocator choice, every linear order with ==-consistent comparison", "why_tests_cant": "splits, fusions and balancing cascade differently in each history", "anchors": ["include/stxxl/bits/containers/btree/btree.h", "include/stxxl/bits/containers/btree/leaf.h", "include/stxxl/bits/containers/btree/node.h"]}
{"id": "C31", "title": "stxxl::unordered_map behaves as a map", "statement": "For every history of insert, insert_oblivious, erase, erase_oblivious, find, find const, operator[] (read and assign), size, rehash, clear, max_buffer_size and bulk insert on a new map, each call returns what an abstract finite map returns, and no call reads outside the bucket array, provided that: the hash is below 2^64-1024; the map is not empty when it is searched (or it has a bucket); operator[] creates no new keys and no oblivious operations are used (otherwise: as long as bucket_count() stays positive, and size() only after a reorganisation); ranges for bulk insertion have no two different keys of equal hash. Each proviso is necessary: find() on an empty table reads buckets_[0]; operator[] on a new key does not count it, so size() is wrong and a reorganisation can choose zero buckets and drop all data; erase_oblivious of an absent key decrements the count with the same effect; bulk insertion drops keys whose hash equals that of another new key; the 1024 largest hash values are mapped to bucket n of n.", "quantifier": "every history, every hash function, buffer size and bucket count", "why_tests_cant": "buffer flush/rebuild points depend on history", "anchors": ["include/stxxl/bits/containers/hash_map/hash_map.h: insert, insert_oblivious, erase, erase_oblivious, find, operator[], size, clear, _rebuild_buckets, _bkt_num, _find_key_internal, _find_key_external, UniqueValueStream", "include/stxxl/bits/containers/hash_map/util.h: buffered_reader, buffered_writer, HashedValuesStream"]}
{"id": "C32", "title": "Sorter and stream sort return a sorted permutation", "statement": "Elements pushed into stxxl::sorter, a stream::sort over any input stream, presorted sequences given to runs_creator<from_sorted_sequences>, and a vector range given to stxxl::sort<BlockSize>(begin,end) are read back as a sorted permutation of the input; rewind() reads it again from any position; sort_reuse() and a second sort() work; push never fails; size() is exact while pushing and while reading; clear()/finish_clear()/destruction give back all blocks, and blocks of other objects are never touched. bad_parameter is thrown only if the memory is below 4*disks+3 blocks or the floating-point merge factor exceeds the arity (found: that happens, e.g. 3125 runs with arity 5). Required: every element is smaller than max_value() or equal to it. Found: after finish(), size() counts buffered elements twice.", "quantifier": "every sequence of operations, input length relative to run size, memory size, comparator that is a strict weak order, allocator behaviour and interleaving with other users of the disk", "why_tests_cant": "run boundary and recursive merge cases", "anchors": ["include/stxxl/bits/stream/sort_stream.h", "include/stxxl/bits/containers/sorter.h"]}
{"id": "C33", "title": "Stream operators are the list functions they name", "statement": "Reading a stream operator until it is empty yields: the elements of the range (streamify of iterators, or of an external vector in any state), the generator's values (streamify of a generator), the functor's results with exactly one call per element in order (transform, one or more inputs; as many as the shortest input), tuples (make_tuple), projections (choose), the first element of every maximal run (unique). materialize writes exactly these values, in order, to a container, to a bounded range, or to an external vector from any position, leaves every other element alone and returns the position behind the last one; discard consumes everything.", "quantifier": "every finite input stream (defined by its interface, so every composition of operators), every vector history, block size and position", "why_tests_cant": "all stream lengths and values", "anchors": ["include/stxxl/bits/stream/stream.h", "include/stxxl/bits/stream/unique.h", "include/stxxl/bits/stream/choose.h"]}
{"id": "C34", "title": "random_shuffle only permutes", "statement": "If stxxl::random_shuffle on a vector range returns, the range holds a permutation of its former elements and everything outside the range (including the rest of the first and last block) is unchanged, for every range, memory limit, page size and every sequence of random numbers; on a non-empty range, with fewer than 12 blocks per page, it never fails. (Found: an empty block-aligned range fails; 12 or more blocks per page can fail; a constant generator makes it recurse forever.)", "quantifier": "every input and random outcome", "why_tests_cant": "all random outcomes", "anchors": ["include/stxxl/bits/algo/random_shuffle.h"]}
{"id": "C35", "title": "Reference counted objects die exactly once", "statement": "counting_ptr deletes its object exactly when the last pointer to it goes away, never earlier and never twice, for every sequence of copy, assign, swap, reset, unify.", "quantifier": "every history of pointer operations of any number of threads, interleaved at the atomic parts of the operations", "why_tests_cant": "aliasing/self-assignment histories", "anchors": ["include/stxxl/bits/common/counting_ptr.h: counting_ptr, counted_object"]}
{"id": "C36", "title": "The write-buffered translation layer is a transparent file", "statement": "Reading a block from wbtl_file returns the data last written at that logical offset, whatever the progress of the asynchronous backend writes; logical blocks are mapped to disjoint physical places inside the file; every physical byte is free, in a block or in the rest of the current buffer; a write fails only if other blocks leave no stretch of the write buffer's length. (Holds up to the first failed write: a failed write can damage another block.)", "quantifier": "every history of block writes, overwrites, reads, discards (with the size written) and growth, every interleaving of backend-write progress, all initial buffer and backend contents", "why_tests_cant": "log-structured remapping and buffer reuse depend on history", "anchors": ["lib/io/wbtl_file.cpp: swrite, sread, discard, _add_free_region, get_next_write_block"]}
{"id": "C37", "title": "Addressable queues keep one entry per key in the right order", "statement": "addressable_fifo_queue pops keys in order of their latest insertion; addressable_priority_queue pops a key of minimal current priority; erase removes exactly the given key.", "quantifier": "every history", "why_tests_cant": "consistency of two index structures over all histories", "anchors": ["include/stxxl/bits/common/addressable_queues.h"]}
{"id": "C38", "title": "Size strings parse to the number they denote", "statement": "parse_SI_IEC_size(\"<spaces><sign><digits><spaces><unit><spaces>\") returns digits times the power of 1000 or 1024 named by the unit (or by the default unit), exactly when the product fits into 64 bits and modulo 2^64 otherwise; every accepted string has this form or (found in the code) contains no digits at all, in which case the size is 0.", "quantifier": "every string", "why_tests_cant": "infinite inputs", "anchors": ["lib/common/utils.cpp: parse_SI_IEC_size"]}
{"id": "C39", "title": "Winner tree always reports the minimum player", "statement": "After any sequence of activate / deactivate / notify_change / replay / rebuild / clear calls on valid slots and of value changes followed by the documented notification, top() of a winner_tree is an active player with no active player smaller than it, inactive players are never reported, and no call reads outside the tree. (Found: growing the tree beyond num_slots() is undefined because the copy loop of double_num_slots counts an unsigned variable down with condition i >= 0; the public resize() leaves entries in wrong places.)", "quantifier": "every number of players and history", "why_tests_cant": "replay path and resize cases over all histories", "anchors": ["include/stxxl/bits/common/winner_tree.h"]}
{"id": "C40", "title": "Disk request queues serve every request exactly once", "statement": "Every request added to a disk queue is at any time in exactly one place: waiting, in service, served or cancelled; it is served at most once and never both served and cancelled. Requests of one kind are taken in order of submission (one queue: all of them); a read is taken only directly after the write queue was found empty. Without active calls the worker alone serves everything. The destructor returns and loses at most one request. Found: the destructor can really lose a request (TERMINATING is set before the semaphore is raised), and cancelling a request can deadlock the queue for ever (cancel waits on the semaphore while holding the queue mutex).", "quantifier": "every history of add/cancel/serve and every scheduling of the worker", "why_tests_cant": "thread schedules", "anchors": ["lib/io/request_queue_impl_qwqr.cpp", "lib/io/request_queue_impl_1q.cpp", "lib/io/request_queue_impl_worker.cpp", "include/stxxl/bits/common/semaphore.h"]}
{"id": "C41", "title": "Scanning algorithms touch exactly the range", "statement": "for_each, for_each_m, find and generate on any range of an stxxl vector process exactly the elements of the range in order: for_each folds the functor and changes nothing, for_each_m replaces each element by its image, find returns the first hit, generate stores the generated values; all other elements keep their values whatever was cached, and later vector operations see the new values. (Found: for_each_m on never-written pages loses its results because it does not report the written blocks.)", "quantifier": "every vector history, range position relative to block and page boundaries, functor and generator", "why_tests_cant": "all alignments of both ends, cache states and block/page sizes", "anchors": ["include/stxxl/bits/algo/scan.h:for_each,for_each_m,find,generate", "include/stxxl/bits/containers/vector.h"]}
{"id": "C42", "title": "The B-tree's node and leaf caches are transparent", "statement": "For every history of get_new_node, get_node, get_const_node, prefetch_node, unfix_node, delete_node and reads/writes through the pointers they return, a pointer to a node that is fixed or was used recently enough sees exactly the last value written to that node, however often nodes are kicked out and reloaded; a fixed node is never kicked out; NULL is returned exactly if all nodes of the cache are fixed; the destructor leaves the current contents of all allocated blocks on disk and touches no other block. (Found: swap() does not exchange the dirty flags, so swapping two maps can lose updates; a pointer that is neither fixed nor recent may silently denote another node.)", "quantifier": "every history of calls whose preconditions hold, every cache size, every block allocation", "why_tests_cant": "kicking out, prefetching, fixing and dirty flags interact differently in each history; the loss shows only when a modified node is kicked out and read again", "anchors": ["include/stxxl/bits/containers/btree/node_cache.h", "include/stxxl/bits/containers/pager.h", "include/stxxl/bits/containers/btree/leaf.h"]}
{"id": "C43", "title": "The hash map's block cache is transparent", "statement": "For every history of get_subblock, prefetch_block, retain_block, release_block, make_dirty, flush, clear, reads and writes through the returned pointers, and blocks written past the cache, a valid pointer always sees the value last written to that subblock, whether the block was loaded by subblocks or as a whole, pushed out, written back asynchronously and loaded again; retained blocks are never pushed out; retain_block, release_block and make_dirty answer truthfully; get_subblock and prefetch_block throw only if as many blocks as fit are retained; after flush external memory holds every change. (Found: the cache does not look into its write buffer, so if reads may overtake writes a changed block comes back with its old contents; flush without clear leaves garbage in slots marked valid; a release after an unanswered retain takes another client's retention away; a change made before make_dirty is lost.)", "quantifier": "every history of calls that observes the stated obligations, every cache and write buffer size, every completion time of asynchronous writes, every iteration order of the block map, every initial memory", "why_tests_cant": "the loss needs a particular interleaving of kicks, partial loads, dirty marks, retentions and asynchronous completions", "anchors": ["include/stxxl/bits/containers/hash_map/block_cache.h:block_cache,block_cache_write_buffer", "include/stxxl/bits/containers/pager.h:lru_pager"]}
{"id": "C44", "title": "Iterators of the external hash map stay with their elements", "statement": "For every history of calls on an unordered_map with any number of live iterators, an iterator keeps pointing to its element through insertions, searches, erasures of other elements, clear, automatic and explicit reorganisations and bulk insertions, and becomes end() exactly when its element is erased or the map is cleared; dereferencing delivers the element's current value, assignment through it changes the element, ++ moves to the next element in traversal order, erase(it) erases it, == holds exactly for iterators to the same element; a loop from begin() to end() delivers every element exactly once; no iterator call runs into undefined behaviour. (Found: an iterator from begin() delivers erased elements when advanced after a key behind it was erased or changed; operator[] leaves iterators to that key with the old value, and erasing through them does not erase; an iterator that became end() can equal an iterator to the re-inserted element.)", "quantifier": "every history of map and iterator calls observing the stated obligations, every number of iterators, every key type with a strict weak order and hash function, every block, subblock and buffer size", "why_tests_cant": "elements migrate between buffer and disk at sizes that depend on parameters, and every iterator must be repaired at every migration", "anchors": ["include/stxxl/bits/containers/hash_map/iterator.h:hash_map_iterator_base", "include/stxxl/bits/containers/hash_map/iterator_map.h:iterator_map", "include/stxxl/bits/containers/hash_map/hash_map.h:hash_map", "include/stxxl/bits/containers/hash_map/util.h:buffered_reader"]}
{"id": "C45", "title": "I/O requests under every interleaving: life cycle, waiting and cancellation", "statement": "Any number of threads submit requests and call wait, poll, cancel and wait_any on them while workers serve them. Every request is either transferred exactly once, then its completion handler runs exactly once, then it gives its file reference back exactly once; or it is cancelled, never transferred, its handler never runs, and it gives its file reference back exactly once. wait() returns only after all of that and throws exactly if the transfer failed; poll() says true only when the transfer is over, false only if the handler had not run when it was called; cancel() says true exactly for the cancelled request and false only once a worker or another cancel has it; wait_any() returns a finished request. No wake-up is lost: without new calls every execution ends, and then every request is finished and no thread is inside a call. The switch in the stack frame of wait_any is never touched after wait_any returned. (Found: cancel() can dereference a null file pointer if the request ends at the same time; wait_any that throws leaves its switch registered, and a worker later writes to the dead frame; a spurious wake-up makes wait_any return the end; wait_any of an empty sequence never returns; poll may say true before the handler ran.)", "quantifier": "every interleaving of any number of user threads and workers, every number of requests, every outcome of the transfers", "why_tests_cant": "the races need a particular interleaving of three threads; a test samples a few schedules", "anchors": ["lib/io/request_with_state.cpp:wait,poll,cancel,completed", "lib/io/request_with_waiters.cpp:add_waiter,delete_waiter,notify_waiters", "lib/io/serving_request.cpp:serve", "include/stxxl/bits/io/request_operations.h:wait_any", "include/stxxl/bits/common/onoff_switch.h:onoff_switch"]}
{"id": "C46", "title": "Files keep their blocks, whatever the system calls do", "statement": "For every file type (syscall, mmap, boostfd, memory, and one-file-per-block over the first three), every sequence of reads, writes, set_size and discard calls whose requests are for the same block or for disjoint blocks inside the file, and every behaviour of the operating system (short transfers of any size, errors at any call, arbitrary content of fresh memory): each call returns or throws, and a read that returns delivers the bytes of the last write to that block, if that write returned and the block was not discarded or cut off since. For syscall_file at any offsets: a read that returns has exactly the file's bytes, zeroes behind the end; a write that returns replaced exactly its interval; a call that throws transferred a proper prefix; short transfers alone never make a request fail. (Found: syscall_file throws for a read beginning at or behind the end of the file although one beginning before it is zero-filled; mmap_file reports success for a write behind the end and loses the bytes; fileperblock_file destroys the rest of a block when fewer bytes are read, and with TRUNC forgets every write; boostfd_file::set_size has no effect; mem_file does not check bounds.)", "quantifier": "all file types, all sequences of calls under the block discipline, all results of all system calls; for syscall_file all offsets, sizes and contents", "why_tests_cant": "Short transfers and errors in the middle of a request do not happen on demand, and the number of ways to split a transfer is exponential.", "anchors": ["lib/io/syscall_file.cpp: syscall_file::serve", "lib/io/mmap_file.cpp: mmap_file::serve", "lib/io/boostfd_file.cpp: serve, set_size", "lib/io/mem_file.cpp: serve, set_size, discard", "lib/io/fileperblock_file.cpp: serve, discard", "lib/io/ufs_file_base.cpp: _size, _set_size"]}
{"id": "C47", "title": "ksort sorts by key", "statement": "For every vector, every range of it, every key extractor with unsigned keys of w bits and every memory size, ksort turns the range into a permutation of itself ordered by key, changes nothing outside the range, and neither loses nor shares a block - provided the range fits into memory, or the parameters leave at least one block per run and at least as many elements as buckets, the keys of a run do not fill exactly one STXXL_L2_SIZE (rounded down), and the range is not one that starts inside a block and ends at a block boundary. (Found: these parameters are not rejected. With the keys of a run filling one L2 cache, e.g. 64-byte records, 2 MiB blocks and 8 MiB of memory, log_k1 is 0 and every key is shifted by its full width, which is undefined; with two blocks of memory, which the assertion allows, the code divides by zero; with tiny runs it shifts by a negative number; ranges starting inside a block and ending at a boundary use an invalid iterator as in sort.)", "quantifier": "all inputs, keys, ranges, block sizes, memory sizes, allocators, merge factors", "why_tests_cant": "The radix distribution depends on key width, record size, block size, memory and cache size together; tests fix a few combinations.", "anchors": ["include/stxxl/bits/algo/ksort.h: create_runs, write_out, ksort_blocks, ksort", "include/stxxl/bits/algo/intksort.h: count, exclusive_prefix_sum, classify, sort2, sort3, sort4, insertion_sort, cleanup, l1sort, classify_block", "include/stxxl/bits/common/utils.h: ilog2_floor, ilog2_ceil"]}
{"id": "C48", "title": "stable_ksort: what it does, and what its name promises but the code does not do", "statement": "stable_ksort on a range of whole blocks, or on one beginning inside a block and not ending at the end of the vector, turns the range into a permutation of itself ordered by key and changes nothing else, provided that the keys are spread evenly enough: every bucket (leading bits) fits into half the memory, all buckets have sizes for which the code chooses the same number of parts, and the lowest part of every bucket holds at least two records. Where these fail it does not report an error: if some leading bits occur in no key the call never returns normally; a range beginning at a block boundary and ending inside a block, and one beginning inside a block and ending at the end of the vector, are undefined. It is not stable.", "quantifier": "all vectors, ranges, keys, memory sizes, numbers of disks", "why_tests_cant": "The conditions depend on the distribution of the keys over two levels of buckets whose sizes depend on memory, key size and cache size; the only test uses uniformly random keys on a whole vector.", "anchors": ["include/stxxl/bits/algo/stable_ksort.h: distribute, stable_ksort, classify_block", "include/stxxl/bits/algo/intksort.h"]}
{"id": "C49", "title": "Matrix multiplication computes the product, with each of five algorithms", "statement": "a.multiply(b, k) for k = 0 (naive), 1 (recursive), 2 (Strassen-Winograd), 4 (Strassen-Winograd, optimized additions) and 5 (interleaved) returns the matrix whose element (i,j) is the sum over t of a(i,t)*b(t,j), whatever the sizes, the block side length, the order of elements in the blocks (transposed or not) and which blocks are uninitialized.", "quantifier": "all commutative rings, block side lengths, dimensions, matrix contents, histories that made the operands", "why_tests_cant": "Recursion with padding depends on the parities of all dimensions at all levels; identity of Strassen-Winograd needs all values; tests try a few sizes.", "anchors": ["include/stxxl/bits/containers/matrix_arithmetic.h: naive_multiply_and_add, recursive_multiply_and_add, strassen_winograd_multiply_and_add, strassen_winograd_multiply, strassen_winograd_multiply_and_add_interleaved", "include/stxxl/bits/containers/matrix.h: multiply"]}
{"id": "C50", "title": "Programs with matrices behave as if matrices were values", "statement": "In every program that creates, copies, assigns and destroys matrices, reads and writes elements, transposes, sets to zero, adds, subtracts, scales and multiplies, every element read has the value it would have if every matrix were an independent table: sharing of blocks after copies, copy-on-write, uninitialized zero blocks and transposed blocks never show.", "quantifier": "all programs (lists of statements), all block sizes, all commutative rings", "why_tests_cant": "Aliasing errors show only for particular histories of copies and changes.", "anchors": ["include/stxxl/bits/containers/matrix.h: matrix, swappable_block_matrix", "include/stxxl/bits/common/counting_ptr.h: unify"]}
{"id": "C51", "title": "Matrices own their blocks and free them", "statement": "After every program the allocated swappable blocks are exactly the blocks of the matrices that exist (temporaries of the multiplication algorithms are freed), blocks are shared only by matrices that share everything, and when all matrices are gone no block is allocated.", "quantifier": "all programs, all block sizes", "why_tests_cant": "Submatrices with padding own only some of their blocks; a leak or double free depends on dimensions and history.", "anchors": ["include/stxxl/bits/containers/matrix.h: swappable_block_matrix constructors and destructor", "include/stxxl/bits/mng/block_scheduler.h: allocate_swappable_block, free_swappable_block"]}
{"id": "C52", "title": "Products of matrices and vectors", "statement": "A * x (column vector) and y * A (row vector) have the elements sum_t A(i,t)*x(t) and sum_t y(t)*A(t,j), for all matrices with fewer than 2^32 rows and columns, and leave the matrix as it is.", "quantifier": "all matrices reachable by programs, all vectors of the right length", "why_tests_cant": "Partial blocks at the borders, transposed blocks, recursive partition.", "anchors": ["include/stxxl/bits/containers/matrix_arithmetic.h: recursive_matrix_col_vector_multiply_and_add, recursive_matrix_row_vector_multiply_and_add", "include/stxxl/bits/containers/matrix.h: operator *, multiply_from_left"]}
{"id": "C53", "title": "Matrix operations that do not do what they say", "statement": "matrix(bs, l, r) should have elements l(i)*r(j) and multiply(.., 6) should return the product and A*x should be right for every size. It is proved that each of the three is violated: a matrix made of two vectors is always zero; algorithm 6 never looks at the right factor when all dimensions are at least 5 blocks; the product of a matrix with 2^32 rows and a column vector has first element 0.", "quantifier": "all vectors / every implementation of the inner routine / every ring and block size", "why_tests_cant": "The property is violated; the theorems are the negations with witnesses.", "anchors": ["include/stxxl/bits/containers/matrix_arithmetic.h: recursive_matrix_from_vectors, multi_level_strassen_winograd_multiply_and_add_block_grained, matrix_col_vector_multiply_and_add_swappable_block"]}
{"id": "C54", "title": "Swappable blocks keep their contents", "statement": "For every legal sequence of calls on a block_scheduler (allocate, free, acquire, read, write, release, deinitialize, initialize with and extract of external blocks, flush, switching between the LRU, LFD and simulation algorithms), every block that is acquired shows the contents last written and released as dirty (or the default contents, or the contents of the external block handed over), however many other blocks were swapped in and out, and an extracted external block has the contents of the swappable block.", "quantifier": "all histories of client calls, memory sizes, block contents, prediction sequences, behaviours of the block manager", "why_tests_cant": "Loss of data depends on which blocks are dirty, evicted, initialized from outside or switched between policies in which order.", "anchors": ["include/stxxl/bits/mng/block_scheduler.h: swappable_block, block_scheduler, block_scheduler_algorithm_online_lru, block_scheduler_algorithm_offline_lfd, block_scheduler_algorithm_simulation"]}
{"id": "C55", "title": "The block scheduler fails only when all memory is acquired", "statement": "A legal call never fails except acquire, and acquire only when as many blocks are acquired as fit into the internal memory given to the scheduler; the scheduler never allocates more internal blocks than that and never uses one for two swappable blocks.", "quantifier": "all legal histories and next calls", "why_tests_cant": "An internal block lost on any path makes acquire fail much later.", "anchors": ["include/stxxl/bits/mng/block_scheduler.h: get_free_internal_block, return_free_internal_block, detach_internal_block, evictable_blocks"]}
{"id": "C56", "title": "The block scheduler owns and frees its external blocks", "statement": "External blocks in use are exactly those of the swappable blocks and those of the client, each belongs to one of them only, blocks without contents have none, and after the destructor only the client's are in use.", "quantifier": "all legal histories", "why_tests_cant": "Leaks and double frees depend on the order of eviction, extraction, initialization and deinitialization.", "anchors": ["include/stxxl/bits/mng/block_scheduler.h: get_external_block, free_external_block, deinitialize, extract_external_block, ~block_scheduler"]}
{"id": "C57", "title": "Simulation answers like the real scheduler and records the program", "statement": "A program run in simulation mode, started when no block is acquired, gets the same block numbers and the same answers to is_initialized as on the real scheduler, records exactly its acquire, release, initialize, deinitialize and extract calls in order, and touches neither memory nor disk.", "quantifier": "all legal histories before, all programs", "why_tests_cant": "The simulation keeps one counter for reference count, dirtiness and initializedness.", "anchors": ["include/stxxl/bits/mng/block_scheduler.h: block_scheduler_algorithm_simulation"]}
{"id": "C58", "title": "The scheduler evicts the right block", "statement": "With the LRU algorithm an acquire that evicts a block evicts the one whose last release is oldest among the idle blocks in memory. With the LFD algorithm and a prediction that has come true so far it evicts a block that is needed again latest: if the evicted block is acquired next at time t, every idle block kept is acquired next not later than t.", "quantifier": "all legal histories, all predictions with times below 2^62-1, all points in the prediction", "why_tests_cant": "Priorities computed at the switch and at releases must stay right for all later points.", "anchors": ["include/stxxl/bits/mng/block_scheduler.h: block_scheduler_algorithm_online_lru, block_scheduler_algorithm_offline_lfd, priority, init, release"]}
{"id": "C59", "title": "Surprises of the block scheduler", "statement": "Expected: a freed block leaves nothing behind, block numbers are unique, what is read back does not depend on swapping, simulation agrees with execution. It is proved that each fails in a short history: freeing in simulation mode leaves the data in the block allocated next; simulating and then executing a program that frees a block yields the same block number twice; a block overwritten and released as not dirty shows the new data or the old depending on eviction; simulation started while a block is acquired answers is_initialized differently.", "quantifier": "witness histories", "why_tests_cant": "The property is violated; the theorems exhibit the histories.", "anchors": ["include/stxxl/bits/mng/block_scheduler.h: free_swappable_block, deinitialize, release, block_scheduler_algorithm_simulation"]}
{"id": "C60", "title": "Splitting sorted sequences at a rank is exact and ordered", "statement": "For non-empty sorted sequences and any rank up to the number of all elements, the multi-sequence partition returns one splitting point in every sequence such that exactly rank elements lie before the points and no element after a point is less than an element before a point; the computation never reads outside the sequences, the sample vector or an empty queue.", "quantifier": "all numbers of sequences, all contents and lengths below 2^64, all strict weak orders, all ranks", "why_tests_cant": "The algorithm refines a padded power-of-two grid and repairs the skew with queues; wrong splits appear only for particular length and value combinations, and one misplaced element silently corrupts a parallel merge.", "anchors": ["include/stxxl/bits/parallel/multiseq_selection.h: multiseq_partition", "include/stxxl/bits/common/utils.h: round_up_to_power_of_two"]}
{"id": "C61", "title": "Selecting the element of a global rank", "statement": "For non-empty sorted sequences and any rank below the number of all elements, the multi-sequence selection returns an element of the sequences and an offset such that in every sorted arrangement of all elements the element at position rank is equivalent to it and exactly offset equivalent elements precede that position; for other ranks it throws.", "quantifier": "all sequences, all strict weak orders (with arbitrarily many equivalent elements), all ranks", "why_tests_cant": "The offset among equal elements depends on how the final border cuts every sequence; all distributions of duplicates over sequences have to be covered.", "anchors": ["include/stxxl/bits/parallel/multiseq_selection.h: multiseq_selection"]}
{"id": "C62", "title": "The documented tie rule of the multi-sequence partition does not hold", "statement": "The documentation promises that of several equal elements across the split the ones on the left side are chosen from sequences with smaller number. There are legal inputs for which the partition puts an element of a later sequence to the left and an equal element of an earlier sequence to the right.", "quantifier": "existential: a witness input on which the code as written violates the documented rule", "why_tests_cant": "The rule is about every distribution of equal elements; tests with few duplicates confirm it.", "anchors": ["include/stxxl/bits/parallel/multiseq_selection.h: multiseq_partition"]}
{"id": "C63", "title": "Sequential multi-way merge outputs the n smallest elements in order", "statement": "Merging any number of sorted sequences with the loser tree (default) or the bubble algorithm never reads outside a sequence; the output consists of exactly n elements, is sorted, consists of prefixes of the sequences, loses and duplicates nothing, and nothing left behind is smaller than anything output. In stable mode (and always for up to four sequences) equivalent elements keep the order of the sequences.", "quantifier": "all strict weak orders, all lists of sorted sequences (also empty ones), all lengths n up to the total, all contents of uninitialised memory", "why_tests_cant": "There are unboundedly many sequence counts, lengths, tie patterns; the 3- and 4-way merges are hand-written automata with 6 and 24 states whose tie handling differs in each state.", "anchors": ["include/stxxl/bits/parallel/multiway_merge.h: sequential_multiway_merge, multiway_merge_3_variant, multiway_merge_4_variant, multiway_merge_bubble, multiway_merge_loser_tree", "include/stxxl/bits/parallel/losertree.h: LoserTreeCopy, LoserTreePointer", "include/stxxl/bits/parallel/merge.h: merge_advance"]}
{"id": "C64", "title": "Combined (unguarded, then guarded) merging never runs past the end of a sequence", "statement": "With LOSER_TREE_COMBINED, for up to three sequences and for five or more in unstable mode, the phase without end checks never reads behind the end of a sequence, and the result is the same specification as for the checked algorithms.", "quantifier": "all strict weak orders, all lists of sorted sequences, all n up to the total", "why_tests_cant": "Whether a read runs past the end depends on all element values; a test sees only its own inputs, and the read is silent.", "anchors": ["include/stxxl/bits/parallel/multiway_merge.h: prepare_unguarded, multiway_merge_3_combined, multiway_merge_loser_tree_combined, multiway_merge_loser_tree_unguarded", "include/stxxl/bits/parallel/losertree.h: LoserTreeCopyUnguarded, LoserTreePointerUnguarded"]}
{"id": "C65", "title": "Where multi-way merging fails (refuted guarantees)", "statement": "LOSER_TREE_COMBINED reads behind the end of a sequence for four sequences and for five or more in stable mode; in stable mode on integers its output is not sorted; in stable mode with a number of sequences that is not a power of two a filling leaf can win; the loser tree dereferences a null pointer if five or more sequences are all empty.", "quantifier": "concrete inputs as witnesses; the last one for all lists of at least five empty sequences", "why_tests_cant": "The faults are silent reads or need particular value patterns; the existing tests never use these settings.", "anchors": ["include/stxxl/bits/parallel/multiway_merge.h: multiway_merge_4_combined, multiway_merge_loser_tree_combined, multiway_merge_loser_tree", "include/stxxl/bits/parallel/losertree.h: LoserTreeCopyUnguarded<true>::delete_min_insert"]}
{"id": "C66", "title": "Parallel multi-way merge gives the merged sequence under every interleaving", "statement": "multiway_merge (sequential or parallel, exact splitting) performs no undefined operation, and in whatever order the writes of the threads happen, the output holds the n smallest elements sorted, no other cell changes, and the sequences are advanced accordingly; in parallel provided no two sequences contain equivalent elements (or two threads merge everything), and there are at least as many elements as threads. Without that proviso it is refuted: ties make the boundaries cross, the stable variant is not stable, one forced thread uses an uncomputed boundary, more threads than elements dereference null.", "quantifier": "all strict weak orders, inputs, thread counts, settings, and all orders of all single writes", "why_tests_cant": "Thread schedules cannot be enumerated by tests, and the crossing of boundaries depends on the tie pattern and thread count.", "anchors": ["include/stxxl/bits/parallel/multiway_merge.h: parallel_multiway_merge, parallel_multiway_merge_exact_splitting, multiway_merge, multiway_merge_stable", "include/stxxl/bits/parallel/equally_split.h: equally_split", "include/stxxl/bits/parallel/settings.h: STXXL_PARALLEL_CONDITION"]}
{"id": "C67", "title": "The semaphore counts and loses no wake-up under every schedule", "statement": "At any time the value is the initial value plus completed increments minus completed decrements; operator-- completes only when the value was positive, so never more threads get through than increments plus initial value; when all threads that can go on have gone on (which takes at most twice the number of threads steps), nobody sleeps in operator-- while the value is positive.", "quantifier": "any number of threads, any initial value, every interleaving of calls, notifications (of any sleeping thread) and spurious wake-ups", "why_tests_cant": "Lost wake-ups depend on rare interleavings between unlocking and notifying; a test run sees one schedule.", "anchors": ["include/stxxl/bits/common/semaphore.h: semaphore::operator++, operator--, decrement"]}
{"id": "C68", "title": "state: wait_for returns rightly and loses no wake-up", "statement": "wait_for(x) returns only at a moment when the state is x; when all threads that can go on have gone on (bounded many steps), nobody sleeps in wait_for of the present state. Not promised (witness): a state held only for a moment may be missed.", "quantifier": "any value type, any number of threads, every interleaving with spurious wake-ups", "why_tests_cant": "Same: schedules cannot be enumerated.", "anchors": ["include/stxxl/bits/common/state.h: state::set_to, wait_for, operator()"]}
{"id": "C69", "title": "onoff_switch: when waiting for ON is reliable, and when it is not", "statement": "If off() is never called and there are no spurious wake-ups, wait_for_on returns only when the switch is on; if moreover only one thread waits, it is not forgotten. In general refuted: a spurious wake-up or an off() makes wait_for_on return although the switch never was on (the condition is tested with if, not while), and with two waiting threads one on() releases only one of them.", "quantifier": "any number of threads and every interleaving; refutations by explicit executions", "why_tests_cant": "Spurious wake-ups practically never occur in tests, but are permitted by POSIX and C++; the consequence (using a block before it was read) is silent.", "anchors": ["include/stxxl/bits/common/onoff_switch.h: onoff_switch::on, off, wait_for_on, wait_for_off", "include/stxxl/bits/mng/block_prefetcher.h: wait"]}
{"id": "C70", "title": "parallel_priority_queue returns what a priority queue returns", "statement": "For every history of push, top, pop, size, bulk_push_begin/bulk_push/bulk_push_end, bulk_pop, bulk_pop_limit, limit_begin/limit_push/limit_top/limit_pop/limit_end in which each call is allowed and no undefined operation is performed: top returns an element before which no other is, pop removes that element, size is the number of elements, bulk_pop and bulk_pop_limit deliver first elements of the queue in sorted order (only those before the limit, at most as many as asked for) and remove exactly these, limit_top returns the limit element exactly if no element is before it; nothing is lost, duplicated or invented, wherever the memory limit made the queue spill or merge arrays.", "quantifier": "all element types with a strict weak ordering, all histories, all insertion heap counts and capacities, extract buffer limits, block sizes, read pool sizes, all outcomes of the memory tests and all numbers of blocks that happen to have arrived", "why_tests_cant": "the state space of heaps, internal and external arrays, three winner trees and prefetch hints under memory pressure and timing cannot be enumerated", "anchors": ["include/stxxl/bits/containers/parallel_priority_queue.h: parallel_priority_queue::push", "parallel_priority_queue::top", "parallel_priority_queue::pop", "parallel_priority_queue::bulk_pop", "parallel_priority_queue::bulk_pop_limit", "parallel_priority_queue::limit_top", "external_array", "internal_array", "minima_tree"]}
{"id": "C71", "title": "parallel_priority_queue: calls that go wrong", "statement": "The queue violates its contract in these reachable situations: a new internal array is compared with one that no longer exists after top emptied two arrays; top fails if the blocks of an external array begin with equivalent elements and the second has not been read; bulk_pop(out, 0) removes elements; bulk_pop(out, n) may deliver fewer than n elements although the queue holds more; limit_end reads behind the end of an exhausted extract buffer; limit_top fails after memory ran out in limit_push; with assertions every flush of an insertion heap aborts; a fifth external array overflows the tree of external minima.", "quantifier": "one concrete history for each (existential), except the assertion and the fifth array: all states", "why_tests_cant": "the failing histories need particular combinations of memory pressure, block boundaries and equal keys; knowing that they exist is what a user needs", "anchors": ["include/stxxl/bits/containers/parallel_priority_queue.h: minima_tree::add_internal_array", "calculate_merge_sequences", "bulk_pop", "limit_end", "limit_top", "internal_array::internal_array", "update_external_min_tree"]}
{"id": "C72", "title": "parallel_priority_queue in bulk use within memory: defined, and bulk_pop is exact", "statement": "As long as the memory limit is not reached, every history of push, size, bulk pushes and bulk_pop (in the right phases, for existing insertion heaps) performs no undefined operation, returns what a priority queue returns, and bulk_pop(out, n) with n > 0 delivers exactly min(n, size) elements.", "quantifier": "all such histories of fewer than 2^48 calls, all configurations, all outcomes of the memory tests for merging internal arrays", "why_tests_cant": "needs that the merge cascade of internal array levels never runs out of levels and the merge is never called on nothing, for every history", "anchors": ["include/stxxl/bits/containers/parallel_priority_queue.h: bulk_push", "bulk_pop", "flush_insertion_heaps", "add_as_internal_array", "refill_extract_buffer"]}
{"id": "C73", "title": "Buffered readers of a vector", "statement": "Constructing a vector_bufreader (or vector_bufreader_reverse) on a range of a vector and applying any sequence of >> and rewind() that stays inside the range delivers exactly the elements of the range in order (in reverse order), with size() and empty() telling what is left, and does not change the vector.", "quantifier": "every reachable vector (any cache state), every range, block and page size, number of buffers and disks, placement of blocks, order of disk completions, every history of reads and rewinds", "why_tests_cant": "Prefetch order, buffer recycling, partial first/last blocks and rewinds combine without bound; wrong data appears only for particular schedules and alignments.", "anchors": ["include/stxxl/bits/containers/vector.h: vector_bufreader, vector_bufreader_reverse", "include/stxxl/bits/mng/buf_istream_reverse.h", "include/stxxl/bits/mng/buf_istream.h"]}
{"id": "C74", "title": "Buffered writer of a vector", "statement": "Writing any number of values through a vector_bufwriter from any position of a vector and finishing leaves the vector with exactly those values from that position on, all other elements unchanged, and the size enlarged to fit; afterwards random access and the buffered readers see the new values. (Sessions that make the vector grow: pages of at least two blocks and two further side conditions, see C75.)", "quantifier": "every reachable vector and cache state, start position, list of values, number of growth steps, order of disk completions, evicted pages, contents of fresh buffers", "why_tests_cant": "The writer switches between cached access and streaming at block boundaries, marks pages lazily and grows the vector geometrically; the correctness depends on the alignment of start, size, block and page and on the previous page states.", "anchors": ["include/stxxl/bits/containers/vector.h: vector_bufwriter", "include/stxxl/bits/containers/vector.h: vector::block_externally_updated, resize, flush", "include/stxxl/bits/mng/buf_ostream.h"]}
{"id": "C75", "title": "A growing buffered writer can lose data (defect)", "statement": "When a vector_bufwriter has to enlarge the vector exactly at a block boundary, operator* deletes the stream without reporting the last block to the vector; if no other block of that page is reported later the written elements are lost although the session completes and size() is right.", "quantifier": "witnesses: pages of one block; pages of two blocks and a vector of one block; start at the last block of a page never assigned to", "why_tests_cant": "Needs a particular alignment of size, page size and start, and the loss is only visible when the page is read back from disk.", "anchors": ["include/stxxl/bits/containers/vector.h:2469-2497 vector_bufwriter::operator*"]}
{"id": "C76", "title": "Linux AIO queue: every request in exactly one place, in order, at most max_events outstanding", "statement": "With any number of threads submitting and cancelling, the posting thread, the waiting thread and an operating system that finishes requests in any order (and may refuse submissions at any time), every submitted request is at any time in exactly one place: waiting, in the hands of a queue thread, with the operating system, completed or cancelled; it is completed at most once, cancelled at most once, never both, and a cancelled one never reaches the operating system. Requests reach the operating system in the order of submission; at most max_events are outstanding. Exactly one heap reference per outstanding request is held and it is released on completion. Found: every refused submission (EAGAIN) leaks a reference, so the request object is never freed.", "quantifier": "every interleaving of any number of user threads, the two queue threads, the operating system and the destructor; every max_events", "why_tests_cant": "the orders of completion and the interleavings are chosen by the scheduler and the kernel", "anchors": ["lib/io/linuxaio_queue.cpp:add_request,cancel_request,post_requests,handle_events,wait_requests", "lib/io/linuxaio_request.cpp:post,fill_control_block"]}
{"id": "C77", "title": "Linux AIO queue: progress, cancellation and shutdown", "statement": "If the operating system refuses a submission only when max_events are outstanding: without new calls every execution ends; when nothing can go on, no call is active and every request was completed or cancelled, unless a cancel_request is in one particular circular wait with the posting thread (which never happens if nothing is cancelled). The destructor returns; afterwards everything is completed or cancelled exactly if neither queue thread had taken its last unit of its semaphore before the destructor raised that semaphore. Found: cancel_request can deadlock the queue for ever; one refused submission can deadlock both queue threads for ever; the destructor can lose any number of requests, because the thread compares a stale counter value with 0.", "quantifier": "every reachable state and every schedule; any number of threads and requests", "why_tests_cant": "deadlocks and lost requests need a particular interleaving of three threads", "anchors": ["lib/io/linuxaio_queue.cpp:cancel_request,post_requests,wait_requests,~linuxaio_queue", "lib/io/request_queue_impl_worker.cpp:stop_thread"]}
{"id": "C78", "title": "Linux AIO queue: size negotiation and I/O errors", "statement": "The queue has the size asked for if the operating system grants it. Found: if it does not (and grants no larger size than one it refused), the constructor always fails, whatever smaller size would be granted: the loop doubles where it should halve. Found: a failed transfer is never reported: no request of this queue gets an error, wait() does not throw.", "quantifier": "every answer function of the operating system, every size asked for; every reachable state", "why_tests_cant": "resource shortage and I/O errors of the operating system are hard to provoke", "anchors": ["lib/io/linuxaio_queue.cpp:linuxaio_queue,handle_events"]}
{"id": "C79", "title": "Disk options: parsing and printing", "statement": "The option string of a disk is read word by word: the first word is the I/O implementation, every other word sets exactly the option it names, extra spaces make no difference, unknown words and words not allowed for the implementation are refused with runtime_error. Printing the options of a disk (fileio_string) and parsing the result gives back every option, for all non-flash disks whose options the implementation allows.", "quantifier": "all option strings, all option combinations", "why_tests_cant": "the strings and the combinations of twelve options, two of them 32-bit numbers, are unbounded", "anchors": ["lib/mng/config.cpp: disk_config::parse_fileio, fileio_string", "include/stxxl/bits/common/utils.h: split"]}
{"id": "C80", "title": "Disk configuration file", "statement": "A line disk=P,S,F or flash=P,S,F gives a disk with path P (first ### replaced by the process id), size S (default MiB) and options F; comment and empty lines are skipped; the loaded list has the regular disks in file order, then the flash devices in file order, and first_flash separates them exactly; the first malformed line makes loading fail; a file without disks is refused.", "quantifier": "all files (all lists of lines), all previously configured disks", "why_tests_cant": "files are unbounded", "anchors": ["lib/mng/config.cpp: config::load_config_file, disk_config::parse_line", "include/stxxl/bits/mng/config.h: config::regular_disk_range, flash_range"]}
{"id": "C81", "title": "Automatic device ids are fresh", "statement": "A file opened without explicit device id gets an id different from the ids of all files opened before it, as long as the 32-bit counter does not overflow. (Refuted without that restriction and for explicit ids given later.)", "quantifier": "all sequences of opened files with any mix of explicit and automatic ids", "why_tests_cant": "all sequences", "anchors": ["lib/io/create_file.cpp: create_file", "lib/mng/config.cpp: get_next_device_id, update_max_device_id"]}
{"id": "C82", "title": "I/O statistics add up", "statement": "After all calls have returned, the number of reads and writes (mod 2^32) and the volumes are those of the operations that were not cancelled, and read, write and wait times are the sums of the durations, for every order in which threads get the mutexes, even if an end is recorded before its start (linuxaio). If the mutexes are taken in the order of the recorded times, the parallel times are the lengths of the time in which at least one operation of the kind was running, hence between 0 and the serial time, and read/write <= I/O <= read + write. (Refuted otherwise: out of order the parallel time is wrong or negative; a reset with running operations counts time before the reset.)", "quantifier": "all sets of operations, all interleavings of the sections of their calls", "why_tests_cant": "all schedules", "anchors": ["lib/io/iostats.cpp: stats::read_started, read_finished, read_canceled, write_*, wait_*, reset", "include/stxxl/bits/io/iostats.h: scoped timers", "lib/io/linuxaio_request.cpp: post, completed"]}
{"id": "C83", "title": "Command line parsing", "statement": "cmdline_parser::process succeeds exactly if no word is -h or --help, the words can be grouped into options (with a word each unless a flag) and positional words, the positional words fit the parameters (one each, the first list parameter all that remain), every word is a value of the type it is used for and all required parameters have one. Then each variable holds the last word given for it (lists: all, in order), and variables that were given nothing are unchanged. With unambiguous names every option can be given by long name or key. (Documented surprises: -- is not the end of options but --- is, a lone - is skipped, characters after a short key are ignored, -h as a value asks for help, negative numbers are no parameters.)", "quantifier": "all option and parameter tables, all command lines, all behaviours of sscanf", "why_tests_cant": "all argument vectors", "anchors": ["lib/common/cmdline.cpp: cmdline_parser::process", "include/stxxl/bits/common/cmdline.h: argument_flag, argument_int, argument_uint, argument_double, argument_bytes32, argument_bytes64, argument_string, argument_stringlist"]}
{"id": "C84", "title": "Wrapped help text", "statement": "If lines after the first have room (indentation smaller than the line length), output_wrap ends; it prints all of the text in order, no line of text is longer than the line length, and lines are cut after the last space that fits, or where the line is full if there is none. --help ends if no option needs more than 75 characters. (Refuted otherwise: without room, hence for --help and for every error message as soon as an option needs 76 characters, it prints empty lines for ever.)", "quantifier": "all texts, line lengths, indentations, option tables", "why_tests_cant": "all texts and indentations, and non-termination", "anchors": ["lib/common/cmdline.cpp: output_wrap, print_usage", "include/stxxl/bits/common/cmdline.h: option_text, calc_opt_max"]}
{"id": "C85", "title": "Parallel multiway mergesort", "statement": "parallel_sort_mwms leaves the array sorted, in whatever order its threads write: with exact splitting for every number of threads if no two elements are equivalent, and for at most two threads always; with splitting by sampling if the chunks are long enough for the samples and no thread of five or more goes empty, and then also stably. Refuted otherwise: with exact splitting and equivalent elements three threads have crossing boundaries and two threads are not stable; with sampling, equal elements and five or more threads dereference a null pointer, and small inputs are read behind their end.", "quantifier": "all inputs, thread counts, comparators that are strict weak orders, standard library sorts, contents of raw storage, orders of the writes", "why_tests_cant": "all inputs and schedules of the writes; ties decide whether boundaries cross", "anchors": ["include/stxxl/bits/parallel/multiway_mergesort.h: parallel_sort_mwms, parallel_sort_mwms_pu, determine_samples", "include/stxxl/bits/parallel/multiseq_selection.h: multiseq_partition"]}
{"id": "C86", "title": "Allocating several runs at once stripes every run", "statement": "The allocation strategies used by sort and ksort to allocate all blocks of several runs in one request choose only configured disks, never index out of range, and (striping, simple randomized, randomized cycling) send any (end-begin) consecutive blocks of one run to pairwise different disks, for every block number below the length of the shortest (last) run. Refuted behind that: if the last run is shorter, some other run always has two consecutive blocks on the same disk.", "quantifier": "all disk ranges, numbers and lengths of runs, block positions, outcomes of the random generator", "why_tests_cant": "all run shapes, disk counts and random outcomes", "anchors": ["include/stxxl/bits/mng/block_alloc_interleaved.h: interleaved_striping, interleaved_FR, interleaved_SR, interleaved_RC, first_disk_only", "include/stxxl/bits/algo/adaptor.h: runs2bid_array_adaptor, runs2bid_array_adaptor2"]}
{"id": "C87", "title": "Block indices and element iterators", "statement": "After every sequence of assignments, ++, --, +, +=, -, -=, >>= that stays in 0..2^64-1, a vector position knows its page, block in the page and offset in the block, a blocked index its block and offset, and an element iterator over an array of blocks refers to the element with that number; comparisons and distances of iterators are those of the positions. Refuted: it[n] of the element iterator is element n of the array, not *(it + n).", "quantifier": "all block and page sizes, start positions, operation sequences, block contents", "why_tests_cant": "all histories of increments and decrements across block and page boundaries", "anchors": ["include/stxxl/bits/mng/adaptor.h: blocked_index, array_of_sequences_iterator", "include/stxxl/bits/containers/vector.h: double_blocked_index"]}
{"id": "C88", "title": "swap_vector and swap_remove_if", "statement": "For every history of reserve, resize, swap_back, clear, erase and erase(swap_remove_if(...), end()) the elements of a swap_vector change as those of a std::vector would (grown elements unspecified), provided no erased range ends one element before the end and there are fewer than 2^32 elements. swap_remove_if on any range keeps exactly the elements that do not satisfy the predicate, in order, changes nothing outside and loses no element. Refuted: erase of a range ending one element before the end removes the last elements instead; elements cleared come back by resize and swap_back; growing at 2^32 elements does not end.", "quantifier": "all histories, element values, predicates, capacities", "why_tests_cant": "all operation sequences and positions", "anchors": ["include/stxxl/bits/common/swap_vector.h: swap_vector, swap_remove_if"]}
{"id": "C89", "title": "aligned_alloc and aligned_dealloc", "statement": "For every program that allocates, writes and deallocates areas with aligned_alloc<A> and aligned_dealloc<A>, and every answer malloc and realloc may give, if each requested size plus A plus 8 is below 2^64: nothing undefined happens, the data of every held area is aligned to A, its bytes are inside allocated memory, held areas do not overlap, an allocation changes no byte of a held area, deallocation frees exactly the block that was allocated, the allocation calls itself at most once, the unused end of the block is given back when realloc shrinks in place, and nothing leaks unless realloc fails. Refuted: a size near 2^64 wraps and gives an area outside allocated memory; a failing realloc leaks the block.", "quantifier": "all histories, sizes, alignments, answers of malloc and realloc", "why_tests_cant": "all addresses and answers of the C library", "anchors": ["include/stxxl/bits/common/aligned_alloc.h: aligned_alloc, aligned_dealloc, aligned_alloc_settings"]}
{"id": "C90", "title": "Singletons: one object, constructed in order, destroyed in order", "statement": "Under every interleaving of threads calling get_instance of singletons whose constructors call get_instance of others: the constructor of each class runs at most once; every call returns the one fully constructed object; everything its constructor asked for is fully constructed; if the constructors do not ask for each other in a circle there is no deadlock; at exit every object made is destroyed exactly once; and if all calls are made by one thread, every destructor still finds the objects its constructor asked for. Refuted: with two threads the order of destruction can be wrong, so a destructor finds the bomb pointer; a circle deadlocks in one thread.", "quantifier": "all numbers of threads, scripts, interleavings, dependencies between classes", "why_tests_cant": "all interleavings of any number of threads", "anchors": ["include/stxxl/bits/singleton.h: singleton", "lib/common/exithandler.cpp: register_exit_handler", "include/stxxl/bits/io/disk_queues.h: disk_queues"]}
{"id": "C91", "title": "The malloc counter", "statement": "With malloc_count linked in, for every history of malloc, calloc, realloc, free and writes, before and after the C library's functions are loaded: as long as the C library has memory and requests stay away from 2^64, nothing undefined happens, every call does to the blocks what the C standard promises, keeps contents and touches no other block; malloc_count_current is the number of bytes in live blocks of the C library; the peak is the maximum since the last reset; the total grows by what was asked for; blocks on the start-up heap do not overlap; and under every interleaving of threads the current count is exact. Refuted: out of memory writes to the null pointer instead of returning it; calloc does not check its product; the check of the start-up heap wraps; the start-up heap does not keep alignment; with two threads peak and total lose updates.", "quantifier": "all histories, sizes, answers of the C library, interleavings", "why_tests_cant": "all operation sequences and interleavings", "anchors": ["lib/utils/malloc_count.cpp: malloc, free, calloc, realloc, inc_count, dec_count, malloc_count_reset_peak"]}
{"id": "C92", "title": "Helpers that check, hash, swap and round", "statement": "is_heap reads only inside the range and says exactly whether no element is greater than its parent, so for a strict weak ordering the first element of an accepted range is a maximum; is_sorted reads only inside the range and, for a strict weak ordering, says exactly whether no element comes before an earlier one; longhash1 maps different 64-bit keys to different hashes; swap_1D_arrays exchanges exactly the first size elements; round_up_to_power_of_two(n, power) is the least multiple of 2^power not below n whenever it fits in 64 bits, else 0.", "quantifier": "all ranges, orderings, keys, sizes and 64-bit numbers", "why_tests_cant": "all ranges and 2^128 pairs of keys", "anchors": ["include/stxxl/bits/common/is_heap.h: is_heap", "include/stxxl/bits/common/is_sorted.h: is_sorted", "include/stxxl/bits/common/utils.h: longhash1, swap_1D_arrays, round_up_to_power_of_two"]}
{"id": "C93", "title": "Shared pointers kept outside of memory", "statement": "However wrappers of shared pointers are made, copied, written to disk, read back, overwritten and dropped: as long as every object is unwrapped at most as often as it was wrapped (and get is called only while it is not, or while another pointer lives), nothing undefined happens, the reference count is the number of living pointers plus the number of wraps not undone, and the object is destroyed exactly when no pointer lives and every wrap is undone; get returns a pointer to the wrapped object and == compares objects. Refuted without the condition: unwrapping two copies destroys an object that is still pointed to.", "quantifier": "all histories of pointers and wrappers", "why_tests_cant": "all interleavings of copies, wraps and unwraps", "anchors": ["include/stxxl/bits/common/external_shared_ptr.h: external_shared_ptr, unwrap, get, operator =="]}
{"id": "C94", "title": "The non-growing vector", "statement": "A simple_vector of plain data is the sequence that was written to it, through every sequence of writes, resize and memzero: no access is outside, resize keeps the elements that fit and leaves new ones uninitialised, swap exchanges contents. Refuted for elements that own something: resize of a non-empty vector copies bytes, so what the first element owns is released twice.", "quantifier": "all sizes and histories", "why_tests_cant": "all histories", "anchors": ["include/stxxl/bits/common/simple_vector.h: simple_vector, resize, memzero, swap"]}
{"id": "C95", "title": "The stop watch", "statement": "timer shows exactly the time during which it was running since the last reset plus what was added by +=, for every history in which it is started only while it stands and stopped only while it runs; mseconds and useconds are the same time. Refuted without the condition: a second start loses the time since the first, a second stop counts the pause, a stop without start counts from the epoch.", "quantifier": "all histories of calls and points of time", "why_tests_cant": "all histories and times", "anchors": ["include/stxxl/bits/common/timer.h: timer"]}
{"id": "C96", "title": "The emulated disk", "statement": "simdisk: for every history of page-aligned writes within the file and changes of size, no call fails and a page-aligned read within the file gives at every place what was written there last, or 0; set_size never shrinks; unaligned requests fail with an error, requests to pages beyond the file end the program. A request that took no longer than the emulated disk needs takes exactly as long as the emulated disk. Refuted for slower requests: the assertion fails, and without assertions the request sleeps for at least 2^31 seconds, because a negative number of seconds is passed to sleep.", "quantifier": "all histories, ranges, page sizes and times", "why_tests_cant": "all histories; the hang depends on the time the system takes", "anchors": ["lib/io/simdisk_file.cpp: sim_disk_file::serve, sim_disk_file::set_size, simdisk_geometry::get_delay"]}
{"id": "C97", "title": "Seeds and metaprograms", "statement": "However calls of any threads are ordered, up to 2^32 calls of get_next_seed in a row give different seeds, and after set_seed the next seed is the one that was set. LOG2<n> is the binary logarithm rounded down and up for every n > 0. SWITCH selects the first case that has the tag or is the default.", "quantifier": "all histories of calls, all numbers, all lists of cases", "why_tests_cant": "all histories and instantiations", "anchors": ["lib/common/seed.cpp: set_seed, get_next_seed", "include/stxxl/bits/common/tmeta.h: LOG2, SWITCH"]}
{"id": "C98", "title": "Tuples, their comparators and streams", "statement": "tuple_less1st, tuple_greater1st, tuple_less1st_less2nd, tuple_less2nd and tuple_less2nd_less1st are strict weak orderings by the components in their names; their min_value() and max_value() bound all tuples, and are strictly before/after a tuple exactly if it differs from them in the compared components, for component types where numeric_limits::min() is the least value; == is equality of all components and != its negation; concatenate yields the first stream and then the second, each element once, reading no empty stream; counter counts on from its start. Refuted for floating point components: tuples with negative components come before min_value().", "quantifier": "all tuples, limits and streams", "why_tests_cant": "all tuples and streams", "anchors": ["include/stxxl/bits/common/tuple.h: tuple, tuple_less1st, tuple_greater1st, tuple_less1st_less2nd, tuple_less2nd, tuple_less2nd_less1st, counter, concatenate"]}
{"id": "C99", "title": "Differences of statistics and printing of sizes", "statement": "Differences of stats_data snapshots add up over consecutive intervals, adding a difference to the earlier snapshot gives the later one, and numbers of operations are right across a wrap-around of the 32-bit counters if fewer than 2^32 happened in between. format_SI_size and format_IEC_size end and never read outside of their table of endings for every 64-bit number, however divisions are rounded; with exact divisions the number printed times what the ending stands for is the size, and it is at least 1 unless there is no ending.", "quantifier": "all snapshots, all 64-bit numbers, all roundings", "why_tests_cant": "2^64 numbers, all snapshots", "anchors": ["include/stxxl/bits/io/iostats.h: stats_data::operator +, operator -", "lib/common/utils.cpp: format_SI_size, format_IEC_size", "lib/io/iostats.cpp: format_with_SI_IEC_unit_multiplier"]}
{"id": "C100", "title": "Completion handlers are values", "statement": "However completion handlers are made, copied, assigned (also to themselves), called and destroyed, every handler behaves like a function object of its own, with its own state, or does nothing if it was made by default or copied from such a one; nothing undefined happens, no object is deleted twice, and the objects on the heap are exactly those of the living handlers, so nothing leaks.", "quantifier": "all histories, all function objects with state", "why_tests_cant": "all histories of copies and assignments", "anchors": ["include/stxxl/bits/io/completion_handler.h: completion_handler, completion_handler1"]}
