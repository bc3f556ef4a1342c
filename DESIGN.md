# Formal model of stxxl in Lean 4 — design

## Trusted base

* Lean 4.33.0's kernel. No axioms beyond the standard three (`propext`, `Classical.choice`,
  `Quot.sound`); no `native_decide`, `bv_decide`, no custom axioms. `vcheck` reports axioms per theorem.
* The reading of the C++: every model definition cites the file and lines it models. The code is not run.
* Modelling conventions (apply everywhere unless a definition says otherwise):
  * machine integers are unbounded `Nat`/`Int` except where the property is about bits
    (varints, uint40/48, sizes in `parse_SI_IEC_size`), where `BitVec`/explicit moduli are used;
  * C++ `assert`/UB is a distinct outcome (`none` / `Except.error`) whenever a function has a
    precondition; theorems show that the outcome is unreachable from the API, or state the precondition;
  * pointers to blocks are indices; mutation returns a new state; loops are structural recursion or
    well-founded recursion;
  * a disk is a map from block ids to block contents. Where asynchrony matters (C12, C19, C28, C27)
    outstanding requests are part of the state and are completed by separate nondeterministic steps;
    elsewhere a request that is waited for before its data is used is modelled as instantaneous.

## Per property plan

| id | model | proof |
|----|-------|-------|
| C01-C04 | `DiskAlloc`: free map as sorted list, `add_free_region`, `grow_file`, `new_blocks` (recursive halves), `delete_block`; ghost list of live blocks in the *history*, not in the state | invariant over operation histories: sorted, separated regions; live ∪ free partitions [0,disk) |
| C05 | `BlockAlloc`: strategies as functions, random outcomes are parameters | modular arithmetic |
| C06 | `BlockManager`: scatter/gather of new_blocks_int over per-disk allocators | induction over block list, uses C01 |
| C07 | `Pager`: list splice | refinement to "sort by last-use time" |
| C08-C10 | `ExtVector`: page tables, slots, status, free slots, cache, disk | refinement to `List`/function with invariant "cached page or disk page holds the abstract page" |
| C11-C14 | `Stack`: cache offset, front/back page, bids, disk | refinement to `List` |
| C15-C17 | `Queue`, `Sequence`: front/back block with element indices, spilled blocks | refinement to `List` |
| C18 | `Deque` | refinement to `List` |
| C19-C20 | `Pools`: free list, busy list with request state, disk; completion steps | invariant over schedules |
| C21-C22 | `BinaryBuffer`: bytes, varints | induction + bit lemmas |
| C23 | `UIntPair` | arithmetic mod 2^n |
| C24 | `LoserTree`: array-embedded tree, replay | invariant: each node holds the loser of its subtree match |
| C25, C32 | `Sort`: run formation + recursive multiway merge, boundary blocks | permutation + sortedness |
| C26-C27 | `Schedule`: event simulation of simulate_async_write | invariant; counting argument |
| C28 | `BufStream`: buffered_writer + block_prefetcher | invariant over schedules |
| C29 | `PQ`: insertion heap, delete buffer, group buffers, mergers | multiset refinement + order invariant |
| C30 | `BTree` | refinement to sorted assoc list |
| C31 | `HashMap`: buckets with internal part and external part | refinement to finite map |
| C33 | `Stream` | list functions |
| C34 | `Shuffle` | permutation |
| C35 | `CountingPtr` | invariant: refcount = number of pointers |
| C36 | `Wbtl` | refinement to offset ↦ data |
| C37 | `AddrQueue` | two-index consistency |
| C38 | `ParseUnits` | spec by digits/units grammar |
| C39 | `WinnerTree` | tree invariant |
| C40 | `ReqQueue` | history invariant |
| C43 | `BlockCache` | refinement to subblock ↦ value |
| C44 | `HashMap/Iter*`: iterator objects, iterator map | simulation: live iterator ↦ key |
| C45 | `Request`: request objects, waiters, switches, worker and user threads, one step per shared access | inductive invariant over all interleavings; measure for progress |
| C46 | `FileIo`: `serve`, `set_size`, `discard` of five file types over POSIX files with an arbitrary system behind each call | loop induction for the transfers, invariant over histories |
| C47 | `KSort`: the integer-key primitives on arrays with bounds and shifts checked, run creation, `ksort_blocks`, and `ksort` as the instance of the function modelled for `sort` | distribution invariant (every bucket a contiguous, order-preserving segment), sortedness of the concatenation, then the generic external-sort theorem of C25; undefinedness theorems for the parameters that are not rejected |
| C48 | `StableKSort`: distribution into buckets, two-level radix sort of every bucket with all computed shifts and table sizes, in-place output stream; a vector is the list of its blocks | distribution invariant of C47, segment sortedness, take/drop algebra for the blocks at the ends; undefinedness theorems; instability by evaluation of a concrete run that meets the hypotheses |
| C49 | `Matrix`: store of swappable blocks, submatrix views with padding, all five algorithms function by function | context invariant (values of all matrices in scope, ownership, colours for disjointness), induction on the depth, ring identities |
| C50 | `Matrix/Api`: variables, counting pointer, unify, all operators; specification `ApiSpec` with tables | refinement invariant between world and tables, induction on the program |
| C51 | `Matrix/Api` as above | coverage part of the same invariant |
| C52 | `Matrix/VecModel`: recursion and block kernels with 32 bit limits | additive effect of every kernel, sum over the grid of blocks |
| C53 | `Matrix/VecModel` | frame of the by-value functions; locality argument against every inner routine; untouched index 0 |
| C54 | `BlockSched`: scheduler, swappable blocks, three algorithms; specification: table of blocks with contents | refinement invariant `R` for every call, induction on the history |
| C55 | `BlockSched` | internal blocks are a permutation of those allocated (part of `R`); counting when the queue is empty |
| C56 | `BlockSched` with destructor | ownership part of `R` |
| C57 | `BlockSched/Sim` | simulation relation between the counter and the table; lockstep induction |
| C58 | `BlockSched/Policy` | LRU queue ordered by last release; LFD priorities equal next use in the remaining prediction; induction |
| C59 | `BlockSched/Flaws` | kernel evaluation of witness histories |
| C60 | `MultiSeq`: both functions loop by loop on lists, `none` = undefined read | invariant at granularity 2^k: left sizes are multiples, b = a + 2^k - 1, no right neighbour less than a left neighbour; preserved by the midpoint step (all moved elements < lmax) and by moving smallest / greatest; at granularity 1 the sum is the rank |
| C61 | `MultiSeq`: selection shares the splitter | counting over the left and right part |
| C62 | `MultiSeq` | witness, kernel-evaluated |
| C63 | `MwMerge`: 2/3/4-way automata, bubble, loser tree | every step takes a best head (`MergeRun`) ⇒ `Merges`; table checked by kernel |
| C64 | `MwMerge`: prepare_unguarded, unguarded automata and trees | counting of elements below the smallest last element |
| C65 | `MwMerge` | witnesses |
| C66 | `MwMerge/ParModel`: equally_split, exact splitting, threads, front-ends | chain of boundaries, uses C60; all permutations of the writes; witnesses |
| C67 | `Sync`: transition system of threads | inductive invariant (value ≤ pending notifications + woken, if somebody sleeps), measure |
| C68 | `Sync` | invariant, measure, witness |
| C69 | `Sync` | invariants under the stated discipline, witnesses |
| C70 | `PPQ`: all data structures of `parallel_priority_queue` with the memory tests as an oracle; specification = a multiset with phases | simulation by induction over the history; invariant: arrays sorted, sizes right, trees up to date while the extract buffer is not empty, nothing in external arrays before an element of the extract buffer |
| C71 | `PPQ`: concrete histories of the same model, and two general lemmas | kernel evaluation of the runs |
| C72 | `PPQ`: same model; `BulkHist`, `Served` in Spec.lean | progress: weight of internal arrays (maxIL^level) bounds the level; simulation of C70 for the results |
| C73 | `VecBuf`: the two readers and `buf_istream_reverse` on top of the models of the prefetcher (`BufStream`) and the vector (`ExtVector`) | invariant: position of the stream in the block list = position of the iterator; induction over the history |
| C74 | `VecBuf`: `vector_bufwriter` (operator *, ++, <<, finish, constructors) on the vector model; `buf_ostream` reduced to what C28 proves (blocks handed over reach the disk before destruction, in any order) | invariants of the two modes (stream open / cached access), per-element step lemma incl. growth, filling of the last block, tracking of the abstract array |
| C75 | same model | concrete runs evaluated by the kernel |
| C76 | `LinuxAio`: the queue as a state machine of user threads, posting thread, waiting thread, operating system, destructor | one inductive invariant (three semaphore accounts, FIFO equation, multiset partition) over all steps |
| C77 | `LinuxAio`: same machine | decreasing measure for termination, blocking analysis from the semaphore accounts; deadlocks and losses as reachable states with invariants that no step leaves; loss for every k by induction |
| C78 | `LinuxAio`: `setup`, `release` | induction over the doubling loop; invariant; witness run |
| C79 | `Config`: strings as character lists, split, parse_fileio and fileio_string | word-by-word lemmas, decimal printing and `strtoul` (C38 lemmas) |
| C80 | `Config`: parse_line, load_config_file | induction over the lines |
| C81 | `Config`: counter and ids | induction over the opened files, counter above all ids |
| C82 | `IoStats`: groups of counters, one step per mutex section, any interleaving | invariant with sums over the operations; for parallel time counting of covered time slots |
| C83 | `Cmdline`: the loop of `process` on lists of words, `sscanf` a parameter | iff with a grammar of command lines (`Parses`) and per-variable meaning, by induction |
| C84 | `Cmdline`: `output_wrap` round by round | relation `Wrapped`, potential for termination, fixpoint for non-termination |
| C85 | `MwSort`: parallel_sort_mwms on top of `MultiSeq` and `MwMerge` | exact: the boundaries are those of parallel_multiway_merge (C66), so its chain argument applies; sampling: induction over the splitters, each thread merges one slab; negatives by witness or from C65 |
| C86 | `Interleave`: the interleaved strategies, and the adaptors that turn a position into run and block | the disk is a function of run and block below the shortest length; windows of residues are permutations (C05) |
| C87 | `BlockIndex`: the three classes with wrapping 64-bit words | each operation maps the canonical state of a position to that of the next; induction over the history; blocks as a flattened list |
| C88 | `SwapVec`: the array with size and capacity, loops swap element by element | loop invariants on prefix and suffix of the array; induction over histories against a relational specification; negatives by witness and in general |
| C89 | `AlignedAlloc`: heap of live blocks, memory of cells, malloc/realloc answered by the environment | invariant (blocks disjoint, slot before each area holds its block) by induction over histories; negatives by witness |
| C90 | `Singleton`: threads with stacks of get_instance calls, one step per access to shared state; exit handlers in LIFO order | invariant relating each class to the call that holds its mutex, induction over schedules; rank argument for deadlock; negatives by witness |
| C91 | `MallocCount`: blocks by pointer with size and bytes, counters, start-up heap; a second small model of the counters with threads | invariant by induction over histories against a relational specification of each call; negatives by witness |
| C92 | `Utils`: the loops over lists with checked access, 64-bit words | loop invariants; the hash is a composition of injective steps (xor-shifts, multiplication by odd factors) |
| C93 | `Small`: list of pointer instances, list of wrapper bytes, reference counts, ghost log of wraps | invariant: count + unwraps = instances + wraps |
| C94 | `Small`: optional array with checked copies | simulation by a list; negative for all owners |
| C95 | `Small`: the three fields, exact integer time | induction over histories against the measure of running time |
| C96 | `SimDisk`: file as bytes with page-wise access, sleeping times as exact integers | refinement of the history; arithmetic |
| C97 | `SimDisk`: a counter modulo 2^32 behind a mutex; the metaprograms as functions | induction |
| C98 | `Tuple`: integer components with limits; streams as lists of what is left | case analysis with linear arithmetic; induction over the streams |
| C99 | `StatsData`: record of 17 entries, counters with 32 bits; the scaling loop over rationals with a rounding function | entry by entry; a bound on the number of rounds that tolerates any rounding up to one half |
| C100 | `Handler`: heap of function objects, handlers as owning pointers | refinement to a map of values; ownership invariant (injective, nothing unowned) |

## Modules: what is modelled, what is not, and what was found

Layout: each directory of `lean/Verif` has a `Model.lean` (definitions, with citations), lemma files, and a
`Props.lean` that states the theorems named `Cxx_...` with non-vacuity examples next to them. Specification vocabulary is
in `Common/` and in the `Spec.lean` files.

### DiskAlloc (C01-C04)
Modelled: all of `disk_allocator` (`add_free_region`, `grow_file`, `new_blocks` with its recursive halving,
`delete_block`, constructor). One event is one locked section, so histories are the interleavings of any number of
threads; the list of live blocks is ghost state determined by the history. Not modelled: `int64` overflow, the file.
Found: a request for blocks of different sizes can fail although the free space suffices even after growing
(`C04_variable_size_counterexample`); without autogrow the disk is still grown by `new_blocks` in one path
(`C04_grows_without_autogrow`).

### BlockAlloc, BlockManager (C05, C06)
Modelled: strategies of `block_alloc.h` (random numbers are parameters); `block_manager::new_blocks_int`,
`delete_block`, counters. Not modelled: configuration and creation of disks, `file::discard`. Found: if one disk fails,
the blocks already taken from earlier disks are leaked (`C06_failed_request_leaks`).

### Pager, ExtVector (C07-C10)
Modelled: `lru_pager`, `random_pager`; `vector` with page cache: `operator[]` (const and not), `push_back`, `pop_back`, `resize`,
`reserve`, `clear`, `flush`, destructor, constructors from file and from bids, `set_content`. Block ids and the page to
evict are arguments, restricted by C06 and C07. I/O is waited for in the code and instantaneous in the model. Not
modelled: references into the cache that outlive an access (`push_back(v[0])` is a hazard), I/O errors, iterators as
objects. Found (C10): `resize(n, true)` forgets blocks without releasing them, and growing again afterwards accesses the
page tables out of bounds; both are proved, hence C10 is partial.

### Stack (C11-C14)
Modelled: `normal_stack` (synchronous), `grow_shrink_stack` (requests served at any moment, also inside loops),
`grow_shrink_stack2` on the shared pool model, `migrating_stack` over `normal_stack`. Not modelled: I/O errors, copying between stack types.
Remarks: `pop` of the last element computes a pointer before the first element (never dereferenced); `grow_shrink_stack2`'s destructor
leaves its write requests in the shared pool after deleting the blocks; with critical size 0 `migrating_stack` never migrates.

### Io, Pools (C19, C20)
`Io` is the request layer: a request is served at one moment between submission and return of `wait`; reads in any order,
a write never before an older write to the same block (FIFO queue of writes, default disk queue). Not modelled: `linuxaio`
(no such order), I/O errors. `Pools`: `write_pool`, `prefetch_pool`, `read_write_pool` with `steal`, `add`, `write`, `hint`,
`invalidate`, `read`, `resize`, destructor. Histories follow the client protocol stated in `Props` (a block has one
owner; a stolen buffer is waited for before reuse), which is what the containers do. Outside the protocol there are hazards: a hint for a
block whose write was stolen but not waited for; writing a block directly while it is in the write pool.

### Sequence, queue (C15-C17), Deque (C18)
`queue` and `sequence` share their statements and so the model. Streams (`stream`, `reverse_stream`) are modelled with
prefetching. Found: a stream needs a spare buffer in the pool, with a two-buffer pool the assertion fails
(`C17_two_buffer_pool_fails`). `deque` is modelled over the array that C08 establishes. Found: `operator==` of deques
ignores the sizes (`C18_equality_ignores_size`).

### BinBuf, UIntPair (C21-C23)
All of `binary_buffer`, `binary_buffer_ref`, `binary_reader`; `uint_pair`. Found: `put_string` writes a 32-bit length, longer strings
are lost (`C21_long_string_lost`); the reader's bounds check wraps around for huge lengths (`C22_huge_length_wraps`).

### Schedule, BufStream (C26-C28)
`compute_prefetch_schedule` statement by statement; `buffered_writer`, `block_prefetcher`, `buf_ostream`, `buf_istream`
over `Io`. Assumptions: the outstanding requests belong to the stream under consideration, its block ids are distinct;
`buf_istream` on an empty range is a failed assertion, with `nbuffers = 0` an unsigned wrap (outside the model).
Found: a schedule with no buffers fails (`C26_no_buffers_fails`); a batch as large as the pool deadlocks the
`buffered_writer`; `buffered_writer::flush` forgets the block the user holds, which is how `hash_map/util.h:414` uses it.

### LoserTree (C24), Sort (C25)
The loser tree with its array layout, both the generic loop and the unrolled `multi_merge_unrolled`. The prefetcher is a list of blocks
in consumption order. `sort`: run creation, merge phases, the adaptor that distributes the bids, the four
alignment cases, the in-memory case. Not modelled: overlapping of I/O inside `create_runs`, vectors mapped to a user's file
(blocks not managed), the parallel merge. `optimal_merge_factor` (floating point) is any function with values at least 2;
`std::sort` is any function that sorts; the allocator is any function that returns fresh distinct blocks. Found: `sort.h:889`, see C25.

### CountingPtr (C35), AddrQueue (C37), ParseUnits (C38)
* CountingPtr: `counting_ptr` operations of any number of threads, split into their atomic parts (read, `inc_reference`,
  `dec_reference`, `delete`, store); an arbitrary interleaving of parts. The proof assigns every counted reference to a token (a handle, or
  a thread that holds a reference in the middle of an operation). Not modelled: weak memory orders, the raw-pointer constructor applied
  to an object already managed (it is the same as a copy), `const_counting_ptr` separately (same statements).
* AddrQueue: `std::list`/`std::set` nodes with identities and the `std::map` into them; refinement to a list without duplicates ordered
  by insertion (FIFO) and to a finite map from keys to priorities (priority queue). Erasing through a stale iterator is the result `none`.
* ParseUnits: the whole of `parse_SI_IEC_size`, with `strtoul` as in ISO C. Found: a string without any digit is accepted as 0
  (`if (!endptr)` never holds), negative numbers and overflowing products wrap (`C38_accepts_malformed`).

### WinnerTree (C39)
The whole class with its array of entries; values are looked up outside (the less functor), so the user can change a value and notify
later. The specification `spec` says which players are active and for which a replay is due. Invariant: every inner node is the
winner of its children unless a replay is due below it. Found: `double_num_slots` never ends (`C39_growing_is_undefined`), `resize`
alone leaves a wrong tree (`C39_resize_breaks`).

### Scan (C34, C41)
`for_each`, `for_each_m`, `find`, `generate`, and `random_shuffle` for vectors, on the vector model of C08: the algorithms flush and work on
the blocks on disk, so the theorems include the interaction with pages, cached or not. The histories `Hist` mix vector operations and
algorithms. Streams by their effect (C28); stacks of `random_shuffle` as lists (C11-C14); its temporary vectors have their own disk (the
block manager gives disjoint blocks, C06). Recursion depth is an argument; the theorems hold for every depth. Not modelled: the generic
`random_shuffle` for other iterators, pool sizes inside `random_shuffle`. Found: see the theorems marked (found).

### ReqQueue (C40)
`request_queue_impl_qwqr` and `request_queue_impl_1q` as transition systems: any number of user threads inside `add_request` and
`cancel_request`, the destructor, and the worker, interleaved at critical sections and semaphore operations. A critical section that cannot
block is one step. Proof: an inductive invariant with the accounting of the semaphore (units + units in hand = waiting requests + pending
cancels + destructor's unit - pending posts). Found: `C40_shutdown_can_lose_a_request`, `C40_cancel_can_deadlock` (and the same for one queue).
Not modelled: the destructor called while other calls are active (undefined in C++), `linuxaio_queue`, semaphore overflow at 2^31.

### Streams (C33)
A stream is a triple of functions (`empty`, `*`, `++`) on a state; an operator's state contains its inputs' states (an input read by two
operators at once is not modelled). `Yields` is the consumer's view. `streamify` and `materialize` of external vectors work on the vector and
scan models (C08, C41); `materialize` is proved equal to `generate` with the stream's values. Loops that depend on the input carry a bound,
and the theorems hold for every bound larger than the input. The block stream of `vector_iterator2stream` reads lazily in the model (the
real one reads ahead: same values while the vector is not changed). Not modelled: copies of stream objects (`vector_iterator2stream` moves
its buffer on copy; `vector_iterator2stream_sr` copies a pointer and deletes it twice), the six-input `transform` (its constructor declares
`Input5& i6_`, so it compiles only if the types agree), nbuffers (C28).

### Sorter (C32)
Modelled (`Verif/Sorter/Model.lean`): `sorted_runs`, `runs_creator<use_push>` (push, compute_result, allocate/deallocate/clear), `basic_runs_creator`
(small input, one run, two half runs, general case), `runs_creator<from_sorted_sequences>`, `basic_runs_merger` (initialize, recursive merging in
phases with nested mergers, buffer refilling, `*`/`++`/`empty`), `stxxl::sorter` (all operations), `stream::sort`, and the generic
`stxxl::sort<BlockSize>` as composition of the vector stream (C33), the sort and `materialize` into the vector (C33/C41).
Proof: run invariant (`Runs.lean`), merging through the loser tree of C24 with `max_value` filling (`Merge.lean`), induction over the nesting of
mergers and over merge phases (`Rec.lean`), creators (`Create.lean`, `FromSorted.lean`), histories of a sorter with other users of the disk
(`Ops.lean`, `Props.lean`).
Not modelled: double buffering/asynchrony of the creators, parallel merging, exceptions' effect on the object, `runs_merger` over user-supplied
runs that are not from a creator, `optimal_merge_factor`'s floating point (any function `mf` with values at least 2).
Found: `size()` after `finish()` counts buffered elements twice (`C32_size_after_finish_wrong`); the floating point merge factor can exceed the
arity, then `bad_parameter` is thrown with enough memory or an assertion fails (`C32_rounded_merge_factor_throws`); `finish_clear()` in the input
phase does not clear; `runs_creator::clear()` after `deallocate()` dereferences a null pointer; destroying a creator during input frees buffers with
writes in flight; elements that are equivalent but not identical to `max_value()` can be replaced by it (excluded by `Fits`).

### BTree (C30)
`Verif/BTree/Model.lean` models btree.h, node.h, leaf.h, iterator.h, iterator_map.h, root_vnode (a std::map) function by
function: split, insert, fuse/balance, erase, root growth and collapse, find/lower/upper bound, leaf links, iterator
registry fix-ups, clear, erase(range); `Bulk.lean` models bulk construction. A tree of level `h` is a dependently typed value
`Tree K V h`: the child is stored in place of its BID, i.e. the node cache is assumed transparent (that is C42).
Specification: `Spec.lean` (ascending list of pairs + iterator variables). Proof: forward simulation `Sim` (`step_sim`,
Refine.lean) on top of an invariant (`Inv`: order between splitters, occupancy, leaf links, registry, allocated blocks).
Theorems: `C30_history`, `C30_history_exceptions`, `C30_bulk`, `C30_bulk_succeeds`, `C30_bulk_throw_leaks`, and witnesses for
the hazards listed in properties.jsonl.
Not modelled: the block I/O of the caches (C42), prefetching (a hint), the statistics counters, move/swap (see C42),
`operator<` etc. between maps, value-compare objects, threads. The element count is unbounded (no uint64 wrap).

### NodeCache (C42)
`Verif/NodeCache/Model.lean` models node_cache.h (constructor, get_new_node, get_node, get_const_node, delete_node,
prefetch_node, unfix_node, destructor, swap) on top of the LRU pager of C07. Specification: `NodeCache/Spec.lean`: a store, the
fixed nodes, and the list of unfixed nodes certain to be in the cache (most recent first, cut to the room left by fixed
nodes), with pointer variables. Proof: invariant `Sim` (the certain nodes are a prefix of the pager's unfixed history; clean
nodes agree with the disk; pending reads are of clean nodes) and forward simulation `step_sim`.
Theorems: `C42_transparent`, `C42_survives_one_access`, witnesses `C42_swap_loses_update`, `C42_stale_pointer`.
Not modelled: statistics, I/O errors, the order of the destructor's loop over the hash table, that B-tree operations use only
valid pointers (C30 is proved over a tree that stores children in place of BIDs).

### Priority queue (C29)
`Verif/PQ/Merger.lean` models pq_mergers.h (loser_tree with update_on_insert, double_k, compact_tree, the flat 1-4-way merges and their label
automata, the tree merge), pq_int_merger.h and pq_ext_merger.h; `Model.lean` models priority_queue.h and internal_priority_queue
(push, pop, top, size, refill_group_buffer, refill_delete_buffer, make_space_available, empty_insert_heap including its in-place merge).
Every C++ assertion, exception, out-of-range index is the outcome `none`. Specification: `Spec.lean` (a multiset; `Run`).
Proof: tournament invariant with cached keys (`Tree.lean`), slot/free-list invariant of a merger (`MInv.lean`), "takes the best n"
(`Takes.lean`, `MMerge.lean`), appends (`MAppend.lean`), the order invariant between delete buffer, group buffers, mergers
(`QInv.lean` … `QOps.lean`), then a simulation over histories (`Props.lean`).
Theorems: `C29_priority_queue`, `C29_heapsort`, `C29_top_empty`, `C29_generator`, and witnesses that each condition of `Cfg.Ok` that the
code does not check is needed (`C29_internal_arity_two_breaks`, `…four_breaks`, `…three_breaks`, `C29_five_groups_break`,
`C29_delete_buffer_longer_than_N_breaks`); `C29_generator_small` shows that PRIORITY_QUEUE_GENERATOR selects arities 2 and 4.
Assumed: `std::push_heap`/`pop_heap`/`sort` meet the standard (`StdHeap.Ok`, satisfied by `refHeap`); a block written through the pool is
read back unchanged (C20).
Not modelled: the pools and the disk blocks themselves, memory accounting (`mem_cons_`), `STXXL_PARALLEL`, `swap`, exceptions of `new`,
wrap-around of counters, `1 << (logK - 1)` for `logK = 0` (an undefined shift whose value is not used).

### Hash map (C31)
`Verif/HashMap/Model.lean` models hash_map.h and util.h (buffered_reader, buffered_writer, HashedValuesStream, rebuild loops, all
public operations, bulk insertion) plus iterator.h / iterator_map.h. External memory is one function from flat value positions to values;
readers and writers keep block number, index and subblock as the code does. `Bkt.lean` models `_bkt_num` in IEEE double arithmetic
(round-to-nearest-even on 53 bits). Every read outside `buckets_`, through a dangling node pointer or past the block sequence is `none`.
Specification: `Spec.lean` (`next`, `Result`, `Agrees`: a function `K → Option V`). Proof: invariant `Inv` (buffer lists and external runs strictly
sorted by (hash, key), every key in its bucket, layout of the external runs, node addresses distinct, buffer size), abstraction `Rep`,
one lemma per operation (`Step`, `Find`, `Bulk`), then induction over histories (`History`); `Total` shows the calls cannot fail.
Theorems: `C31_history` (partial correctness for all operations), `C31_no_ub` (total correctness for `Safe` histories), `C31_bucket_index`,
and seven `C31_finding_*` theorems: concrete histories on which the code is not a map.
Assumed: the comparison is a strict total order, `SS, BS > 0`, the bucket function is monotone and in range (`Params.OK`; discharged for
doubles with hash < 2^64-1024 and n < 2^53 by `C31_bucket_index`), `ceil(t/(subblock_size*load))` positive for `t > 0` (`Params.Pos`).
Not modelled: the block cache (transparent), prefetching, asynchronous writes, swap, the equality/ordering operators, exceptions, the stream sorter used by
bulk insertion (its output is a parameter: sorted by (hash, key); C25/C33 are about sorters). The iterators
returned by a call and dereferenced immediately are covered by C31, iterators that live on by C44.

### Write-buffered translation layer (C36)
`Verif/Wbtl/Model.lean` models wbtl_file.cpp (constructor, set_size, discard, _add_free_region, check_corruption, swrite, sread,
get_next_write_block). The free list reuses the `std::map` operations of `DiskAlloc`; `pred--` on `begin()` (undefined) is a parameter with the two values
libstdc++ can produce. The asynchronous write of a buffer is a separate event that copies any set of bytes; `storage->discard` leaves arbitrary bytes.
Specification: `Spec.lean` (`Spec.step`, `Legal`, `Conforms`, `Reach`). Proof: invariant `Inv` (free list, live blocks and buffer rest partition
the file; `Where`: the current contents of a block are in the current buffer, else in the previous one, else on the backend), one lemma per operation, induction.
Theorems: `C36_history`, `C36_places_disjoint`, `C36_no_leak`, `C36_write_succeeds`; findings `C36_finding_failed_write_damages_other` (an OutOfSpace
exception leaves the buffers switched, so another block reads as stale data), `…_failed_overwrite_loses_block`, `…_fragmentation`, `…_discard_size`,
`…_sentinel` (read of an unmapped block served from a write buffer).
Assumed by `Legal`: sizes even (so that no block has the physical address 0xffffffff, which `sread` takes for "unmapped"), same size for overwrite and discard.
Not modelled: threads. `discard` may be called by a user thread while the queue thread is in `swrite`; `swrite` calls `_add_free_region` and
`get_next_write_block` without the mapping mutex that both require, a data race. The destructor (frees the buffers without waiting for the backend write).

### Hash map block cache (C43)
`Verif/BlockCache/Model.lean` models block_cache.h: the write buffer (swap of the slot's block with a free or the oldest buffer), `kick_block` with the LRU pager of
C07, get_subblock, prefetch_block, retain/release, make_dirty, flush, clear. A read is pending until waited for; a write completes at any time
(`Op.complete`); `Cfg.fifo` says whether the I/O layer keeps the order of a write and a later access of the same block.
Specification: `Spec.lean` (`M`: subblock values plus which pointers are still valid; `Pre`/`Post`/`next`/`Conforms`). Proof: `Sim` (slots, map, free list and write
buffers consistent; every defined block is in its slot, in a pending write buffer, or on disk), `Fl` for the phase between flush and clear.
Theorems: `C43_history`, `C43_flush_durable`; witnesses for the obligations: `C43_needs_fifo`, `C43_flush_needs_clear`, `C43_write_before_dirty`, `C43_release_of_other`.
Found besides: `swap` swaps `n_found`'s statistics wrongly (block_cache.h:547); a hit does not tell the pager (block_cache.h:375), so the replacement is by load time, not use.
Not modelled: statistics, I/O errors, subblock numbers out of range, swap, the destructor. `release_block` is modelled by block, as in the code, so which client
released is not visible; the specification counts successful answers.

### Hash map iterators (C44)
Modelled (`HashMap/Model.lean`, `HashMap/IterModel.lean`): the iterator object (bucket, source, node, external index, key, `ext_valid_`, `end_`, reader position),
the iterator map with `fix_iterators_2ext/2int/2end/all2end`, `begin`, `++` (`find_next`), `*` and assignment through it, `==`, copy, destruction, `erase(it)`,
`init_reader`, the buffered reader's position arithmetic, and every call of C31 in the presence of any number of live iterators.
Specification (`HashMap/IterSpec.lean`): a finite map plus, for every live iterator object, the key it points to or `end()`; `IPre` are the obligations of the user.
Proof: the simulation `ISim`/`ItP` (an internal iterator is at a live node with its key; an external one at its slot of its bucket, with a remembered
predecessor node; a valid external index separates the keys up to the iterator's key) is kept by every call.
Theorems: `C44_history`, `C44_traversal`; findings `C44_finding_begin`, `C44_finding_index_stale`, `C44_finding_index_erase`, `C44_finding_equal` (the
reasons for the obligations: an iterator from `begin()` must not be advanced after a key behind it was touched; `operator[]` must not be used on a key
while an iterator points to it; iterators that became `end()` must be compared with `end()` only).
Not modelled: iterators of a second map (`==` compares the map first), `swap` of two maps (`iterator_map::swap` also swaps the back pointers, so iterators and
maps disagree afterwards; not examined), prefetching of the reader, assignment of iterator objects (copy + destroy).

### I/O requests under every interleaving (C45)

Modelled (`Request/Model.lean`): `request_with_state::wait/poll/cancel/completed`, `request_with_waiters::add_waiter/delete_waiter/notify_waiters`,
`serving_request::serve`, `onoff_switch::on/wait_for_on`, `wait_any`, for any number of workers, users, requests and calls. A step is one access to
shared data; `m_waiters_mutex` is explicit where something else shared is touched under it; the switch is an object with a life time in the frame of
its `wait_any`; a null `m_file` and a dead switch are outcomes of their own (`Ub`). The field `ph` of a request is a ghost, no step reads it.
Specification (`Request/Spec.lean`): over the trace of observable events only (`hist`, `LifeOk`, `Good`, `TraceOk`).

Proof: one invariant of 26 clauses (`Inv`), each shown stable under every step; a measure that every internal step decreases; a quiescent state has no
unfinished request and no waiting thread. Theorems: `C45_life`, `C45_trace`, `C45_quiescent`, `C45_terminates`, `C45_switch_outlives_its_use`,
`C45_null_file_only_in_cancel`; findings `C45_cancel_can_dereference_null`, `C45_wait_any_throw_leaves_dangling_switch`,
`C45_wait_any_spurious_wakeup`, `C45_wait_any_empty_never_returns`, `C45_poll_true_before_handler`.

Not modelled: weak memory (the unsynchronised accesses to `m_file`, `m_error` are single sequentially consistent steps), the queue order and shutdown (C40),
reference counts of request objects (C35), handlers that call back into requests, exceptions other than `io_error` inside `serve`, `linuxaio_request`.
`wait_all`, `cancel_all`, `poll_any` are loops of the modelled calls.

### FileIo (C46)

Modelled: `syscall_file::serve` (loop, `lseek`/`read`/`write`/`_size` with arbitrary short counts and failures at each
iteration), `mmap_file::serve` (page rules, bus error, lost writes behind the end), `boostfd_file::serve`/`set_size`,
`mem_file::serve`/`set_size`/`discard`, `fileperblock_file::serve`/`discard` over each descriptor type, `_set_size`.
The POSIX side (what `read`, `write`, `ftruncate`, `mmap` do to a file) is part of the trusted model:
`avail`, `pwrite`, `truncate`, `readRet`, `writeRet`, `mapOk`.
Not modelled: the file mutex (one call at a time per file: C45 covers the requests above), devices and read-only files,
`O_DIRECT` alignment, integer overflow of offsets, `wincall_file`, statistics timers, the lock file.
Found: see the statement of C46.

### KSort (C47)
Modelled: `ilog2_floor/ceil`, counting, prefix sums, `classify`, `sort2/3/4`, `insertion_sort` (reading before the array is an error), `cleanup`, `l1sort`, `classify_block`, the two-level radix sort of a run in `create_runs` with the computed `log_k1/log_k2/shift1/shift2` (shifts outside `[0,w)` undefined, key subtraction modulo `2^w`), `write_out` as concatenation, the reduction of the run length for the keys, `ksort_blocks`, `ksort`.
Simplified: a `type_key` is the record; double buffering of reads and writes is sequential (requests are C45, C40); the merge is the loser tree merge of C24/C25 over the key order (the code is the same template with another comparator); `sort5` is dead code; signed and floating point keys are outside the model (shifting them is a different operation).
Found: see C47. The conditions of `C47_ksort` (`Fits`) are not checked by the code.

### StableKSort (C48)
Modelled: the choice of the number of buckets, `distribute` (as appending to buckets; blocks of a bucket, their bids and the writer's buffers are not modelled - C20, C28 are about those), the size check with `abort`, `log_k1`, `log_k1_k`, `shift1`, `log_k2` (from the *end* of a part, as the code does), the sort of every part, the copying of the ends of the first and last block, the range of blocks given to the input stream.
Simplified: counters that are not cleared (index at least `2^log_k1_k`) are undefined, though for buckets after the first they are stale values of an earlier bucket; `stable_ksort` has the remark 'not yet fully implemented, assumes uniformly distributed keys' in its documentation, and prints it.
Found: instability (`sort3`, `sort4`, `std::sort` exchange equal keys); empty buckets; `first.block_offset()` where `last.block_offset()` is meant; parts with fewer than two records before their end.

### Matrix (C49 to C53)
Modelled: `swappable_block_matrix` (all constructors, destructor, transpose, set_zero), element-wise operations with every combination of uninitialized and transposed blocks, the low level multiplication (generic version), naive, recursive and three Strassen-Winograd algorithms with their quarterers, temporaries and order of destruction; the class `matrix` with copy on write and all its operators; products with vectors; construction from two vectors.
Not modelled: BLAS versions; rounding of floating point (elements are a commutative ring); algorithm 3 and the inner routine of algorithm 6 (`feedable_strassen_winograd*`); iterators that are held across other operations; the scheduling algorithms (swapping does not show in the store) and the simulation run; OpenMP.
Note: if C is column-major the low-level routine multiplies the factors in the opposite order, so `ValueType` has to be commutative.
Found: the three violations of C53.

### Block scheduler (C54 to C59)
Modelled: block_scheduler.h: `swappable_block`, `block_scheduler`, the algorithms `online_lru`, `offline_lfd` and `simulation`, switching between them, destructor.
Not modelled: `offline_lru_prefetching` (asynchronous prefetching through completion handlers); asynchronous writes of `clean_async` (I/O is synchronous; `flush` waits before anything is reused); partial writes of a block (a read followed by a whole write).
Obligations of a client (`Sp.pre`): no access to blocks not acquired; free, deinitialize and extract only blocks not acquired; initialize only uninitialized blocks; no free of a block with contents in simulation mode.
Found: the histories of C59.

### MultiSeq (C60-C62)
Modelled: `multiseq_partition`, `multiseq_selection` (include/stxxl/bits/parallel/multiseq_selection.h), `round_up_to_power_of_two`
(64-bit). Every loop is a structural recursion in the order of the code; reads outside a sequence, `sample[j]` beyond the vector and
`top()` of an empty queue are `none`, and the theorems prove `some`. Arrays `a`, `b` are functions of the sequence number with natural values
(a negative entry would be `none`). `std::sort` on the samples is an insertion sort (the order on samples is total), `std::lower_bound` is its
contract, `std::priority_queue` a multiset with extraction of the best element. The clamps `min(a+n+1, seqlen)` are in the model and
turn out never to act. Not modelled: overflow of `diff_type`.
Found: the documented tie rule is violated (C62). The parallel stable merge relies on this rule.

### MwMerge (C63-C66): multi-way merging
Modelled: `sequential_multiway_merge<Stable,false>` with all its branches (copy, `merge_advance`, `multiway_merge_3_variant`, `_4_variant` as automata over labels with guarded and unguarded comparisons, `_3_combined`, `_4_combined`, `prepare_unguarded`, `multiway_merge_bubble`, `multiway_merge_loser_tree`, `_unguarded`, `_combined`), the six loser trees of losertree.h that these use, `equally_split`, exact splitting, `parallel_multiway_merge`, `multiway_merge`, `multiway_merge_stable`. Reads outside a sequence, through null, and use of source -1 are the outcome `none`. Uninitialised tree nodes are universally quantified.
Threads: every thread's writes are to its own cells; the theorem quantifies over all permutations of all single writes. The splitting (`omp single`) has a barrier behind it and is sequential.
Not modelled: sentinel variants (`Sentinels = true`), sampling splitting (floating point), `std::lower_bound`/`upper_bound` are replaced by counting (equal on sorted sequences), the machine width of `DiffType`.
Found: see C65 and the second half of C66.

### Sync (C67-C69): semaphore, state, onoff_switch
Modelled: all three classes of include/stxxl/bits/common as transition systems; a critical section is one step, notifications are separate steps, spurious wake-ups always possible.
Not modelled: `onoff_switch::is_on` (a read), overflow of `int v`, the mutex itself (assumed to give mutual exclusion), fairness (progress is stated as: every run of internal steps is bounded, and at its end nobody is stuck).
Found: `onoff_switch` tests its condition with `if`: spurious wake-ups and `off()` release waiters wrongly; `notify_one` forgets a second waiter. `block_prefetcher::wait` relies on `wait_for_on`, so a spurious wake-up hands out a block before its read has finished.

### PPQ (C70, C71)

`parallel_priority_queue.h`: insertion heaps, internal arrays, external arrays (block minima, loaded range, hinted range), extract buffer, the trees of minima (`m_minima`, `m_external_min_tree`), bulk and limit phases, flushing, merging of internal and external arrays on each level. C70 is partial correctness: it speaks about every history in which the model performs no undefined operation (an undefined operation, a failed check or a loop that does not end is the outcome `none`); C71 exhibits such operations. Simplifications: an insertion heap is the sorted list of its elements (only the front of the heap is observed; which of several equivalent elements is at the front is fixed); `m_mem_left` is not computed, every test of it is answered by an oracle argument over which the theorems quantify; the hint tree is taken to be up to date; block identifiers, pool contents and I/O requests are not modelled (Pools, Request, BlockManager cover them); the multiway merge is an argument with the contract proved in C63/C66, instantiated with the library's sequential merge in `C70_library_merge`; a comparison with an internal array that no longer exists counts as undefined wherever it may happen in the tree, not only on the replayed path. The documented preconditions (phases, non-emptiness, limit_push only behind the limit, limit_pop only after limit_top returned something else than the limit) are `Legal` in Spec.lean. Equal elements: `pop` after `top` removes the very element returned.

### PPQ, total correctness (C72)

`PPQ/Total.lean`. C70 is about histories without undefined operations; C72 shows for bulk use within memory that there are none. Every flush adds weight 1, merging at least `maxIL` arrays of level k gives one of level k+1, so that level 8 would need `maxIL^8` = 2^48 flushes. `top`/`pop` are excluded because of C71 (stale players), `bulk_pop_limit` because of the merge of nothing (C71).

### Buffered readers and writer of a vector (C73–C75)

Modelled: `vector.h:1900-2592`, `buf_istream_reverse.h`. The readers use the full asynchronous prefetcher model of C28; the writer uses pending blocks that the disk threads finish in any order (the guarantee of C28) and that are all finished when the stream is destroyed. `resize` with `shrink_capacity = true` is excluded from the histories (`Reach … false`), because it breaks the vector by itself (C10). Not modelled: concurrent use of one vector by a reader and a writer, writing through the same writer object after `finish()` of a session that grew the vector (there `m_end` is stale). `WLegal` excludes, for sessions that grow, the three situations shown to lose data in C75 (the second one wholesale: pages of two blocks and a vector of exactly one block); sessions inside the vector have no condition.

### Linux AIO queue (C76–C78)

`LinuxAio/Model.lean` has one step per semaphore operation, system call, state read or critical section of `linuxaio_queue.cpp`. `Cfg.strict` says whether the operating system refuses (`EAGAIN`) only when `max_events` are outstanding; safety (C76) is proved for both, progress (C77) for the strict one, and the failure of progress for the other is a theorem. Not modelled: errors that throw out of a queue thread (including `EINTR` in the posting thread's `io_getevents`, which would end the program), `cancel_aio` (never called), statistics, `add_request` on a stopped queue (only prints a message), the transfer itself. The history variables `lateP`/`lateW` record where the queue threads were when the destructor raised their semaphores; they make the exact condition for a loss-free shutdown statable.

### Config (C79-C81)
Models `lib/mng/config.cpp` (disk options, lines, files) and the id counter of `create_file.cpp`. Strings are lists of characters, exceptions are outcomes. Not modelled: the search for the file in the environment and home directory, the default configuration, Windows branches, file reading itself (the model starts from the list of lines), deletion of files at exit. The round trip excludes flash devices and the queue number -2; `C79_not_readable` shows that both are lost. `C79_lenient` and `C79_reused_entry_keeps_raw` record lenient parsing. C81 is proved without overflow; `C81_collisions` shows what happens otherwise.

### I/O statistics (C82)
Models `iostats.cpp` at the granularity of mutex sections; time is an integer (microseconds), floating point rounding is not modelled, nor are `int64` overflow of volumes, cached reads/writes (plain counters), the wait log, `stats_data` arithmetic and printing. The serial time theorem needs no assumption on the order; `C82_parallel_time` assumes time order and synchronous recording, and `C82_parallel_time_out_of_order`, `C82_linuxaio_negative`, `C82_reset_counts_time_before` show what happens without.

### Command line (C83, C84)
Models `process` and `output_wrap`, the conversions of all argument types (`parse_SI_IEC_size` is the model of C38, `sscanf` an arbitrary function of the word), `option_text` and the column width. Words contain no NUL. Not modelled: the messages printed, `print_result`, reuse of a parser (`m_found` is never reset), two options bound to one variable, a variable after a failed `process`, `int` overflow of widths.

### MwSort (C85)
`multiway_mergesort.h` whole, except construction and destruction of elements (line 307 deletes raw storage with `delete`, so one element is destroyed) and the `STXXL_MULTIWAY_MERGESORT_COPY_LAST` branch, which is compiled out. `std::sort` and `std::stable_sort` are a parameter constrained by what the C++ standard says (`Lib.Ok`). The threads of one phase touch disjoint memory; the writes of the last phase are taken in every order. The header is used by tests only. `pq_losertree.h` is not included anywhere and is not modelled.

### Interleave (C86)
`block_alloc_interleaved.h` whole; random numbers are parameters. The position-to-block map is that of `algo/adaptor.h` (`runs2bid_array_adaptor2` is shared with the model of sort). Not modelled: wrap-around of positions at 2^64. Found: with a shorter last run the striping of the other runs is not kept behind its end (`C86_short_last_run_not_striped`); this costs parallelism, not correctness.

### BlockIndex (C87)
`blocked_index`, `double_blocked_index`, `array_of_sequences_iterator`, words wrap at 2^64, pointers to blocks are integers counted from the array and may leave it. Not modelled: histories that leave the range of positions and come back. Found: `operator[]` of the element iterator ignores the position of the iterator (`C87_subscript_from_beginning`, `C87_subscript_wrong`); the algorithms used here do not call it.

### SwapVec (C88)
`swap_vector.h` whole (accessors as `Vec.get`). Iterators are indices; new arrays hold a default value. The loop of `reserve` with its 32-bit counter is modelled as not ending from 2^32 elements. Found: line 238 compares with `m_array + m_size - 1` instead of `m_array + m_size`, so erasing the last but one element removes the last one (`C88_erase_removes_wrong_element`). The parallel priority queue erases up to the end only and is not affected.

### AlignedAlloc (C89)
`aligned_alloc.h` in its default variant (malloc/realloc; the posix_memalign variant is not compiled by default and not modelled). Assumed: malloc returns null or fresh memory below 2^64, realloc to a smaller size keeps the block, moves it, or fails; `sizeof(char*)` is 8. asserts are not modelled (they follow from the invariant).

### Singleton (C90)
`singleton.h` and the default `exithandler.cpp` (atexit). Sequentially consistent memory is assumed for the unlocked first test (`volatile` alone does not give it in C++11); constructors do not throw; exit handlers run in one thread. The variant with `STXXL_NON_DEFAULT_EXIT_HANDLER` runs the handlers in the same order but holds its mutex meanwhile; it is not modelled.

### MallocCount (C91)
`lib/utils/malloc_count.cpp` except messages, callback and the sentinel (it holds as long as nobody writes outside a block). Pointers of the C library are abstract and its blocks disjoint by assumption; the counters are unbounded integers; the three functions are loaded at once. Memory is sequentially consistent in the concurrent model of the counters.

### Utils (C92)
`common/is_heap.h`, `common/is_sorted.h`, and of `common/utils.h` `longhash1`, `swap_1D_arrays` (two different arrays) and `round_up_to_power_of_two(n, power)` for 64-bit unsigned numbers. Ranges are lists with indices as iterators, an access outside is `none`. Loop counters are not bounded. Not modelled: the other helpers of `utils.h`.

### Small (C93, C94, C95)
`common/external_shared_ptr.h` (null pointers and the unsynchronised use by several threads not modelled; the counting of `P` itself is what the header requires of it), `common/simple_vector.h` (plain data; `resize` also with owning elements), `common/timer.h` class `timer` (time is an exact integer; rounding of doubles, `gettimeofday` and the OpenMP atomic of `+=` not modelled; `fake_timer` and `scoped_print_timer` not modelled).

### SimDisk (C96, C97)
`lib/io/simdisk_file.cpp`: `serve` and `set_size` with `mmap` by pages (bus errors, silent cut-off within the last page); times exact, in microseconds; `sleep` and `usleep` sleep exactly what they are given (no signals); the delay itself (`size / 15 MiB/s`, a double) is a parameter; zones are not used by `get_delay` and not modelled. Found: line 201 makes a negative number of seconds when the request was slower than the emulated disk. `lib/common/seed.cpp`: the initial seed is a parameter. `common/tmeta.h`: `LOG2`, `SWITCH` (class tags as integers).

### Tuple (C98)
`common/tuple.h`: components are integers (the order of a floating point type without NaN embeds), limits are parameters; `item_type` (see `SWITCH`, C97) and printing are not modelled. `counter` has no overflow.

### StatsData (C99)
`stats_data` (`operator +`, `operator -`; volumes as integers without overflow, times exact) and the loops of `format_SI_size`, `format_IEC_size` (also in `format_with_SI_IEC_unit_multiplier`, which has the same loop and tables). The conversion of the number to double is a parameter (at most 2^64), the decimal printing with three digits is not modelled.

### Handler (C100)
`io/completion_handler.h` with `std::unique_ptr` (the branch for C++11; `std::auto_ptr` behaves the same here). Exceptions of the user's copy constructor and operator are not modelled.
