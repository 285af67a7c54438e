# Formal model of SplinterDB in Lean 4: design

Source: `/repo` (vmware/splinterdb, pinned commit, read as text, never built or run).
Model: `/verif/lean/Verif/*.lean`, built by `lake build` in `/verif/lean`.

## 1. Ground rules

* Every definition that models code carries a comment with file and lines.
  "Simplified:" in that comment says what was left out.
* Specifications live in files separate from the model (`Verif/Spec/*.lean` or a
  clearly marked `Spec` section) and do not use the model's helper functions.
* Property theorems live in `Verif/Props/*.lean`; each is followed by an
  `example` that instantiates its hypotheses on a concrete case. `AXIOMS.txt` has the
  output of `#print axioms` for each of them (written by `tools/axioms.py`).
* Undefined behaviour and failed `platform_assert`s are explicit outcomes
  (`none`, `.assertFail`, …), never totalised away.
* No axioms, `sorry`, `admit`, `native_decide`, `bv_decide`.

## 2. Trusted base

* Lean 4.33 kernel, and the standard axioms `propext`, `Classical.choice`, `Quot.sound`.
* The reading of the C code that produced the model (line citations are given so
  it can be checked).
* Sequential consistency for the concurrent models (the code uses `__sync_*`
  full barriers and x86-TSO `volatile` accesses; weaker orderings are not modelled).
* Device model: a page write is atomic, `io_read` returns the last completed write.
* libc (`memcmp`, `memmove`, `ffs`, …), XXH hash functions (arbitrary functions
  in the model), the allocator of process memory never fails unless said otherwise.

## 3. Plan per property

| id | what is modelled | proof shape | expected |
|----|------------------|-------------|----------|
| C01 | trunk: memtables, nodes, pivots, bundles, branches, lookups | refinement to `Key → Option Val`, induction over op+maintenance list | partial |
| C02 | `data_merge_tuples(_final)`, accumulators | algebra: fold newest→oldest equals application oldest→newest under the contract | proved |
| C03 | compaction merge modes and tombstone rule | corollary of C07 + explicit theorem on tombstone elision | partial |
| C04 | merge iterator + trunk range iterator (per-leaf segments) | refinement to sorted list of live keys | partial |
| C05 | merge.c functions over lists | loop invariant, refinement to `combine` spec | proved |
| C06 | merge iterator direction change | code violates it: witness; positive theorem for keys present in one run only | partial |
| C07 | one lemma per maintenance action | invariants | partial |
| C08 | `slice_lex_cmp`, `data_key_compare` | algebra over byte lists, `int` truncation explicit | proved |
| C09 | on-disk key/tuple encoders at byte level | round trip | proved |
| C10 | btree page as byte array with offset table | separation/frame lemmas | proved |
| C11 | splitting plan and split | arithmetic over entry size lists | proved |
| C12 | binary searches | loop invariant | proved |
| C13 | btree insert/lookup as a tree algorithm | refinement to sorted map | proved |
| C14 | btree_pack | refinement | proved |
| C15 | routing filter add/lookup | invariant over additions | partial (unchecked limits) |
| C16 | PackedArray on 32-bit words | bit-level round trip | proved |
| C17 | rc_allocator | invariant over ops | proved |
| C18 | keyed mini allocator ref counts | counting invariant | proved |
| C19 | superblock/refcount/close/open state machine | round trip | partial |
| C20 | same with crash points | code violates it in one window: witness + partial | partial |
| C21 | clockcache entry status word + ref counts, atomic steps | inductive invariant, any number of threads; code violates it in two races: witnesses + partial | partial |
| C22 | cache + device contents | inductive invariant; code violates it in three races: witnesses + partial | partial |
| C23 | batch rwlock, atomic steps | inductive invariant | proved |
| C24 | memtable context state machine | inductive invariant | proved |
| C25 | lookup vs incorporation interleaving | inductive invariant | proved |
| C26 | tid bitmask | inductive invariant | proved |
| C27 | task queue | inductive invariant | proved |
| C28 | shard_log pages as bytes, writers and iterator | round trip + invariant; code violates it with several threads: witness + partial | partial |
| C29 | srq heap with index array | invariant + max property | proved |
| C30 | pcq | refinement to queue; wrap-around witness | partial |
| C31 | string parser | equivalence with grammar spec | proved |
| C32 | trunk_insert guards | corollary of C01 | partial |
| C33 | trunk_find_pivot, splits | loop invariant | proved |
| C34 | circular arithmetic | omega/mod lemmas | proved |
| C35 | merge accumulator / writable buffer / lookup result | state machine | proved |
| C36 | async lookup state machines of trunk, filter and tree | induction over the answers; code violates it at the root: witnesses + partial | partial |
| C37 | superblock slot table | invariant | proved |
| C38 | mini_alloc | invariant | proved |
| C39 | as C04 backwards | code violates it across leaves: witness; positive theorem within a leaf | partial |
| C40 | rank/count via pivot statistics | induction on tree | partial |
| C41 | concurrent btree insert and lookup, page read/write locks | inductive invariant over every interleaving | proved |
| C42 | shmem allocator | invariant | partial |
| C43 | config defaulting/validation | decision logic | partial |
| C44 | debug_hex_encode | bounds + prefix | proved |
| C45 | trunk_copy_path, trunk_claim_and_copy_root, trunk_update_claimed_root, trunk_garbage_collect_node_get, trunk_bundle_build_filters, trunk_lookup | invariant over interleavings | partial: three ways to break it |
| C46 | trunk_btree_skiperator_*, steps 5–7 of trunk_compact_bundle | refinement of `compactOut` by pages | proved |
| C47 | arrays, cursors and pivots on the page of a trunk node | refinement of the list model of nodes, over every sequence of operations | partial: filters must fit |
| C48 | references of trunk nodes, compactions and iterators to extents of branches | exact counts in every reachable state | kept: proved; freed: partial, a compaction with gaps leaks (`leak`); filters not counted |
| C49 | the whole store on node pages: every operation and lookup through the circular arrays | refinement of the store of C01, for every run | partial: filters must fit, requests not older than twelve bundles |
| C50 | references of trunk nodes to filters, from build to free | invariant over every order of trunk operations | partial: old filters of later parts leak, empty filters count on the super block |
| C51 | unkeyed mini allocators: release, references, freeing of all extents | invariant over every interleaving, on top of C38 | proved |
| C52 | memtable tree of C13/C41 with iterators beside inserts and lookups, page generations | invariant over every interleaving: what a scan knows survives other threads' writes | proved |
| C53 | generations handed back by inserts, the order of the log | invariant on top of C52 | partial: holds inside one memtable; negation for two (`replay_reversed`) |
| C54 | range iterator of C04 over a store that changes, one visit per leaf, newest memtable read tuple by tuple | the store at one time with the memtable of a later one satisfies the invariant of C01; induction over visits | partial: legal runs as in C01, forwards, trunk nodes of one visit are those of one root (C45) |
| C55 | program counters of the threads in one memtable tree with the pages they hold; tree contents left open | a two-player game: the scheduler brings all operations to their ends whatever the tree decides; no circle by induction on heights, then a measure | proved; negation for a failing merge callback |
| C56 | the memtable protocol of C24 and the trunk of C01 as one system of threads; every step of every thread in any order | invariant joining both: what the memtables and the trunk hold is the log of accepted writes; a lookup's accumulator is what is left of a suffix of the log; the moment of a lookup is found because the log grows by one message at a time | proved for maintenance as in C01 (`_partial`) |
| C57 | `trunk_split_leaf` with the iterators of height 1 that it merges: number of leaves, boundaries, new leaves | the boundaries are a cut of the merged entries; a key occurs at most once per branch, so each part with more bytes than that moves the key | proved for branches of several pages and leaves larger than these (`_partial`); negations proved otherwise |
| C58 | task groups with condition variables: workers that sleep, signals, broadcast, stop and join | invariant: sleepers plus waiting tasks are at most the workers, unless nobody sleeps; a measure that every step decreases, with a task's cost covering what it enqueues and the sleeper it wakes | proved |
| C59 | asynchronous I/O: requests, contexts of processes, submission, completion, waiting | sums over threads: every request is with one thread or one I/O; every I/O is in the kernel, in a thread's hand or called back; a context counts its I/Os | proved but for the result given to the callback, which is shown to be wrong |
| C60 | write-back of batches with neighbours in the extent, flush, eviction | relation between the state before the flush and the state so far: written pages are clean and on the device, all others as before; walks in both directions by induction | proved for one thread |
| C61 | search for a free entry: hand, cleaning ahead, eviction, passes | every entry goes through accessed, dirty, clean, free; two visits with a cleaning in between free it; count of passes against the place of the hand | proved for a thread that moved the hand last; refuted in general |
| C62 | pivots in the queue of space to reclaim | invariant: entries and queued pivots name each other; runs that break it | proved without copies and with the default threshold; refuted in general |
| C63 | prefetch of an extent by many threads, callback | each loading entry has one owner, a thread or a request; the vector of a request lies at consecutive pages in the table; simulation by the contents of pages | proved |
| C64 | sync of an extent | induction over the pages with the run so far; size of the runs against the shift | writes proved, counter refuted |
| C65 | latency histograms: bucket search, insert, merge, size of the memory | loop invariant of the search; merge commutes with insert | numbers and merge proved; buckets refuted (one too low) |
| C66 | space taken by mount, create, unmount, destroy | frame lemmas on the counts of extents | proved without a log; refuted with one (log never given back) |
| C67 | trunk_flush_fullest and the loops that call it | induction over the pivots left to visit; number of loaded pivots falls | proved for counts that agree; limit on pivots partial |
| C68 | splinterdb_create_or_open, splinterdb_close and the parts they build | cases over the first step that fails; induction over sessions | proved but for three failures where the code leaves something or destroys too much |

## 4. Disagreements between code and property found so far

* C06: `merge_iterator_set_direction` steps every input back once; when the
  current key is present in several inputs, inputs already advanced past it land
  on it again, so `prev` re-reports the current key with part of its messages.
  `setup_ordered_iterators` also leaves `next_key_equal` of the last live input
  unchanged, so after a flip a stale flag can pair two different keys
  (`prev_reads_stale_flag`: key 7 is reported with the value of key 1).
* C39: `trunk_range_iterator_prev` builds the previous leaf's merge iterator
  with every input at its last item, but `merge_iterator_create` always faces
  forwards, so it reports the smallest of those keys and skips the larger ones
  (`prev_leaf_skips_keys`).
* C20: `splinterdb_close` marks the superblock cleanly unmounted before the
  reference-count map is written; a crash in between leaves a store that opens
  with a stale reference-count map.
* C30: slot index is `counter % num_elems` with 32-bit counters, which is
  discontinuous at wrap-around unless `num_elems` divides 2^32.
* C33 (search for `greater_than`): `trunk_find_pivot` never examines pivot 0 when a
  node has at least two children, so for a target below the first pivot it returns 1
  instead of 0 (`findPivot_gt_misses_first`). Callers only pass targets inside the node.
* C01/C07: `trunk_process_generation_to_fp_bounds` finds a pivot's slice of the
  fingerprint array by summing `output_pivot_tuple_count` of earlier pivots, but
  `trunk_replace_bundle_branches` records that count only for pivots still live. A
  pivot flushed while the bundle is being compacted leaves its count at 0 although
  its fingerprints are in the array, so later pivots get the wrong slice and their
  filter misses keys.
* C01/C07: when a compaction produces no tuples the bundle vanishes:
  `trunk_replace_bundle_branches` moves the later filters down but leaves
  `start_filter`/`end_filter` of later subbundles unchanged, and renumbers later
  bundles although requests in flight refer to them by number. With two later bundles a
  key is lost (`lookup_loses_key_after_vanish`); with one, whose merge is under way, the
  assertion at trunk.c 5403 fails (`vanish_stops_store`).
* C07: bundle numbers are modulo 12; a compaction in flight whose bundle was
  flushed can find a later bundle under the same number (`bundle_number_reused`).
* C01/C07: a flush may overtake the merge of a compaction with a single thread too:
  `trunk_compact_bundle` reads the node at `req->addr`, the copy of the time the
  request was made. Nothing keeps the branches it reads from being given up by the
  child in the meantime. (Read, not modelled.)
* C17: with other threads allocating and freeing, `rc_allocator_alloc` can report
  no space although at no moment during the call every extent had a holder: the
  shared hand skips extents that other threads took and returned
  (`spurious_nospace`). What does hold is `nospace_concurrent`.
* C37: `rc_allocator_alloc_super_addr` does not check that the id is new; a second
  registration takes a second slot (`register_twice`).
* C18: `btree_pack_abort` drops its reference on a mini allocator that was never
  released, so its batches have no terminal entries and the last extent of each
  batch is not visited: it is leaked (`abort_leaks`).
* C18: `trunk_compact_bundle`, when the node was split during the compaction and the
  bundle is live only in part of the new nodes, takes references for those parts
  only and drops the whole range's reference in pieces that do not cover the
  extents in between: they are leaked (`compaction_leaks`).
* `mini_append_entry` loses an entry that does not fit an empty meta page: the check
  is a `debug_assert`. C38 assumes that every entry fits.
* C10: the on-disk key length field limits keys to 65533 bytes (`ondisk_key_limit`).
* C29: `srq_update` takes a 32-bit priority and truncates (`srq_update_truncates`).
* C10: with 64 KiB pages a btree node holds nothing, because `page_size` does not
  fit the 16-bit offsets (`page_65536_holds_nothing`).
* C27: `task_create_thread_with_hooks` frees `thread_scratch` on failure but leaves
  the pointer in the table; `task_config_valid` adds thread counts without an
  overflow check. (Read, not modelled.)
* `trunk_bundle_build_filters`, abort path: unclaims a root that `trunk_copy_path`
  has released. (Read, not modelled.)
* C24: `trunk_prepare_for_shutdown` finalises the current memtable before it waits for
  tasks; with three memtables waiting for incorporation the assertion in
  `memtable_force_finalize` aborts the process (`close_can_abort`). Closing an idle
  database is fine (`close_ok`).
* C24: `memtable_force_finalize` does not check that the next memtable is READY.
  `trunk_try_continue_incorporate` then finds another generation in the slot and
  returns without advancing `generation_to_incorporate`. `max_memtables` = 1 cannot
  work. In debug builds the assertion in `memtable_try_transition` fires when
  `trunk_try_start_incorporate` finds a memtable that another thread has already
  assigned. (The last three were read, and shaped the hypotheses of the model.)
* `btree_defragment_or_split_child_leaf`: operator precedence makes one of the
  conditions read differently than written; harmless (`defragmentOrSplit_spec`).
* `trunk_compact_leaf` does not give the leaf a new node id, so a compaction in flight
  for a flushed bundle reaches the "impossible" assertion. (Read, not modelled.)
* C28: the log iterator stops at the first page that is not valid. Pages of one extent
  belong to different threads, so a completed page after another thread's incomplete
  page is not returned (`completed_page_missed`).
* C57: a leaf before the last may not be split, and a split may take a boundary from user values or from outside of the leaf (section on C57).
* C28: `shard_log_compare` truncates a 64-bit difference to `int` (`compare_wraps`).
* C28: log magic numbers repeat across processes, so pages of an earlier process's log
  found in reused extents are returned (`stale_log_returned`).

### Routing filters (C15)

`Model/Filter.lean` covers `RadixSort`, the geometry, the block encoding with its readers, `routing_filter_add` and `routing_filter_lookup`, on pages of
bytes. The block reader and writer are the C16 packed arrays. Not modelled: the allocator (its C38 promise is the hypothesis `Fresh`), failing cache calls,
the asynchronous lookup, `routing_filter_estimate_*`.

* More than 4071 different fingerprints with one index overflow `encoding_buffer` and `fp_buffer`; only `debug_assert`s look (`add_overflow`). Blocks that do
  not fit into a page are written past its end in the same way.
* An `index_size` that is not a power of two is accepted by `trunk_config_init`, but bucket numbers then wrap (`index_size_20_faults`).
* `num_unique` counts the first old fingerprint of a new index twice whenever an old index is split (`num_unique_wrong`); estimates based on it are too high.
* `routing_filter_get_next_value` and `routing_filter_is_value_found` shift an `int`: undefined from value 31 on although `MAX_FILTERS` is 32 (`nextValue_31`).
* If remainder and value together have no bits (value 0 and as many buckets as fingerprints), `PackedArray_unpack` leaves its target alone and the code uses
  old contents of its buffer. The model stops there.
* `clz(0)` is evaluated when there is no fingerprint at all; a value smaller than an earlier one gives a negative shift. Callers avoid both.
* The 64-bit reads of `routing_get_bucket_counts` may go one byte past the block for `index_size` up to 8; the theorems ask for at least 16.

### Page cache (C21, C22)

`Model/Cache.lean` has one step per access to shared memory of `get`, `get_async`, `prefetch`, `alloc`, `try_page_discard`, `try_evict`, `claim`, `lock`,
write-back and the sync calls, for any number of agents, entries, batches and pages, with `CC_RC_WIDTH` = 4 shared counters. Memory is sequentially
consistent. A client keeps the contract of `cache.h`: it marks a page dirty before it unlocks it if it changed it, and nobody uses a page while it is being
allocated or discarded (the reference counts of extents, C17, are what guarantees this). Not modelled: the access bit (only a hint), pinning, statistics, `clockcache_flush` and
`clockcache_evict_all` as loops, failing I/O, reads or writes that are not atomic on the device.

* `clockcache_get_async` without a free I/O request (2458-2469) stores `CC_FREE_STATUS` into an entry it has already published, while another thread may have
  passed `try_get_read` and wait for LOADING. That thread gets a page in a free entry, which can be allocated for another page (`C21_async_abort_race`).
* `clockcache_prefetch` sets `disk_addr` before its compare-and-swap and frees the entry if that fails (2971-2979). A thread with an old entry number for the
  same page gets a second copy of it (`C22_prefetch_abort_race`).
* `clockcache_batch_start_writeback` and `clockcache_extent_sync` look up a neighbour and then set WRITEBACK in the entry found, without checking that it still
  holds the same page. The first then indexes with `CC_UNMAPPED_ENTRY` (`batch_writeback_race`), the second writes one page to the address of another
  (`C22_extent_sync_race`; nothing in the repository calls it).
* Harmless: `try_get_read` may succeed on an entry freed between its tests of FREE and WRITELOCKED; the comparison of `disk_addr` catches it.
* `clockcache_sync_callback` gets a `clockcache_sync_callback_req` and casts it correctly, but hands `req->cc` on where a pointer to it is expected; the last
  request of `clockcache_extent_sync` has no `bytes`. (Read, not modelled.)

`Par.ok` excludes exactly these three races, by guards on the steps `nA3`, `pAb2` and `nCas`.

### Configuration (C43)

`Model/Config.lean` covers `splinterdb_init_config` with everything it calls, and the checks made after it up to the start of the trunk. Theorems: zero fields
behave as a table of documented defaults (`C43_defaults_partial`), fields reach the subsystems unchanged (`C43_kept_partial`), an unusable configuration is
refused before the file is opened (`C43_refused_partial`), accepted configurations are sound (`accepted_sound`), and the only faults found after the file was
opened are the two size faults below (`touched_iff`).

* `queue_scale_percent`: splinterdb.h documents a default of 100; 0 is passed on and means that foreground threads do all background work
  (`queue_scale_not_defaulted`).
* A disk size that is not a multiple of the extent size is refused, and a cache size that is not a multiple of 256 KiB fails an assertion, after the file was
  created and enlarged (`disk_size_touches_file`, `cache_size_aborts`).
* Wrap-around: thread counts (`threads_wrap`) and the size of a trunk node (`node_wrap`) are computed modulo 2^64 and then accepted.
* `filter_index_size` is truncated to 32 bits; 2^32 leads to `clz(0)` (`index_size_ub`), as does a memtable below half an extent
  (`memtable_capacity_ub`). A queue depth that is not a multiple of 32 fails an assertion (`queue_depth_aborts`).
* A filter index that is too small is silently raised (`index_size_raised`); `cache_use_stats` is ignored.

### Read, not modelled

* `btree_insert` of an entry that replaces a single oversized entry of a leaf would split off an empty left page.
* `splinterdb_iterator_init` frees `*iter` (not `it`) on failure; `data_key_to_string` tests negative infinity twice.
* `data_merge_tuples` resizes only when the target is already large enough (inverted condition); harmless because the callback writes through the accessor.
* `btree_split_child_index` ignores the result of `btree_insert_index_entry`; `trunk_lookup` ignores a failing final merge; `trunk_memtable_insert` ignores a
  failing log write.
* `trunk_flush` sets request types in the wrong order.

`Model/TrunkPages.lean` repeats `trunk_lookup` over filters as bytes and branches as pages of trees; `device_lookup_partial` joins C01, C13/C14 and C15. The
circular arrays of trunk nodes are C47.

### Shared memory (C42)

`Model/Shmem.lean` covers `platform_shm_alloc`, `platform_shm_free` and the tracking of large fragments, for any number of threads. The proof sees the segment as
a stack of adjacent blocks; fragments held, being returned or being freed are in different blocks. Not modelled: contents of the memory, `platform_shm_realloc`
(an allocation followed by a copy and a free), the private heap.

* A request near 2^64 wraps in `retptr + size` and is granted (`huge_request`).
* A request of 0 bytes shares the address of the next fragment; freeing it frees that one (`empty_request`).
* `platform_shm_realloc` copies `oldsize` bytes even if the new size is smaller. (Read; callers only grow.)

### Range iterator (C04, C06, C39)

`Model/RangeIter.lean` composes the trunk and merge models into the iterator users see. Branch iterators are lists with a position (`openBranch`); that
B-tree iterators behave so is C04/C06 for one tree. `iterate_live_partial` covers forward scans of a store at rest.

* Backward moves over a leaf boundary skip keys (`store_prev_skips_key`).
* `greater_than` starts skip a key equal to a leaf's upper bound (`gt_skips_leaf_bound`); the public interface opens with `greater_than_or_equal` only.
* `trunk_range_iterator_init` compares `local_max`/`local_min`, pointers into a page it has released (6350, 6369). Not modelled.

### Trees of pages (C14, C40, parts of C04, C06, C39)

`Model/Btree.lean` covers the readers of one tree: `btree_lookup_node`, `btree_lookup`, `btree_get_rank`, `btree_count_in_range` and the iterator.
`Model/Pack.lean` covers `btree_pack` with its edge lists and counters. The proof keeps, for every level, the list of open pages with the subtree each holds
(`PInv`); read from the top level down these subtrees hold the tuples packed so far. Not modelled: page layout (C10), locks, prefetching, the sizes that
decide whether an entry fits (a parameter), failing allocations.

* `add_unknown` takes a true count of `0x7fffffff` for "unknown", and the per-leaf count is added without looking (`accumulate_node_ranks`), so C40 holds only
  while the totals of a tree stay below `BTREE_UNKNOWN_COUNTER`. The rank of a key in a tree with unknown counters is reported as `0x7fffffff` plus the
  position in the leaf (`rank_unknown_wrong`).
* An iterator opened with `le` or `lt`, or with `ge` at its lower bound, is an exact cursor over its range (`iter_cursor`, `iter_turn`, `scan_ge`, `scan_gt`, `scan_back`).
  Outside that case the code errs:
  * `find_btree_node_and_get_idx_bounds` sets `curr_min_idx = 0` after stepping to the next leaf, so keys of the range left of that leaf are out of
    reach of `prev` (`prev_misses`).
  * A `greater_than` start at the largest key of the range stands two past the last tuple (`gt_at_max`): one `prev` does not reach a tuple.
  * `btree_iterator_seek` applies the end leaf's `end_idx` to the current leaf and reads outside it (`seek_reads_outside`).

`Model/Compact.lean` joins the iterator, the merge and `btree_pack` as `trunk_compact_bundle` does (C46): a skiperator per branch, over one range for each run of
live pivots. `compact_on_pages` says the packed tree holds what `compactOut` of `Model/Trunk.lean` gives, so C05 and C01 speak of pages here. Not modelled:
reference counts of the branches, and the merge iterator reading its inputs on demand.

### Concurrent insertion into a tree (C13, C41)

`Model/BtreeInsert.lean` covers `btree_insert` with all its splits and `btree_lookup`, run by any number of threads. The proof keeps the list of
(separator, page) pairs of every level (`Skel`) and, for every thread, where its key lies relative to the pages it has read locked (`TOk`, `LOk`).
A write changes only pages that nobody else has read locked (`Ext`), so what the other threads know stays true.

Not modelled: claims (a claim may fail at any time; the exclusion they give is that of the read lock), the layout inside pages (`Choice`; `plan_ok`
connects the free choice of a leaf split with the byte model), the retry count of 100 in `btree_split_child_leaf`.
Because claims are left out, nothing is proved about deadlocks of inserts.

Read while modelling, not modelled:
* The error path of `btree_insert` after the child was read again (2031-2036) releases the parent's read lock but not its claim.
* The right page allocated by `btree_split_child_leaf` is not given back when the function gives up after 100 attempts at a claim.
* `btree_split_child_index` ignores the result of `btree_insert_index_entry`.
* A merged `UPDATE` may be larger than the largest message a page is laid out for (C11 assumes tuples of at most half a page).

### Scans of a tree that is inserted into (C52, C53)

`Model/BtreeScan.lean` adds forward iterators and page generations to `Model/BtreeInsert.lean`. Specification: `Swept` of `Props/BtreeScanSpec.lean`. Every key
has a time at which it was looked at. The times lie between the creation of the scan and its end and go up with the keys. The scan reports a key with the
value it had then. `scan_complete`, `scan_sound`, `scan_snapshot` and `scan_order` are what a user reads off it.

The proof keeps for every scan the keys it is done with (`Seen`), and for the end of the range that `end_idx` is right as long as the end page has the
generation seen (`EndG`). That is why the iterator may go on with an old end: a split of the end page raises its generation, and a page that is not the last
of the range needs no end.

Not modelled: prefetching, `btree_iterator_prev` and `btree_iterator_seek` beside inserts, iterators at a height above 0 (memtables are scanned at height 0), claims
(as in C41). Termination is not claimed: a scan whose claims always fail does not end.

C53 ends with the memtable: `trunk_memtable_insert` logs the generation of the leaf only, and every memtable starts again at 0. A log sorted by
`shard_log_compare` can reverse writes of one key in two memtables (`replay_reversed`). Nothing in `/repo/src` replays the log yet.

### Scans of a store that is written to (C54)

`Model/LiveScan.lean` is `Model/RangeIter.lean` with a list of visits instead of one store: `trunk_range_iterator_init` runs at the start and at every leaf
bound, each time on the store as it is then. What a visit reads is fixed when it begins except for the newest memtable, whose tuples it reads one by one
while inserts go on (`Sampled`). `live_visit` shows that the iterators of C52 read this way, so nothing is assumed of them.
Specification: `Reported` of `Props/LiveScanSpec.lean`, with the values of C01. Scans are not snapshots (`live_scan_no_snapshot`).

Simplifications: a visit takes its memtables and its root at one moment. In the code the generation is read first and the root later, with the lookup lock held
(trunk.c 6183-6222), which keeps incorporations out but not flushes and rotations. Forwards only. A visit that goes on after its memtable is full is
described up to the moment of the rotation, as nothing it reads changes afterwards.

### The whole store under inserts and lookups (C56)

`Model/Store.lean` joins `Model/Memtable.lean` and `Model/Trunk.lean`: threads insert and look up tuples, memtables rotate and are incorporated, and maintenance actions
happen at any time. `Exec` is any sequence of steps. `Linearization` does not mention memtables or trunk: a function from steps to writes says which write takes effect
where, and the reports of all calls must agree with it. A thread's steps before its call returns report `nothing`.

A lookup that began before a delete returned may report the value from before it, and one that began after cannot; `demo` has both.
Reading one memtable tree is one step here; C13 and C41 are about what happens inside. A lookup goes through the trunk as it was when it took the root, in one step;
C45 says when that is so. Scans are in C54.

### Where a leaf is split (C57)

`Model/SplitPoints.lean` has the branches' pages and the entries for them one level up, the bounds that the iterator computes there, and the loop that chooses the boundaries.
`Divides` and `bytesBetween` are about key ranges and tuples only. Found on the way:

* Above the leaves, `find_key_in_node` (btree.c 2540-2580) searches for the iterator's lower bound also when the upper bound is to be placed. A leaf whose upper bound is finite gets only the
  entries before the node of the upper bound, and none if all its keys are below one node of height 1 (`middle_leaf_not_split`). It then keeps its node id although all its
  bundles were replaced, so a compaction that was under way ends in the assertion of trunk.c 5403 (`unsplit_leaf_stops_compaction`).
* In a branch of one page the iterator of height 1 yields tuples. The last leaf reads the first 20 bytes of the values as `btree_pivot_data` (`value_bytes_counted`), and the
  iterator does not start at the leaf's first key, so a boundary may lie outside of the leaf (`boundary_before_leaf`) and lookups go to a wrong child (`key_misrouted`).
* If a page is not small against a leaf, two branches may give the same boundary (`same_boundary_twice`).

A split into 20 leaves or more is outside of the array of boundaries and counts as a failure. Sums beyond 64 bits are not modelled.

### Sleeping workers (C58)

`Model/TaskWake.lean` is the code of C27 with condition variables; queues are lists there. `comes_to_rest` bounds the steps of all threads in every order, without fairness; locks
are steps that are impossible while somebody else has them. So with a scheduler that always runs somebody who can run, the system comes to rest, and `at_rest_done`, `at_rest_all_ran` say what is then true.
New calls and spurious wake-ups start this again. `task_perform_until_quiescent` polls; at rest its poll succeeds.
`task_group_stop_and_wait_for_threads` does not check that no task runs (`stop_can_lose_task`).

### Asynchronous I/O (C59)

`Model/AsyncIO.lean` has the requests, the contexts and the kernel's I/Os of `laio.c`; a step is one atomic access, one system call or one critical section.
* `laio_callback` (396–408) ignores the result, and `laio_cleanup` (536) passes a literal 0 for the second one. A read or write that failed or was cut short is reported as `STATUS_OK` (`status_always_ok`,
  `failed_write_reported_ok`): a page whose write failed is marked clean and may be evicted, a page whose read failed is handed out with whatever is in the frame.
* `io_count` is counted down before the callback runs (533, 536). A thread that waits for all I/Os may return while another thread is still before the callback of one of them
  (`cleanup_before_callback`). `clockcache_flush` waits and then expects clean pages.
* `laio_read_async`, `laio_write_async` and `laio_get_async_req` clean up with count 0, which waits for all I/Os of the process, also when called not to block (`get_waits`).

### Flushing and evicting the cache (C60)

`Model/Flush.lean` has the loops of `clockcache_batch_start_writeback`, `clockcache_flush` and `clockcache_evict_all` as functions of the state of the cache, for one thread.
* A page that is claimed, locked or loading during the flush is left out without notice (`flush_skips_claimed`): only debug builds look (`clockcache_assert_clean`, 1706).
* The last loop of `clockcache_evict_all` (1732–1740) computes the entry number from `&cc->entry->page`, which is entry 0 for every `i`: the debug check asks for the pin of
  entry 0 and not of entry `i`. The model has no debug checks.
* `clockcache_evict_all` and `clockcache_flush` are not atomic; what they do among other threads is covered for one page in C21 and C22.

### Finding room in the cache (C61)

`Model/FreePage.lean` has `clockcache_move_hand` and `clockcache_get_free_page` for one thread, while other threads hold some batches and are at rest.
* `max_hand` (1614) is `CC_UNMAPPED_ENTRY` on the first call of a thread, and on later calls the hand may have been moved by others. Then `free_hand < max_hand` (1649) counts a pass at the first
  move. Batches before the hand get one visit only, which clears the accessed flag; what the last move frees is not looked at. A blocking call then fails the assertion "cache locked"
  though a page is not in use (`first_fetch_locked`, `stale_fetch_locked`). The comment at 1624 promises to wait for the latency of an I/O, but no I/O handle has `max_latency_elapsed`, and
  `io_max_latency_elapsed` (io.h 179) is then always true.
* A thread keeps its batch busy between calls, and for ever when it does not call again or leaves: nothing resets `per_thread[tid].free_hand`. With no more batches than such
  threads (64 pages each) a thread's first fetch turns for ever in the loop of 1579 (`first_fetch_spins`). No check of the configuration rules out such caches.
* A pass is counted when the hand goes to a lower batch. With one batch, or with all others held, it never does: the call does not give up when all pages are in use, blocking or not (`one_batch_spins`).

### The queue of pivots to reclaim (C62)

`Model/Reclaim.lean` has the places where a pivot's `srq_idx` and the queue change, on nodes that are lists of pivots. The queue is a map here; C29 is its heap.
* An entry has the address of a node. Nodes are copied on write, by each flush and each compaction that is put in, and nothing gives the entries the new address. `trunk_reclaim_space` then
  reads the old node: it is not in the tree (`copy_strands`), what is done to it is lost, and when it was freed the page may be anything (`reads_freed`). The copy keeps `srq_idx`, and the next
  flush of that pivot deletes an index that is not in use (`copy_faults`), or that of another pivot (`race_steals`). `trunk_split_root` moves the pivots of the root to a new node and leaves the entries (`splitRoot_strands`).
* `srq_idx` is written to disk with the node and the queue is not. After a mount the first flush of such a pivot fails (`reopen_faults`).
* Between `srq_extract_max` and the claim of the node (6664-6678) the pivot still has its index. A flush in between fails (`race_faults`).
* With the default threshold, `UINT64_MAX`, no pivot is queued and none of this happens (`default_threshold`).

### Reading ahead and writing an extent (C63, C64)

`Model/Prefetch.lean` has `clockcache_prefetch` in steps for any number of threads, with its callback, and the loop of `clockcache_extent_sync` with its callback.
* The invariant gives each loading entry one owner: a thread that is putting a request together, or a request. This is what `CC_LOADING` does in the code.
* `clockcache_sync_callback` (2762) takes `count`, which is the number of pages, for a number of bytes and shifts it by `log_page_size`. The counter of pages being written, which the caller is to wait for, never goes
  down (`sync_stuck`). The callback also gives `req->cc` to `clockcache_write_callback`, which takes it for a pointer to a pointer to the cache (1269): it works on whatever the first word of the cache points to.
  Nothing in the repository calls `cache_extent_sync`.

### Histograms (C65)

`Model/Histo.lean` has `platform_histo_insert`, `platform_histo_merge_in` and the size that `platform_histo_create` asks for.
* The search of `platform_histo_insert` sets `hi = mid - 1` when the datum is not above the limit of `mid`, though `mid` may be the bucket. The datum is then counted one bucket too low (`middle_misplaced`,
  `latency_misplaced`).
* `platform_histo_create` asks for `sizeof(hh)`, 8 bytes, where the structure has 48. Only the rounding up to 64 bytes makes room, for numbers of buckets that are 0, 1 or 2 modulo 8 (`fits_iff`).
  The trunk has 16.

### Opening and closing (C66)

`Model/OpenSpace.lean` has the reference counts of the extents and what `trunk_create` and `trunk_mount` take: memtables, batches of the trunk and log. The choice of a free extent is a parameter.
* `trunk_prepare_for_shutdown` frees only the handle of the log (`trunk.c` 7886-7888). The extent of the log's metadata, the one waiting for its batch and all that it filled stay allocated, and
  neither the super block nor anything else names them after that (`session_used`, `sessions_fail`).
* `shard_log_zap`, called only by tests, does not give back the waiting extent (`zap_used`).
* Left out: data written to the trunk, a second extent of metadata, the super block, recovery.
* Seen and not modelled: `trunk_destroy` and `trunk_unmount` call `srq_deinit` before `trunk_prepare_for_shutdown`, whose tasks may still use the queue (modelled for `trunk_unmount` in C68).

### Relieving a full node (C67)

`Model/Relieve.lean` has the counts of one node, `trunk_flush_fullest` and the loop that calls it while the node is full.
* A node is full by bytes, but the pivot to flush is chosen by tuples. With bytes and no tuples in a pivot, an empty pivot can be chosen, and "Flush into empty bundle" fails (`uncounted_fails`). `Good` rules this out;
  counts come from `btree_count_in_range` (C40).
* Each pivot with live branches is flushed at most once, and the node grows by the pivots of the splits (`relieve_shape`, `relieve_bound`). The split of the node itself comes only after the loop (root) or at the next
  flush into it, so that the limit of fanout + 6 keys can be passed on the way (`wide_exceeds`); for a fanout of 4 or less it cannot, if leaves split in two (`narrow_keeps`).
* Left out: the hard limits of `trunk_room_to_flush`, the child (but for its splitting), numbers of branches wrapping round (C34), bundles and whole branches apart.
* Seen and not modelled: `trunk_flush` sets `req->type` the wrong way round (4716-4717); it is used in statistics.

### Opening and closing (C68)

`Model/Acquire.lean` has what the steps of opening take from the system, and what the error labels and closing give back.
* Found: `io_handle_init` returns without closing the file when `fstat` or `fallocate` fails (laio.c 191-201), and its caller does not close it (`fail_file`).
* Found: when `task_group_init` fails, `task_system_create` destroys all groups, among them the one that failed and any not yet made (task.c 923-927; `fail_tasks`).
* Found: `trunk_mount` does not call `srq_deinit` when there is nothing to mount (trunk.c 7800-7811; `fail_mount`).
* Found: `trunk_unmount` destroys the queue's mutex before the last tasks run (trunk.c 7970-7971; `close_spec`).
* Left out: failures that are assertions, background threads one by one, the result of `task_register_this_thread`, which `task_system_create` ignores (task.c 915).

### Locks of a memtable tree (C55)

`Model/BtreeLock.lean` has only the program counter of each thread; what it holds follows from it. A move allows every answer the tree could give (which
child, which next leaf, full or not), so the proof holds for every content. Kept of the content: the height of each page and the number of splits, which
bounds how often an iterator has to look for its end again and how far `btree_iterator_prev_leaf` walks.

Specification (`Props/BtreeLockSpec.lean`): `Force`, a game. The scheduler picks the thread that moves, the tree picks which of its moves it makes, and all
operations must come to their ends. This excludes deadlock, and livelock in the sense that a way out always exists; it is not a claim about unfair
schedules: an insert that restarts whenever its claim fails can be kept from ending by others.

The comment at the top of `btree.c` argues that every thread holds one lock or is one of two exceptions that go in increasing leaf order. The proof goes
another way. A thread that waits while it holds a page only for reading is going down the tree, so nobody waits for the readers of a leaf for long; a thread
that waits for the readers of an index waits, through a reader, for one that waits for readers lower down. Threads that spin on the claim of a leaf hold the claim of its
parent and no leaf, so they do not wait for one another. That `btree_split_child_leaf` gives up on the next leaf after 101 tries is needed: the thread with the claim may be an
iterator that waits for the parent the splitter has locked.

* `rest_blocks_insert`: an insert waits for an iterator at rest on its leaf (splinterdb.h 309-312 says so for the same thread; it holds for any).
* `failed_merge_blocks_splits`: when the merge callback fails after the leaf was let go, btree.c 2031-2036 ungets the parent without giving back the claim.
* `btree_iterator_seek` (2875-2909) looks up the new leaf without letting go of the old one, whose read lock is never released. Nothing in `/repo/src`
  calls it. (Read, not modelled.)

Not modelled: waiting for the I/O of the cache, several trees (a range iterator holds leaves of several memtables, but only the newest takes inserts).

### Close, open and crash (C19, C20)

`Model/Persist.lean` has the device (superblock, reference counts, pages), the cached pages and the steps of a process from open to close. A crash may fall
between any two device writes, inside a superblock write (the checksum then does not match), inside a page write, or inside the reference count write.
What pages mean is a parameter; `Props/Reopen.lean` connects it with the tree of `Model/Trunk.lean`. Trusted: writes reach the device in the order issued
(the code never syncs the device), and a damaged superblock does not pass its checksum.

* C20 fails: `splinterdb_close` writes the superblock (`unmounted = TRUE`) before `rc_allocator_unmount` writes the reference counts. A crash between the
  two lets the next open succeed with old reference counts, and it hands out an extent that holds the tree (`crash_in_close`). With no crash in this window
  C20 holds (`crash_open_partial`), and the contents seen by the first open are right even then (`crash_open_contents`).
* `trunk_mount` takes the page after the root for the head of the trunk's mini allocator. The root moves with every change, so this is wrong
  (`meta_head_wrong`); `trunk_destroy` after a reopen would release the wrong extent.
* Read, not modelled: the extents of the log are never released at close, so every open and close with `use_log` loses space; the log is not read at open.
  `splinterdb_create` over an old store writes pages before it replaces the old superblock, so a crash in that window leaves an old superblock that an open
  accepts.

### Asynchronous lookup (C36)

`Model/Async.lean` has the state machines of `trunk_lookup_async`, `routing_filter_lookup_async` and `btree_lookup_async`, driven by a list of answers of the
cache (page there, refused, read from disk). Filter and tree agree with their synchronous versions for every list (`filter_async`, `btree_async`,
`packed_async`). So does the trunk once it has the root's page (`async_equals_sync_partial`, `async_returns_partial`). Not modelled: changes to memtables or
trunk during a lookup, slot numbers of branches (lists instead; `subBranchNo` is separate).

* `async_state_lookup_memtable` falls through to the root without changing the state. If the root's page is refused, the next call reads the memtables again:
  an update is applied twice and the lookup lock is taken once more than it is released (`retry_reads_memtables_again`).
* If the root's page has to be read from disk, `trunk_async_callback` continues with `async_state_unget_parent_trunk_node`, which gives back a page that is
  not there, and the lookup lock stays (`root_io_breaks`).
* For subbundles the branch number is computed a second time without wrapping around, so it can point beyond the branches (`subBranchNo_beyond`).
* A subbundle's filter with address 0 fails an assertion; the synchronous lookup takes it for empty. `spl->root_addr` is read without the root lock.

### Copy-on-write of the trunk under lookups (C45)

`Model/TrunkCow.lean` has one path of the trunk, from the root to the leaf of one key, as pages with a child and a list of resources (branches and
filters), and any number of lookups and writers. A writer copies the root under the claim on `trunk_root_lock`, switches the root, and copies further down
with lock coupling; an incorporation copies a prefix of the path and publishes it with a memtable on top. `V` is what a lookup makes of the resources it
reads, as a parameter; a compaction must keep `V` (`Keeps`; C03 and C05 prove that of merging). The proof gives every root there has been its path (`p` in `Inv`).

Simplified: splits are left out (a split changes which path a key takes, C07); memory order is sequential; an incorporation reads and builds its new pages
in one step, since nobody can reach them before the root is switched.

* Garbage collection drains the old path from the root the copier copied. A lookup that took an older root and has not reached the leaf is not waited for
  and reads a branch that is gone (`old_root_misread`). The old root's address is thrown away by the incorporation.
* `trunk_clear_bundle` and `trunk_replace_bundle_branches` with no output give up the filters of the bundle on the copy at once, while lookups may be in the
  original (`eager_misread`).
* The abort path of `trunk_bundle_build_filters` (4313) calls `trunk_root_full_unclaim`, though `trunk_copy_path` has given up the claim already. This clears
  the claim of another thread: its assertion fails (`stray_crashes`), or two threads replace the root and a memtable is lost (`stray_loses_memtable`).

Without the third a lookup answers for the memtables incorporated when it took the root (`lookup_answer_partial`); without all three nothing released is read
(`no_misread_partial`).

### Pages of trunk nodes (C47)

`Model/NodeArr.lean` is a node as on its page: circular arrays of branches, bundles, subbundles and filters, the cursors of the header, the first live
branch and bundle of each pivot. `Props/NodeArr.lean` runs any sequence of incorporations, flushes, compactions, filter builds and splits on a store of such
pages and on the lists of `Model/Trunk.lean`; they stay in step (`run_rep_partial`), lookups read the same branches (`lookup_reads_partial`), and
incorporations and rebundling fail exactly when an array is full (`install_spec`, `rebundle_spec`).

Not covered: a bundle that vanishes while newer ones are there (its filters are wrong in the list model already, see above), keys and generations. C49 is
about whole trees of such pages.

* Nothing checks that the filters fit. `trunk_room_to_flush` counts branches, bundles and subbundles; `trunk_get_new_subbundle` checks only that end and start
  of the filter array differ, in debug builds. A compacted bundle keeps all its filters in one subbundle, so three flushes of eleven bundles into a node whose
  compactions finish need 33 filters; the array has 24. Old filters are overwritten and a key is lost (`flush_overwrites_filters`).

### References to branches (C48)

`Model/TrunkRefs.lean` lists the calls of `trunk_inc_intersection` and `trunk_zap_branch_range` the trunk makes, with their ranges, over the per extent counts
of C18. In every reachable state the count of an extent is the number of its holders and of lost references plus one, or zero (`count_exact`). A holder is a pivot
for which the branch is live, an iterator or a compaction. So nothing that can be reached is freed (`extent_kept`). Releases never fail (`destroy_ok`,
`held_release_ok`, `vanish_ok`, `compact_ok`); the cuts of a flush fail only if an extent could get more than 254 holders (`flush_ok`). Lost references
are recorded in `St.lost`, which is not in the code: where a compaction continues at a node that does not begin where the last one ended, or ends before its
output does, what was held for the keys between stays counted for good. `compact_tight` and `compacted_tight` say when nothing is lost.

* A compaction whose node was split meanwhile, and whose bundle was flushed from some but not all of the parts, leaks: after `trunk_destroy` extents of its output
  are still allocated (`leak`, `Mini.compaction_leaks`).
* `trunk_node_destroy` (7922–7927) counts `filter_no` up without wrapping at the end of the array of 24. If the live filters wrap around, it goes on
  beyond the array, up to 65535 (`destroy_misses_filters`).

### The whole store on node pages (C49)

`Model/PagedTrunk.lean` puts the pages of C47 into the tree of C01. Operations, checks for room, liveness of a request's bundle, the order of filter builds and
lookups go through the arrays; pivot keys, generations, node ids and requests are shared with the lists. If the code's checks for room pass, no assertion on
the pages fails (`run_rep_partial`) and lookups report the writes (`lookup_pages_partial`).

* Filters that do not fit lose a key of a store that has passed every check (`lookup_loses_key_filters_full`).
* Bundle numbers repeat after twelve. A filter build that is late, because its task waited while its bundle was flushed and twelve more memtables moved into
  the root, takes the new bundle for its own, gives it filters without its keys and dissolves it (`lookup_loses_key_late_filters`).

### References to filters (C50)

`Model/FilterRefs.lean` lists the references to filters the trunk takes and gives up. The count of a filter is two and the number of places it is in and of
lost references, or zero (`count_exact`). Giving up never fails (`replace_ok`, `finish_ok`, `vanish_ok`, `destroy_ok`), taking fails only at 253
references (`flush_ok`, `splitLeaf_ok`, `splitIndex_ok`). `St.lost` is not in the code. Left out: keys, child pointers, branches and the lengths of arrays.

* `trunk_garbage_collect_filters` (4217–4239) is called for the first part only of a node that was split while its filters were built. The old filters of the
  other parts are never freed (`leak`).
* The empty filter has address 0, which is in the extent of the super block. `trunk_inc_filter` (3901–3912) checks this in debug builds only, and flushes of
  a pivot with whole branches but no keys (4516–4519, 4574), and splits (5560, 5991), count up there. `trunk_dec_filter` does nothing for the
  empty filter. After 253 of these the byte is full and the next flush fails an assertion (`superblock_overflow`).
* `trunk_prepare_build_filter` (4046–4086) copies the old filters without taking references. A later build of the same node may replace and free them
  before they are read (`stale`).

### Unkeyed mini allocators (C51)

`Model/MiniUnkeyed.lean` adds to the allocation of C38 what is freed when. `Good` asks the extent allocator for fresh aligned extents, `GoodU`
also that the extent at 0 is never handed out; it holds the super block. `mini_deinit` relies on this to free the extent of the last meta page.
