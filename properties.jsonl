{"id": "C01", "title": "Point lookup returns the value left by the history", "statement": "After any sequence of insert, update, delete calls, a lookup of key k reports exactly the value obtained by applying, in call order, the operations on k to an initially empty store (not found if that leaves nothing), no matter what background maintenance (memtable rotation, incorporation, flushes, compactions, node splits) has run in between.", "quantifier": "every finite sequence of API operations and maintenance steps, every key, every value, every tree shape reachable", "why_tests_cant": "The number of interleavings of maintenance with operations is unbounded; a test sees a handful of tree shapes.", "anchors": ["src/splinterdb.c: splinterdb_insert, splinterdb_lookup", "src/trunk.c: trunk_insert, trunk_lookup, trunk_memtable_lookup, trunk_pivot_lookup, trunk_bundle_lookup"]}
{"id": "C02", "title": "Updates are applied in order, once each, however they are combined", "statement": "If the application's two merge callbacks implement some value-level update function (merging two updates composes them, merging an update onto a value applies it, finalising an update applies it to an absent value), then the value returned by a lookup equals the result of applying every update issued since the last insert/delete in issue order, exactly once, regardless of how the store grouped the merges.", "quantifier": "every merge callback satisfying the contract, every message history, every grouping of that history into stored runs", "why_tests_cant": "The grouping is decided by background scheduling; associativity-style bugs only show for particular groupings.", "anchors": ["src/data_internal.h: data_merge_tuples, data_merge_tuples_final, merge_accumulator", "include/splinterdb/data.h: merge_tuple_fn, merge_tuple_final_fn"]}
{"id": "C03", "title": "A delete hides every older version until the next write", "statement": "Once delete(k) has returned, lookups and iterators do not report k until a later insert or update of k, even after the tombstone itself has been dropped by compaction; and dropping a tombstone never makes an older version visible.", "quantifier": "every history containing a delete, every later schedule of compactions/flushes", "why_tests_cant": "Resurrection needs a specific alignment of tombstone GC with an older run still stored elsewhere.", "anchors": ["src/merge.c: merge_finalize_updates_and_discard_deletes", "src/trunk.c: trunk_compact_bundle (merge_mode)"]}
{"id": "C04", "title": "Forward iteration reports each live key once, in order, with its lookup value", "statement": "An iterator opened at key s and advanced with next until invalid reports, in strictly increasing key order, exactly the keys >= s that a lookup would find, each with the value that lookup would return.", "quantifier": "every store contents spread over any number of runs/memtables/leaves, every start key", "why_tests_cant": "Depends on all ways equal keys may be distributed over runs.", "anchors": ["src/splinterdb.c: splinterdb_iterator_init/next/get_current", "src/trunk.c: trunk_range_iterator_init/next", "src/merge.c"]}
{"id": "C05", "title": "Merging runs of messages yields the per-key combination in key order", "statement": "Merging any number of sorted runs, ordered oldest to newest, produces each key once in ascending order, with the message obtained by combining that key's messages newest over oldest; with finalisation on, no update message survives and deletes are dropped exactly when tombstone elision is requested.", "quantifier": "every number of runs, every contents (duplicates across runs in any pattern), all three merge modes", "why_tests_cant": "Exponential number of duplicate patterns.", "anchors": ["src/merge.c: merge_iterator_create, merge_iterator_next, merge_resolve_equal_keys, advance_and_resort_min_ritor", "src/merge.h"]}
{"id": "C06", "title": "Changing iteration direction returns to the neighbouring key", "statement": "If next() moved an iterator from key a to key b, then prev() moves it back to key a with the value lookup reports for a (and symmetrically).", "quantifier": "every store contents, every position, every sequence of next/prev calls", "why_tests_cant": "Only wrong when several runs hold the same key at the turning point.", "anchors": ["src/merge.c: merge_iterator_set_direction, merge_iterator_prev", "src/trunk.c: trunk_range_iterator_prev"]}
{"id": "C07", "title": "Background maintenance is invisible", "statement": "Each individual maintenance action (rotating a memtable, incorporating it into the tree, flushing a node's child, compacting a bundle, splitting a leaf, index node or root, replacing filters) leaves the result of every lookup unchanged.", "quantifier": "every well-formed tree and every maintenance action enabled in it, every key", "why_tests_cant": "Per-action proof needs quantification over all tree shapes.", "anchors": ["src/trunk.c: trunk_memtable_incorporate_and_flush, trunk_flush, trunk_compact_bundle, trunk_split_leaf, trunk_split_index, trunk_split_root"]}
{"id": "C08", "title": "Default key order is a total order and agrees with byte-wise lexicographic order", "statement": "The default key comparison is reflexive, antisymmetric, transitive and total, two keys compare equal iff they are the same bytes, and a proper prefix sorts first; the internal -infinity/+infinity keys sort strictly below/above all user keys.", "quantifier": "every pair/triple of byte strings of any length", "why_tests_cant": "Transitivity/antisymmetry over all byte strings cannot be enumerated.", "anchors": ["src/default_data_config.c: default_data_config_key_compare? (key_compare)", "src/util.h: slice_lex_cmp", "src/data_internal.h: data_key_compare"]}
{"id": "C09", "title": "Stored keys and messages are read back byte for byte", "statement": "Encoding a key or (key, message) pair into its on-disk record and decoding it yields the same key bytes, message bytes, message type, for every key/message within the size limits, and the infinite keys are never confused with user keys.", "quantifier": "every key and message within documented limits, all message types", "why_tests_cant": "Infinite input space, boundary lengths 65533..65535.", "anchors": ["src/data_internal.h: copy_key_to_ondisk_key, ondisk_key_to_key, copy_tuple_to_ondisk_tuple, ondisk_tuple_*"]}
{"id": "C10", "title": "Adding or replacing an entry in a page never damages another entry and never overruns the page", "statement": "Writing an entry into an index or leaf page either reports that it does not fit, leaving the page unchanged, or makes exactly that entry readable with exactly the given bytes while all other entries read back unchanged; no byte outside the page, header or allotted area is written.", "quantifier": "every page size, every page contents, every entry size and position", "why_tests_cant": "Offset arithmetic errors only show at exact-fit boundaries.", "anchors": ["src/btree.c: btree_set_leaf_entry, btree_insert_leaf_entry, btree_set_index_entry, btree_insert_index_entry, btree_can_set_leaf_entry"]}
{"id": "C11", "title": "A page split keeps every entry exactly once and both halves have room", "statement": "Splitting a full leaf distributes the old entries and the incoming one over two pages in order, nothing lost or duplicated; both pages are non-empty and each fits in a page; the separator sorts every left key below and no right key below it.", "quantifier": "every leaf contents, every incoming entry obeying the per-entry size limit", "why_tests_cant": "The splitting plan depends on all entry sizes.", "anchors": ["src/btree.c: btree_build_leaf_splitting_plan, btree_split_child_leaf, btree_leaf_incorporate_spec"]}
{"id": "C12", "title": "Search inside a page finds the right slot", "statement": "For a page whose keys are strictly increasing, searching for key k returns the largest slot whose key is <= k (or 'before the first'), and reports 'found' iff that slot's key equals k.", "quantifier": "every page contents of any size, every search key", "why_tests_cant": "All positions/lengths; off-by-one at the ends.", "anchors": ["src/btree.c: btree_find_pivot, btree_find_tuple"]}
{"id": "C13", "title": "A memtable/branch tree behaves as a sorted map of messages", "statement": "After any sequence of inserts into one tree, a lookup returns the combination of exactly the messages inserted for that key, tree invariants (ordering, uniform height, separators) hold and in-order traversal lists every key once in order.", "quantifier": "every insert sequence, any tree height", "why_tests_cant": "Unbounded sequences; splits cascade only in rare shapes.", "anchors": ["src/btree.c: btree_insert, btree_lookup, btree_grow_root, btree_split_child_index"]}
{"id": "C14", "title": "Bulk loading stores exactly the input sequence", "statement": "Packing a sorted stream of tuples produces a tree whose traversal is that stream and whose point lookups find exactly those keys; the reported tuple count and key/message byte totals equal those of the stream.", "quantifier": "every sorted finite stream", "why_tests_cant": "Page boundaries fall anywhere in the stream; height changes at rare lengths.", "anchors": ["src/btree.c: btree_pack, btree_pack_loop, btree_pack_post_loop, btree_count_in_range"]}
{"id": "C15", "title": "Filters never hide a present key", "statement": "If a key was added to a filter under some run number, a filter query for that key always reports that run number among the candidates, after any number of further additions to the filter.", "quantifier": "every sequence of additions with any hash values (collisions included), every filter geometry the code can choose", "why_tests_cant": "False negatives would appear only for particular fingerprint/bucket collisions.", "anchors": ["src/routing_filter.c: routing_filter_add, routing_filter_lookup, routing_get_bucket_bounds"]}
{"id": "C16", "title": "Packed integer arrays round-trip", "statement": "Reading element i of a packed array returns what was written, for every width 1..32 and every index, and setting one element leaves all others unchanged.", "quantifier": "every width, length, offset and contents", "why_tests_cant": "Word-straddling patterns times widths times offsets.", "anchors": ["src/PackedArray.c: PackedArray_pack, PackedArray_unpack, PackedArray_get, PackedArray_set"]}
{"id": "C17", "title": "Disk space is never handed out twice", "statement": "An allocation returns an extent that nobody currently holds, and fails with no-space only if every extent is held; an extent becomes available again exactly when its last holder releases it.", "quantifier": "every sequence of allocate/add-holder/release operations, every device size", "why_tests_cant": "Exhaustive histories impossible; wrap-around of the search hand.", "anchors": ["src/rc_allocator.c: rc_allocator_alloc, rc_allocator_inc_ref, rc_allocator_dec_ref"]}
{"id": "C18", "title": "Shared storage survives until its last user is gone", "statement": "When several key ranges share the extents of one run, an extent holding data of a still-referenced range is not freed by releasing other ranges, and after the releases balance the references all extents of the run are freed.", "quantifier": "every run layout, every sequence of range references and releases that balance", "why_tests_cant": "Boundary extents shared by adjacent ranges for arbitrary splits.", "anchors": ["src/mini_allocator.c: mini_keyed_for_each, mini_keyed_inc_ref, mini_keyed_dec_ref"]}
{"id": "C19", "title": "Close followed by open preserves contents", "statement": "If close completes, a later open of the same file with the same configuration succeeds and every lookup and iteration returns what it returned before the close; space held before is held after.", "quantifier": "every history before the close", "why_tests_cant": "All histories and all states at close.", "anchors": ["src/splinterdb.c: splinterdb_close, splinterdb_create_or_open", "src/trunk.c: trunk_set_super_block, trunk_mount, trunk_unmount", "src/rc_allocator.c: rc_allocator_mount, rc_allocator_unmount"]}
{"id": "C20", "title": "After a crash, open never yields a store with wrong contents or double-allocated space", "statement": "If the process stops at any point between open and the end of close, a subsequent open either reports failure or yields the contents as of the close, with every extent in use accounted as in use.", "quantifier": "every crash point between any two device writes", "why_tests_cant": "Crash points inside close are a window of microseconds; tests cannot stop there reliably.", "anchors": ["src/splinterdb.c: splinterdb_close", "src/trunk.c: trunk_set_super_block, trunk_get_super_block_if_valid, trunk_mount", "src/rc_allocator.c: rc_allocator_unmount, rc_allocator_mount"]}
{"id": "C21", "title": "A page is never read while it is being modified", "statement": "At no instant does one thread hold write access to a cached page while another holds read access or write access to it.", "quantifier": "every interleaving of any number of threads acquiring, upgrading and releasing page access, with eviction and write-back running", "why_tests_cant": "Races depend on instruction-level interleavings.", "anchors": ["src/clockcache.c: clockcache_try_get_read, clockcache_try_get_claim, clockcache_get_write, clockcache_try_evict"]}
{"id": "C22", "title": "The cache never loses or mixes up page contents", "statement": "A reader of page address a always sees the bytes most recently written to a by a writer, whether the page stayed cached, was written back, was evicted and reloaded, any number of times.", "quantifier": "every interleaving of get/lock/modify/unlock/write-back/evict over any number of addresses and entries", "why_tests_cant": "Needs rare eviction/write-back timing.", "anchors": ["src/clockcache.c: clockcache_get_internal, clockcache_try_evict, clockcache_batch_start_writeback, clockcache_write_callback, clockcache_mark_dirty"]}
{"id": "C23", "title": "The distributed reader-writer lock excludes readers from writers", "statement": "With the per-thread-counter lock used for memtable inserts and lookups, whenever a thread is inside the write section no other thread is inside a read section and at most one thread holds a claim.", "quantifier": "every interleaving of any number of threads, at the granularity of single atomic accesses", "why_tests_cant": "Instruction-level interleavings.", "anchors": ["src/platform_linux/platform.c: platform_batch_rwlock_get, platform_batch_rwlock_try_claim, platform_batch_rwlock_lock"]}
{"id": "C24", "title": "Every accepted insert is in exactly one memtable, and memtable order is insertion order", "statement": "An insert that returns success is recorded in exactly one memtable generation; a memtable accepts no inserts after being finalised; generations are incorporated in increasing order without gaps, and a memtable slot is reused only after its contents are in the tree; when the caller is told to retry, nothing was recorded.", "quantifier": "every schedule of inserts, rotations, compactions and incorporations", "why_tests_cant": "Depends on rotation racing with background work.", "anchors": ["src/memtable.c: memtable_maybe_rotate_and_begin_insert, memtable_dec_ref_maybe_recycle, memtable_force_finalize", "src/trunk.c: trunk_try_start_incorporate, trunk_try_continue_incorporate"]}
{"id": "C25", "title": "Concurrent lookups see each write exactly once while memtables move into the tree", "statement": "A lookup running concurrently with incorporation of memtables observes every message of every generation that was inserted before it began exactly once: none missing, none counted twice.", "quantifier": "every interleaving of lookup steps with memtable finalisation, incorporation and recycling steps", "why_tests_cant": "The hand-over window is a few instructions.", "anchors": ["src/trunk.c: trunk_lookup, trunk_memtable_incorporate_and_flush, trunk_root_addr_for_lookup", "src/memtable.c: memtable_begin_lookup, memtable_block_lookups"]}
{"id": "C26", "title": "Thread registration hands out distinct slots", "statement": "Two threads registered at the same time never have the same slot number; registration fails only when all slots are taken; a slot becomes available again after deregistration.", "quantifier": "every sequence/interleaving of register and deregister", "why_tests_cant": "All interleavings.", "anchors": ["src/task.c: task_allocate_threadid, task_deallocate_threadid"]}
{"id": "C27", "title": "Each background task runs exactly once, and quiescence means nothing is pending", "statement": "Every task enqueued is started exactly once, in queue order within its group (front insertions first); when 'perform until quiescent' reports quiescence, no task was waiting or running.", "quantifier": "every interleaving of enqueue, worker and foreground execution steps", "why_tests_cant": "Lost/duplicated tasks depend on interleaving.", "anchors": ["src/task.c: task_enqueue, task_group_get_next_task, task_perform_one, task_system_is_quiescent"]}
{"id": "C28", "title": "Log pages read back what was written", "statement": "For every sequence of records appended through the log, iterating over the pages that were completed returns exactly the records written to them, each with its key, message and generation, ordered by generation.", "quantifier": "every sequence of records of any sizes that fit a page, any number of threads", "why_tests_cant": "Record-size/page-boundary combinations.", "anchors": ["src/shard_log.c: shard_log_write, shard_log_iterator_init, first_log_entry, log_entry_next, terminal_log_entry"]}
{"id": "C29", "title": "The space-reclamation queue always yields a highest-priority element", "statement": "Extracting from the queue returns an element whose priority is at least that of every other element; inserting, deleting or re-prioritising one element affects only that element.", "quantifier": "every sequence of queue operations", "why_tests_cant": "Heap shapes are unbounded.", "anchors": ["src/srq.h: srq_insert, srq_extract_max, srq_delete, srq_update, srq_rebalance_up, srq_rebalance_down"]}
{"id": "C30", "title": "The producer/consumer ring delivers each element once, in order", "statement": "Elements come out of the ring exactly once, in the order they went in, provided the ring is never over-filled, including across counter wrap-around.", "quantifier": "every sequence of enqueue/dequeue, every ring size, counters wrapping", "why_tests_cant": "Wrap-around happens after 2^32 operations.", "anchors": ["src/pcq.h: pcq_enqueue, pcq_dequeue, pcq_count, pcq_is_empty, pcq_is_full"]}
{"id": "C31", "title": "Numeric option parsing accepts exactly well-formed in-range numbers", "statement": "Parsing a numeric string returns the mathematical value iff the whole string is an optionally signed decimal/octal/hex literal whose value lies in the target type's range, and otherwise reports failure; no wrap-around value is ever returned.", "quantifier": "every NUL-terminated string, every target width and signedness", "why_tests_cant": "Overflow boundary strings in three bases.", "anchors": ["src/util.c: try_string_to_uint64_limit, try_string_to_uint64, try_string_to_int64, try_string_to_uint32, try_string_to_uint16, try_string_to_uint8, try_string_to_int32/16/8"]}
{"id": "C32", "title": "Rejected writes have no effect", "statement": "An insert/update/delete whose key exceeds the configured maximum is rejected and changes no lookup result; an accepted one changes only the lookup result of its own key.", "quantifier": "every store state, every key length", "why_tests_cant": "All states times all keys.", "anchors": ["src/trunk.c: trunk_insert", "src/splinterdb.c: splinterdb_insert_message"]}
{"id": "C33", "title": "Each key is routed to exactly one child", "statement": "In an index node with strictly increasing boundary keys covering the key space, routing a key picks the unique child whose half-open range contains it; after a node splits, every key is still routed to the part holding its data.", "quantifier": "every node size, every set of boundary keys, every key", "why_tests_cant": "Boundary equality times node sizes.", "anchors": ["src/trunk.c: trunk_find_pivot, trunk_split_index, trunk_add_pivot"]}
{"id": "C34", "title": "Ring-buffer arithmetic inside tree nodes selects exactly the live entries", "statement": "For circular arrays with start and end cursors, membership, distance, advance and retreat agree with an unrolled list: enumeration from start to end visits each live slot once, in order, and 'in range' holds for exactly those slots.", "quantifier": "every array capacity, every cursor position", "why_tests_cant": "All (start,end) combinations including wrap.", "anchors": ["src/trunk.c: trunk_add_branch_number, trunk_subtract_branch_number, trunk_branch_in_range, trunk_bundle_in_range"]}
{"id": "C35", "title": "Lookup results are reported faithfully and independently", "statement": "A lookup result object reports found/not found and the value of the most recent lookup stored in it, independent of what it held before and of the initial buffer size; a delete or missing key is reported as not found.", "quantifier": "every sequence of lookups reusing one result object, any buffer size", "why_tests_cant": "Buffer reuse/growth combinations.", "anchors": ["src/splinterdb.c: splinterdb_lookup_result_init, splinterdb_lookup, splinterdb_lookup_result_value", "src/util.c: writable_buffer_ensure_space, writable_buffer_resize", "src/data_internal.h: merge_accumulator_*"]}
{"id": "C36", "title": "Asynchronous lookup agrees with synchronous lookup", "statement": "An asynchronous lookup, retried any number of times because pages were locked or being read, finally returns what a synchronous lookup would.", "quantifier": "every pattern of 'try again' answers from the cache", "why_tests_cant": "The retry points are timing dependent.", "anchors": ["src/trunk.c: trunk_lookup_async"]}
{"id": "C37", "title": "Superblock slots of different tables do not collide", "statement": "Registering a table id obtains a superblock address inside the first extent that no other registered id has; looking an id up returns the address given at registration until removal; registration fails only when all slots are in use.", "quantifier": "every sequence of register/lookup/remove", "why_tests_cant": "All histories.", "anchors": ["src/rc_allocator.c: rc_allocator_get_super_addr, rc_allocator_alloc_super_addr, rc_allocator_remove_super_addr"]}
{"id": "C38", "title": "A page allocator batch hands out each page address once", "statement": "The page addresses handed out for one run are pairwise distinct, page aligned, lie in extents owned by that run, and consecutive addresses of one batch inside an extent are contiguous.", "quantifier": "every sequence of page allocations over any number of batches", "why_tests_cant": "Extent boundaries and pre-allocation interplay.", "anchors": ["src/mini_allocator.c: mini_alloc, mini_init, mini_release"]}
{"id": "C39", "title": "Backward iteration reports each live key once, in descending order", "statement": "An iterator opened at the end (or positioned anywhere) and moved with prev only reports exactly the live keys below, in strictly decreasing order, with lookup values.", "quantifier": "every contents spread over runs", "why_tests_cant": "As C04.", "anchors": ["src/merge.c: merge_iterator_prev, advance_one_loop", "src/trunk.c: trunk_range_iterator_prev"]}
{"id": "C40", "title": "Estimated ranks and counts are exact", "statement": "The number of keys reported for a key range of a run equals the number of stored keys k with start <= k < end.", "quantifier": "every run and every pair of keys", "why_tests_cant": "All key pairs.", "anchors": ["src/btree.c: btree_get_rank, btree_count_in_range, btree_pack (pivot_data)"]}
{"id": "C41", "title": "Concurrent inserts into one memtable are not lost", "statement": "When several threads insert into the same tree concurrently, each key's stored message equals the combination of all messages for that key in some order consistent with per-page exclusion; no insert disappears because of a concurrent page split.", "quantifier": "every interleaving of inserting threads", "why_tests_cant": "Splits racing with inserts.", "anchors": ["src/btree.c: btree_insert"]}
{"id": "C42", "title": "Shared-memory allocator returns disjoint in-bounds fragments", "statement": "Every successful shared-segment allocation returns a fragment inside the segment that does not overlap any live fragment; when space is insufficient it fails without changing state.", "quantifier": "every sequence of allocations and frees of any size", "why_tests_cant": "All histories of sizes.", "anchors": ["src/platform_linux/shmem.c: platform_shm_alloc, platform_shm_free"]}
{"id": "C43", "title": "Configuration defaulting and validation", "statement": "Opening with zero-valued optional fields behaves as with the documented defaults; fields set by the application are not altered; an invalid page/extent/size combination is refused before the file is touched.", "quantifier": "every configuration", "why_tests_cant": "Cross product of optional fields.", "anchors": ["src/splinterdb.c: splinterdb_init_config, splinterdb_config_set_defaults", "src/allocator.c", "src/task.c: task_config_valid"]}
{"id": "C44", "title": "Hex/size rendering stays inside the caller's buffer", "statement": "Rendering a byte string in hex writes only inside the destination, always terminates it, and the digits are a prefix of the true rendering.", "quantifier": "every source length, every destination length >= 1", "why_tests_cant": "Boundary lengths.", "anchors": ["src/util.c: debug_hex_encode"]}
{"id": "C45", "title": "A lookup in a changing trunk sees one version of the tree and nothing released", "statement": "A lookup that descends the trunk while incorporations, flushes, compactions, filter builds and garbage collections run answers what the memtables incorporated when it took the root say, and reads no branch or filter that has been released.", "quantifier": "every number of threads, every interleaving, every depth of the tree, every lookup", "why_tests_cant": "The wrong interleavings need a lookup to stall in an old root across several replacements of the root.", "anchors": ["src/trunk.c: trunk_copy_path, trunk_claim_and_copy_root, trunk_update_claimed_root_and_unlock, trunk_garbage_collect_node_get, trunk_bundle_build_filters, trunk_lookup"]}
{"id": "C46", "title": "Compaction stores exactly the merge of the live parts of its branches", "statement": "Compacting a bundle reads, of each branch, exactly the tuples whose keys lie in pivots for which the bundle is live, and the tree it packs holds exactly the merge of these, with the right tuple count and fingerprints.", "quantifier": "every well-formed node, every pattern of live pivots, every number and shape of branches", "why_tests_cant": "A wrong range boundary shows only for certain patterns of live and dead pivots and keys at their borders.", "anchors": ["src/trunk.c: trunk_btree_skiperator_init, trunk_btree_skiperator_next, trunk_compact_bundle"]}
{"id": "C47", "title": "Pages of trunk nodes represent the nodes' lists", "statement": "After every sequence of node operations (incorporation, flush, compaction, filter building, rebundling, split) the circular arrays, cursors and pivots on a node's page represent exactly the lists of whole branches, bundles, subbundles and filters that the operations define. No live entry is overwritten, lack of room stops the operation, and a lookup through the arrays reads the branches the lists name.", "quantifier": "every sequence of operations on any number of nodes, every value of the cursors", "why_tests_cant": "Wrap-around of the four arrays at different times, with cursors of pivots in between, depends on long histories of flushes and compactions.", "anchors": ["src/trunk.c: trunk_get_new_bundle, trunk_get_new_subbundle, trunk_flush_into_bundle, trunk_room_to_flush, trunk_pivot_clear, trunk_reset_start_branch, trunk_replace_bundle_branches, trunk_clear_bundle, trunk_leaf_rebundle_all_branches, trunk_bundle_live, trunk_pivot_lookup"]}
{"id": "C48", "title": "Branch extents live exactly as long as trunk nodes, compactions and iterators need them", "statement": "In every state the trunk reaches by incorporation, flushes, splits of leaves and index nodes, compactions, range iterators and trunk_destroy, the reference count of each extent of each branch is the number of holders whose key range touches it plus one, or zero if there is none, where the holders are the pivots for which the branch is live, each with its range, and the iterators and compactions under way. So no extent is freed while a lookup or iterator can reach data in it, every extent is freed when the last holder goes, and no release fails.", "quantifier": "every sequence of steps, any number of nodes, branches and extents, all key ranges", "why_tests_cant": "A wrong range in one of the reference updates shows only after particular interleavings of flushes, splits and compactions, as use of a freed extent or as a leak that nothing reports.", "anchors": ["src/trunk.c: trunk_inc_intersection, trunk_zap_branch_range, trunk_bundle_inc_pivot_rc, trunk_garbage_collect_bundle, trunk_replace_bundle_branches, trunk_compact_bundle, trunk_split_leaf, trunk_split_index, trunk_node_destroy", "src/btree.c: btree_inc_ref_range, btree_dec_ref_range"]}
{"id": "C49", "title": "Lookups through the pages of trunk nodes return what was written", "statement": "After any run of writes, memtable rotations and incorporations, flushes, splits of leaves, index nodes and the root, compactions and filter builds that passes the code's own checks for room, a lookup that finds bundles, subbundles, filters and branches through the circular arrays and cursors on the node pages reports the outcome of all writes to its key in call order, and no operation on the pages fails an assertion.", "quantifier": "every run, every key, all capacities of the branch array up to 65536, every merge callback obeying the documented semantics, every filter without false negatives", "why_tests_cant": "The arrays wrap around only after many flushes and compactions, and a wrong cursor or a reused bundle number loses a key only when background tasks are delayed in particular orders.", "anchors": ["src/trunk.c: trunk_lookup, trunk_pivot_lookup, trunk_bundle_lookup, trunk_filter_lookup", "src/trunk.c: trunk_memtable_incorporate_and_flush, trunk_flush, trunk_split_leaf, trunk_split_index, trunk_split_root, trunk_compact_bundle, trunk_bundle_build_filters", "src/trunk.c: trunk_bundle_live, trunk_get_new_subbundle, trunk_room_to_flush"]}
{"id": "C50", "title": "References of trunk nodes to filters are counted exactly", "statement": "In every reachable state the reference count of a routing filter is the number of places in the trunk it is in: pivots, subbundle slots, filters just built and filters of memtables. No filter is freed while it is in such a place, giving up a reference never fails, and a filter that is nowhere any more has been freed.", "quantifier": "every sequence of memtable incorporations, flushes, leaf and index splits, new roots, filter builds and replacements, vanishing bundles and node destruction, any number of nodes, bundles and filters", "why_tests_cant": "A missed decrement leaks one extent and a missed increment frees a filter in use only if a node is split, or a bundle flushed, between two steps of a filter build.", "anchors": ["src/trunk.c: trunk_inc_filter, trunk_dec_filter, trunk_flush_into_bundle, trunk_prepare_build_filter, trunk_replace_routing_filter, trunk_garbage_collect_filters, trunk_clear_bundle, trunk_split_leaf, trunk_split_index, trunk_node_destroy", "src/mini_allocator.c: mini_unkeyed_inc_ref, mini_unkeyed_dec_ref"]}
{"id": "C51", "title": "An unkeyed mini allocator frees exactly the extents it took", "statement": "Whatever threads allocate in whatever batches, every extent an unkeyed mini allocator has taken is listed in its meta pages, ahead in a batch, or holds meta pages, and never two of these. Releasing it frees the extents ahead; references before the last free nothing; the last one frees each remaining extent once, the extent of the first meta page included, and touches no other extent's count.", "quantifier": "every interleaving of allocations by any number of threads and batches, every order of up to 253 concurrent users, all page and extent sizes and capacities of meta pages", "why_tests_cant": "A double free or a leak needs a meta page that fills up at a particular step of two threads' allocations, and shows only when the last user goes.", "anchors": ["src/mini_allocator.c: mini_init, mini_alloc, mini_release, mini_deinit, mini_unkeyed_for_each, mini_unkeyed_inc_ref, mini_unkeyed_dec_ref, mini_dealloc_extent"]}
{"id": "C52", "title": "A scan beside concurrent inserts misses no key that was there and reports none twice", "statement": "An iterator over a memtable that other threads insert into reports keys in ascending order, none twice and all in its range. It reports every key of the range that had a value when the iterator was created, and with each key a value it had between the creation and the end of the scan. Smaller keys are looked at no later than greater ones. If nothing is inserted meanwhile it reports exactly the contents. It never comes to a page that is missing or not a tree page.", "quantifier": "every interleaving of any number of inserts, lookups and iterators, every range and start, every sequence of page splits", "why_tests_cant": "Losing or repeating a key needs the leaf under the iterator, or the leaf of the range's end, to split between two particular steps of the iterator.", "anchors": ["src/btree.c: btree_iterator_init, find_btree_node_and_get_idx_bounds, btree_iterator_find_end, btree_iterator_next_leaf, btree_iterator_can_next, btree_iterator_next, btree_iterator_deinit"]}
{"id": "C53", "title": "Log order agrees with write order", "statement": "If two writes of the same key take effect one after the other, a log put in the order of the generations written with its entries has the first before the second, so applying the log in that order gives each key the value it had.", "quantifier": "every interleaving of inserts by any number of threads, every key, every tie between entries of equal generation", "why_tests_cant": "The order is only wrong if a leaf splits, or the memtable changes, between the two writes.", "anchors": ["src/btree.c: btree_insert, btree_leaf_perform_spec, btree_split_leaf_build_right_node", "src/trunk.c: trunk_memtable_insert", "src/shard_log.c: shard_log_compare"]}
{"id": "C54", "title": "A scan of a store that is written to reports each key as it was at some time during the scan", "statement": "Iterating with splinterdb_iterator_next while other threads insert, update, delete and while memtables rotate, incorporate, flush, compact and split, the keys come in ascending order, none twice, each with a value it had at a time between the start and the end of the scan; these times go up with the keys. A key whose value does not change during the scan is reported with it, a key that has a value all the time is reported, a key that never has one is not. If nothing is written meanwhile the scan reports exactly what lookups find. A scan makes at most one visit per leaf bound and one more.", "quantifier": "every sequence of writes and maintenance steps between any two steps of the iterator, every range, start and number of tuples read, every moment at which the iterator reads a tuple of the memtable", "why_tests_cant": "The iterator is built anew at every leaf; a key is lost or repeated only if a split, flush or rotation falls between two leaves and the key is at the bound.", "anchors": ["src/trunk.c: trunk_range_iterator_init, trunk_range_iterator_next, trunk_range_iterator_curr", "src/splinterdb.c: splinterdb_iterator_init, splinterdb_iterator_next, splinterdb_iterator_valid"]}
{"id": "C55", "title": "Threads in one memtable never wait for each other in a circle", "statement": "Whatever inserts, lookups and iterators are under way in a memtable, all of them can still end: some thread can always get on, and there is an order of the threads' moves in which every operation returns, whatever the tree contains. An iterator that rests between two calls may have to be moved or closed first, as the header says. No two threads hold a page at once unless at least one of them only reads. This needs merge callbacks that do not fail.", "quantifier": "every number of threads, every interleaving of their moves, every tree and every outcome of each lookup, split and claim", "why_tests_cant": "A deadlock needs several threads at particular steps of a split, an iterator start and a descent at the same time; a test that hangs does not tell which order was missing.", "anchors": ["src/btree.c: locking rules (47-80), btree_insert, btree_split_child_leaf, btree_defragment_or_split_child_leaf, btree_split_child_index, btree_grow_root, btree_lookup_node, find_btree_node_and_get_idx_bounds, btree_iterator_find_end, btree_iterator_next_leaf, btree_iterator_prev_leaf", "src/clockcache.c: clockcache_get_read, clockcache_try_get_claim, clockcache_get_write"]}
{"id": "C56", "title": "Inserts and lookups of concurrent threads are linearizable", "statement": "Whatever inserts, updates, deletes and lookups many threads make at once, while memtables rotate and are incorporated and nodes of the trunk are flushed, compacted, given filters and split: each write that returns success takes effect at one moment between its call and its return. A write that reports that the store is busy or that the key is too long has no effect. Each lookup reports exactly what the writes to its key that took effect before some moment between its own call and return have left, merged in the order in which they took effect. No assertion fails on the way.", "quantifier": "every number of threads, every interleaving of their steps and of maintenance, every sequence of keys and messages, every data_config whose callbacks follow its contract, every number of memtables from two, every moment at which a memtable is found full", "why_tests_cant": "A wrong answer needs a lookup to pass between the memtable list and the root while a memtable moves from one to the other, or to follow an old root while its nodes are replaced. Tests see few of the interleavings, and concurrent tests do not check answers against an order of the writes.", "anchors": ["src/trunk.c: trunk_insert, trunk_lookup, trunk_memtable_insert, trunk_memtable_lookup, trunk_memtable_flush_internal, trunk_memtable_incorporate_and_flush", "src/memtable.c: memtable_maybe_rotate_and_begin_insert, memtable_insert, memtable_end_insert", "src/splinterdb.c: splinterdb_insert, splinterdb_update, splinterdb_delete, splinterdb_lookup"]}
{"id": "C57", "title": "Splitting a full leaf divides its keys", "statement": "When the store splits a leaf that has grown too large, the new leaves divide the leaf's key range: none of them is empty, none reaches beyond the old range, and every key belongs to exactly one. There are no more of them than were asked for and than their parent has room for. Each but the last receives at least the amount of data asked for, within two pages per branch, and in the last leaf of the store not more than that either.", "quantifier": "every set of branches, every key range, every estimate of the number of distinct keys, every order in which the branches' entries of equal keys are merged, every configured leaf and page size", "why_tests_cant": "Boundaries are sampled from index entries whose positions depend on page fill, on all branches and on the leaf's range. A wrong one shows only when the keys on the wrong side are looked up later, and a leaf that is silently not split only as slowness.", "anchors": ["src/trunk.c: trunk_split_leaf, trunk_compact_bundle, trunk_compact_bundle_node_has_split", "src/btree.c: btree_iterator_init, find_key_in_node, find_btree_node_and_get_idx_bounds, btree_pack_link_node", "src/merge.c: MERGE_RAW"]}
{"id": "C58", "title": "Background work is picked up and finished", "statement": "With background threads configured, no work is left lying while background threads sleep: a background thread of a group sleeps only if at least as many others of the group are awake as tasks wait. When the application makes no new calls, the background system comes to rest after a bounded number of steps; then every task ever enqueued, also by other tasks, has run, every call has returned, and the store is seen as quiescent. Background threads that are told to stop leave.", "quantifier": "every number of threads and of background threads per group, every interleaving, every choice of the thread that a signal wakes, every spurious wake-up, every sequence of calls, every way in which tasks enqueue further tasks except for ever", "why_tests_cant": "A lost wake-up needs an enqueue exactly between a worker's look at the queue and its going to sleep; the symptom is a store that hangs or stops compacting, and the next unrelated task hides it.", "anchors": ["src/task.c: task_worker_thread, task_enqueue, task_group_perform_one, task_group_get_next_task, task_group_stop_and_wait_for_threads", "src/platform_linux/platform.c: platform_condvar_wait, platform_condvar_signal, platform_condvar_broadcast"]}
{"id": "C59", "title": "Every asynchronous I/O is called back once, with its own data", "statement": "A request for asynchronous I/O belongs to one thread until it is submitted and to one I/O until that was called back; nobody else writes to it meanwhile. Every I/O that is submitted is called back exactly once, never before it was submitted, with the data its caller put into the request and with the result of the I/O. A clean-up or wait for all I/Os returns only when the kernel has none of them left. Registering and leaving of threads and processes never destroys a kernel context with I/Os in it, and no internal check fails.", "quantifier": "every number of threads, processes and requests (a multiple of the batch), every interleaving of registering, getting requests, submitting, cleaning up, waiting and leaving, every order of completion, every failure of a submission", "why_tests_cant": "Completions are reaped by whichever thread asks first, so a double use of a request or a lost completion needs a particular order of kernel events and of threads; failed I/Os do not happen on a healthy test machine.", "anchors": ["src/platform_linux/laio.c: laio_get_async_req, laio_read_async, laio_write_async, laio_cleanup, laio_callback, laio_wait_all, laio_register_thread, laio_deregister_thread, get_ctx_idx"]}
{"id": "C60", "title": "Flushing the cache writes every dirty page once, to its place; evicting then loses nothing", "statement": "A flush of the cache writes every page that has unsaved changes and is not claimed or locked, exactly once, to its own place on the device, and marks it clean; no other place of the device and no other entry changes. Each write is for consecutive pages of one extent, at most one extent long, and as long as the neighbours allow. Flushing, cleaning a batch and evicting never change what a reader of a page gets, and eviction leaves every page that is read, pinned, dirty or locked where it is. After flushing and evicting a cache that nobody uses the cache is empty and the device has what the cache had.", "quantifier": "every cache size, every extent size, every placement of pages in entries, every combination of flags, reader counts and pin counts", "why_tests_cant": "Which neighbours join a write depends on where pages landed in the cache; an off-by-one at the edge of an extent or in the vector of pages writes the right data to the wrong place, and shows only after the page is evicted and read again.", "anchors": ["src/clockcache.c: clockcache_batch_start_writeback, clockcache_ok_to_writeback, clockcache_try_set_writeback, clockcache_write_callback, clockcache_flush, clockcache_try_evict, clockcache_evict_batch, clockcache_evict_all"]}
{"id": "C61", "title": "A fetch finds room in the cache as long as some page is not in use", "statement": "A thread that needs an entry of the cache gets one if some entry is not in use: free, or with a page that nobody reads, has pinned or locked, be it clean or dirty, recently accessed or not. The entry it gets held no page that was read or pinned. The search changes nothing that a reader of any page gets, and leaves pages that are read or pinned in their entries. The search ends.", "quantifier": "every cache size, cleaner gap, placement of pages, combination of flags, position of the shared hand and of the thread's hand, and set of batches taken by other threads that are at rest", "why_tests_cant": "The search gives up after three passes of a shared hand, and whether three are enough depends on where the hand was, on which batches other threads hold and on how many looks each page needs; tests have large caches in which something is always free.", "anchors": ["src/clockcache.c: clockcache_move_hand, clockcache_get_free_page, clockcache_evict_batch, clockcache_batch_start_writeback"]}
{"id": "C62", "title": "The queue of pivots to reclaim agrees with the tree", "statement": "With a reclaim threshold, a pivot whose tuples are worth reclaiming is in a queue. At any time when nobody reclaims, each pivot of the tree that says it is queued has the entry with its node's address and its generation, and each entry belongs to such a pivot of the tree. No assertion about the queue fails, and reclaiming never takes a page for a node that is none. With the default threshold the queue stays empty.", "quantifier": "every sequence of copies of nodes, frees of old pages, queued pivots, flushes with and without a split of the child, rebundled leaves, splits of nodes and of the root, reclaims in two steps with anything in between, and mounts", "why_tests_cant": "No test sets the threshold, and with it set the failure comes when an entry is used after its node was copied, which depends on the order of compactions, flushes and reclaims.", "anchors": ["src/trunk.c: trunk_reclaim_space, trunk_flush, trunk_replace_routing_filter, trunk_leaf_rebundle_all_branches, trunk_init_pivot_data_from_pred, trunk_split_index, trunk_split_root, trunk_node_copy, trunk_mount", "src/srq.h: srq_insert, srq_delete, srq_extract_max"]}
{"id": "C63", "title": "Reading ahead does not change what readers get", "statement": "Any number of threads may read the same or other extents ahead while pages are fetched, changed, written back and evicted. What a reader of a page gets changes with writes to that page only. Each read that is sent to the device has at least one page and stays in one extent; each of its pages goes to the entry that the cache has for it, and no other read or thread uses that entry. A read can always complete, and then its pages are cached with what the device has. No entry is left loading with nobody to finish it. If nothing is evicted meanwhile, all pages of the extent are cached or being read when the call ends.", "quantifier": "every number of threads, extent, extent size, set of cached pages, choice of free entries, order of completions, and every interleaving of the steps of the threads with evictions, writes and write-backs", "why_tests_cant": "The call puts runs of missing pages together while other threads put in and evict the same pages; a mistake in the bookkeeping of the run puts a page's data in another page's buffer for one order of steps only.", "anchors": ["src/clockcache.c: clockcache_prefetch, clockcache_prefetch_callback, clockcache_try_evict"]}
{"id": "C64", "title": "Syncing an extent writes each dirty page once and counts right", "statement": "A sync of an extent sends writes for exactly the pages of it that are cached and were set to writeback, each page once and at its own place. The caller's counter goes up by the number of these pages, and when all the writes are done it is back where it was.", "quantifier": "every extent, set of pages to be written, page size larger than the number of pages of an extent, and value of the counter", "why_tests_cant": "Nothing calls the function; a caller that waits for the counter would wait for ever for any extent with a dirty page.", "anchors": ["src/clockcache.c: clockcache_extent_sync, clockcache_sync_callback"]}
{"id": "C65", "title": "Latency statistics count each operation in its bucket", "statement": "A histogram of latencies counts each datum once, in the bucket whose label it fits: not above the limit of the bucket and above the limit of the one before. The number of data, their sum, the least and the greatest are exact. Merging the histograms of two threads gives the histogram of all their data. Inserting never fails and never reads or writes outside of the histogram.", "quantifier": "every list of rising limits, every sequence of data, every number of buckets", "why_tests_cant": "Statistics are printed and not checked; the search for the bucket is right for some data and one off for others, depending on the path of the search.", "anchors": ["src/platform_linux/platform_inline.h: platform_histo_insert, platform_histo_merge_in", "src/platform_linux/platform.c: platform_histo_create, platform_histo_print", "src/trunk.c: latency_histo_buckets"]}
{"id": "C66", "title": "Opening and closing a store uses up no space", "statement": "Opening a store, writing nothing and closing it leaves the reference count of every extent as it was, so that a store with room to be opened once can be opened and closed any number of times. Destroying a store just created gives back all of its space. No assertion on a reference count fails in opening or closing.", "quantifier": "every device, every state of its reference counts, every choice of free extents, every number of memtables, with and without a log, every number of sessions", "why_tests_cant": "Tests open and close a store a few times on a device with much space and do not compare reference counts; what is lost shows only after many sessions.", "anchors": ["src/trunk.c: trunk_create, trunk_mount, trunk_prepare_for_shutdown, trunk_unmount, trunk_destroy", "src/shard_log.c: shard_log_init, shard_log_zap", "src/mini_allocator.c: mini_init, mini_release, mini_unkeyed_dec_ref", "src/memtable.c: memtable_context_create, memtable_context_destroy"]}
{"id": "C67", "title": "A full node of the tree is relieved", "statement": "When a memtable is added to the tree and a node is full, flushing it ends and no assertion fails: after at most one round more than the node has loaded pivots, the node has no more branches and no more bytes than allowed. This holds however the children split meanwhile, if the counts of the node agree: bytes belong to tuples and tuples to live branches. A node that is not full is left alone, and a pivot with few branches keeps its data unless the bytes are too many.", "quantifier": "every node whose counts agree, every limit of branches and bytes, every way the children split", "why_tests_cant": "Which pivots are flushed depends on counts that tests reach only by chance; a loop that does not end, or an index that is off after a split, shows only for some of them.", "anchors": ["src/trunk.c: trunk_flush_fullest, trunk_node_is_full, trunk_pivot_needs_flush, trunk_pivot_clear, trunk_reset_start_branch, trunk_init_pivot_data_from_pred", "src/trunk.c: trunk_memtable_incorporate_and_flush (loop while the root is full), trunk_flush (loop while the child is full)"]}
{"id": "C68", "title": "Opening and closing give back what they took", "statement": "Opening or creating a store succeeds just when each of its steps does. If a step fails, all memory, files and locks taken so far are given back once, in the reverse of the order of building, and none is left; closing a store gives back all it holds. So a process that opens and closes stores any number of times holds nothing in the end. The exceptions are exact: the file stays open if its size cannot be found or set; a mutex is left if there is nothing to mount; and if a group of background tasks cannot be made, condition variables are destroyed that are not there.", "quantifier": "every choice of steps that fail, with and without shared memory, create and open, every list of sessions", "why_tests_cant": "Tests cannot make each allocation and system call fail in turn; a leaked descriptor shows only after many failures.", "anchors": ["src/splinterdb.c: splinterdb_create_or_open, splinterdb_close", "src/platform_linux/laio.c: io_handle_init, io_handle_deinit", "src/task.c: task_system_create, task_system_destroy, task_group_init, task_group_deinit", "src/rc_allocator.c: rc_allocator_init, rc_allocator_mount, rc_allocator_unmount, rc_allocator_deinit", "src/clockcache.c: clockcache_init, clockcache_deinit", "src/trunk.c: trunk_mount, trunk_unmount"]}
