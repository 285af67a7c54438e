{
 "claims": [
  {
   "property": "C01",
   "status": "partial",
   "theorems": [
    "Splinter.Trunk.lookup_after_run_partial",
    "Splinter.Trunk.lookup_loses_key_after_race",
    "Splinter.Trunk.Pages.lookup_on_device",
    "Splinter.Trunk.Pages.device_lookup_partial",
    "Splinter.Trunk.lookup_loses_key_after_vanish",
    "Splinter.Trunk.vanish_stops_store"
   ],
   "note": "After every legal run from an empty store (any writes, rotations, incorporations, flushes, splits, compactions, filter builds) a lookup reports the value of the write history. Legal excludes two races the code allows: a pivot flushed between the snapshot and the installation of a merge (lookup_loses_key_after_race proves that run loses a key), and a bundle removed because its merge left no tuples while later bundles exist (lookup_loses_key_after_vanish, vanish_stops_store). device_lookup_partial: the same with filters read from their bytes (with false positives) and branches and memtables read from pages of trees."
  },
  {
   "property": "C02",
   "status": "proved",
   "theorems": [
    "Splinter.lookupMsgs_spec",
    "Splinter.lookup_grouping",
    "Splinter.merged_definitive"
   ],
   "note": "For every pair of callbacks meeting the contract."
  },
  {
   "property": "C03",
   "status": "partial",
   "theorems": [
    "Splinter.Trunk.delete_hides_partial",
    "Splinter.Trunk.delete_hides_scan_partial"
   ],
   "note": "Lookups (delete_hides_partial) and scans (delete_hides_scan_partial), also after the tombstone was merged away; same restriction as C01, and the store does not change during a scan."
  },
  {
   "property": "C04",
   "status": "partial",
   "theorems": [
    "Splinter.Trunk.iterate_live_partial",
    "Splinter.Trunk.range_scan_partial",
    "Splinter.Trunk.gt_skips_leaf_bound",
    "Splinter.Btree.scan_ge",
    "Splinter.Btree.scan_gt",
    "Splinter.Btree.pack_scan"
   ],
   "note": "Whole store: iterate_live_partial/range_scan_partial for stores reached by legal runs (see C01) and a store unchanged during the scan; one tree: scan_ge, scan_gt, pack_scan. gt_skips_leaf_bound: the internal greater_than start is wrong."
  },
  {
   "property": "C05",
   "status": "proved",
   "theorems": [
    "Splinter.Merge.merge_intermediate_spec",
    "Splinter.Merge.merge_full_spec",
    "Splinter.Merge.merge_raw_spec",
    "Splinter.Merge.merge_only_callback_errors"
   ],
   "note": "All three merge modes, any number of sorted runs; the only errors are those of the user's merge callbacks."
  },
  {
   "property": "C06",
   "status": "partial",
   "theorems": [
    "Splinter.Merge.prev_rereports_duplicate_key",
    "Splinter.Merge.prev_reads_stale_flag",
    "Splinter.Trunk.store_prev_skips_key",
    "Splinter.Btree.iter_cursor",
    "Splinter.Btree.iter_turn",
    "Splinter.Btree.prev_misses"
   ],
   "note": "Fails on merge iterators and on whole stores (witnesses). One tree: an iterator opened with le/lt, or with ge at its lower bound, is an exact cursor under any next/prev sequence; prev_misses shows other starts fail."
  },
  {
   "property": "C07",
   "status": "partial",
   "theorems": [
    "Splinter.Trunk.maintenance_invisible_partial",
    "Splinter.Trunk.lookup_loses_key_after_race",
    "Splinter.Trunk.lookup_loses_key_after_vanish",
    "Splinter.Trunk.vanish_stops_store",
    "Splinter.Trunk.maintenance_scan_invisible_partial"
   ],
   "note": "Every maintenance action legal in a reachable state leaves all lookups and scans unchanged; same restriction as C01, with the counterexamples."
  },
  {
   "property": "C08",
   "status": "proved",
   "theorems": [
    "Splinter.sliceLexCmp_spec",
    "Splinter.dataKeyCompare_spec",
    "Splinter.keyLt_strict_total",
    "Splinter.sliceLexCmp_prefix"
   ],
   "note": "Length difference below 2^31; sliceLexCmp_truncation shows the sign is wrong at 2^31."
  },
  {
   "property": "C09",
   "status": "proved",
   "theorems": [
    "Splinter.Page.ondisk_key_roundtrip",
    "Splinter.Page.ondisk_key_injective",
    "Splinter.Page.ondisk_key_limit",
    "Splinter.Page.ondisk_key_limit'",
    "Splinter.Page.ondisk_tuple_roundtrip",
    "Splinter.Page.typeCode_injective"
   ],
   "note": "Byte-level model of on-disk keys and tuples; round trip up to the field limits, the limit of 65533 bytes is shown to be exact."
  },
  {
   "property": "C10",
   "status": "proved",
   "theorems": [
    "Splinter.Page.setLeaf_spec",
    "Splinter.Page.setIndex_spec",
    "Splinter.Page.insertLeaf_spec",
    "Splinter.Page.insertIndex_spec",
    "Splinter.Page.reset_spec",
    "Splinter.Page.page_65536_holds_nothing"
   ],
   "note": "Byte-level model of slotted pages, all page sizes below 65536; a 65536-byte page (allowed by MAX_PAGE_SIZE) is shown to hold nothing."
  },
  {
   "property": "C11",
   "status": "proved",
   "theorems": [
    "Splinter.Page.splitLeaf_spec",
    "Splinter.Page.splitLeaf_separates",
    "Splinter.Page.defragmentOrSplit_spec"
   ],
   "note": "Page contents of btree_split_child_leaf and btree_defragment_or_split_child_leaf at byte level, for every well-formed leaf and tuple within the half-page bound that btree_config_init asserts. The update of the old right neighbour's prev link and the parent entry are outside this model."
  },
  {
   "property": "C12",
   "status": "proved",
   "theorems": [
    "Splinter.Search.btreeFind_spec",
    "Splinter.Search.lastLe_unique"
   ],
   "note": "btree binary searches over all strictly increasing key lists"
  },
  {
   "property": "C13",
   "status": "proved",
   "theorems": [
    "Splinter.BtreeIns.tree_map",
    "Splinter.BtreeIns.plan_ok"
   ],
   "note": "Every state of a tree reached by any interleaving of inserts and lookups: balanced, separators right, lookups and scans agree with the merge of the messages inserted."
  },
  {
   "property": "C14",
   "status": "proved",
   "theorems": [
    "Splinter.Btree.pack_traversal",
    "Splinter.Btree.pack_lookup",
    "Splinter.Btree.pack_totals",
    "Splinter.Btree.pack_pages",
    "Splinter.Btree.pack_limit"
   ],
   "note": "btree_pack on any strictly sorted stream for which it reports success, any page addresses, any fit decisions"
  },
  {
   "property": "C15",
   "status": "partial",
   "theorems": [
    "Splinter.Filter.lookup_exact",
    "Splinter.Filter.never_hides_partial",
    "Splinter.Filter.add_frame",
    "Splinter.Filter.branches_searched",
    "Splinter.Filter.values_spec",
    "Splinter.Filter.add_overflow",
    "Splinter.Filter.Ex.index_size_20_faults",
    "Splinter.Filter.Ex.num_unique_wrong",
    "Splinter.Trunk.Pages.device_vals",
    "Splinter.Trunk.Pages.device_lookup_partial"
   ],
   "note": "Exact for every sequence of additions that terminates: a lookup reports exactly the values whose hashes agree on the fingerprint bits, and the loop over the values visits each branch newest first. Conditions: index_size a power of two >= 16, values < 64 (< 31 for the loop), fewer than 2^32 hashes, values added in increasing order, fresh pages from the allocator. Missing: the code has no bound on the fingerprints per index and overflows its buffers (add_overflow), and accepts index sizes for which it faults (index_size_20_faults)."
  },
  {
   "property": "C16",
   "status": "proved",
   "theorems": [
    "Splinter.PA.get_spec",
    "Splinter.PA.set_spec",
    "Splinter.PA.set_get",
    "Splinter.PA.pack_spec",
    "Splinter.PA.unpack_spec",
    "Splinter.PA.pack_unpack"
   ],
   "note": "All widths 1..32, all offsets. pack and unpack are proved for count at least 1; with count 0 the code runs past its input (model outcome none), the routing filter never does that."
  },
  {
   "property": "C17",
   "status": "proved",
   "theorems": [
    "Splinter.Alloc.alloc_unheld",
    "Splinter.Alloc.free_iff_unheld",
    "Splinter.Alloc.alloc_no_fault",
    "Splinter.Alloc.alloc_alone_held",
    "Splinter.Alloc.solo_alloc",
    "Splinter.Alloc.nospace_concurrent",
    "Splinter.Alloc.spurious_nospace"
   ],
   "note": "Extents have one counter each; alloc_unheld, free_iff_unheld and alloc_no_fault hold for every interleaving of any number of threads. An allocation without interference fails exactly when every extent is held (alloc_alone_held, solo_alloc ties it to the steps). With interference the no-space answer is weaker (nospace_concurrent, exact counterexample spurious_nospace). The counter is 8 bits wide: adding a 255th holder hits an assertion."
  },
  {
   "property": "C18",
   "status": "proved",
   "theorems": [
    "Splinter.Mini.extent_kept",
    "Splinter.Mini.extent_freed",
    "Splinter.Mini.release_ok",
    "Splinter.Mini.reference_ok",
    "Splinter.Mini.forEach_perm",
    "Splinter.Mini.abort_leaks",
    "Splinter.Mini.compaction_leaks"
   ],
   "note": "Keyed reference counting of mini allocator extents: an extent is kept while some holder's key range touches one of its segments and freed when the last one goes. Assumes the caller listed its extents with a terminal entry per batch (Layout); abort_leaks and compaction_leaks show callers that break this."
  },
  {
   "property": "C19",
   "status": "partial",
   "theorems": [
    "Splinter.Persist.close_open",
    "Splinter.Persist.close_open_mounted",
    "Splinter.Persist.close_open_read",
    "Splinter.Trunk.close_open_lookup_partial",
    "Splinter.Trunk.lookup_after_sessions_partial",
    "Splinter.Persist.meta_head_wrong",
    "Splinter.Trunk.scan_after_sessions_partial"
   ],
   "note": "Pages, root, node counter and reference counts come back after any history (close_open, close_open_mounted); any reading of held pages is unchanged (close_open_read). The link to lookups needs Legal (FlushLegal, VanishLegal) for the maintenance that the close runs (C07 is partial); scan_after_sessions_partial: the same for scans."
  },
  {
   "property": "C20",
   "status": "partial",
   "theorems": [
    "Splinter.Persist.crash_open_partial",
    "Splinter.Persist.crash_open_contents",
    "Splinter.Persist.crash_in_close"
   ],
   "note": "Holds for every history without a crash between the superblock write and the end of the reference count write of a close; crash_in_close shows that the code violates it there."
  },
  {
   "property": "C21",
   "status": "partial",
   "theorems": [
    "Splinter.Cache.C21_exclusive_partial",
    "Splinter.Cache.C21_one_copy_partial",
    "Splinter.Cache.C21_pinned_partial",
    "Splinter.Cache.no_torn_write",
    "Splinter.Cache.no_crash",
    "Splinter.Cache.C21_async_abort_race",
    "Splinter.Cache.batch_writeback_race"
   ],
   "note": "Proved for every interleaving of any number of agents except two races of the code (abort of get_async without a free request, abort of prefetch), for which C21_async_abort_race and C22_prefetch_abort_race are machine-checked counterexamples. Sequentially consistent memory; the client contract of cache.h is assumed."
  },
  {
   "property": "C22",
   "status": "partial",
   "theorems": [
    "Splinter.Cache.C22_read_after_write_partial",
    "Splinter.Cache.C22_read_device_partial",
    "Splinter.Cache.evicted_on_device",
    "Splinter.Cache.clean_on_device",
    "Splinter.Cache.C22_prefetch_abort_race",
    "Splinter.Cache.C22_extent_sync_race"
   ],
   "note": "Proved for every interleaving except three races of the code, each with a machine-checked counterexample. Pages are abstract values, I/O of one page is atomic and does not fail."
  },
  {
   "property": "C23",
   "status": "proved",
   "theorems": [
    "Splinter.RwLock.writer_excludes",
    "Splinter.RwLock.lock_no_fault"
   ],
   "note": "distributed reader/writer lock under every interleaving of sequentially consistent atomic steps; liveness not covered"
  },
  {
   "property": "C24",
   "status": "proved",
   "theorems": [
    "Splinter.Memtable.no_assert",
    "Splinter.Memtable.recorded_once",
    "Splinter.Memtable.stored",
    "Splinter.Memtable.record_step",
    "Splinter.Memtable.frozen",
    "Splinter.Memtable.retire_step",
    "Splinter.Memtable.root_step",
    "Splinter.Memtable.reuse_step",
    "Splinter.Memtable.is_empty",
    "Splinter.Memtable.quiet_flushed",
    "Splinter.Memtable.quiet_ready",
    "Splinter.Memtable.close_ok",
    "Splinter.Memtable.quiet_empty",
    "Splinter.Memtable.close_can_abort"
   ],
   "note": "Any number of threads inserting, rotating, flushing, looking up, opening and closing iterators, in any interleaving; per-access steps of memtable.c and the memtable part of trunk.c. btree insert/pack/lookup and the tree below the root are abstracted to lists of messages. Includes close: closing an idle database puts everything in the tree. Finding: close_can_abort."
  },
  {
   "property": "C25",
   "status": "proved",
   "theorems": [
    "Splinter.Memtable.lookup_sees",
    "Splinter.Memtable.lookup_called",
    "Splinter.Memtable.no_assert"
   ],
   "note": "Same model. A complete lookup observes exactly a prefix of the record of messages, once each and in order, containing all recorded before it was called; one that ends early observes the newest part of such a prefix."
  },
  {
   "property": "C26",
   "status": "proved",
   "theorems": [
    "Splinter.Tid.slots_distinct",
    "Splinter.Tid.fails_only_when_full",
    "Splinter.Tid.free_slot_obtained",
    "Splinter.Tid.tid_no_fault",
    "Splinter.Tid.lock_released"
   ],
   "note": "every interleaving of register and deregister steps; MAX_THREADS = 64 so one mask word"
  },
  {
   "property": "C27",
   "status": "proved",
   "theorems": [
    "Splinter.Task.tasks_run_once",
    "Splinter.Task.quiescent_means_done",
    "Splinter.Task.task_no_fault"
   ],
   "note": "safety under every interleaving; wake-ups and liveness not covered"
  },
  {
   "property": "C28",
   "status": "partial",
   "theorems": [
    "Splinter.Log.read_prefix_partial",
    "Splinter.Log.read_single",
    "Splinter.Log.no_overrun",
    "Splinter.Log.sorted_by_generation",
    "Splinter.Log.compare_exact",
    "Splinter.Log.compare_wraps",
    "Splinter.Log.completed_page_missed",
    "Splinter.Log.stale_log_returned"
   ],
   "note": "Byte-level model of pages and entries, any number of threads. With one writing thread iteration returns exactly the completed pages' records in order (read_single); with several, those before the first page that is not complete (read_prefix_partial), the rest is lost: completed_page_missed. Order by generation holds when generations are within 2^31 (compare_wraps). Assumed: the first incomplete page is not valid by accident; stale_log_returned shows that pages of an earlier process can be."
  },
  {
   "property": "C29",
   "status": "proved",
   "theorems": [
    "Splinter.Srq.srq_extract_spec",
    "Splinter.Srq.srq_insert_spec",
    "Splinter.Srq.srq_delete_spec",
    "Splinter.Srq.srq_update_spec",
    "Splinter.Srq.srq_update_truncates"
   ],
   "note": "every sequence of operations (each atomic under the mutex); re-prioritising stores the priority modulo 2^32 (srq_update_truncates)"
  },
  {
   "property": "C30",
   "status": "partial",
   "theorems": [
    "Splinter.Pcq.pcq_fifo_partial",
    "Splinter.Pcq.pcq_wrap_loses_element"
   ],
   "note": "holds for ring sizes dividing 2^32; false for other sizes once the 32-bit counters wrap (witness pcq_wrap_loses_element)"
  },
  {
   "property": "C31",
   "status": "proved",
   "theorems": [
    "Splinter.Parse.tryLimit_spec",
    "Splinter.Parse.tryUint64_spec",
    "Splinter.Parse.tryUint_spec",
    "Splinter.Parse.tryInt64_spec",
    "Splinter.Parse.tryInt_spec",
    "Splinter.Parse.number_unique"
   ],
   "note": "All four parsers return the value iff the string is a well formed in-range literal; as in the code, a minus sign is rejected for unsigned types, even -0."
  },
  {
   "property": "C32",
   "status": "partial",
   "theorems": [
    "Splinter.Trunk.rejected_write",
    "Splinter.Trunk.accepted_write_partial"
   ],
   "note": "Rejected writes leave the state unchanged (all states). Accepted writes change only their key in every state reached by legal runs."
  },
  {
   "property": "C33",
   "status": "proved",
   "theorems": [
    "Splinter.Search.findPivot_routes",
    "Splinter.Search.findPivot_routes_lt",
    "Splinter.Search.findPivot_gt",
    "Splinter.Search.findPivot_ge",
    "Splinter.Search.findPivot_gt_misses_first",
    "Splinter.Trunk.split_keeps_routing",
    "Splinter.Trunk.reachable_wf"
   ],
   "note": "Routing inside a node for all four comparisons, and routing after splits of leaves, index nodes and the root in every well-formed tree; trees of reachable stores are well-formed."
  },
  {
   "property": "C34",
   "status": "proved",
   "theorems": [
    "Splinter.Ring.add_spec",
    "Splinter.Ring.sub_spec",
    "Splinter.Ring.distance_spec",
    "Splinter.Ring.inRange_spec",
    "Splinter.Ring.slot_position",
    "Splinter.Ring.slot_inj",
    "Splinter.Ring.enum_spec",
    "Splinter.Ring.enum_inRange",
    "Splinter.Ring.newestFirst_spec",
    "Splinter.Ring.alloc_spec",
    "Splinter.Ring.allocHead_spec",
    "Splinter.Ring.resetStart_spec"
   ],
   "note": "circular arithmetic of trunk nodes, all buffer sizes and cursors"
  },
  {
   "property": "C35",
   "status": "proved",
   "theorems": [
    "Splinter.Buf.resize_spec",
    "Splinter.Buf.copySlice_spec",
    "Splinter.Buf.append_spec",
    "Splinter.Buf.lookupInto_spec",
    "Splinter.Buf.lookups_reuse"
   ],
   "note": "writable buffer, accumulator and lookup result as a state machine over any previous contents and buffer size."
  },
  {
   "property": "C36",
   "status": "partial",
   "theorems": [
    "Splinter.Async.filter_async",
    "Splinter.Async.btree_async",
    "Splinter.Async.packed_async",
    "Splinter.Trunk.Async.async_result",
    "Splinter.Trunk.Async.async_equals_sync_partial",
    "Splinter.Trunk.Async.async_equals_sync_flushed_partial",
    "Splinter.Trunk.Async.async_returns_partial",
    "Splinter.Trunk.Async.root_io_breaks",
    "Splinter.Trunk.Async.retry_reads_memtables_again",
    "Splinter.Trunk.Async.subBranchNo_eq_iff",
    "Splinter.Trunk.Async.subBranchNo_beyond"
   ],
   "note": "Filter and tree lookups agree with the synchronous ones for every pattern of answers. The trunk lookup does when the root's page is there at the first try (or the key is not in a memtable); a refused root makes it read the memtables again, a root read from disk makes it fail. Store at rest during the lookup."
  },
  {
   "property": "C37",
   "status": "proved",
   "theorems": [
    "Splinter.Alloc.super_lookup",
    "Splinter.Alloc.super_disjoint",
    "Splinter.Alloc.super_full",
    "Splinter.Alloc.super_remove"
   ],
   "note": "Every history of registrations and removals of non-zero ids, an id being registered only while it is not registered. Outside that use register_twice shows two slots for one id."
  },
  {
   "property": "C38",
   "status": "proved",
   "theorems": [
    "Splinter.Mini.pages_distinct",
    "Splinter.Mini.page_owned",
    "Splinter.Mini.batch_contiguous",
    "Splinter.Mini.batch_extents",
    "Splinter.Mini.meta_pages",
    "Splinter.Mini.alloc_ok",
    "Splinter.Mini.alloc_progress",
    "Splinter.Mini.layout_of_release"
   ],
   "note": "Any number of threads and batches; page addresses distinct, aligned, in listed extents of the run, contiguous within a batch; meta pages separate. Assumes extent allocator never returns the same extent twice (C17) and every meta entry fits in a meta page."
  },
  {
   "property": "C39",
   "status": "partial",
   "theorems": [
    "Splinter.Merge.prev_leaf_skips_keys",
    "Splinter.Trunk.store_prev_skips_key",
    "Splinter.Btree.scan_back",
    "Splinter.Btree.pack_scan",
    "Splinter.Btree.prev_misses"
   ],
   "note": "Fails on merge iterators (prev_leaf_skips_keys) and on whole stores (store_prev_skips_key). One tree: backward scans from le/lt starts are exact."
  },
  {
   "property": "C40",
   "status": "partial",
   "theorems": [
    "Splinter.Btree.rank_exact_partial",
    "Splinter.Btree.count_exact_partial",
    "Splinter.Btree.rank_unknown",
    "Splinter.Btree.rank_unknown_wrong"
   ],
   "note": "packed trees; each counter exact while the tree's total for it is below BTREE_UNKNOWN_COUNTER (0x7fffffff), beyond which the code gives up exactness"
  },
  {
   "property": "C41",
   "status": "proved",
   "theorems": [
    "Splinter.BtreeIns.insert_exact",
    "Splinter.BtreeIns.real_time",
    "Splinter.BtreeIns.tree_map",
    "Splinter.BtreeIns.lookup_goes_on",
    "Splinter.BtreeIns.insert_can_finish"
   ],
   "note": "Any number of threads. Pages are locked as in the code; claims may fail at any time."
  },
  {
   "property": "C42",
   "status": "partial",
   "theorems": [
    "Splinter.Shmem.C42_live_partial",
    "Splinter.Shmem.C42_returned_partial",
    "Splinter.Shmem.C42_fail_concurrent_partial",
    "Splinter.Shmem.C42_alone_partial",
    "Splinter.Shmem.usage_right",
    "Splinter.Shmem.huge_request",
    "Splinter.Shmem.empty_request"
   ],
   "note": "Any number of threads, every interleaving. Sizes are positive multiples of 64 with shm_end + size < 2^64; without that the property is false (huge_request, empty_request)."
  },
  {
   "property": "C43",
   "status": "partial",
   "theorems": [
    "Splinter.Config.C43_defaults_partial",
    "Splinter.Config.C43_kept_partial",
    "Splinter.Config.C43_refused_partial",
    "Splinter.Config.accepted_sound",
    "Splinter.Config.touched_iff",
    "Splinter.Config.queue_scale_not_defaulted",
    "Splinter.Config.disk_size_touches_file",
    "Splinter.Config.cache_size_aborts",
    "Splinter.Config.threads_wrap",
    "Splinter.Config.node_wrap"
   ],
   "note": "Defaults: every documented default except queue_scale_percent (documented 100, stays 0: queue_scale_not_defaulted). Kept: every field, except that a too small filter index is raised. Refused: every unusable configuration before the file is touched, if the code's sums do not wrap (threads_wrap, node_wrap); disk and cache sizes that are not multiples are found only after the file was opened (touched_iff, disk_size_touches_file, cache_size_aborts)."
  },
  {
   "property": "C44",
   "status": "proved",
   "theorems": [
    "Splinter.Buf.hexEncode_spec",
    "Splinter.Buf.rendering_no_nul"
   ],
   "note": "bounds, termination and prefix of the rendering for every source and destination size."
  },
  {
   "property": "C45",
   "status": "partial",
   "theorems": [
    "Splinter.Trunk.Cow.lookup_answer_partial",
    "Splinter.Trunk.Cow.lookup_starts_now",
    "Splinter.Trunk.Cow.said_grows",
    "Splinter.Trunk.Cow.no_misread_partial",
    "Splinter.Trunk.Cow.never_crashes_partial",
    "Splinter.Trunk.Cow.one_claim_partial",
    "Splinter.Trunk.Cow.one_writer_partial",
    "Splinter.Trunk.Cow.old_root_misread",
    "Splinter.Trunk.Cow.eager_misread",
    "Splinter.Trunk.Cow.stray_loses_memtable",
    "Splinter.Trunk.Cow.stray_crashes"
   ],
   "note": "Copy-on-write on the path of one key under any interleaving. An answer is that of the memtables incorporated when the root was taken, unless the abort of a filter build clears another thread's claim (trunk.c:4313; stray_loses_memtable, stray_crashes). Nothing released is read unless garbage collection misses a lookup in an older root (old_root_misread) or filters are given up at once (eager_misread). Splits not modelled."
  },
  {
   "property": "C46",
   "status": "proved",
   "theorems": [
    "Splinter.Compact.skip_live",
    "Splinter.Compact.compact_on_pages"
   ],
   "note": "The skiperator is the list of iterators over the runs of live pivots; the packed tree holds compactOut. Packing may fail (too many tuples), as in the code."
  },
  {
   "property": "C47",
   "status": "partial",
   "theorems": [
    "Splinter.Trunk.NodeArr.run_rep_partial",
    "Splinter.Trunk.NodeArr.lookup_reads_partial",
    "Splinter.Trunk.NodeArr.flush_copies_partial",
    "Splinter.Trunk.NodeArr.bundle_live_partial",
    "Splinter.Trunk.NodeArr.fresh_rep",
    "Splinter.Trunk.NodeArr.install_spec",
    "Splinter.Trunk.NodeArr.rebundle_spec",
    "Splinter.Trunk.NodeArr.flush_overwrites_filters",
    "Splinter.Trunk.NodeArr.bundle_number_reused"
   ],
   "note": "Pages and lists stay in step for every sequence of operations, given that the filters fit and that only the newest bundle of a node vanishes. The code does not check the first: flush_overwrites_filters loses a key. bundle_number_reused: a bundle number is only good for twelve bundles."
  },
  {
   "property": "C48",
   "status": "partial",
   "theorems": [
    "Splinter.TrunkRefs.count_exact",
    "Splinter.TrunkRefs.extent_kept",
    "Splinter.TrunkRefs.extent_freed_partial",
    "Splinter.TrunkRefs.destroyed_partial",
    "Splinter.TrunkRefs.compact_tight",
    "Splinter.TrunkRefs.compacted_tight",
    "Splinter.TrunkRefs.leak",
    "Splinter.TrunkRefs.destroy_ok",
    "Splinter.TrunkRefs.held_release_ok",
    "Splinter.TrunkRefs.vanish_ok",
    "Splinter.TrunkRefs.compact_ok",
    "Splinter.TrunkRefs.flush_ok",
    "Splinter.TrunkRefs.destroy_filters_partial",
    "Splinter.TrunkRefs.destroy_misses_filters",
    "Splinter.Mini.compaction_leaks"
   ],
   "note": "No reachable extent is freed and no release fails, in every reachable state, with gaps in compactions too (count_exact, extent_kept, *_ok). That every extent is freed is false: leak. It holds for extents of which nothing was lost (extent_freed_partial, destroyed_partial). Filters are not counted."
  },
  {
   "property": "C49",
   "status": "partial",
   "theorems": [
    "Splinter.Trunk.Paged.run_rep_partial",
    "Splinter.Trunk.Paged.lookup_pages_partial",
    "Splinter.Trunk.Paged.lookup_loses_key_filters_full",
    "Splinter.Trunk.Paged.lookup_loses_key_late_filters"
   ],
   "note": "Whole store on node pages. Partial because it needs Legal of C01 and Fits; without room for filters or with requests older than twelve bundles the code loses keys (two witnesses)."
  },
  {
   "property": "C50",
   "status": "partial",
   "theorems": [
    "Splinter.FilterRefs.count_exact",
    "Splinter.FilterRefs.filter_kept",
    "Splinter.FilterRefs.filter_freed_partial",
    "Splinter.FilterRefs.filter_whole",
    "Splinter.FilterRefs.lost_by_parts",
    "Splinter.FilterRefs.super_kept",
    "Splinter.FilterRefs.flush_ok",
    "Splinter.FilterRefs.splitLeaf_ok",
    "Splinter.FilterRefs.splitIndex_ok",
    "Splinter.FilterRefs.replace_ok",
    "Splinter.FilterRefs.finish_ok",
    "Splinter.FilterRefs.vanish_ok",
    "Splinter.FilterRefs.destroy_ok",
    "Splinter.FilterRefs.destroyed_partial",
    "Splinter.FilterRefs.super_same_partial",
    "Splinter.FilterRefs.stale",
    "Splinter.FilterRefs.leak",
    "Splinter.FilterRefs.superblock_overflow"
   ],
   "note": "count = 2 + places + lost references, for every run; negation: old filters of later parts of a split node leak (leak), empty filters overflow the super block's count (superblock_overflow), builds read freed filters (stale)"
  },
  {
   "property": "C51",
   "status": "proved",
   "theorems": [
    "Splinter.Mini.releaseRefs_ok",
    "Splinter.Mini.dec_keeps",
    "Splinter.Mini.inc_keeps",
    "Splinter.Mini.last_dec",
    "Splinter.Mini.life",
    "Splinter.Mini.all_freed"
   ],
   "note": "every interleaving of allocations; release, users and the last reference"
  },
  {
   "property": "C52",
   "status": "proved",
   "theorems": [
    "Splinter.BtreeIns.scan_swept",
    "Splinter.BtreeIns.scan_prefix",
    "Splinter.BtreeIns.scan_sound",
    "Splinter.BtreeIns.scan_complete",
    "Splinter.BtreeIns.scan_snapshot",
    "Splinter.BtreeIns.scan_order",
    "Splinter.BtreeIns.scan_goes_on",
    "Splinter.BtreeIns.scan_silent",
    "Splinter.BtreeIns.newScan_bounds"
   ],
   "note": "forward iterators, every interleaving with inserts and lookups"
  },
  {
   "property": "C53",
   "status": "partial",
   "theorems": [
    "Splinter.BtreeIns.generation_order",
    "Splinter.BtreeIns.replay_order_partial",
    "Splinter.BtreeIns.replay_reversed"
   ],
   "note": "proved for the writes of one memtable; negation across memtables: generations start at 0 again (replay_reversed)"
  },
  {
   "property": "C54",
   "status": "partial",
   "theorems": [
    "Splinter.Trunk.live_scan_partial",
    "Splinter.Trunk.live_scan_visits_partial",
    "Splinter.Trunk.live_scan_sound_partial",
    "Splinter.Trunk.live_scan_steady_partial",
    "Splinter.Trunk.live_scan_present_partial",
    "Splinter.Trunk.live_scan_order_partial",
    "Splinter.Trunk.live_scan_still_partial",
    "Splinter.Trunk.live_visit",
    "Splinter.Trunk.live_scan_no_snapshot"
   ],
   "note": "runs legal as in C01; forwards; a visit takes memtables and root at one moment; trunk nodes of a visit belong to one root (C45)"
  },
  {
   "property": "C55",
   "status": "proved",
   "theorems": [
    "Splinter.BtreeLock.tree_threads_finish",
    "Splinter.BtreeLock.tree_no_deadlock",
    "Splinter.BtreeLock.tree_holder_moves",
    "Splinter.BtreeLock.tree_locks_exclusive",
    "Splinter.BtreeLock.rest_blocks_insert",
    "Splinter.BtreeLock.failed_merge_blocks_splits"
   ],
   "note": "merge callbacks that succeed; a failing one can leave a claim behind, after which splits under that node never end (failed_merge_blocks_splits)"
  },
  {
   "property": "C56",
   "status": "partial",
   "theorems": [
    "Splinter.Store.linearizable_partial",
    "Splinter.Store.no_fault_partial"
   ],
   "note": "maintenance under the hypothesis of C01 (Trunk.Legal); reading one memtable tree is one step (C13, C41); a maintenance action takes effect in one step and lookups go on in the trunk whose root they took (C45)"
  },
  {
   "property": "C57",
   "status": "partial",
   "theorems": [
    "Splinter.SplitPoints.split_divides_partial",
    "Splinter.SplitPoints.split_sizes_partial",
    "Splinter.SplitPoints.middle_leaf_not_split",
    "Splinter.SplitPoints.unsplit_leaf_stops_compaction",
    "Splinter.SplitPoints.boundary_before_leaf",
    "Splinter.SplitPoints.key_misrouted",
    "Splinter.SplitPoints.value_bytes_counted",
    "Splinter.SplitPoints.same_boundary_twice"
   ],
   "note": "the leaves divide the range and have the size asked for if no branch is a single page and a leaf is larger than one page per branch; shown false otherwise (boundary outside of the leaf, user values read as counters, empty leaf), and a leaf before the last may not be split at all"
  },
  {
   "property": "C58",
   "status": "proved",
   "theorems": [
    "Splinter.TaskWake.sleeps_only_if_others_awake",
    "Splinter.TaskWake.at_rest_done",
    "Splinter.TaskWake.at_rest_all_ran",
    "Splinter.TaskWake.comes_to_rest",
    "Splinter.TaskWake.fault_only_in_stop",
    "Splinter.TaskWake.stop_can_lose_task"
   ],
   "note": "stop_can_lose_task: stopping a group while one of its tasks runs can lose what that task enqueues; closing waits for quiescence first"
  },
  {
   "property": "C59",
   "status": "partial",
   "theorems": [
    "Splinter.AsyncIO.request_exclusive",
    "Splinter.AsyncIO.kernel_requests",
    "Splinter.AsyncIO.called_at_most_once",
    "Splinter.AsyncIO.not_lost",
    "Splinter.AsyncIO.submitted_or_pending",
    "Splinter.AsyncIO.callback_data",
    "Splinter.AsyncIO.done_is_called",
    "Splinter.AsyncIO.cleanup_all_returns",
    "Splinter.AsyncIO.cleanup_all_can_return",
    "Splinter.AsyncIO.wait_leaves",
    "Splinter.AsyncIO.no_fault",
    "Splinter.AsyncIO.reports_result_partial",
    "Splinter.AsyncIO.not_reports_result",
    "Splinter.AsyncIO.status_always_ok",
    "Splinter.AsyncIO.failed_write_reported_ok",
    "Splinter.AsyncIO.cleanup_before_callback",
    "Splinter.AsyncIO.get_waits"
   ],
   "note": "all but the result of the I/O: the callback is always told that the I/O went well (not_reports_result, status_always_ok). Clean-up may return before another thread has called back (cleanup_before_callback). Asking for a request without blocking waits for the I/Os of the process (get_waits)"
  },
  {
   "property": "C60",
   "status": "proved",
   "theorems": [
    "Splinter.Flush.flush_writes",
    "Splinter.Flush.flush_requests",
    "Splinter.Flush.flush_runs_maximal",
    "Splinter.Flush.flush_view",
    "Splinter.Flush.flush_insync",
    "Splinter.Flush.flush_saves",
    "Splinter.Flush.batch_writes",
    "Splinter.Flush.evict_view",
    "Splinter.Flush.evict_keeps",
    "Splinter.Flush.flush_evict_empty",
    "Splinter.Flush.flush_skips_claimed"
   ],
   "note": "for one thread at work on the cache; interleavings of writing back and eviction of one page are C21 and C22. A page that is claimed or locked during a flush is left out without notice (flush_skips_claimed)"
  },
  {
   "property": "C61",
   "status": "partial",
   "theorems": [
    "Splinter.Flush.finds_room_partial",
    "Splinter.Flush.finds_room_clean",
    "Splinter.Flush.search_fair",
    "Splinter.Flush.not_findsRoom",
    "Splinter.Flush.first_fetch_locked",
    "Splinter.Flush.stale_fetch_locked",
    "Splinter.Flush.first_fetch_spins",
    "Splinter.Flush.search_ends",
    "Splinter.Flush.one_batch_spins"
   ],
   "note": "proved for the thread that was the last to move the hand, and for any thread if an entry is free or clean and not accessed. In other cases the call can give up with 'cache locked', a failed assertion, though a page is not in use (not_findsRoom), and a thread's first fetch never ends if the other threads hold all batches (first_fetch_spins). The search ends if two batches are not held by others (search_ends), not with one (one_batch_spins). Other threads are at rest"
  },
  {
   "property": "C62",
   "status": "partial",
   "theorems": [
    "Splinter.Reclaim.reclaims_partial",
    "Splinter.Reclaim.default_threshold",
    "Splinter.Reclaim.copy_strands",
    "Splinter.Reclaim.splitRoot_strands",
    "Splinter.Reclaim.copy_faults",
    "Splinter.Reclaim.reads_freed",
    "Splinter.Reclaim.reopen_faults",
    "Splinter.Reclaim.reopen_split_faults",
    "Splinter.Reclaim.race_faults",
    "Splinter.Reclaim.splitRoot_faults",
    "Splinter.Reclaim.race_steals",
    "Splinter.Reclaim.not_reclaims"
   ],
   "note": "proved for runs in which no node is copied, the root is not split, the store is not mounted again and reclaiming is not disturbed; and for all runs with the default threshold. Refuted in general: a copied node or a split root leaves entries with the old address (copy_strands, splitRoot_strands), reclaiming then works on a node that has left the tree or reads a freed page, and a later flush fails an assertion; so do a flush after a mount and a flush between the two steps of a reclaim"
  },
  {
   "property": "C63",
   "status": "proved",
   "theorems": [
    "Splinter.Prefetch.prefetch_view",
    "Splinter.Prefetch.prefetch_reads",
    "Splinter.Prefetch.prefetch_loading",
    "Splinter.Prefetch.prefetch_complete",
    "Splinter.Prefetch.prefetch_covers"
   ],
   "note": "locks and reference counts are left out: a clean page that is not loading may be evicted at any time, and an eviction is one step. The search for a free entry gives any entry that is free"
  },
  {
   "property": "C64",
   "status": "partial",
   "theorems": [
    "Splinter.Prefetch.sync_pages",
    "Splinter.Prefetch.sync_issued",
    "Splinter.Prefetch.sync_counts_partial",
    "Splinter.Prefetch.sync_stuck",
    "Splinter.Prefetch.not_syncCounts"
   ],
   "note": "the writes are proved right; that the counter comes back is refuted: the callback shifts the number of pages by the logarithm of the page size and takes nothing off (sync_stuck)"
  },
  {
   "property": "C65",
   "status": "partial",
   "theorems": [
    "Splinter.Histo.counts_partial",
    "Splinter.Histo.counts_small",
    "Splinter.Histo.histo_made",
    "Splinter.Histo.merge_all",
    "Splinter.Histo.middle_misplaced",
    "Splinter.Histo.latency_misplaced",
    "Splinter.Histo.not_counts",
    "Splinter.Histo.fits_iff",
    "Splinter.Histo.latency_fits",
    "Splinter.Histo.more_buckets",
    "Splinter.Histo.create_bounds"
   ],
   "note": "number, sum, least, greatest and merging are proved. The bucket is right or one too low (counts_partial); with two limits or more every datum of the middle bucket is counted one too low (middle_misplaced), for instance 50 microseconds as not more than 10. A histogram fits in its memory exactly if the number of buckets modulo 8 is at most 2 (fits_iff), which holds for the 16 of the trunk. Sums do not wrap round in the model"
  },
  {
   "property": "C66",
   "status": "partial",
   "theorems": [
    "Splinter.OpenSpace.reopen_same",
    "Splinter.OpenSpace.session_used",
    "Splinter.OpenSpace.session_ok",
    "Splinter.OpenSpace.sessions_any",
    "Splinter.OpenSpace.sessions_used",
    "Splinter.OpenSpace.sessions_fail",
    "Splinter.OpenSpace.not_sameSpace",
    "Splinter.OpenSpace.zap_used",
    "Splinter.OpenSpace.release_zap_same",
    "Splinter.OpenSpace.create_destroy",
    "Splinter.OpenSpace.first_scans"
   ],
   "note": "proved without a log (reopen_same, sessions_any, create_destroy). With a log it is false: each session loses two extents and those its log filled (session_used), so that a number of sessions greater than half the number of extents fails even if nothing is written (sessions_fail). Releasing the log's allocator and dropping the log would mend it (release_zap_same); dropping it alone would not (zap_used). Sessions write no data to the trunk in this model"
  },
  {
   "property": "C67",
   "status": "partial",
   "theorems": [
    "Splinter.Relieve.flushFullest_ok",
    "Splinter.Relieve.relieve_ok",
    "Splinter.Relieve.relieve_id",
    "Splinter.Relieve.full_iff",
    "Splinter.Relieve.scan_keeps",
    "Splinter.Relieve.uncounted_fails",
    "Splinter.Relieve.relieve_shape",
    "Splinter.Relieve.relieve_bound",
    "Splinter.Relieve.wide_exceeds",
    "Splinter.Relieve.narrow_keeps"
   ],
   "note": "that the loop ends, and that its own assertions hold, is proved for one node; what a flush does in the child is only the number of pivots its splitting adds. That the counts agree is a hypothesis (Good); without it the assertion in the flush can fail (uncounted_fails). The limit on pivots is a separate assertion in trunk_split_leaf: it is kept for a fanout of at most 4 and splits in two (narrow_keeps); with the default fanout of 8 it fails if all pivots have too many branches at once and all leaves split (wide_exceeds). Whether a history of inserts leads there is not shown"
  },
  {
   "property": "C68",
   "status": "partial",
   "theorems": [
    "Splinter.Acquire.open_spec",
    "Splinter.Acquire.open_iff",
    "Splinter.Acquire.fail_clean",
    "Splinter.Acquire.fail_file",
    "Splinter.Acquire.fail_mount",
    "Splinter.Acquire.fail_tasks",
    "Splinter.Acquire.open_reversed",
    "Splinter.Acquire.close_spec",
    "Splinter.Acquire.close_held",
    "Splinter.Acquire.close_reversed",
    "Splinter.Acquire.run_held",
    "Splinter.Acquire.runAll_idle",
    "Splinter.Acquire.runAll_held",
    "Splinter.Acquire.close_bad",
    "Splinter.Acquire.runAll_bad"
   ],
   "note": "that nothing is left is false in the code for three kinds of failure (fail_file, fail_mount, fail_tasks) and proved for all others (fail_clean); closing uses a destroyed mutex if a last task uses the queue (close_spec). Failures that are assertions are left out"
  }
 ]
}
