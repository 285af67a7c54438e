'Splinter.Acquire.close_bad' depends on axioms: [propext, Quot.sound]
'Splinter.Acquire.close_held' depends on axioms: [propext, Quot.sound]
'Splinter.Acquire.close_reversed' depends on axioms: [propext, Quot.sound]
'Splinter.Acquire.close_spec' depends on axioms: [propext, Quot.sound]
'Splinter.Acquire.fail_clean' depends on axioms: [propext, Quot.sound]
'Splinter.Acquire.fail_file' depends on axioms: [propext, Quot.sound]
'Splinter.Acquire.fail_mount' depends on axioms: [propext, Quot.sound]
'Splinter.Acquire.fail_tasks' depends on axioms: [propext, Quot.sound]
'Splinter.Acquire.open_iff' depends on axioms: [propext, Quot.sound]
'Splinter.Acquire.open_reversed' depends on axioms: [propext, Quot.sound]
'Splinter.Acquire.open_spec' depends on axioms: [propext, Quot.sound]
'Splinter.Acquire.runAll_bad' depends on axioms: [propext, Quot.sound]
'Splinter.Acquire.runAll_held' depends on axioms: [propext, Classical.choice, Quot.sound]
'Splinter.Acquire.runAll_idle' depends on axioms: [propext, Quot.sound]
'Splinter.Acquire.run_held' depends on axioms: [propext, Quot.sound]
'Splinter.Alloc.alloc_alone_held' depends on axioms: [propext, Classical.choice, Quot.sound]
'Splinter.Alloc.alloc_no_fault' depends on axioms: [propext, Classical.choice, Quot.sound]
'Splinter.Alloc.alloc_unheld' depends on axioms: [propext, Classical.choice, Quot.sound]
'Splinter.Alloc.free_iff_unheld' depends on axioms: [propext, Classical.choice, Quot.sound]
'Splinter.Alloc.nospace_concurrent' depends on axioms: [propext, Classical.choice, Quot.sound]
'Splinter.Alloc.solo_alloc' depends on axioms: [propext, Quot.sound]
'Splinter.Alloc.spurious_nospace' depends on axioms: [propext, Quot.sound]
'Splinter.Alloc.super_disjoint' depends on axioms: [propext, Classical.choice, Quot.sound]
'Splinter.Alloc.super_full' depends on axioms: [propext, Classical.choice, Quot.sound]
'Splinter.Alloc.super_lookup' depends on axioms: [propext, Classical.choice, Quot.sound]
'Splinter.Alloc.super_remove' depends on axioms: [propext, Classical.choice, Quot.sound]
'Splinter.Async.btree_async' depends on axioms: [propext, Classical.choice, Quot.sound]
'Splinter.Async.filter_async' depends on axioms: [propext, Classical.choice, Quot.sound]
'Splinter.Async.packed_async' depends on axioms: [propext, Classical.choice, Quot.sound]
'Splinter.AsyncIO.callback_data' depends on axioms: [propext, Classical.choice, Quot.sound]
'Splinter.AsyncIO.called_at_most_once' depends on axioms: [propext, Classical.choice, Quot.sound]
'Splinter.AsyncIO.cleanup_all_can_return' depends on axioms: [propext, Classical.choice, Quot.sound]
'Splinter.AsyncIO.cleanup_all_returns' depends on axioms: [propext, Classical.choice, Quot.sound]
'Splinter.AsyncIO.cleanup_before_callback' depends on axioms: [propext]
'Splinter.AsyncIO.done_is_called' depends on axioms: [propext, Classical.choice, Quot.sound]
'Splinter.AsyncIO.failed_write_reported_ok' depends on axioms: [propext]
'Splinter.AsyncIO.get_waits' depends on axioms: [propext, Classical.choice, Quot.sound]
'Splinter.AsyncIO.kernel_requests' depends on axioms: [propext, Classical.choice, Quot.sound]
'Splinter.AsyncIO.no_fault' depends on axioms: [propext, Classical.choice, Quot.sound]
'Splinter.AsyncIO.not_lost' depends on axioms: [propext, Classical.choice, Quot.sound]
'Splinter.AsyncIO.not_reports_result' depends on axioms: [propext]
'Splinter.AsyncIO.reports_result_partial' depends on axioms: [propext, Classical.choice, Quot.sound]
'Splinter.AsyncIO.request_exclusive' depends on axioms: [propext, Classical.choice, Quot.sound]
'Splinter.AsyncIO.status_always_ok' depends on axioms: [propext, Quot.sound]
'Splinter.AsyncIO.submitted_or_pending' depends on axioms: [propext, Classical.choice, Quot.sound]
'Splinter.AsyncIO.wait_leaves' depends on axioms: [propext, Classical.choice, Quot.sound]
'Splinter.Btree.count_exact_partial' depends on axioms: [propext, Classical.choice, Quot.sound]
'Splinter.Btree.iter_cursor' depends on axioms: [propext, Classical.choice, Quot.sound]
'Splinter.Btree.iter_turn' depends on axioms: [propext, Classical.choice, Quot.sound]
'Splinter.Btree.pack_limit' depends on axioms: [propext, Classical.choice, Quot.sound]
'Splinter.Btree.pack_lookup' depends on axioms: [propext, Classical.choice, Quot.sound]
'Splinter.Btree.pack_pages' depends on axioms: [propext, Classical.choice, Quot.sound]
'Splinter.Btree.pack_scan' depends on axioms: [propext, Classical.choice, Quot.sound]
'Splinter.Btree.pack_totals' depends on axioms: [propext, Classical.choice, Quot.sound]
'Splinter.Btree.pack_traversal' depends on axioms: [propext, Classical.choice, Quot.sound]
'Splinter.Btree.prev_misses' depends on axioms: [propext, Classical.choice, Quot.sound]
'Splinter.Btree.rank_exact_partial' depends on axioms: [propext, Classical.choice, Quot.sound]
'Splinter.Btree.rank_unknown' depends on axioms: [propext, Quot.sound]
'Splinter.Btree.rank_unknown_wrong' depends on axioms: [propext, Quot.sound]
'Splinter.Btree.scan_back' depends on axioms: [propext, Classical.choice, Quot.sound]
'Splinter.Btree.scan_ge' depends on axioms: [propext, Classical.choice, Quot.sound]
'Splinter.Btree.scan_gt' depends on axioms: [propext, Classical.choice, Quot.sound]
'Splinter.BtreeIns.generation_order' depends on axioms: [propext, Classical.choice, Quot.sound]
'Splinter.BtreeIns.insert_can_finish' depends on axioms: [propext, Classical.choice, Quot.sound]
'Splinter.BtreeIns.insert_exact' depends on axioms: [propext, Classical.choice, Quot.sound]
'Splinter.BtreeIns.lookup_goes_on' depends on axioms: [propext, Classical.choice, Quot.sound]
'Splinter.BtreeIns.newScan_bounds' depends on axioms: [propext, Classical.choice, Quot.sound]
'Splinter.BtreeIns.plan_ok' depends on axioms: [propext, Classical.choice, Quot.sound]
'Splinter.BtreeIns.real_time' depends on axioms: [propext, Classical.choice, Quot.sound]
'Splinter.BtreeIns.replay_order_partial' depends on axioms: [propext, Classical.choice, Quot.sound]
'Splinter.BtreeIns.replay_reversed' depends on axioms: [propext, Classical.choice, Quot.sound]
'Splinter.BtreeIns.scan_complete' depends on axioms: [propext, Classical.choice, Quot.sound]
'Splinter.BtreeIns.scan_goes_on' depends on axioms: [propext, Classical.choice, Quot.sound]
'Splinter.BtreeIns.scan_order' depends on axioms: [propext, Classical.choice, Quot.sound]
'Splinter.BtreeIns.scan_prefix' depends on axioms: [propext, Classical.choice, Quot.sound]
'Splinter.BtreeIns.scan_silent' depends on axioms: [propext, Quot.sound]
'Splinter.BtreeIns.scan_snapshot' depends on axioms: [propext, Classical.choice, Quot.sound]
'Splinter.BtreeIns.scan_sound' depends on axioms: [propext, Classical.choice, Quot.sound]
'Splinter.BtreeIns.scan_swept' depends on axioms: [propext, Classical.choice, Quot.sound]
'Splinter.BtreeIns.tree_map' depends on axioms: [propext, Classical.choice, Quot.sound]
'Splinter.BtreeLock.failed_merge_blocks_splits' depends on axioms: [propext, Classical.choice, Quot.sound]
'Splinter.BtreeLock.rest_blocks_insert' depends on axioms: [propext, Classical.choice, Quot.sound]
'Splinter.BtreeLock.tree_holder_moves' depends on axioms: [propext, Classical.choice, Quot.sound]
'Splinter.BtreeLock.tree_locks_exclusive' depends on axioms: [propext, Classical.choice, Quot.sound]
'Splinter.BtreeLock.tree_no_deadlock' depends on axioms: [propext, Classical.choice, Quot.sound]
'Splinter.BtreeLock.tree_threads_finish' depends on axioms: [propext, Classical.choice, Quot.sound]
'Splinter.Buf.append_spec' depends on axioms: [propext, Quot.sound]
'Splinter.Buf.copySlice_spec' depends on axioms: [propext, Quot.sound]
'Splinter.Buf.hexEncode_spec' depends on axioms: [propext, Classical.choice, Quot.sound]
'Splinter.Buf.lookupInto_spec' depends on axioms: [propext, Quot.sound]
'Splinter.Buf.lookups_reuse' depends on axioms: [propext, Quot.sound]
'Splinter.Buf.rendering_no_nul' depends on axioms: [propext, Quot.sound]
'Splinter.Buf.resize_spec' depends on axioms: [propext, Quot.sound]
'Splinter.Cache.C21_async_abort_race' depends on axioms: [propext, Quot.sound]
'Splinter.Cache.C21_exclusive_partial' depends on axioms: [propext, Classical.choice, Quot.sound]
'Splinter.Cache.C21_one_copy_partial' depends on axioms: [propext, Classical.choice, Quot.sound]
'Splinter.Cache.C21_pinned_partial' depends on axioms: [propext, Classical.choice, Quot.sound]
'Splinter.Cache.C22_extent_sync_race' depends on axioms: [propext, Quot.sound]
'Splinter.Cache.C22_prefetch_abort_race' depends on axioms: [propext, Quot.sound]
'Splinter.Cache.C22_read_after_write_partial' depends on axioms: [propext, Classical.choice, Quot.sound]
'Splinter.Cache.C22_read_device_partial' depends on axioms: [propext, Classical.choice, Quot.sound]
'Splinter.Cache.batch_writeback_race' depends on axioms: [propext, Quot.sound]
'Splinter.Cache.clean_on_device' depends on axioms: [propext, Classical.choice, Quot.sound]
'Splinter.Cache.evicted_on_device' depends on axioms: [propext, Classical.choice, Quot.sound]
'Splinter.Cache.no_crash' depends on axioms: [propext, Classical.choice, Quot.sound]
'Splinter.Cache.no_torn_write' depends on axioms: [propext, Classical.choice, Quot.sound]
'Splinter.Compact.compact_on_pages' depends on axioms: [propext, Classical.choice, Quot.sound]
'Splinter.Compact.skip_live' depends on axioms: [propext, Classical.choice, Quot.sound]
'Splinter.Config.C43_defaults_partial' depends on axioms: [propext]
'Splinter.Config.C43_kept_partial' depends on axioms: [propext, Classical.choice, Quot.sound]
'Splinter.Config.C43_refused_partial' depends on axioms: [propext, Classical.choice, Quot.sound]
'Splinter.Config.accepted_sound' depends on axioms: [propext, Classical.choice, Quot.sound]
'Splinter.Config.cache_size_aborts' depends on axioms: [propext]
'Splinter.Config.disk_size_touches_file' depends on axioms: [propext]
'Splinter.Config.node_wrap' depends on axioms: [propext]
'Splinter.Config.queue_scale_not_defaulted' depends on axioms: [propext]
'Splinter.Config.threads_wrap' depends on axioms: [propext]
'Splinter.Config.touched_iff' depends on axioms: [propext, Classical.choice, Quot.sound]
'Splinter.Filter.Ex.index_size_20_faults' depends on axioms: [propext]
'Splinter.Filter.Ex.num_unique_wrong' depends on axioms: [propext]
'Splinter.Filter.add_frame' depends on axioms: [propext, Classical.choice, Quot.sound]
'Splinter.Filter.add_overflow' depends on axioms: [propext, Classical.choice, Quot.sound]
'Splinter.Filter.branches_searched' depends on axioms: [propext, Classical.choice, Quot.sound]
'Splinter.Filter.lookup_exact' depends on axioms: [propext, Classical.choice, Quot.sound]
'Splinter.Filter.never_hides_partial' depends on axioms: [propext, Classical.choice, Quot.sound]
'Splinter.Filter.values_spec' depends on axioms: [propext, Classical.choice, Quot.sound]
'Splinter.FilterRefs.count_exact' depends on axioms: [propext, Classical.choice, Quot.sound]
'Splinter.FilterRefs.destroy_ok' depends on axioms: [propext, Classical.choice, Quot.sound]
'Splinter.FilterRefs.destroyed_partial' depends on axioms: [propext, Classical.choice, Quot.sound]
'Splinter.FilterRefs.filter_freed_partial' depends on axioms: [propext, Classical.choice, Quot.sound]
'Splinter.FilterRefs.filter_kept' depends on axioms: [propext, Classical.choice, Quot.sound]
'Splinter.FilterRefs.filter_whole' depends on axioms: [propext, Classical.choice, Quot.sound]
'Splinter.FilterRefs.finish_ok' depends on axioms: [propext, Classical.choice, Quot.sound]
'Splinter.FilterRefs.flush_ok' depends on axioms: [propext, Classical.choice, Quot.sound]
'Splinter.FilterRefs.leak' depends on axioms: [propext, Classical.choice, Quot.sound]
'Splinter.FilterRefs.lost_by_parts' depends on axioms: [propext, Quot.sound]
'Splinter.FilterRefs.replace_ok' depends on axioms: [propext, Classical.choice, Quot.sound]
'Splinter.FilterRefs.splitIndex_ok' depends on axioms: [propext, Classical.choice, Quot.sound]
'Splinter.FilterRefs.splitLeaf_ok' depends on axioms: [propext, Classical.choice, Quot.sound]
'Splinter.FilterRefs.stale' depends on axioms: [propext, Classical.choice, Quot.sound]
'Splinter.FilterRefs.super_kept' depends on axioms: [propext, Quot.sound]
'Splinter.FilterRefs.super_same_partial' depends on axioms: [propext, Quot.sound]
'Splinter.FilterRefs.superblock_overflow' depends on axioms: [propext, Classical.choice, Quot.sound]
'Splinter.FilterRefs.vanish_ok' depends on axioms: [propext, Classical.choice, Quot.sound]
'Splinter.Flush.batch_writes' depends on axioms: [propext, Classical.choice, Quot.sound]
'Splinter.Flush.evict_keeps' depends on axioms: [propext, Classical.choice, Quot.sound]
'Splinter.Flush.evict_view' depends on axioms: [propext, Classical.choice, Quot.sound]
'Splinter.Flush.finds_room_clean' depends on axioms: [propext, Classical.choice, Quot.sound]
'Splinter.Flush.finds_room_partial' depends on axioms: [propext, Classical.choice, Quot.sound]
'Splinter.Flush.first_fetch_locked' depends on axioms: [propext]
'Splinter.Flush.first_fetch_spins' depends on axioms: [propext]
'Splinter.Flush.flush_evict_empty' depends on axioms: [propext, Classical.choice, Quot.sound]
'Splinter.Flush.flush_insync' depends on axioms: [propext, Classical.choice, Quot.sound]
'Splinter.Flush.flush_requests' depends on axioms: [propext, Classical.choice, Quot.sound]
'Splinter.Flush.flush_runs_maximal' depends on axioms: [propext, Classical.choice, Quot.sound]
'Splinter.Flush.flush_saves' depends on axioms: [propext, Classical.choice, Quot.sound]
'Splinter.Flush.flush_skips_claimed' depends on axioms: [propext]
'Splinter.Flush.flush_view' depends on axioms: [propext, Classical.choice, Quot.sound]
'Splinter.Flush.flush_writes' depends on axioms: [propext, Classical.choice, Quot.sound]
'Splinter.Flush.not_findsRoom' depends on axioms: [propext, Classical.choice, Quot.sound]
'Splinter.Flush.one_batch_spins' depends on axioms: [propext, Classical.choice, Quot.sound]
'Splinter.Flush.search_ends' depends on axioms: [propext, Classical.choice, Quot.sound]
'Splinter.Flush.search_fair' depends on axioms: [propext, Classical.choice, Quot.sound]
'Splinter.Flush.stale_fetch_locked' depends on axioms: [propext]
'Splinter.Histo.counts_partial' depends on axioms: [propext, Classical.choice, Quot.sound]
'Splinter.Histo.counts_small' depends on axioms: [propext, Quot.sound]
'Splinter.Histo.create_bounds' depends on axioms: [propext, Quot.sound]
'Splinter.Histo.fits_iff' depends on axioms: [propext, Classical.choice, Quot.sound]
'Splinter.Histo.histo_made' depends on axioms: [propext, Classical.choice, Quot.sound]
'Splinter.Histo.latency_fits' does not depend on any axioms
'Splinter.Histo.latency_misplaced' depends on axioms: [propext, Quot.sound]
'Splinter.Histo.merge_all' depends on axioms: [propext, Classical.choice, Quot.sound]
'Splinter.Histo.middle_misplaced' depends on axioms: [propext, Classical.choice, Quot.sound]
'Splinter.Histo.more_buckets' does not depend on any axioms
'Splinter.Histo.not_counts' depends on axioms: [propext, Quot.sound]
'Splinter.Log.compare_exact' depends on axioms: [propext, Quot.sound]
'Splinter.Log.compare_wraps' does not depend on any axioms
'Splinter.Log.completed_page_missed' depends on axioms: [propext, Quot.sound]
'Splinter.Log.no_overrun' depends on axioms: [propext, Classical.choice, Quot.sound]
'Splinter.Log.read_prefix_partial' depends on axioms: [propext, Classical.choice, Quot.sound]
'Splinter.Log.read_single' depends on axioms: [propext, Classical.choice, Quot.sound]
'Splinter.Log.sorted_by_generation' depends on axioms: [propext, Quot.sound]
'Splinter.Log.stale_log_returned' depends on axioms: [propext, Quot.sound]
'Splinter.Memtable.close_can_abort' depends on axioms: [propext, Quot.sound]
'Splinter.Memtable.close_ok' depends on axioms: [propext, Classical.choice, Quot.sound]
'Splinter.Memtable.frozen' depends on axioms: [propext, Classical.choice, Quot.sound]
'Splinter.Memtable.is_empty' depends on axioms: [propext, Classical.choice, Quot.sound]
'Splinter.Memtable.lookup_called' depends on axioms: [propext, Quot.sound]
'Splinter.Memtable.lookup_sees' depends on axioms: [propext, Classical.choice, Quot.sound]
'Splinter.Memtable.no_assert' depends on axioms: [propext, Classical.choice, Quot.sound]
'Splinter.Memtable.quiet_empty' depends on axioms: [propext, Classical.choice, Quot.sound]
'Splinter.Memtable.quiet_flushed' depends on axioms: [propext, Classical.choice, Quot.sound]
'Splinter.Memtable.quiet_ready' depends on axioms: [propext, Classical.choice, Quot.sound]
'Splinter.Memtable.record_step' depends on axioms: [propext, Classical.choice, Quot.sound]
'Splinter.Memtable.recorded_once' depends on axioms: [propext, Quot.sound]
'Splinter.Memtable.retire_step' depends on axioms: [propext, Classical.choice, Quot.sound]
'Splinter.Memtable.reuse_step' depends on axioms: [propext, Classical.choice, Quot.sound]
'Splinter.Memtable.root_step' depends on axioms: [propext, Classical.choice, Quot.sound]
'Splinter.Memtable.stored' depends on axioms: [propext, Classical.choice, Quot.sound]
'Splinter.Merge.merge_full_spec' depends on axioms: [propext, Classical.choice, Quot.sound]
'Splinter.Merge.merge_intermediate_spec' depends on axioms: [propext, Classical.choice, Quot.sound]
'Splinter.Merge.merge_only_callback_errors' depends on axioms: [propext, Classical.choice, Quot.sound]
'Splinter.Merge.merge_raw_spec' depends on axioms: [propext, Classical.choice, Quot.sound]
'Splinter.Merge.prev_leaf_skips_keys' depends on axioms: [propext, Quot.sound]
'Splinter.Merge.prev_reads_stale_flag' depends on axioms: [propext, Quot.sound]
'Splinter.Merge.prev_rereports_duplicate_key' depends on axioms: [propext, Quot.sound]
'Splinter.Mini.abort_leaks' depends on axioms: [propext]
'Splinter.Mini.all_freed' depends on axioms: [propext, Classical.choice, Quot.sound]
'Splinter.Mini.alloc_ok' depends on axioms: [propext, Classical.choice, Quot.sound]
'Splinter.Mini.alloc_progress' depends on axioms: [propext, Classical.choice, Quot.sound]
'Splinter.Mini.batch_contiguous' depends on axioms: [propext, Classical.choice, Quot.sound]
'Splinter.Mini.batch_extents' depends on axioms: [propext, Classical.choice, Quot.sound]
'Splinter.Mini.compaction_leaks' depends on axioms: [propext]
'Splinter.Mini.dec_keeps' depends on axioms: [propext, Quot.sound]
'Splinter.Mini.extent_freed' depends on axioms: [propext, Classical.choice, Quot.sound]
'Splinter.Mini.extent_kept' depends on axioms: [propext, Classical.choice, Quot.sound]
'Splinter.Mini.forEach_perm' depends on axioms: [propext, Classical.choice, Quot.sound]
'Splinter.Mini.inc_keeps' depends on axioms: [propext, Quot.sound]
'Splinter.Mini.last_dec' depends on axioms: [propext, Classical.choice, Quot.sound]
'Splinter.Mini.layout_of_release' depends on axioms: [propext, Classical.choice, Quot.sound]
'Splinter.Mini.life' depends on axioms: [propext, Classical.choice, Quot.sound]
'Splinter.Mini.meta_pages' depends on axioms: [propext, Classical.choice, Quot.sound]
'Splinter.Mini.page_owned' depends on axioms: [propext, Classical.choice, Quot.sound]
'Splinter.Mini.pages_distinct' depends on axioms: [propext, Classical.choice, Quot.sound]
'Splinter.Mini.reference_ok' depends on axioms: [propext, Classical.choice, Quot.sound]
'Splinter.Mini.releaseRefs_ok' depends on axioms: [propext, Classical.choice, Quot.sound]
'Splinter.Mini.release_ok' depends on axioms: [propext, Classical.choice, Quot.sound]
'Splinter.OpenSpace.create_destroy' depends on axioms: [propext, Classical.choice, Quot.sound]
'Splinter.OpenSpace.first_scans' depends on axioms: [propext, Quot.sound]
'Splinter.OpenSpace.not_sameSpace' depends on axioms: [propext, Classical.choice, Quot.sound]
'Splinter.OpenSpace.release_zap_same' depends on axioms: [propext, Classical.choice, Quot.sound]
'Splinter.OpenSpace.reopen_same' depends on axioms: [propext, Classical.choice, Quot.sound]
'Splinter.OpenSpace.session_ok' depends on axioms: [propext, Classical.choice, Quot.sound]
'Splinter.OpenSpace.session_used' depends on axioms: [propext, Classical.choice, Quot.sound]
'Splinter.OpenSpace.sessions_any' depends on axioms: [propext, Classical.choice, Quot.sound]
'Splinter.OpenSpace.sessions_fail' depends on axioms: [propext, Classical.choice, Quot.sound]
'Splinter.OpenSpace.sessions_used' depends on axioms: [propext, Classical.choice, Quot.sound]
'Splinter.OpenSpace.zap_used' depends on axioms: [propext, Classical.choice, Quot.sound]
'Splinter.PA.get_spec' depends on axioms: [propext, Classical.choice, Quot.sound]
'Splinter.PA.pack_spec' depends on axioms: [propext, Classical.choice, Quot.sound]
'Splinter.PA.pack_unpack' depends on axioms: [propext, Classical.choice, Quot.sound]
'Splinter.PA.set_get' depends on axioms: [propext, Classical.choice, Quot.sound]
'Splinter.PA.set_spec' depends on axioms: [propext, Classical.choice, Quot.sound]
'Splinter.PA.unpack_spec' depends on axioms: [propext, Classical.choice, Quot.sound]
'Splinter.Page.defragmentOrSplit_spec' depends on axioms: [propext, Classical.choice, Quot.sound]
'Splinter.Page.insertIndex_spec' depends on axioms: [propext, Classical.choice, Quot.sound]
'Splinter.Page.insertLeaf_spec' depends on axioms: [propext, Classical.choice, Quot.sound]
'Splinter.Page.ondisk_key_injective' depends on axioms: [propext, Classical.choice, Quot.sound]
'Splinter.Page.ondisk_key_limit' depends on axioms: [propext, Classical.choice, Quot.sound]
'Splinter.Page.ondisk_key_limit'' depends on axioms: [propext, Classical.choice, Quot.sound]
'Splinter.Page.ondisk_key_roundtrip' depends on axioms: [propext, Classical.choice, Quot.sound]
'Splinter.Page.ondisk_tuple_roundtrip' depends on axioms: [propext, Classical.choice, Quot.sound]
'Splinter.Page.page_65536_holds_nothing' depends on axioms: [propext, Classical.choice, Quot.sound]
'Splinter.Page.reset_spec' depends on axioms: [propext, Classical.choice, Quot.sound]
'Splinter.Page.setIndex_spec' depends on axioms: [propext, Classical.choice, Quot.sound]
'Splinter.Page.setLeaf_spec' depends on axioms: [propext, Classical.choice, Quot.sound]
'Splinter.Page.splitLeaf_separates' depends on axioms: [propext, Classical.choice, Quot.sound]
'Splinter.Page.splitLeaf_spec' depends on axioms: [propext, Classical.choice, Quot.sound]
'Splinter.Page.typeCode_injective' depends on axioms: [propext]
'Splinter.Parse.number_unique' depends on axioms: [propext, Classical.choice, Quot.sound]
'Splinter.Parse.tryInt64_spec' depends on axioms: [propext, Classical.choice, Quot.sound]
'Splinter.Parse.tryInt_spec' depends on axioms: [propext, Classical.choice, Quot.sound]
'Splinter.Parse.tryLimit_spec' depends on axioms: [propext, Classical.choice, Quot.sound]
'Splinter.Parse.tryUint64_spec' depends on axioms: [propext, Classical.choice, Quot.sound]
'Splinter.Parse.tryUint_spec' depends on axioms: [propext, Classical.choice, Quot.sound]
'Splinter.Pcq.pcq_fifo_partial' depends on axioms: [propext, Classical.choice, Quot.sound]
'Splinter.Pcq.pcq_wrap_loses_element' depends on axioms: [propext, Classical.choice, Quot.sound]
'Splinter.Persist.close_open' depends on axioms: [propext, Classical.choice, Quot.sound]
'Splinter.Persist.close_open_mounted' depends on axioms: [propext, Classical.choice, Quot.sound]
'Splinter.Persist.close_open_read' depends on axioms: [propext, Classical.choice, Quot.sound]
'Splinter.Persist.crash_in_close' depends on axioms: [propext, Quot.sound]
'Splinter.Persist.crash_open_contents' depends on axioms: [propext, Classical.choice, Quot.sound]
'Splinter.Persist.crash_open_partial' depends on axioms: [propext, Classical.choice, Quot.sound]
'Splinter.Persist.meta_head_wrong' depends on axioms: [propext, Quot.sound]
'Splinter.Prefetch.not_syncCounts' depends on axioms: [propext, Classical.choice, Quot.sound]
'Splinter.Prefetch.prefetch_complete' depends on axioms: [propext, Classical.choice, Quot.sound]
'Splinter.Prefetch.prefetch_covers' depends on axioms: [propext, Quot.sound]
'Splinter.Prefetch.prefetch_loading' depends on axioms: [propext, Classical.choice, Quot.sound]
'Splinter.Prefetch.prefetch_reads' depends on axioms: [propext, Classical.choice, Quot.sound]
'Splinter.Prefetch.prefetch_view' depends on axioms: [propext, Classical.choice, Quot.sound]
'Splinter.Prefetch.sync_counts_partial' depends on axioms: [propext, Classical.choice, Quot.sound]
'Splinter.Prefetch.sync_issued' depends on axioms: [propext, Classical.choice, Quot.sound]
'Splinter.Prefetch.sync_pages' depends on axioms: [propext, Classical.choice, Quot.sound]
'Splinter.Prefetch.sync_stuck' depends on axioms: [propext, Classical.choice, Quot.sound]
'Splinter.Reclaim.copy_faults' depends on axioms: [propext]
'Splinter.Reclaim.copy_strands' depends on axioms: [propext, Quot.sound]
'Splinter.Reclaim.default_threshold' depends on axioms: [propext, Quot.sound]
'Splinter.Reclaim.not_reclaims' depends on axioms: [propext]
'Splinter.Reclaim.race_faults' depends on axioms: [propext]
'Splinter.Reclaim.race_steals' depends on axioms: [propext]
'Splinter.Reclaim.reads_freed' depends on axioms: [propext]
'Splinter.Reclaim.reclaims_partial' depends on axioms: [propext, Classical.choice, Quot.sound]
'Splinter.Reclaim.reopen_faults' depends on axioms: [propext]
'Splinter.Reclaim.reopen_split_faults' depends on axioms: [propext]
'Splinter.Reclaim.splitRoot_faults' depends on axioms: [propext]
'Splinter.Reclaim.splitRoot_strands' depends on axioms: [propext, Quot.sound]
'Splinter.Relieve.flushFullest_ok' depends on axioms: [propext, Classical.choice, Quot.sound]
'Splinter.Relieve.full_iff' depends on axioms: [propext]
'Splinter.Relieve.narrow_keeps' depends on axioms: [propext, Classical.choice, Quot.sound]
'Splinter.Relieve.relieve_bound' depends on axioms: [propext, Classical.choice, Quot.sound]
'Splinter.Relieve.relieve_id' depends on axioms: [propext]
'Splinter.Relieve.relieve_ok' depends on axioms: [propext, Classical.choice, Quot.sound]
'Splinter.Relieve.relieve_shape' depends on axioms: [propext, Classical.choice, Quot.sound]
'Splinter.Relieve.scan_keeps' depends on axioms: [propext, Quot.sound]
'Splinter.Relieve.uncounted_fails' depends on axioms: [propext]
'Splinter.Relieve.wide_exceeds' depends on axioms: [propext]
'Splinter.Ring.add_spec' depends on axioms: [propext]
'Splinter.Ring.allocHead_spec' depends on axioms: [propext, Quot.sound]
'Splinter.Ring.alloc_spec' depends on axioms: [propext, Quot.sound]
'Splinter.Ring.distance_spec' depends on axioms: [propext, Quot.sound]
'Splinter.Ring.enum_inRange' depends on axioms: [propext, Classical.choice, Quot.sound]
'Splinter.Ring.enum_spec' depends on axioms: [propext, Quot.sound]
'Splinter.Ring.inRange_spec' depends on axioms: [propext, Classical.choice, Quot.sound]
'Splinter.Ring.newestFirst_spec' depends on axioms: [propext, Quot.sound]
'Splinter.Ring.resetStart_spec' depends on axioms: [propext, Quot.sound]
'Splinter.Ring.slot_inj' depends on axioms: [propext, Quot.sound]
'Splinter.Ring.slot_position' depends on axioms: [propext, Quot.sound]
'Splinter.Ring.sub_spec' depends on axioms: [propext, Quot.sound]
'Splinter.RwLock.lock_no_fault' depends on axioms: [propext, Quot.sound]
'Splinter.RwLock.writer_excludes' depends on axioms: [propext, Quot.sound]
'Splinter.Search.btreeFind_spec' depends on axioms: [propext, Quot.sound]
'Splinter.Search.findPivot_ge' depends on axioms: [propext, Classical.choice, Quot.sound]
'Splinter.Search.findPivot_gt' depends on axioms: [propext, Classical.choice, Quot.sound]
'Splinter.Search.findPivot_gt_misses_first' does not depend on any axioms
'Splinter.Search.findPivot_routes' depends on axioms: [propext, Classical.choice, Quot.sound]
'Splinter.Search.findPivot_routes_lt' depends on axioms: [propext, Classical.choice, Quot.sound]
'Splinter.Search.lastLe_unique' depends on axioms: [propext, Quot.sound]
'Splinter.Shmem.C42_alone_partial' depends on axioms: [propext, Classical.choice, Quot.sound]
'Splinter.Shmem.C42_fail_concurrent_partial' depends on axioms: [propext, Classical.choice, Quot.sound]
'Splinter.Shmem.C42_live_partial' depends on axioms: [propext, Classical.choice, Quot.sound]
'Splinter.Shmem.C42_returned_partial' depends on axioms: [propext, Classical.choice, Quot.sound]
'Splinter.Shmem.empty_request' depends on axioms: [propext, Quot.sound]
'Splinter.Shmem.huge_request' depends on axioms: [propext, Quot.sound]
'Splinter.Shmem.usage_right' depends on axioms: [propext, Classical.choice, Quot.sound]
'Splinter.SplitPoints.boundary_before_leaf' depends on axioms: [propext]
'Splinter.SplitPoints.key_misrouted' depends on axioms: [propext]
'Splinter.SplitPoints.middle_leaf_not_split' depends on axioms: [propext, Classical.choice, Quot.sound]
'Splinter.SplitPoints.same_boundary_twice' depends on axioms: [propext]
'Splinter.SplitPoints.split_divides_partial' depends on axioms: [propext, Classical.choice, Quot.sound]
'Splinter.SplitPoints.split_sizes_partial' depends on axioms: [propext, Classical.choice, Quot.sound]
'Splinter.SplitPoints.unsplit_leaf_stops_compaction' depends on axioms: [propext]
'Splinter.SplitPoints.value_bytes_counted' does not depend on any axioms
'Splinter.Srq.srq_delete_spec' depends on axioms: [propext, Classical.choice, Quot.sound]
'Splinter.Srq.srq_extract_spec' depends on axioms: [propext, Classical.choice, Quot.sound]
'Splinter.Srq.srq_insert_spec' depends on axioms: [propext, Classical.choice, Quot.sound]
'Splinter.Srq.srq_update_spec' depends on axioms: [propext, Classical.choice, Quot.sound]
'Splinter.Srq.srq_update_truncates' depends on axioms: [propext, Quot.sound]
'Splinter.Store.linearizable_partial' depends on axioms: [propext, Classical.choice, Quot.sound]
'Splinter.Store.no_fault_partial' depends on axioms: [propext, Classical.choice, Quot.sound]
'Splinter.Task.quiescent_means_done' depends on axioms: [propext, Classical.choice, Quot.sound]
'Splinter.Task.task_no_fault' depends on axioms: [propext, Classical.choice, Quot.sound]
'Splinter.Task.tasks_run_once' depends on axioms: [propext, Classical.choice, Quot.sound]
'Splinter.TaskWake.at_rest_all_ran' depends on axioms: [propext, Classical.choice, Quot.sound]
'Splinter.TaskWake.at_rest_done' depends on axioms: [propext, Classical.choice, Quot.sound]
'Splinter.TaskWake.comes_to_rest' depends on axioms: [propext, Classical.choice, Quot.sound]
'Splinter.TaskWake.fault_only_in_stop' depends on axioms: [propext]
'Splinter.TaskWake.sleeps_only_if_others_awake' depends on axioms: [propext, Classical.choice, Quot.sound]
'Splinter.TaskWake.stop_can_lose_task' depends on axioms: [propext]
'Splinter.Tid.fails_only_when_full' depends on axioms: [propext, Classical.choice, Quot.sound]
'Splinter.Tid.free_slot_obtained' depends on axioms: [propext, Classical.choice, Quot.sound]
'Splinter.Tid.lock_released' depends on axioms: [propext, Classical.choice, Quot.sound]
'Splinter.Tid.slots_distinct' depends on axioms: [propext, Classical.choice, Quot.sound]
'Splinter.Tid.tid_no_fault' depends on axioms: [propext, Classical.choice, Quot.sound]
'Splinter.Trunk.Async.async_equals_sync_flushed_partial' depends on axioms: [propext, Classical.choice, Quot.sound]
'Splinter.Trunk.Async.async_equals_sync_partial' depends on axioms: [propext, Classical.choice, Quot.sound]
'Splinter.Trunk.Async.async_result' depends on axioms: [propext, Classical.choice, Quot.sound]
'Splinter.Trunk.Async.async_returns_partial' depends on axioms: [propext, Classical.choice, Quot.sound]
'Splinter.Trunk.Async.retry_reads_memtables_again' depends on axioms: [propext, Quot.sound]
'Splinter.Trunk.Async.root_io_breaks' depends on axioms: [propext, Quot.sound]
'Splinter.Trunk.Async.subBranchNo_beyond' depends on axioms: [propext, Quot.sound]
'Splinter.Trunk.Async.subBranchNo_eq_iff' depends on axioms: [propext, Quot.sound]
'Splinter.Trunk.Cow.eager_misread' depends on axioms: [propext, Classical.choice, Quot.sound]
'Splinter.Trunk.Cow.lookup_answer_partial' depends on axioms: [propext, Classical.choice, Quot.sound]
'Splinter.Trunk.Cow.lookup_starts_now' depends on axioms: [propext]
'Splinter.Trunk.Cow.never_crashes_partial' depends on axioms: [propext, Classical.choice, Quot.sound]
'Splinter.Trunk.Cow.no_misread_partial' depends on axioms: [propext, Classical.choice, Quot.sound]
'Splinter.Trunk.Cow.old_root_misread' depends on axioms: [propext, Classical.choice, Quot.sound]
'Splinter.Trunk.Cow.one_claim_partial' depends on axioms: [propext, Classical.choice, Quot.sound]
'Splinter.Trunk.Cow.one_writer_partial' depends on axioms: [propext, Classical.choice, Quot.sound]
'Splinter.Trunk.Cow.said_grows' depends on axioms: [propext, Quot.sound]
'Splinter.Trunk.Cow.stray_crashes' depends on axioms: [propext, Classical.choice, Quot.sound]
'Splinter.Trunk.Cow.stray_loses_memtable' depends on axioms: [propext, Classical.choice, Quot.sound]
'Splinter.Trunk.NodeArr.bundle_live_partial' depends on axioms: [propext, Classical.choice, Quot.sound]
'Splinter.Trunk.NodeArr.bundle_number_reused' depends on axioms: [propext]
'Splinter.Trunk.NodeArr.flush_copies_partial' depends on axioms: [propext, Classical.choice, Quot.sound]
'Splinter.Trunk.NodeArr.flush_overwrites_filters' depends on axioms: [propext]
'Splinter.Trunk.NodeArr.fresh_rep' depends on axioms: [propext, Quot.sound]
'Splinter.Trunk.NodeArr.install_spec' depends on axioms: [propext, Quot.sound]
'Splinter.Trunk.NodeArr.lookup_reads_partial' depends on axioms: [propext, Classical.choice, Quot.sound]
'Splinter.Trunk.NodeArr.rebundle_spec' depends on axioms: [propext, Classical.choice, Quot.sound]
'Splinter.Trunk.NodeArr.run_rep_partial' depends on axioms: [propext, Classical.choice, Quot.sound]
'Splinter.Trunk.Paged.lookup_loses_key_filters_full' depends on axioms: [propext, Quot.sound]
'Splinter.Trunk.Paged.lookup_loses_key_late_filters' depends on axioms: [propext, Quot.sound]
'Splinter.Trunk.Paged.lookup_pages_partial' depends on axioms: [propext, Classical.choice, Quot.sound]
'Splinter.Trunk.Paged.run_rep_partial' depends on axioms: [propext, Classical.choice, Quot.sound]
'Splinter.Trunk.Pages.device_lookup_partial' depends on axioms: [propext, Classical.choice, Quot.sound]
'Splinter.Trunk.Pages.device_vals' depends on axioms: [propext, Classical.choice, Quot.sound]
'Splinter.Trunk.Pages.lookup_on_device' depends on axioms: [propext, Classical.choice, Quot.sound]
'Splinter.Trunk.accepted_write_partial' depends on axioms: [propext, Classical.choice, Quot.sound]
'Splinter.Trunk.close_open_lookup_partial' depends on axioms: [propext, Classical.choice, Quot.sound]
'Splinter.Trunk.delete_hides_partial' depends on axioms: [propext, Classical.choice, Quot.sound]
'Splinter.Trunk.delete_hides_scan_partial' depends on axioms: [propext, Classical.choice, Quot.sound]
'Splinter.Trunk.gt_skips_leaf_bound' depends on axioms: [propext, Quot.sound]
'Splinter.Trunk.iterate_live_partial' depends on axioms: [propext, Classical.choice, Quot.sound]
'Splinter.Trunk.live_scan_no_snapshot' depends on axioms: [propext, Classical.choice, Quot.sound]
'Splinter.Trunk.live_scan_order_partial' depends on axioms: [propext, Classical.choice, Quot.sound]
'Splinter.Trunk.live_scan_partial' depends on axioms: [propext, Classical.choice, Quot.sound]
'Splinter.Trunk.live_scan_present_partial' depends on axioms: [propext, Classical.choice, Quot.sound]
'Splinter.Trunk.live_scan_sound_partial' depends on axioms: [propext, Classical.choice, Quot.sound]
'Splinter.Trunk.live_scan_steady_partial' depends on axioms: [propext, Classical.choice, Quot.sound]
'Splinter.Trunk.live_scan_still_partial' depends on axioms: [propext, Classical.choice, Quot.sound]
'Splinter.Trunk.live_scan_visits_partial' depends on axioms: [propext, Classical.choice, Quot.sound]
'Splinter.Trunk.live_visit' depends on axioms: [propext, Classical.choice, Quot.sound]
'Splinter.Trunk.lookup_after_run_partial' depends on axioms: [propext, Classical.choice, Quot.sound]
'Splinter.Trunk.lookup_after_sessions_partial' depends on axioms: [propext, Classical.choice, Quot.sound]
'Splinter.Trunk.lookup_loses_key_after_race' depends on axioms: [propext, Quot.sound]
'Splinter.Trunk.lookup_loses_key_after_vanish' depends on axioms: [propext, Quot.sound]
'Splinter.Trunk.maintenance_invisible_partial' depends on axioms: [propext, Classical.choice, Quot.sound]
'Splinter.Trunk.maintenance_scan_invisible_partial' depends on axioms: [propext, Classical.choice, Quot.sound]
'Splinter.Trunk.range_scan_partial' depends on axioms: [propext, Classical.choice, Quot.sound]
'Splinter.Trunk.reachable_wf' depends on axioms: [propext, Classical.choice, Quot.sound]
'Splinter.Trunk.rejected_write' depends on axioms: [propext, Quot.sound]
'Splinter.Trunk.scan_after_sessions_partial' depends on axioms: [propext, Classical.choice, Quot.sound]
'Splinter.Trunk.split_keeps_routing' depends on axioms: [propext, Classical.choice, Quot.sound]
'Splinter.Trunk.store_prev_skips_key' depends on axioms: [propext, Quot.sound]
'Splinter.Trunk.vanish_stops_store' depends on axioms: [propext, Quot.sound]
'Splinter.TrunkRefs.compact_ok' depends on axioms: [propext, Classical.choice, Quot.sound]
'Splinter.TrunkRefs.compact_tight' depends on axioms: [propext, Quot.sound]
'Splinter.TrunkRefs.compacted_tight' depends on axioms: [propext, Quot.sound]
'Splinter.TrunkRefs.count_exact' depends on axioms: [propext, Classical.choice, Quot.sound]
'Splinter.TrunkRefs.destroy_filters_partial' depends on axioms: [propext, Quot.sound]
'Splinter.TrunkRefs.destroy_misses_filters' depends on axioms: [propext, Quot.sound]
'Splinter.TrunkRefs.destroy_ok' depends on axioms: [propext, Classical.choice, Quot.sound]
'Splinter.TrunkRefs.destroyed_partial' depends on axioms: [propext, Classical.choice, Quot.sound]
'Splinter.TrunkRefs.extent_freed_partial' depends on axioms: [propext, Classical.choice, Quot.sound]
'Splinter.TrunkRefs.extent_kept' depends on axioms: [propext, Classical.choice, Quot.sound]
'Splinter.TrunkRefs.flush_ok' depends on axioms: [propext, Classical.choice, Quot.sound]
'Splinter.TrunkRefs.held_release_ok' depends on axioms: [propext, Classical.choice, Quot.sound]
'Splinter.TrunkRefs.leak' depends on axioms: [propext, Classical.choice, Quot.sound]
'Splinter.TrunkRefs.vanish_ok' depends on axioms: [propext, Classical.choice, Quot.sound]
'Splinter.dataKeyCompare_spec' depends on axioms: [propext, Classical.choice, Quot.sound]
'Splinter.keyLt_strict_total' depends on axioms: [propext, Classical.choice, Quot.sound]
'Splinter.lookupMsgs_spec' depends on axioms: [propext, Quot.sound]
'Splinter.lookup_grouping' depends on axioms: [propext, Quot.sound]
'Splinter.merged_definitive' depends on axioms: [propext]
'Splinter.sliceLexCmp_prefix' depends on axioms: [propext, Classical.choice, Quot.sound]
'Splinter.sliceLexCmp_spec' depends on axioms: [propext, Classical.choice, Quot.sound]
