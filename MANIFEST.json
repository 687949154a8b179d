{
 "claims": [
  {
   "property": "C01",
   "status": "proved",
   "theorems": [
    "Kasync.RB.rbtree_is_ordered_map",
    "Kasync.RB.rbtree_remove_exact",
    "Kasync.RB.find2_spec",
    "Kasync.RB.replace_node_spec"
   ],
   "note": "every history refines a finite map"
  },
  {
   "property": "C02",
   "status": "proved",
   "theorems": [
    "Kasync.RB.walk_next_visits_all",
    "Kasync.RB.walk_prev_visits_all",
    "Kasync.RB.next_is_least_greater",
    "Kasync.RB.prev_next"
   ],
   "note": ""
  },
  {
   "property": "C03",
   "status": "proved",
   "theorems": [
    "Kasync.RB.rbtree_balanced",
    "Kasync.RB.rb_erase_safe",
    "Kasync.RB.rb_insert_color_safe",
    "Kasync.RB.rbtree_ways_short"
   ],
   "note": ""
  },
  {
   "property": "C04",
   "status": "proved",
   "theorems": [
    "Kasync.RB.find_cover_spec"
   ],
   "note": ""
  },
  {
   "property": "C05",
   "status": "proved",
   "theorems": [
    "Kasync.RB.iterator_spec",
    "Kasync.RB.sorted_nodup"
   ],
   "note": ""
  },
  {
   "property": "C06",
   "status": "proved",
   "theorems": [
    "Kasync.KList.klist_is_sequence",
    "Kasync.KList.klist_init_empty",
    "Kasync.KList.klist_insert_appends",
    "Kasync.KList.klist_remove_deletes",
    "Kasync.KList.klist_foreach_visits",
    "Kasync.KList.klist_rforeach_visits",
    "Kasync.KList.klist_empty_iff",
    "Kasync.KList.klist_frame",
    "Kasync.KList.kforward_list_init_empty",
    "Kasync.KList.kforward_list_append_first",
    "Kasync.KList.kforward_list_remove_deletes",
    "Kasync.KList.klist_remove_unlinked_ub",
    "Kasync.KList.klist_double_remove_corrupts"
   ],
   "note": "findings: removing an unlinked element is undefined; removing twice corrupts; kforward_list_append inserts first"
  },
  {
   "property": "C07",
   "status": "proved",
   "theorems": [
    "Kasync.KBuf.krw_fifo",
    "Kasync.KBuf.krw_read_spec",
    "Kasync.KBuf.krw_read_success_spec",
    "Kasync.KBuf.krw_get_write_buffer_spec",
    "Kasync.KBuf.krw_read_success_true_but_empty",
    "Kasync.KBuf.krw_read_stops_at_empty_chunk",
    "Kasync.KBuf.krw_read_between_get_and_success"
   ],
   "note": "findings: see DESIGN"
  },
  {
   "property": "C08",
   "status": "proved",
   "theorems": [
    "Kasync.KBuf.krw_get_read_buffers_prefix"
   ],
   "note": ""
  },
  {
   "property": "C09",
   "status": "proved",
   "theorems": [
    "Kasync.KBuf.krw_insert_first",
    "Kasync.KBuf.krw_insert_redelivers",
    "Kasync.KBuf.krw_insert_after_partial_read"
   ],
   "note": "finding: prepending after a partial read redelivers consumed bytes and corrupts total_len"
  },
  {
   "property": "C10",
   "status": "proved",
   "theorems": [
    "Kasync.SBuf.ks_buffer_lossless",
    "Kasync.SBuf.ks_buffer_read_back",
    "Kasync.SBuf.ks_read_success_flag",
    "Kasync.SBuf.ks_get_write_buffer_room",
    "Kasync.SBuf.ks_switch_empty_then_write"
   ],
   "note": ""
  },
  {
   "property": "C11",
   "status": "proved",
   "theorems": [
    "Kasync.SBuf.kbuf_seek_drops",
    "Kasync.SBuf.kbuf_seek_past_end",
    "Kasync.SBuf.iovec_seek_drops",
    "Kasync.SBuf.iovec_seek_past_end",
    "Kasync.SBuf.iovec_seek_large_vector",
    "Kasync.align_bits"
   ],
   "note": "finding: vectors of 2^31 bytes or more are skipped as a whole"
  },
  {
   "property": "C12",
   "status": "proved",
   "theorems": [
    "Kasync.Pool.pool_blocks_safe",
    "Kasync.Pool.pool_no_failure",
    "Kasync.Pool.pool_palloc_result",
    "Kasync.Pool.pool_pmemalign_result",
    "Kasync.Pool.array_memory_safe",
    "Kasync.Pool.pool_unaligned_size_overflows",
    "Kasync.Pool.pool_too_small_overflows",
    "Kasync.Pool.pool_limit"
   ],
   "note": "for pools whose size is a multiple of 8 and at least 88; findings for other sizes"
  },
  {
   "property": "C13",
   "status": "proved",
   "theorems": [
    "Kasync.Pool.pool_destroy_exact",
    "Kasync.Pool.pool_reset_exact",
    "Kasync.Pool.pool_pfree_once",
    "Kasync.Pool.pool_cleanup_entry_freed"
   ],
   "note": ""
  },
  {
   "property": "C14",
   "status": "proved",
   "theorems": [
    "Kasync.Pool.array_keeps_elements",
    "Kasync.Pool.array_memory_safe",
    "Kasync.Pool.array_push_safe",
    "Kasync.Pool.array_destroy_safe",
    "Kasync.Pool.array_zero_capacity_overflows"
   ],
   "note": "finding: capacity 0 overflows"
  },
  {
   "property": "C15",
   "status": "proved",
   "theorems": [
    "Kasync.Mutex.mutex_holders_le_limit",
    "Kasync.Mutex.mutex_mutual_exclusion",
    "Kasync.Mutex.mutex_admits_below_limit",
    "Kasync.Mutex.mutex_holders_le_limit_callbacks",
    "Kasync.Mutex.mutex_no_assert_failure",
    "Kasync.Mutex.mutex_lowered_limit_not_enforced"
   ],
   "note": "finding: lowering the limit while it is held is not enforced on present holders"
  },
  {
   "property": "C16",
   "status": "proved",
   "theorems": [
    "Kasync.Mutex.mutex_waits_only_when_full",
    "Kasync.Mutex.mutex_no_lost_wakeup",
    "Kasync.Mutex.mutex_unlock_hands_over",
    "Kasync.Mutex.mutex_drains",
    "Kasync.Mutex.mutex_starvation",
    "Kasync.Mutex.mutex_raised_limit_does_not_wake"
   ],
   "note": "findings: starvation is possible (LIFO hand-over), raising the limit wakes nobody"
  },
  {
   "property": "C17",
   "status": "proved",
   "theorems": [
    "Kasync.Mutex.mutex_try_lock_refuses_iff"
   ],
   "note": ""
  },
  {
   "property": "C18",
   "status": "proved",
   "theorems": [
    "Kasync.RWLock.rwlock_exclusion",
    "Kasync.RWLock.rwlock_no_failure",
    "Kasync.RWLock.rwlock_nobody_lost",
    "Kasync.RWLock.rwlock_one_role"
   ],
   "note": ""
  },
  {
   "property": "C19",
   "status": "proved",
   "theorems": [
    "Kasync.RWLock.rwlock_no_lost_wakeup",
    "Kasync.RWLock.rwlock_reader_waits_for_writer",
    "Kasync.RWLock.rwlock_wunlock_completes",
    "Kasync.RWLock.rwlock_same_selector_deadlock",
    "Kasync.RWLock.rwlock_nobody_lost"
   ],
   "note": "finding: dead state on one selector, see DESIGN"
  },
  {
   "property": "C20",
   "status": "proved",
   "theorems": [
    "Kasync.Cond.cond_auto_counts",
    "Kasync.Cond.cond_auto_notice",
    "Kasync.Cond.cond_auto_wait_stored",
    "Kasync.Cond.cond_try_wait_empty",
    "Kasync.Cond.cond_no_waiter_lost"
   ],
   "note": ""
  },
  {
   "property": "C21",
   "status": "proved",
   "theorems": [
    "Kasync.Cond.cond_manual_notice_releases_all",
    "Kasync.Cond.cond_manual_stays_set",
    "Kasync.Cond.cond_no_spurious_completion",
    "Kasync.Cond.cond_no_waiter_lost"
   ],
   "note": ""
  },
  {
   "property": "C22",
   "status": "proved",
   "theorems": [
    "Kasync.Chan.chan_exactly_once",
    "Kasync.Chan.chan_sender_order",
    "Kasync.Chan.chan_never_both_wait",
    "Kasync.Chan.chan_service_order",
    "Kasync.Chan.chan_no_failure",
    "Kasync.Chan.chan_closed_refuses",
    "Kasync.Chan.chan_close_releases",
    "Kasync.Chan.chan_lifo_witness",
    "Kasync.Chan.chan_cross_selector_fails"
   ],
   "note": "findings: waiters are served last-in first-out; cross-selector use fails an assertion"
  },
  {
   "property": "C23",
   "status": "proved",
   "theorems": [
    "Kasync.Join.fiber_join_value",
    "Kasync.Join.fiber_freed_exactly_once",
    "Kasync.Join.fiber_no_use_after_free",
    "Kasync.Join.fiber_join_completes",
    "Kasync.Join.fiber_detached_freed_at_exit",
    "Kasync.Join.fiber_detached_no_failure",
    "Kasync.Join.fiber_callback_value",
    "Kasync.Join.join2_after_exit_loses_value",
    "Kasync.Join.ref_self_twice_hangs",
    "Kasync.Join.exit_callback_twice_fails"
   ],
   "note": "findings: join2 after exit delivers 0; two handles or exit callbacks on a detached fiber hang / fail an assertion"
  },
  {
   "property": "C24",
   "status": "proved",
   "theorems": [
    "Kasync.Sel.timer_refines",
    "Kasync.Sel.timer_never_ub",
    "Kasync.Sel.timer_first_is_earliest",
    "Kasync.Sel.timer_exactly_once",
    "Kasync.Sel.timer_never_early",
    "Kasync.Sel.timer_fires_at_first_due_check",
    "Kasync.Sel.timer_check_order"
   ],
   "note": ""
  },
  {
   "property": "C25",
   "status": "proved",
   "theorems": [
    "Kasync.Sel.sel_lists_consistent",
    "Kasync.Sel.sel_lists_no_failure",
    "Kasync.Sel.sel_lists_ordered",
    "Kasync.Sel.timeout_check_exact",
    "Kasync.Sel.shutdown_only_after_grace",
    "Kasync.Sel.unadjusted_step_back_hides_due",
    "Kasync.Sel.zero_timeout_loops_forever"
   ],
   "note": "ordering and the exact check are proved for histories in which every step back of the clock is adjusted; findings show what happens otherwise"
  },
  {
   "property": "C26",
   "status": "proved",
   "theorems": [
    "Kasync.Sel.clock_jump_keeps_remaining",
    "Kasync.Sel.clock_jump_keeps_idle",
    "Kasync.Sel.posted_adjust_fires_new_timer_early",
    "Kasync.Sel.small_step_back_not_adjusted"
   ],
   "note": "for adjustments made by the selector itself; finding: an adjustment posted from another thread also moves timers registered after the jump"
  },
  {
   "property": "C27",
   "status": "proved",
   "theorems": [
    "Kasync.Mgr.pow2_spec",
    "Kasync.Mgr.selector_count_power_of_two",
    "Kasync.Mgr.selector_by_index_exists",
    "Kasync.Mgr.perfect_selector_exists",
    "Kasync.Mgr.perfect_selector_round_robin",
    "Kasync.Mgr.timeouts_positive",
    "Kasync.Mgr.timeouts_configured",
    "Kasync.Mgr.grow_succeeds_iff",
    "Kasync.Mgr.on_ready_exactly_once",
    "Kasync.Mgr.perfect_may_choose_most_loaded"
   ],
   "note": "loads are read once per call (constant during the call); finding: the chosen selector may be the most loaded one"
  },
  {
   "property": "C28",
   "status": "proved",
   "theorems": [
    "Kasync.Worker.worker_exactly_once",
    "Kasync.Worker.worker_concurrency_bound",
    "Kasync.Worker.worker_no_stuck_job",
    "Kasync.Worker.worker_steps_terminate",
    "Kasync.Worker.worker_quiescent_all_done",
    "Kasync.Worker.worker_start_woken_once",
    "Kasync.Worker.worker_order",
    "Kasync.Worker.worker_refuses_iff",
    "Kasync.Worker.worker_start_accepts",
    "Kasync.Worker.worker_freed_iff",
    "Kasync.Worker.worker_limit_off_by_one",
    "Kasync.Worker.worker_start_failure_ub",
    "Kasync.Worker.worker_zero_max_never_runs"
   ],
   "note": "findings: the queue limit is off by one; a failed thread start releases through a decremented pointer; max_worker 0 never runs a job"
  },
  {
   "property": "C29",
   "status": "proved",
   "theorems": [
    "Kasync.ThrPool.pool_task_exactly_once",
    "Kasync.ThrPool.pool_counts",
    "Kasync.ThrPool.pool_flush_exact",
    "Kasync.ThrPool.pool_close_all_exact",
    "Kasync.ThrPool.pool_start_exact",
    "Kasync.ThrPool.pool_no_failure",
    "Kasync.ThrPool.pool_wake_has_command",
    "Kasync.ThrPool.pool_no_lost_task",
    "Kasync.ThrPool.pool_steps_terminate",
    "Kasync.ThrPool.pool_flush_negative_asserts"
   ],
   "note": "signals sent to pool threads by other code are not modelled; finding: a negative minimum fails the assertion"
  },
  {
   "property": "C30",
   "status": "proved",
   "theorems": [
    "Kasync.Notice.notice_exactly_once",
    "Kasync.Notice.notice_never_empty",
    "Kasync.Notice.notice_drained",
    "Kasync.Notice.notice_progress",
    "Kasync.Notice.notice_steps_terminate",
    "Kasync.Notice.notice_at_most_once",
    "Kasync.Notice.notice_order_reversed",
    "Kasync.Notice.notice_lost_on_write_failure"
   ],
   "note": "when every eventfd write succeeds; findings: newest first, and a failed write leaves a notice behind"
  },
  {
   "property": "C31",
   "status": "proved",
   "theorems": [
    "Kasync.Spin.krw_exclusion",
    "Kasync.Spin.krw_word_counts",
    "Kasync.Spin.krw_acquires_when_free",
    "Kasync.Spin.kwr_exclusion",
    "Kasync.Spin.kwr_one_announced_writer",
    "Kasync.Spin.kwr_writer_stops_new_readers",
    "Kasync.Spin.kwr_acquires_when_free",
    "Kasync.Spin.krw_writer_starves"
   ],
   "note": "sequentially consistent memory, fewer than 2^31 readers; finding: a krw_mutex writer can starve"
  },
  {
   "property": "C32",
   "status": "proved",
   "theorems": [
    "Kasync.KCond.kcond_no_lost_notice",
    "Kasync.KCond.kcond_notice_wakes",
    "Kasync.KCond.kcond_woken_returns",
    "Kasync.KCond.kcond_wait_when_set",
    "Kasync.KCond.kcond_returns_bounded",
    "Kasync.KCond.kcond_single_waiter_exact",
    "Kasync.KCond.kcond_one_notice_two_returns",
    "Kasync.KCond.kcond_second_notice_swallowed",
    "Kasync.KCond.kcond_manual_event_consumed",
    "Kasync.KCond.kcond_spurious_return",
    "Kasync.KCond.kcond_wait_when_clear",
    "Kasync.KCond.kcond_try_wait"
   ],
   "note": "findings: one notice can release two waits, a manual event is consumed by a wait, a spurious wake-up returns"
  },
  {
   "property": "C33",
   "status": "proved",
   "theorems": [
    "Kasync.Addr.addr_request_exactly_once",
    "Kasync.Addr.addr_answer_matches",
    "Kasync.Addr.addr_one_resolution",
    "Kasync.Addr.addr_find_exact",
    "Kasync.Addr.addr_refresh_policy",
    "Kasync.Addr.addr_find_cache_exact",
    "Kasync.Addr.addr_result_recorded",
    "Kasync.Addr.addr_count_exact",
    "Kasync.Addr.addr_refs_exact",
    "Kasync.Addr.addr_flush_exact",
    "Kasync.Addr.addr_only_failures",
    "Kasync.Addr.addr_result_use_after_free",
    "Kasync.Addr.addr_refresh_of_pending_ub",
    "Kasync.Addr.addr_flush_misses_idle"
   ],
   "note": "findings: an answer can be posted after its address was freed; a refresh can unlink an entry that is not linked; a flush can miss idle entries"
  },
  {
   "property": "C34",
   "status": "proved",
   "theorems": [
    "Kasync.NetIO.write_full_exact",
    "Kasync.NetIO.write_full_empty",
    "Kasync.NetIO.read_full_exact",
    "Kasync.NetIO.sendfile_full_exact",
    "Kasync.NetIO.file_read_full_exact",
    "Kasync.NetIO.file_write_full_exact",
    "Kasync.NetIO.file_safe_write_full_exact",
    "Kasync.NetIO.writev_full_exact",
    "Kasync.NetIO.writev_full_empty_tail",
    "Kasync.NetIO.writev_full_large_vector",
    "Kasync.NetIO.file_safe_read_failure_is_eof",
    "Kasync.NetIO.file_safe_read"
   ],
   "note": "each transfer call reports an arbitrary count, at most the request; findings: an empty last vector makes a complete writev look incomplete; vectors of 2 GB are skipped; a failed cross-selector read looks like end of file"
  },
  {
   "property": "C35",
   "status": "proved",
   "theorems": [
    "Kasync.NetIO.ssl_writev_prefix",
    "Kasync.NetIO.ssl_writev_error",
    "Kasync.NetIO.ssl_writev_complete",
    "Kasync.NetIO.kgl_writev_prefix",
    "Kasync.NetIO.ssl_readv_prefix",
    "Kasync.NetIO.kgl_readv_prefix",
    "Kasync.NetIO.ssl_readv_early_wait_is_eof",
    "Kasync.NetIO.ssl_writev_huge_buffer"
   ],
   "note": "OpenSSL results are arbitrary; findings: waiting for early data is reported as end of stream; buffers of 4 GB are cut"
  },
  {
   "property": "C36",
   "status": "proved",
   "theorems": [
    "Kasync.Epoll.epoll_no_ub",
    "Kasync.Epoll.epoll_exactly_once",
    "Kasync.Epoll.epoll_answers_final",
    "Kasync.Epoll.epoll_withdrawn_by_caller",
    "Kasync.Epoll.epoll_hangup_sound",
    "Kasync.Epoll.epoll_registration_consistent",
    "Kasync.Epoll.epoll_read_not_lost",
    "Kasync.Epoll.epoll_write_not_lost",
    "Kasync.Epoll.epoll_readiness_remembered",
    "Kasync.Epoll.epoll_read_served",
    "Kasync.Epoll.epoll_write_served",
    "Kasync.Epoll.epoll_read_completes",
    "Kasync.Epoll.epoll_write_completes",
    "Kasync.Epoll.epoll_readhup_served",
    "Kasync.Epoll.epoll_waiting_supervised",
    "Kasync.Epoll.epoll_connect_supervised",
    "Kasync.Epoll.epoll_expire_answers",
    "Kasync.Epoll.epoll_ctl_failure_hangs_next_read",
    "Kasync.Epoll.epoll_readhup_after_hangup_hangs",
    "Kasync.Epoll.epoll_half_close_refuses_writes",
    "Kasync.Epoll.epoll_half_close_allows_sendfile",
    "Kasync.Epoll.epoll_next_read_unregistered",
    "Kasync.Epoll.epoll_next_write_hangup",
    "Kasync.Epoll.epoll_accept_twice",
    "Kasync.Epoll.epoll_superseded_readhup_destroy",
    "Kasync.Epoll.epoll_remove_forgets"
   ],
   "note": "one connection with its kernel state; four of the caller rules exist because of the defects exhibited by the last theorems; datagram sockets and level-triggered descriptors are not modelled"
  },
  {
   "property": "C37",
   "status": "proved",
   "theorems": [
    "Kasync.Aio.aio_read_request",
    "Kasync.Aio.aio_read_exact",
    "Kasync.Aio.aio_read_eof",
    "Kasync.Aio.aio_read_error",
    "Kasync.Aio.aio_reads_sequential",
    "Kasync.Aio.aio_write_exact",
    "Kasync.Aio.aio_write_accepts",
    "Kasync.Aio.aio_seek",
    "Kasync.Aio.aio_set_direct",
    "Kasync.Aio.aio_align_size_suits",
    "Kasync.Aio.aio_direct_eof_aborts",
    "Kasync.Aio.aio_direct_eof_is_error",
    "Kasync.Aio.aio_read_full_direct_unaligned",
    "Kasync.Aio.aio_read_request_misses_tail",
    "Kasync.Aio.aio_large_alignment_wrong_offset",
    "Kasync.Aio.aio_zero_read_asks_a_block",
    "Kasync.Aio.aio_length_overflow",
    "Kasync.Aio.aio_direct_write_length_unchecked",
    "Kasync.Aio.aio_write_call"
   ],
   "note": "the kernel may answer with any count its data allows or an error; lengths are positive and at least one block below INT_MAX and the alignment is at most 32 KiB (findings show what happens outside)"
  },
  {
   "property": "C38",
   "status": "proved",
   "theorems": [
    "Kasync.Srv.server_no_ub",
    "Kasync.Srv.server_freed_iff",
    "Kasync.Srv.server_refs_exact",
    "Kasync.Srv.server_socket_closed_once",
    "Kasync.Srv.server_close_reaches_all",
    "Kasync.Srv.server_shut_accepts_nothing",
    "Kasync.Srv.server_shut_rank",
    "Kasync.Srv.server_shut_progress",
    "Kasync.Srv.server_shut_listener_finishes",
    "Kasync.Srv.server_close_mac_own_socket",
    "Kasync.Srv.server_close_hits_foreign_socket",
    "Kasync.Srv.server_unix_path_never_removed",
    "Kasync.Srv.server_accept_error_kills_listener",
    "Kasync.Srv.server_posted_callback_dangling",
    "Kasync.Srv.server_close_misses_new_listener"
   ],
   "note": "Linux and macOS branches; rule: a call on the server is made by somebody who has a reference; a listener accepted by a fiber ends when the fiber destroys it; the last five theorems are defects"
  },
  {
   "property": "C39",
   "status": "proved",
   "theorems": [
    "Kasync.Str.string_shared_safely",
    "Kasync.Str.string_freed_when_unreferenced",
    "Kasync.Str.string_last_release_frees",
    "Kasync.Str.string_from_contents",
    "Kasync.Str.string_from2_contents",
    "Kasync.Str.string_from2_embedded_nul",
    "Kasync.Str.string_from2_huge",
    "Kasync.Str.string_many_references_abort"
   ],
   "note": "findings: embedded NUL, 4 GiB, and 0xfffffff references"
  },
  {
   "property": "C40",
   "status": "proved",
   "theorems": [
    "Kasync.Ip.ipaddr_compare_zero_iff",
    "Kasync.Ip.addr_compare_zero_iff",
    "Kasync.Ip.addr_hash_respects_compare",
    "Kasync.Ip.ipaddr_of_sockaddr_compare",
    "Kasync.Ip.ipaddr_compare_anti",
    "Kasync.Ip.ipaddr_compare_trans",
    "Kasync.Ip.ipaddr_compare_undefined_iff",
    "Kasync.Ip.ipaddr6_compare_order",
    "Kasync.Ip.ipaddr_and_idempotent",
    "Kasync.Ip.ipaddr_and_membership",
    "Kasync.Ip.addr_port_roundtrip",
    "Kasync.Ip.cpp_eq_iff",
    "Kasync.Ip.cpp_lt_total_order",
    "Kasync.Ip.cpp_hash_respects_eq",
    "Kasync.Ip.ipaddr_v4_compare_not_an_order",
    "Kasync.Ip.ipaddr_v4_compare_not_numeric",
    "Kasync.Ip.cpp_lt_disagrees_with_compare",
    "Kasync.Ip.cpp_hash_reads_garbage"
   ],
   "note": "little-endian layout; IPv4 and IPv6"
  },
  {
   "property": "C41",
   "status": "proved",
   "theorems": [
    "Kasync.RB.int_cmp_correct_iff",
    "Kasync.RB.int_cmp_order_on_window",
    "Kasync.RB.int_cmp_window_maximal",
    "Kasync.RB.int_keyed_tree_is_map",
    "Kasync.RB.int_cmp_wrap_correct_iff",
    "Kasync.RB.int_cmp_not_an_order"
   ],
   "note": ""
  },
  {
   "property": "C42",
   "status": "proved",
   "theorems": [
    "Kasync.Open.kfopen_bits",
    "Kasync.Open.open_access",
    "Kasync.Open.open_effect",
    "Kasync.Open.open_read_changes_nothing",
    "Kasync.Open.fiber_open_same",
    "Kasync.Open.open_temp_ignored"
   ],
   "note": "Linux branch; open(2) is modelled by its effect on one path; finding: KFILE_TEMP_MODEL is ignored"
  },
  {
   "property": "C43",
   "status": "proved",
   "theorems": [
    "Kasync.AioLoop.aio_told_exactly_once",
    "Kasync.AioLoop.aio_none_lost",
    "Kasync.AioLoop.aio_loop_never_spins",
    "Kasync.AioLoop.aio_progress",
    "Kasync.AioLoop.aio_rank_decreases",
    "Kasync.AioLoop.aio_two_operations_on_a_file"
   ],
   "note": "rule: one operation at a time per file; the last theorem shows what happens otherwise"
  },
  {
   "property": "C44",
   "status": "proved",
   "theorems": [
    "Kasync.RB.string_cmp_order",
    "Kasync.RB.toLower_eq_iff",
    "Kasync.RB.string_keyed_tree_is_map",
    "Kasync.RB.string_case_cmp_order",
    "Kasync.RB.string_case_keyed_tree_is_map"
   ],
   "note": "strcmp and strcasecmp (C locale) are modelled by their libc description"
  },
  {
   "property": "C45",
   "status": "proved",
   "theorems": [
    "Kasync.Tls.tls_handshake_no_ub",
    "Kasync.Tls.tls_handshake_answered_once",
    "Kasync.Tls.tls_handshake_final",
    "Kasync.Tls.tls_handshake_ok_truthful",
    "Kasync.Tls.tls_handshake_failed_truthful",
    "Kasync.Tls.tls_handshake_complete",
    "Kasync.Tls.tls_handshake_waits",
    "Kasync.Tls.tls_handshake_bytes",
    "Kasync.Tls.tls_handshake_early_byte",
    "Kasync.Tls.tls_handshake_early_mode",
    "Kasync.Tls.tls_status_numbers_coincide",
    "Kasync.Tls.tls_shutdown_no_ub",
    "Kasync.Tls.tls_destroyed_once",
    "Kasync.Tls.tls_destroyed_final",
    "Kasync.Tls.tls_shutdown_waits",
    "Kasync.Tls.tls_shutdown_bytes",
    "Kasync.Tls.tls_handshake_timeout_asserts",
    "Kasync.Tls.tls_handshake_timeout_use_after_free",
    "Kasync.Tls.tls_handshake_alert_not_sent",
    "Kasync.Tls.tls_close_notify_not_sent"
   ],
   "note": "OpenSSL is arbitrary; connections flagged STF_RTIME_OUT are excluded because of the defects the findings exhibit"
  },
  {
   "property": "C46",
   "status": "proved",
   "theorems": [
    "Kasync.RBHeap.heap_tree_is_ordered_map",
    "Kasync.RBHeap.heap_links_consistent",
    "Kasync.RBHeap.heap_iterator",
    "Kasync.RBHeap.heap_walk",
    "Kasync.RBHeap.heap_find_cover",
    "Kasync.RBHeap.heap_replace",
    "Kasync.RBHeap.insertColor_refines",
    "Kasync.RBHeap.eraseColor_refines",
    "Kasync.RBHeap.erase_refines",
    "Kasync.RBHeap.alloc_ok_of_distinct"
   ],
   "note": "pointer-level model with 64-bit addresses and packed words, refined to the functional model of C01-C05"
  },
  {
   "property": "C47",
   "status": "proved",
   "theorems": [
    "Kasync.Sched.fiber_no_failure",
    "Kasync.Sched.fiber_callers_form_stack",
    "Kasync.Sched.fiber_control_returns_to_waker",
    "Kasync.Sched.fiber_waker_stays_suspended",
    "Kasync.Sched.fiber_call_returns_given_value",
    "Kasync.Sched.fiber_completion_not_lost",
    "Kasync.Sched.fiber_wakeup_runs_at_once",
    "Kasync.Sched.fiber_posted_wakeup_delivered",
    "Kasync.Sched.fiber_immediate_completion",
    "Kasync.Sched.fiber_resumed_only_by_completion",
    "Kasync.Sched.fiber_exit_once",
    "Kasync.Sched.fiber_exit_recorded",
    "Kasync.Sched.fiber_exit_handled",
    "Kasync.Sched.fiber_main_iff",
    "Kasync.Sched.fiber_loop_reachable"
   ],
   "note": "context switch primitives trusted; each call completed once (the callers of kfiber_wakeup); findings: read timeouts leave a second completion, waking a fiber that is not waiting"
  },
  {
   "property": "C48",
   "status": "proved",
   "theorems": [
    "Kasync.Tls.Bio.bio_wire",
    "Kasync.Tls.Bio.bio_fed",
    "Kasync.Tls.Bio.bio_answered_once",
    "Kasync.Tls.Bio.bio_write_answer",
    "Kasync.Tls.Bio.bio_write_records",
    "Kasync.Tls.Bio.bio_eof",
    "Kasync.Tls.Bio.bio_end_remembered",
    "Kasync.Tls.Bio.bio_read_next",
    "Kasync.Tls.Bio.bio_wait_empty",
    "Kasync.Tls.Bio.bio_read_start",
    "Kasync.Tls.Bio.bio_again",
    "Kasync.Tls.Bio.bio_alloc",
    "Kasync.Tls.Bio.bio_iov",
    "Kasync.Tls.Bio.bio_write_progress",
    "Kasync.Tls.Bio.bio_release_safe",
    "Kasync.Tls.Bio.bio_debug_aborts",
    "Kasync.Tls.Bio.bio_timeout_keeps"
   ],
   "note": "OpenSSL arbitrary, both BIOs empty at the start; the three assertions a debug build can trip are characterised exactly"
  },
  {
   "property": "C49",
   "status": "proved",
   "theorems": [
    "Kasync.Uring.uring_answered_once",
    "Kasync.Uring.uring_no_request_lost",
    "Kasync.Uring.uring_drained",
    "Kasync.Uring.uring_answers",
    "Kasync.Uring.uring_own_answers",
    "Kasync.Uring.uring_one_entry_per_slot",
    "Kasync.Uring.uring_safe",
    "Kasync.Uring.uring_pipe_released",
    "Kasync.Uring.uring_pipe_kept",
    "Kasync.Uring.uring_ring_bound",
    "Kasync.Uring.uring_again"
   ],
   "note": "the kernel may complete in every order with every result; pipe2 succeeding and room for the timeout entry are hypotheses (see the findings); one request per direction of a socket, one per file"
  },
  {
   "property": "C50",
   "status": "proved",
   "theorems": [
    "Kasync.Tls.Proto.protocols_exact",
    "Kasync.Tls.Proto.protocols_usable",
    "Kasync.Tls.Proto.protocols_none"
   ],
   "note": "C locale; OpenSSL with TLS 1.3; the six SSL_OP_NO_* bits and the version bounds decide what a connection can use; strdup is assumed to succeed"
  },
  {
   "property": "C51",
   "status": "proved",
   "theorems": [
    "Kasync.Tls.Cert.certificate_defined",
    "Kasync.Tls.Cert.certificate_iff",
    "Kasync.Tls.Cert.certificate_contents",
    "Kasync.Tls.Cert.certificate_ledger",
    "Kasync.Tls.Cert.certificate_passwords",
    "Kasync.Tls.Cert.password_callback_bound",
    "Kasync.Tls.Cert.post_init_key",
    "Kasync.Tls.Cert.new_server_exact"
   ],
   "note": "OpenSSL is an environment (PEM blocks of a text, failures, which key fits); one certificate slot per context; reference counts follow the OpenSSL documentation; kgl_ssl_ctx_new_server (files read by OpenSSL itself) is covered only through its last step"
  },
  {
   "property": "C52",
   "status": "proved",
   "theorems": [
    "Kasync.SslCtx.sslctx_no_ub",
    "Kasync.SslCtx.sslctx_freed_iff",
    "Kasync.SslCtx.sslctx_refs_exact",
    "Kasync.SslCtx.sslctx_openssl_freed_iff",
    "Kasync.SslCtx.sslctx_connection_context_alive",
    "Kasync.SslCtx.sslctx_nothing_leaked",
    "Kasync.SslCtx.sslctx_set_null_ignored",
    "Kasync.SslCtx.sslctx_set_reaches",
    "Kasync.SslCtx.sslctx_bind_reaches",
    "Kasync.SslCtx.sslctx_connection_uses",
    "Kasync.SslCtx.sslctx_stays_tls",
    "Kasync.SslCtx.sslctx_update_runs",
    "Kasync.SslCtx.sslctx_bind_result",
    "Kasync.SslCtx.sslctx_two_updates_older_wins",
    "Kasync.SslCtx.sslctx_tls_server_serves_plain",
    "Kasync.SslCtx.sslctx_update_of_freed_listener",
    "Kasync.SslCtx.sslctx_listen_races_set",
    "Kasync.SslCtx.sslctx_set_after_close_races_accept",
    "Kasync.SslCtx.sslctx_failed_bind_refuses_plain"
   ],
   "note": "rules (Disc): configuring calls do not overlap, no listener is freed while an update for it is pending, no direct update while its listener makes a connection; for which context wins, no older update pending; the last six theorems show the defects without them"
  },
  {
   "property": "C53",
   "status": "proved",
   "theorems": [
    "Kasync.Sni.sni_asked",
    "Kasync.Sni.sni_freed_once",
    "Kasync.Sni.sni_context",
    "Kasync.Sni.sni_verdict",
    "Kasync.Sni.nosni_rejected",
    "Kasync.Sni.alpn_choice",
    "Kasync.Sni.chosen_unique",
    "Kasync.Sni.client_offer",
    "Kasync.Sni.sni_no_crash",
    "Kasync.Sni.sni_asked_twice",
    "Kasync.Sni.unset_sni_crashes",
    "Kasync.Sni.no_server_crashes"
   ],
   "note": "OpenSSL decides when the callbacks run; SSL_select_next_proto is modelled by its documentation; crash freedom needs the calling discipline (callbacks not unset, connections of a kserver)"
  },
  {
   "property": "C54",
   "status": "proved",
   "theorems": [
    "Kasync.Sock.listen_failed",
    "Kasync.Sock.listen_exact",
    "Kasync.Sock.listen_iff",
    "Kasync.Sock.listen_paths",
    "Kasync.Sock.newUdp_exact",
    "Kasync.Sock.udpNew_exact",
    "Kasync.Sock.accept_exact",
    "Kasync.Sock.connect_exact",
    "Kasync.Sock.half_exact",
    "Kasync.Sock.connHalf_exact",
    "Kasync.Sock.listen_retries",
    "Kasync.Sock.server_listeners",
    "Kasync.Sock.server_address",
    "Kasync.Sock.server_attempts",
    "Kasync.Sock.server_all_selectors",
    "Kasync.Sock.inet_accept_in_bounds",
    "Kasync.Sock.unix_server_only_last_reachable",
    "Kasync.Sock.unix_listen_removes_live_socket",
    "Kasync.Sock.unix_accept_reads_beyond",
    "Kasync.Sock.no_cloexec_leaks",
    "Kasync.Sock.reconnect_leaks",
    "Kasync.Sock.retries_used_up",
    "Kasync.Sock.connect_timeout_overflow"
   ],
   "note": "system calls are an environment with every combination of failures; Linux and macOS builds; no other thread opens or closes descriptors during the call"
  },
  {
   "property": "C55",
   "status": "proved",
   "theorems": [
    "Kasync.Udp.udp_delivered",
    "Kasync.Udp.udp_answered_once",
    "Kasync.Udp.udp_answers_requests",
    "Kasync.Udp.udp_no_lost_wakeup",
    "Kasync.Udp.udp_recvaddr_exact",
    "Kasync.Udp.udp_recvaddr_stable",
    "Kasync.Udp.udp_recvaddr_sound",
    "Kasync.Udp.udp_recvaddr_without",
    "Kasync.Udp.udp_send_exact",
    "Kasync.Udp.recvaddr_before_first_read",
    "Kasync.Udp.recvaddr_never_v6",
    "Kasync.Udp.eintr_loses_the_event",
    "Kasync.Udp.failed_registration_hangs",
    "Kasync.Udp.truncation_not_reported",
    "Kasync.Udp.udp_recvaddr_kind"
   ],
   "note": "Linux, non-blocking socket, epoll or io_uring, no read timeouts; udp_no_lost_wakeup assumes registrations succeed and, with epoll, no EINTR (findings show what happens otherwise)"
  },
  {
   "property": "C56",
   "status": "proved",
   "theorems": [
    "Kasync.RTime.rtime_stream",
    "Kasync.RTime.rtime_calls",
    "Kasync.RTime.rtime_no_stray",
    "Kasync.RTime.rtime_no_ub",
    "Kasync.RTime.rtime_served",
    "Kasync.RTime.rtime_eof",
    "Kasync.RTime.rtime_eof_served",
    "Kasync.RTime.rtime_again",
    "Kasync.RTime.rtime_limit",
    "Kasync.RTime.rtime_call",
    "Kasync.RTime.rtime_without_timeouts",
    "Kasync.RTime.repeated_elsewhere_wrong_buffer",
    "Kasync.RTime.repeated_elsewhere_undefined",
    "Kasync.RTime.other_wait_woken"
   ],
   "note": "one reading fiber, plain socket, release build; for programs that repeat the call from the same place after ST_ERR_TIME_OUT and wait for nothing else in between; the last three theorems show what happens otherwise"
  },
  {
   "property": "C57",
   "status": "proved",
   "theorems": [
    "Kasync.Tick.tick_rounds",
    "Kasync.Tick.tick_running",
    "Kasync.Tick.tick_created_once",
    "Kasync.Tick.tick_no_ub",
    "Kasync.Tick.close_next_undefined",
    "Kasync.Tick.registered_twice_undefined",
    "Kasync.Tick.round_without_end"
   ],
   "note": "list links in memory, callbacks are arbitrary code; rules (Disc): a tick is registered at most once, not used after it was closed, and a callback does not close the tick called next; the last three theorems show what happens otherwise"
  },
  {
   "property": "C58",
   "status": "proved",
   "theorems": [
    "Kasync.Remote.remote_safe",
    "Kasync.Remote.remote_call_ok",
    "Kasync.Remote.remote_result",
    "Kasync.Remote.remote_thread_call_waits",
    "Kasync.Remote.remote_rest_pool",
    "Kasync.Remote.remote_rest_join",
    "Kasync.Remote.remote_freed",
    "Kasync.Remote.remote_progress",
    "Kasync.Remote.finding_spurious"
   ],
   "note": "any number of selectors, fibers, pool threads and plain threads; without spurious wake-ups of pthread_cond_wait (finding_spurious shows the code with one); a handle is joined once, by its creator"
  },
  {
   "property": "C59",
   "status": "proved",
   "theorems": [
    "Kasync.Mlife.life_once",
    "Kasync.Mlife.life_thread",
    "Kasync.Mlife.life_on_time",
    "Kasync.Mlife.life_rest",
    "Kasync.Mlife.life_progress",
    "Kasync.Mlife.life_settles",
    "Kasync.Mlife.life_bounded",
    "Kasync.Mlife.life_no_ub",
    "Kasync.Mlife.shutdown_no_ub",
    "Kasync.Mlife.release_never_ends",
    "Kasync.Mlife.timer_after_setback_early",
    "Kasync.Mlife.timer_across_setback_late",
    "Kasync.Mlife.timer_before_clock",
    "Kasync.Mlife.on_ready_lost",
    "Kasync.Mlife.close_loses_callbacks",
    "Kasync.Mlife.close_before_born",
    "Kasync.Mlife.close_forward_destroyed"
   ],
   "note": "any number of selectors, calls and threads; life_once and life_thread hold without rules; the rules of the others (calm, polite) are in LifeSpec, and the findings show what happens when they are broken; timer lists are C24, delivery of notices C30, the choice of a selector C27"
  },
  {
   "property": "C60",
   "status": "proved",
   "theorems": [
    "Kasync.Kq.kq_no_ub",
    "Kasync.Kq.kq_released_unregistered",
    "Kasync.Kq.kq_exactly_once",
    "Kasync.Kq.kq_answers_final",
    "Kasync.Kq.kq_answers_true",
    "Kasync.Kq.kq_kind_kept",
    "Kasync.Kq.kq_not_lost",
    "Kasync.Kq.kq_watched",
    "Kasync.Kq.kq_settles",
    "Kasync.Kq.kq_read_completes",
    "Kasync.Kq.kq_write_completes",
    "Kasync.Kq.kq_connect_reported",
    "Kasync.Kq.sendfile_error_spins",
    "Kasync.Kq.sendfile_error_recursion",
    "Kasync.Kq.failed_sendfile_poisons_write",
    "Kasync.Kq.failed_registration_hangs",
    "Kasync.Kq.refused_connect_reported_ok",
    "Kasync.Kq.connect_reported_early",
    "Kasync.Kq.next_read_unregistered"
   ],
   "note": "any history of caller, kernel and selector; the liveness part (not_lost, watched, settles, completes) needs a kevent that does not fail, and the rules exclude the defects shown in the findings; listening and datagram sockets, TLS and EVFILT_AIO on kqueue are not modelled"
  },
  {
   "property": "C61",
   "status": "proved",
   "theorems": [
    "Kasync.Iocp.iocp_no_ub",
    "Kasync.Iocp.iocp_exactly_once",
    "Kasync.Iocp.iocp_answer_true",
    "Kasync.Iocp.iocp_outcome_source",
    "Kasync.Iocp.iocp_rest",
    "Kasync.Iocp.iocp_settles",
    "Kasync.Iocp.iocp_notices",
    "Kasync.Iocp.iocp_sockets",
    "Kasync.Iocp.iocp_accept_socket",
    "Kasync.Iocp.iocp_released",
    "Kasync.Iocp.failed_post_is_silent",
    "Kasync.Iocp.accept_spins",
    "Kasync.Iocp.recvfrom_dangles"
   ],
   "note": "one selectable (connection, listening socket or file) with the port, its notices and the kernel; rules: bound once and first, one request per direction (one for a file), nothing outstanding at release; datagram reads have a kudp_extend; TLS and time-limited reads not included; the last three theorems are findings"
  },
  {
   "property": "C62",
   "status": "proved",
   "theorems": [
    "Kasync.MDbg.mdbg_safe",
    "Kasync.MDbg.mdbg_abort_iff",
    "Kasync.MDbg.mdbg_no_false_alarm",
    "Kasync.MDbg.mdbg_blocks",
    "Kasync.MDbg.mdbg_frame",
    "Kasync.MDbg.mdbg_malloc",
    "Kasync.MDbg.mdbg_realloc",
    "Kasync.MDbg.mdbg_realloc_plain",
    "Kasync.MDbg.mdbg_off",
    "Kasync.MDbg.mdbg_free",
    "Kasync.MDbg.mdbg_completes",
    "Kasync.MDbg.mdbg_kept",
    "Kasync.MDbg.mdbg_no_leak",
    "Kasync.MDbg.mdbg_not_kept",
    "Kasync.MDbg.mdbg_dump",
    "Kasync.MDbg.mdbg_misaligned",
    "Kasync.MDbg.mdbg_calloc_overflow",
    "Kasync.MDbg.mdbg_size_overflow",
    "Kasync.MDbg.mdbg_realloc_in_dump",
    "Kasync.MDbg.mdbg_overlapping_dumps"
   ],
   "note": "the C library is an environment that returns blocks apart from those given out and does not run out of memory; the report is taken as one step (the code walks a chain without its lock); stack traces not modelled; the last five theorems are findings"
  },
  {
   "property": "C63",
   "status": "proved",
   "theorems": [
    "Kasync.FNet.fnet_no_ub",
    "Kasync.FNet.fnet_answered",
    "Kasync.FNet.fnet_truthful",
    "Kasync.FNet.fnet_waiting",
    "Kasync.FNet.fnet_shutdown_right",
    "Kasync.FNet.fnet_shutdown_done",
    "Kasync.FNet.fnet_shutdown_at_once",
    "Kasync.FNet.fnet_owned",
    "Kasync.FNet.fnet_once",
    "Kasync.FNet.fnet_counted",
    "Kasync.FNet.fnet_addr_freed",
    "Kasync.FNet.fnet_all_closed",
    "Kasync.FNet.fnet_getaddr_gives",
    "Kasync.FNet.fnet_accept_gives",
    "Kasync.FNet.fnet_file_open",
    "Kasync.FNet.accept_zero_without_connection",
    "Kasync.FNet.shutdown_after_failed_handshake",
    "Kasync.FNet.shutdown_zero_on_failure"
   ],
   "note": "any number of fibers, connections, files and addresses; resolver, kernel, selector and OpenSSL are an environment; rules: one call per fiber at a time, one fiber per connection; TLS without memory BIOs; the last three theorems are findings"
  },
  {
   "property": "C64",
   "status": "proved",
   "theorems": [
    "Kasync.Tls.Sid.sid_file_iff",
    "Kasync.Tls.Sid.sid_file_exact",
    "Kasync.Tls.Sid.sid_file_any",
    "Kasync.Tls.Sid.sid_text",
    "Kasync.Tls.Sid.sid_clean",
    "Kasync.Tls.Sid.ctx_clean",
    "Kasync.Tls.Sid.new_server",
    "Kasync.Tls.Sid.server_resume",
    "Kasync.Tls.Sid.server_renewed",
    "Kasync.Tls.Sid.load_resume",
    "Kasync.Tls.Sid.new_server2",
    "Kasync.Tls.Sid.new_client",
    "Kasync.Tls.Sid.authorities_not_separated",
    "Kasync.Tls.Sid.text_name_not_content",
    "Kasync.Tls.Sid.name_runs_into_content",
    "Kasync.Tls.Sid.failed_update_ignored",
    "Kasync.Tls.Sid.client_id_refused"
   ],
   "note": "SHA-1 is any function with 20 byte results; separation of sessions is stated for inputs on which it does not collide; OpenSSL and the disk are an environment; the last five theorems are findings"
  },
  {
   "property": "C65",
   "status": "proved",
   "theorems": [
    "Kasync.RB.Augment.augment_insert",
    "Kasync.RB.Augment.augment_erase",
    "Kasync.RB.Augment.augment_history",
    "Kasync.RB.Augment.augment_total"
   ],
   "note": "zipper level of the tree (the pointer level is C46); the callback computes the summary of a node from the node and the summaries of its children; nodes have distinct identities; rb_augment_erase_begin is called before and rb_augment_erase_end after rb_erase, as the comments in the code demand"
  },
  {
   "property": "C66",
   "status": "proved",
   "theorems": [
    "Kasync.WFile.wfile_exactly_once",
    "Kasync.WFile.wfile_result",
    "Kasync.WFile.wfile_data",
    "Kasync.WFile.wfile_disk",
    "Kasync.WFile.overwrite_get",
    "Kasync.WFile.wfile_stream",
    "Kasync.WFile.wfile_returns",
    "Kasync.WFile.wfile_memory",
    "Kasync.WFile.wfile_progress",
    "Kasync.WFile.wfile_settles",
    "Kasync.WFile.mac_calls_fail",
    "Kasync.WFile.second_operation_replaces_first"
   ],
   "note": "the worker pool is abstracted to a first-in first-out queue with a limit of threads (its locks and links are C28); system calls are an environment restricted to what POSIX allows; rules: one operation per file at a time, buffers of operations under way apart and not written by the program; no direct IO, no appending; the last two theorems are findings"
  },
  {
   "property": "C67",
   "status": "proved",
   "theorems": [
    "Kasync.Lookup.addr_build",
    "Kasync.Lookup.addr_build_reads",
    "Kasync.Lookup.addr_build_shared",
    "Kasync.Lookup.addr_build_one_port",
    "Kasync.Lookup.addr_build_undisturbed",
    "Kasync.Lookup.getaddr_spec",
    "Kasync.Lookup.ipaddr_text_round_trip",
    "Kasync.Lookup.ipaddr_text_fits",
    "Kasync.Lookup.unix_addr_exact",
    "Kasync.Lookup.switches",
    "Kasync.Lookup.shared_port_race",
    "Kasync.Lookup.cname_never_asked",
    "Kasync.Lookup.unix_addr_cut",
    "Kasync.Lookup.is_block_inverted",
    "Kasync.Lookup.forever_taken_back",
    "Kasync.Lookup.ipaddr_text_no_room"
   ],
   "note": "little-endian machine, KSOCKET_IPV6 build; a store of the port and the copy are one step each; getaddrinfo and getnameinfo are an environment that agrees with itself on numeric addresses; the last six theorems are findings"
  },
  {
   "property": "C68",
   "status": "proved",
   "theorems": [
    "Kasync.Plain.read_exact",
    "Kasync.Plain.read_all_exact",
    "Kasync.Plain.read_all_complete",
    "Kasync.Plain.write_exact",
    "Kasync.Plain.write_refused",
    "Kasync.Plain.seek_exact",
    "Kasync.Plain.seek_end_is_size",
    "Kasync.Plain.open_exact",
    "Kasync.Plain.open_refused",
    "Kasync.Plain.open_succeeds",
    "Kasync.Plain.close_exact",
    "Kasync.Plain.append_history",
    "Kasync.Plain.readers_change_nothing",
    "Kasync.Plain.own_offset",
    "Kasync.Plain.write_read_back",
    "Kasync.Plain.size_exact",
    "Kasync.Plain.utime_exact",
    "Kasync.Plain.last_modified_exact",
    "Kasync.Plain.created_is_private",
    "Kasync.Plain.read_all_interrupted",
    "Kasync.Plain.last_modified_of_link",
    "Kasync.Plain.size_of_nothing",
    "Kasync.Plain.seek_unknown_is_begin",
    "Kasync.Plain.writers_overwrite"
   ],
   "note": "regular files and links to them on a small kernel model (Linux branch); names are not removed; the mode flags of open are those of C42"
  },
  {
   "property": "C69",
   "status": "proved",
   "theorems": [
    "Kasync.Adopt.bind_exact",
    "Kasync.Adopt.bind_port",
    "Kasync.Adopt.bind_path",
    "Kasync.Adopt.adopt_result",
    "Kasync.Adopt.adopt_addr",
    "Kasync.Adopt.adopt_path",
    "Kasync.Adopt.net_listen_exact",
    "Kasync.Adopt.open_one_exact",
    "Kasync.Adopt.server_books",
    "Kasync.Adopt.adopt_path_cut",
    "Kasync.Adopt.adopt_path_mixed",
    "Kasync.Adopt.adopt_refused_keeps_listener",
    "Kasync.Adopt.open_true_without_listener",
    "Kasync.Adopt.net_listen_zero"
   ],
   "note": "calls of one thread; TLS contexts are those of C52, interleavings those of C38, socket options and retries those of C54; a new listening socket has the family of the address (kernel assumption)"
  },
  {
   "property": "C70",
   "status": "proved",
   "theorems": [
    "Kasync.Atom.atom_linear",
    "Kasync.Atom.atom_never_blocks",
    "Kasync.Atom.atom_total",
    "Kasync.Atom.atom_tickets",
    "Kasync.Atom.atom_refcount",
    "Kasync.Atom.atom_exchange",
    "Kasync.Atom.atom_lock",
    "Kasync.Atom.atom_results",
    "Kasync.Atom.sub_least_undefined",
    "Kasync.Atom.dec_below_zero"
   ],
   "note": "POSIX branch; the __sync built-ins are taken as atomic and sequentially consistent"
  },
  {
   "property": "C71",
   "status": "proved",
   "theorems": [
    "Kasync.KBuf.Num.decimal_unique",
    "Kasync.KBuf.Num.krw_int_exact",
    "Kasync.KBuf.Num.krw_int64_exact",
    "Kasync.KBuf.Num.ks_int_exact",
    "Kasync.KBuf.Num.ks_int64_exact",
    "Kasync.KBuf.Num.lines_exact",
    "Kasync.KBuf.Num.lines_readable",
    "Kasync.KBuf.Num.no_separator_ambiguous"
   ],
   "note": "snprintf as in the C standard; allocation succeeds (ks_write_int ignores the result of ks_write_str)"
  },
  {
   "property": "C72",
   "status": "proved",
   "theorems": [
    "Kasync.Klib.bufs_size",
    "Kasync.Klib.bufs_size_count",
    "Kasync.Klib.absolute_path",
    "Kasync.Klib.absolute_total",
    "Kasync.Klib.msleep_exact",
    "Kasync.Klib.bufs_size_wraps",
    "Kasync.Klib.msleep_negative"
   ],
   "note": "POSIX branch"
  }
 ]
}