{"id": "C01", "title": "Red-black tree behaves as an ordered map", "statement": "For a comparator that is a strict total order, after any sequence of rbtree_insert and rbtree_remove calls: rbtree_find(key) returns the node stored for key exactly when such a node was inserted and not yet removed; rbtree_insert returns the already stored node with new_flag=0 when the key is present and otherwise adds exactly one node with new_flag=1; rbtree_remove deletes exactly the node it is given.", "quantifier": "every comparator that is a total order, every finite sequence of insert/remove calls, every key", "why_tests_cant": "The rebalancing cases that run depend on the whole insertion/removal history; a test covers a few shapes of an unbounded set.", "anchors": ["src/krbtree.c:rbtree_insert", "src/krbtree.c:rbtree_find", "src/krbtree.c:rbtree_remove", "src/krbtree.c:rb_insert_color", "src/krbtree.c:rb_erase"]}
{"id": "C02", "title": "Traversal visits every node once in key order", "statement": "Starting at rb_first and following rb_next until NULL visits every node in the tree exactly once in ascending key order; rb_last/rb_prev visit the same nodes in the reverse order; rb_prev inverts rb_next.", "quantifier": "every tree reachable by insert/remove, every node in it", "why_tests_cant": "Depends on parent links and the shape of every subtree; only particular shapes can be tested.", "anchors": ["src/krbtree.c:rb_first", "src/krbtree.c:rb_next", "src/krbtree.c:rb_last", "src/krbtree.c:rb_prev"]}
{"id": "C03", "title": "Red-black tree stays balanced and rebalancing never dereferences NULL", "statement": "After every insert and remove the root is black, no red node has a red child, and every root-to-NULL path has the same number of black nodes, hence a lookup inspects at most 2*log2(n+1) nodes; on such trees the fix-up code never follows a NULL grandparent, sibling or nephew.", "quantifier": "every finite sequence of insert/remove calls and every tree size", "why_tests_cant": "Worst case depth and NULL safety are universally quantified over shapes.", "anchors": ["src/krbtree.c:rb_insert_color", "src/krbtree.c:__rb_erase_color", "src/krbtree.c:rb_erase"]}
{"id": "C04", "title": "find_cover returns the greatest key not above the argument, wrapping to the maximum", "statement": "rbtree_find_cover returns NULL exactly for the empty tree; otherwise it returns the node with the greatest key <= the argument, or, if every key is greater than the argument, the node with the greatest key of the tree.", "quantifier": "every search tree and every key", "why_tests_cant": "The result depends on the position of the key relative to all stored keys.", "anchors": ["src/krbtree.c:rbtree_find_cover"]}
{"id": "C05", "title": "Iterating with removal removes exactly the nodes the callback asked to remove", "statement": "rbtree_iterator calls the callback on nodes in ascending order, once each, stopping after the first break verdict; afterwards the tree contains exactly the nodes for which no remove verdict was returned, and it is still a valid red-black search tree.", "quantifier": "every tree and every (possibly stateful) callback", "why_tests_cant": "Removal rebalances the tree while the saved successor pointer is held; correctness for every shape and verdict sequence cannot be sampled.", "anchors": ["src/krbtree.c:rbtree_iterator", "src/krbtree.c:rbtree_remove"]}
{"id": "C06", "title": "Intrusive list is a sequence", "statement": "klist_init gives the empty list; klist_insert appends at the tail; klist_remove deletes exactly the given element wherever it is and leaves the other elements in order and all links mutually consistent; foreach visits the elements in order; memory of other lists and elements is untouched.", "quantifier": "every list, every element, every interleaving of operations on disjoint lists", "why_tests_cant": "Aliasing and link consistency are properties of all heaps.", "anchors": ["include/klist.h:klist_init", "include/klist.h:klist_insert", "include/klist.h:klist_remove", "include/klist.h:klist_foreach"]}
{"id": "C07", "title": "Chunked read/write buffer is a lossless FIFO byte stream", "statement": "For any interleaving of writes (direct, or get_write_buffer/write_success), appended chunks and reads of any size on a krw_buffer, the concatenation of the bytes read followed by the bytes still readable equals the concatenation of the bytes written; total_len is always the number of readable bytes.", "quantifier": "every chunk size, every byte string, every interleaving of write/append/read operations", "why_tests_cant": "Chunk boundary handling depends on the whole history of sizes.", "anchors": ["src/kbuf.c:krw_write_str", "src/kbuf.c:krw_append", "src/kbuf.c:krw_read_success", "src/kbuf.c:krw_get_write_buffer", "src/kbuf.c:krw_write_success", "src/kbuf.c:krw_read"]}
{"id": "C08", "title": "Gathered read buffers describe exactly the next readable bytes", "statement": "krw_get_read_buffers(n) returns a list of byte ranges which is a prefix of the readable stream, in order, of at most n ranges, and of the whole stream when there are at most n chunks; the first range starts at the current read position.", "quantifier": "every buffer state and every n", "why_tests_cant": "Depends on arbitrary chunk lists and read offsets.", "anchors": ["src/kbuf.c:krw_get_read_buffers", "src/kbuf.c:krw_get_read_buffer"]}
{"id": "C09", "title": "Prepending to a buffer that has not been partially read puts the bytes first", "statement": "krw_insert of a chunk in front of a buffer whose front chunk is untouched makes the chunk's bytes the next ones read and keeps all other bytes in order. (If the front chunk was partially read the already consumed bytes are delivered again.)", "quantifier": "every buffer and chunk", "why_tests_cant": "The offset reset only matters for particular read histories.", "anchors": ["src/kbuf.c:krw_insert"]}
{"id": "C10", "title": "Linear send buffer keeps all bytes through growth", "statement": "For any interleaving of ks_write_str / ks_get_write_buffer+write_success / ks_read_success / ks_save_point, the readable content of a ks_buffer is the concatenation of what was written minus the consumed prefix; used never exceeds the allocation and growth never loses or reorders bytes.", "quantifier": "every sequence of operations and every size", "why_tests_cant": "Growth and compaction depend on the history of sizes.", "anchors": ["src/kbuf.c:ks_write_str", "src/kbuf.c:ks_guarantee", "src/kbuf.c:ks_read_success", "include/kbuf.h:ks_get_write_buffer", "include/kbuf.h:ks_save_point"]}
{"id": "C11", "title": "Seeking in a buffer chain or iovec skips exactly n bytes", "statement": "kbuf_seek / kgl_iovec_seek of n bytes over a chain holding at least n bytes leaves exactly the bytes after the first n; seeking past the end of a kbuf chain dereferences NULL.", "quantifier": "every chain and every n", "why_tests_cant": "Every split of n over chunk boundaries.", "anchors": ["include/kbuf.h:kbuf_seek", "include/kbuf.h:kgl_iovec_seek"]}
{"id": "C12", "title": "Pool allocations never overlap and lie in memory the pool owns", "statement": "Every pointer returned by kgl_palloc, kgl_pnalloc or kgl_pmemalign designates a block of the requested size which lies inside memory obtained by the pool and not yet returned, is disjoint from every other live block of the pool and from the pool's own headers, and (for kgl_palloc and kgl_pmemalign) has the promised alignment.", "quantifier": "every pool size (multiple of the alignment, at least the header), every sequence of allocations, frees, resets", "why_tests_cant": "Overlap depends on the complete allocation history.", "anchors": ["src/kmalloc.c:kgl_palloc", "src/kmalloc.c:kgl_pnalloc", "src/kmalloc.c:kgl_palloc_small", "src/kmalloc.c:kgl_palloc_block", "src/kmalloc.c:kgl_palloc_large"]}
{"id": "C13", "title": "Pool destroy frees everything once and runs clean-ups in reverse order", "statement": "kgl_destroy_pool runs every registered clean-up with a handler exactly once in reverse order of registration, then frees every block and every not yet freed large allocation exactly once; kgl_pfree frees a large allocation at most once.", "quantifier": "every history of allocations, frees, clean-up registrations", "why_tests_cant": "Exactly-once over every history.", "anchors": ["src/kmalloc.c:kgl_destroy_pool", "src/kmalloc.c:kgl_pool_cleanup_add", "src/kmalloc.c:kgl_pfree"]}
{"id": "C14", "title": "Dynamic array keeps pushed elements in order", "statement": "After any sequence of kgl_array_push / kgl_array_push_n on an array created with capacity n >= 1, element i of the array is the i-th pushed element and nelts <= nalloc; slots returned are inside the array's memory.", "quantifier": "every sequence of pushes, every element size and pool state", "why_tests_cant": "Growth in place versus copy depends on what else the pool allocated in between.", "anchors": ["src/kmalloc.c:kgl_array_create", "src/kmalloc.c:kgl_array_push", "src/kmalloc.c:kgl_array_push_n"]}
{"id": "C15", "title": "Fiber mutex admits at most its limit of holders", "statement": "At every point of every execution the number of fibers between a successful lock and the matching unlock of a kfiber mutex is at most the limit (1 unless set_limit was used); with limit 1 it is mutual exclusion.", "quantifier": "every number of fibers, every schedule of lock, try_lock, unlock", "why_tests_cant": "All interleavings of an unbounded number of fibers.", "anchors": ["include/kfiber_sync.h:__kfiber_mutex_lock", "include/kfiber_sync.h:kfiber_mutex_unlock"]}
{"id": "C16", "title": "Fiber mutex loses no wake-up", "statement": "A fiber waits for a kfiber mutex only while the limit number of holders exists; each unlock with waiters hands the slot to exactly one waiter; when all holders have unlocked as often as they locked and no one else locks, every waiter has been granted the lock.", "quantifier": "every schedule", "why_tests_cant": "Lost wake-ups appear only in particular interleavings.", "anchors": ["include/kfiber_sync.h:kfiber_mutex_unlock", "include/kfiber_sync.h:__kfiber_mutex_lock"]}
{"id": "C17", "title": "Mutex try-lock bound", "statement": "kfiber_mutex_try_lock(m,max) refuses exactly when the number of fibers holding or waiting for the mutex is already at least max (max>0); refused callers change nothing.", "quantifier": "every state and schedule", "why_tests_cant": "State space of holders and waiters is unbounded.", "anchors": ["include/kfiber_sync.h:kfiber_mutex_try_lock"]}
{"id": "C18", "title": "Fiber read-write lock excludes writers", "statement": "At every point of every execution a kfiber rwlock is held either by any number of readers and no writer or by exactly one writer and no reader.", "quantifier": "every number of fibers and every schedule of rlock, wlock, runlock, wunlock", "why_tests_cant": "All interleavings.", "anchors": ["include/kfiber_sync.h:kfiber_rwlock_rlock", "include/kfiber_sync.h:kfiber_rwlock_wlock", "include/kfiber_sync.h:kfiber_rwlock_runlock", "include/kfiber_sync.h:kfiber_rwlock_wunlock"]}
{"id": "C19", "title": "Fiber read-write lock loses no wake-up", "statement": "Whenever the lock is free no fiber waits for it; a reader waits only while a writer holds it or waits for it.", "quantifier": "every schedule", "why_tests_cant": "All interleavings.", "anchors": ["include/kfiber_sync.h:kfiber_rwlock_wunlock", "include/kfiber_sync.h:kfiber_rwlock_try_wakeup_writer"]}
{"id": "C20", "title": "Auto-reset fiber condition counts notices", "statement": "For an auto-reset condition the number of completed waits plus the number of stored notices equals the number of notices given; no fiber waits while a notice is stored; each notice releases exactly one wait.", "quantifier": "every schedule of wait, try_wait, notice", "why_tests_cant": "All interleavings.", "anchors": ["src/kfiber_sync.c:kfiber_cond_init", "src/kfiber_sync.c:kfiber_cond_notice"]}
{"id": "C21", "title": "Manual-reset fiber condition releases everyone and stays set", "statement": "After a notice on a manual-reset condition every waiting fiber has been released and every later wait returns immediately, for good (the API has no reset).", "quantifier": "every schedule", "why_tests_cant": "All interleavings and numbers of waiters.", "anchors": ["src/kfiber_sync.c:kfiber_cond_init"]}
{"id": "C22", "title": "Channel delivers each sent value to exactly one receiver", "statement": "Every value passed to a successful kfiber_chan_send is returned by exactly one successful kfiber_chan_recv; senders and receivers never wait at the same time; waiting senders (receivers) are served in a fixed order; a send or recv on a closed channel fails and closing releases every waiter with failure.", "quantifier": "every schedule of send, recv, close with any number of fibers", "why_tests_cant": "All interleavings.", "anchors": ["src/kfiber_sync.c:kfiber_chan_send", "src/kfiber_sync.c:kfiber_chan_recv", "src/kfiber_sync.c:kfiber_chan_close"]}
{"id": "C23", "title": "Joining a fiber returns its exit value and frees it exactly once", "statement": "For a fiber created joinable, kfiber_join returns the value the fiber's start function returned, whichever of exit and join happens first; the fiber's memory and stack are released exactly once and never before both the exit and the join happened; a detached fiber is released at exit.", "quantifier": "every order of exit, join and self references", "why_tests_cant": "Depends on the order of concurrent events.", "anchors": ["src/kfiber.c:kfiber_new", "src/kfiber.c:kfiber_exit", "src/kfiber.c:kfiber_join", "src/kfiber.c:kfiber_release"]}
{"id": "C24", "title": "Timers fire exactly once, never early, in deadline order", "statement": "A timer added with delay d at time t fires exactly once, at the first check whose time is >= t+d, and never before; in one check timers with different deadlines fire in deadline order; timers registered from a timer callback are also kept.", "quantifier": "every set of timers, every sequence of additions and clock readings", "why_tests_cant": "Unbounded histories and clock values.", "anchors": ["src/kselector.c:kselector_add_timer", "src/kselector.c:kgl_insert_block_queue", "src/kselector.c:kselector_check_timeout"]}
{"id": "C25", "title": "Connection timeout lists stay consistent and ordered", "statement": "Each connection is in at most one timeout list; the selector's count equals the number of listed connections; each list is ordered by last activity, so a check times out exactly the connections whose last activity plus the list timeout has passed (after their remaining grace periods).", "quantifier": "every sequence of add, remove, re-add, clock checks", "why_tests_cant": "Unbounded histories.", "anchors": ["include/kselectable.h:kselector_add_list", "include/kselectable.h:kselector_remove_list", "src/kselector.c:kselector_check_timeout"]}
{"id": "C26", "title": "Clock adjustment preserves remaining times", "statement": "When the selector clock is adjusted by a jump, the remaining time of every pending timer and of every listed connection is unchanged and their firing order is preserved.", "quantifier": "every set of pending timers/connections and every jump", "why_tests_cant": "Unbounded state.", "anchors": ["src/kselector.c:kselector_adjust_time", "src/kselector.c:kselector_update_time"]}
{"id": "C27", "title": "Selector choice is always in range and locally balanced", "statement": "The selector count is the requested one rounded down to a power of two within 1..64 and never shrinks; any 32-bit index maps to an existing selector; choosing the perfect selector always returns an existing selector, less than 64 connections above the next one (round robin under equal loads); configured timeouts are always positive; every on-ready callback is posted exactly once.", "quantifier": "every count, index and load vector", "why_tests_cant": "Quantified over all load vectors.", "anchors": ["src/kselector_manager.c:kgl_pow2", "src/kselector_manager.c:get_selector_by_index", "src/kselector_manager.c:get_perfect_selector"]}
{"id": "C28", "title": "Worker pool runs every accepted job exactly once within its limits", "statement": "Every job accepted by a kasync_worker is executed exactly once; at most max_worker jobs run concurrently; while jobs are queued at least one worker thread is alive; normal priority jobs are taken in submission order and high priority jobs before all queued ones; a job is refused only when the queue limit is exceeded.", "quantifier": "every schedule of submissions and worker threads", "why_tests_cant": "All interleavings.", "anchors": ["src/kasync_worker.c:kasync_worker_add", "src/kasync_worker.c:kasync_worker_thread", "src/kasync_worker.c:kasync_worker_try_start"]}
{"id": "C29", "title": "Thread pool hands each task to exactly one thread", "statement": "Each accepted kthread_pool_start task is entered exactly once, by exactly one thread, and none is lost; a start reuses the most recently parked thread and fails only if a new one is needed and cannot be created; the reported counts equal the numbers of threads with a task and of parked threads; kthread_flush closes only threads idle for more than 60 seconds and keeps the minimum, kthread_close_all_free closes exactly the parked ones, and neither ever closes a thread that was given a task.", "quantifier": "every schedule of starts, task completions, flushes and wake-ups", "why_tests_cant": "All interleavings.", "anchors": ["src/kthread.c:run_thread", "src/kthread.c:kthread_pool_start", "src/kthread.c:kthread_flush", "src/kthread.c:kthread_close_all_free"]}
{"id": "C30", "title": "Cross-thread notices are delivered exactly once", "statement": "Every notice posted to a selector from any thread is delivered by the selector exactly once, the selector never finds the queue empty when the event counter promised a notice, and when the event counter is drained no notice remains undelivered.", "quantifier": "every interleaving of any number of posting threads with the selector thread", "why_tests_cant": "All interleavings.", "anchors": ["include/kepoll_selector.h:kepoll_notice", "src/kepoll_selector.c"]}
{"id": "C31", "title": "Spin read-write lock excludes writers", "statement": "At every point of every interleaving of atomic steps a krw_mutex is held by one writer and no readers or by no writer; kwr_mutex gives the same exclusion.", "quantifier": "every number of threads and every interleaving of their atomic steps", "why_tests_cant": "All interleavings.", "anchors": ["include/ksync.h:krw_mutex_rlock", "include/ksync.h:krw_mutex_wlock", "include/ksync.h:kwr_mutex_rlock", "include/ksync.h:kwr_mutex_wlock"]}
{"id": "C32", "title": "Thread condition does not lose a notice", "statement": "If a kcond notice is given while threads wait, one of them (all of them for a manual event) returns; if none waits the next wait returns at once; without spurious wake-ups waits return only because of notices: at most one per notice if one thread waits, at most two otherwise.", "quantifier": "every interleaving of waits and notices", "why_tests_cant": "All interleavings including spurious wake-ups.", "anchors": ["include/ksync.h:kcond_wait", "include/ksync.h:kcond_notice"]}
{"id": "C33", "title": "Address cache resolves each waiter exactly once", "statement": "Every kgl_find_addr request gets its callback exactly once, with an address resolved for its own name; concurrent requests for one name share one resolution; a resolved name is answered at once with the most recent success until ten refreshes in a row have failed; a flush evicts only entries idle for an hour or while there are 2^20 entries, from the front of the list; the cached entry counter equals the number of cached entries and address reference counts equal the number of holders; apart from two identified orders of events no address is used after it was freed and no link is followed that does not exist.", "quantifier": "every schedule of lookups, resolver completions, flushes", "why_tests_cant": "All interleavings.", "anchors": ["src/kaddr.c:kgl_find_addr", "src/kaddr.c:kgl_update_addr_cache", "src/kaddr.c:kgl_flush_addr_cache"]}
{"id": "C34", "title": "Full read/write loops transfer exactly the requested bytes", "statement": "kfiber_net_write_full / kfiber_net_writev_full / kfiber_net_read_full / kfiber_file_*_full succeed exactly when the sequence of partial transfers of the underlying operation moves all requested bytes; the bytes transferred are exactly the requested ones in order, none twice; on failure the returned remainder tells how many bytes were not transferred.", "quantifier": "every request size, iovec layout and every sequence of short transfers", "why_tests_cant": "Unbounded sequences of short counts.", "anchors": ["include/kfiber.h:kfiber_net_write_full", "include/kfiber.h:kfiber_net_writev_full", "include/kfiber.h:kfiber_net_read_full"]}
{"id": "C35", "title": "TLS gather/scatter returns the length of an exact prefix", "statement": "The TLS writev/readv helpers report n > 0 only if exactly the first n bytes of the gathered (scattered) buffers were written (filled), in order; error and would-block are reported only if nothing was transferred.", "quantifier": "every iovec layout and every sequence of TLS results", "why_tests_cant": "Unbounded sequences of partial results.", "anchors": ["src/kselectable.c:kgl_ssl_writev", "src/kselectable.c:kgl_ssl_readv"]}
{"id": "C36", "title": "Readiness events are neither lost nor delivered twice", "statement": "For one connection of the epoll selector, whatever the order of read, write, sendfile, accept, connect, readhup, next_read/next_write, removal, destruction, kernel events (input, output space, hang-up), timeouts and turns of the selector's loop, a caller that follows the documented rules (one request per direction, nothing outstanding on removal) has every request answered at most once and never forgotten: it is answered, still outstanding, or a readhup request the caller withdrew; no released connection is touched and no assertion fails. As long as epoll_ctl succeeds, a pending read with input (write with room, readhup with a new hang-up) is in the ready list, in the hands of the ready loop, or reported by the next select, and is answered within a fixed number of ready-loop moves; readiness that arrives with no pending request is remembered and serves the next one; callers are told of a hang-up only if there was one.", "quantifier": "every interleaving of caller, kernel and selector operations, every system call result", "why_tests_cant": "Edge-triggered notifications that fall between two operations are lost for good; only a proof over all interleavings excludes it.", "anchors": ["src/kepoll_selector.c", "src/kselectable.c:selectable_event_read", "src/kselectable.c:selectable_event_write", "src/kselectable.c:selectable_next_read", "src/kselector.c:kselector_check_timeout", "src/kserver.c:kselector_event_accept"]}
{"id": "C37", "title": "File reads and writes move exactly the bytes at the file position", "statement": "kfiber_file_read, with or without direct IO and for any position and length, asks the kernel only for aligned blocks that include the byte at the position and fit in the rounded-up buffer; if the kernel's data reaches past the position, the caller finds at kfiber_file_adjust exactly the bytes of the file from the position on, at least one and at most the requested number, and the position moves behind them, so successive reads deliver the file without gap or repetition. kfiber_file_write puts exactly the first r bytes of the buffer at the position and changes nothing else. Errors move nothing. At end of file a direct read aborts a debug build.", "quantifier": "every offset, length, alignment size up to 32 KiB, file contents, kernel result", "why_tests_cant": "Arithmetic over all 64-bit offsets and all short counts.", "anchors": ["include/kasync_file.h:kasync_file_adjust_result", "include/kasync_file.h:_kasync_file_get_adjust_offset", "src/kepoll_selector.c:epoll_selector_aio_read", "src/kepoll_selector.c:epoll_selector_aio_write", "src/kfiber.c:kfiber_file_callback"]}
{"id": "C38", "title": "Server object lives until its last listener and connection is gone", "statement": "A kserver is freed exactly once, exactly when it has been released by its owner and no listener and no accepted connection refers to it; every listening socket is closed exactly once; when kserver_close returns, every listener registered before it took the lock is closed, shut down or (macOS) has its shutdown posted, a shut down listener accepts nothing more, and a listener in callback mode then ends after finitely many steps of its own.", "quantifier": "every interleaving of accepts, closes, shutdown", "why_tests_cant": "All histories.", "anchors": ["src/kserver.c:kserver_release", "src/kserver.c:kserver_selectable_destroy", "src/kserver.c:kserver_close"]}
{"id": "C39", "title": "Shared strings are freed exactly once", "statement": "A reference counted string (fewer than 0xfffffff references at a time) is freed exactly when its last reference is released, never earlier, whatever the threads and the order of refs, hand-overs, reads and releases; no access hits freed memory; its bytes and length are those it was created with; a string made from a C string, or from a NUL-free buffer, shorter than 4 GiB holds exactly those bytes.", "quantifier": "every interleaving of atomic steps of any number of threads, every string", "why_tests_cant": "Every history and interleaving.", "anchors": ["include/kstring.h"]}
{"id": "C40", "title": "Address comparison, masking and hashing agree", "statement": "Comparing an address with itself gives 0; equal addresses have equal hash; masking is idempotent and commutes with network membership; comparison is antisymmetric and transitive as long as the 32-bit differences do not overflow, and is not an order otherwise.", "quantifier": "all 2^32 / 2^128 addresses", "why_tests_cant": "The domain is far too large to enumerate.", "anchors": ["include/ksocket.h:ksocket_addr_compare", "include/ksocket.h:ksocket_ipaddr_compare"]}
{"id": "C41", "title": "Integer comparator is an order only on small differences", "statement": "rbtree_int_cmp orders ints consistently exactly while the mathematical difference fits in an int; on the full int range it overflows (undefined behaviour) and, read as two's complement, is not transitive.", "quantifier": "all pairs and triples of 32-bit ints", "why_tests_cant": "2^96 triples.", "anchors": ["src/krbtree.c:rbtree_int_cmp"]}
{"id": "C42", "title": "File open flags follow the documented mode table", "statement": "kfopen translates every mode/flag combination into exactly the OS open flags of the table; read-only opens never create or truncate.", "quantifier": "every combination of flags", "why_tests_cant": "Finite but universally quantified decision table.", "anchors": ["src/kfile.c:kfopen"]}
{"id": "C43", "title": "Every completed file operation is reported exactly once", "statement": "For any number of files with at most one operation each in flight: every operation accepted by aio_read/aio_write has its own callback called exactly once, with the result the kernel gave, in the order of completion; no completion is lost however completions, announcements and harvesting interleave, and the harvesting loop never spins on an empty completion ring.", "quantifier": "every interleaving of submissions (also from callbacks), completions, eventfd announcements and harvesting", "why_tests_cant": "Depends on the interleaving of kernel and selector; batches of more than one completion cannot be forced.", "anchors": ["src/kepoll_selector.c:result_aio_event", "src/kepoll_selector.c:aio_result"]}
{"id": "C44", "title": "String comparators are total orders", "statement": "rbtree_string_cmp and (on Linux) rbtree_file_cmp order C strings by unsigned bytes, a total order; rbtree_string_case_cmp is that order with ASCII case forgotten; so trees using them behave as finite maps keyed by strings, respectively by strings up to case, through every history.", "quantifier": "all strings without NUL, all histories", "why_tests_cant": "All strings of all lengths.", "anchors": ["src/krbtree.c:rbtree_string_cmp", "src/krbtree.c:rbtree_string_case_cmp", "src/krbtree.c:rbtree_file_cmp"]}
{"id": "C45", "title": "TLS handshake is answered exactly once and truthfully, TLS connections are destroyed exactly once", "statement": "After kconnection_ssl_handshake (or kfiber_ssl_handshake) on a connection without a read timeout flag, the callback is called exactly once, or exactly one direction is being waited for; success is reported only when OpenSSL completed the handshake (or delivered early data, whose byte is kept), failure only when a request failed or OpenSSL gave a final error; every byte OpenSSL produced is sent once, in order, and before success is reported; kconnection_destroy destroys the connection exactly once, after at most one outstanding wait, and never touches it afterwards.", "quantifier": "every sequence of OpenSSL results, socket readiness, short writes and failures, with and without memory BIOs", "why_tests_cant": "OpenSSL's results and the readiness events form unbounded histories.", "anchors": ["src/kconnection.c:kselectable_ssl_handshake", "src/kconnection.c:kselectable_ssl_shutdown", "src/kconnection.c:kconnection_destroy", "src/kgl_ssl.c:kgl_ssl_handshake_status", "src/kfiber.c:kfiber_ssl_handshake"]}
{"id": "C46", "title": "The tree in memory: no dangling pointers, consistent links, nothing else touched", "statement": "Whatever else is in memory and wherever the allocator puts the nodes, every history of rbtree_insert / rbtree_find / rbtree_remove on a tree runs without following a NULL or dangling pointer and without endless loop; the returned addresses, data and flags are those of a finite map; afterwards the child links, the packed parent/colour words and the root pointer in memory form a red-black tree of exactly the map's entries; memory that does not belong to the tree is unchanged and every removed node has been freed. The same holds for rbtree_iterator with removals by the callback, walks with rb_first/rb_next and rb_last/rb_prev, rbtree_find_cover and rb_replace_node.", "quantifier": "all histories, all (contract-conforming) allocator results, all other memory contents, all comparators that are total orders", "why_tests_cant": "Pointer surgery depends on the tree shape; histories and layouts are unbounded.", "anchors": ["src/krbtree.c:rb_erase", "src/krbtree.c:rb_insert_color", "src/krbtree.c:__rb_erase_color", "src/krbtree.c:rbtree_insert", "src/krbtree.c:rbtree_remove", "src/krbtree.c:rbtree_iterator", "src/krbtree.c:rb_replace_node", "include/krbtree.h:rb_link_node"]}
{"id": "C47", "title": "Switching between fibers: nested wake-ups return in order, calls return their own completion", "statement": "On a selector thread exactly one fiber runs. Waking a fiber runs it at once, and when it waits or ends, however many fibers were woken in between, the processor goes back to the fiber that woke it, and finally to the selector's loop. Every fiber call returns exactly once, with exactly the value it was completed with, whether that happened at once, from the same thread or from another thread before or after the fiber was suspended; nothing else resumes a suspended fiber; a completion is never lost. A fiber's exit is handled exactly once with the value its function returned. No assertion of a debug build fails.", "quantifier": "all interleavings of fiber creation, calls, completions (local, immediate, posted by other threads), nesting depths and exits, with each call completed once", "why_tests_cant": "Nesting depth, number of fibers and the order of completions are unbounded.", "anchors": ["src/kfiber.c:__kfiber_switch", "src/kfiber.c:fiber_start", "src/kfiber.c:kfiber_exit", "src/kfiber.c:result_fiber_exit", "include/kfiber.h:kfiber_wakeup", "include/kfiber.h:__kfiber_wait", "include/kfiber.h:kfiber_wait_result", "include/kfiber.h:kfiber_wakeup_ts"]}
{"id": "C48", "title": "TLS through memory BIOs: bytes in order, writes answered after their bytes left, one answer each", "statement": "With ENABLE_KSSL_BIO, after the handshake: the bytes accepted by the socket are at all times a prefix of the bytes OpenSSL produced, and the bytes OpenSSL is given a prefix of the bytes received, in order, none lost or repeated, whatever the sizes of the pieces; every selectable_read and selectable_write is answered exactly once; a write answered with a positive count got the count of its own SSL_write and every byte produced by then has left; a read waits for the socket only when nothing received is left to decrypt; OpenSSL is told the end of the stream only after it was given everything received; no buffer descriptor leaks; no call of writev is made with nothing to send; no undefined behaviour in release builds.", "quantifier": "every behaviour of OpenSSL (any sequence of BIO calls and results), every partial read and write of the socket, every interleaving of reads and writes", "why_tests_cant": "Piece sizes, OpenSSL's BIO calls and the interleaving of both directions are unbounded.", "anchors": ["src/kssl_bio.c:kgl_bio_read", "src/kssl_bio.c:kgl_bio_write", "src/kssl_bio.c:result_ssl_bio_read", "src/kssl_bio.c:result_ssl_bio_write", "include/kssl_bio.h:buffer_ssl_bio_write", "src/kselectable.c:selectable_ssl_read", "src/kselectable.c:selectable_ssl_write", "src/kselectable.c:selectable_event_read"]}
{"id": "C49", "title": "io_uring selector: every request answered once with the kernel's result", "statement": "On the io_uring selector every read, write, accept, connect, aio and sendfile request that was accepted is answered exactly once: with the kernel's result for its own entry (0 for a request without a buffer that succeeded), a sendfile with the result of its socket half and only after both halves ended, a polled TLS socket with the result of the transfer the process makes; a request is refused (-1) only when the submission ring is full; a request is never lost. An event is used by at most one unfinished entry; the ring is never overrun; the record and pipe of a sendfile are released exactly when its last half ends, no descriptor is closed twice; no assertion of a debug build fails.", "quantifier": "every sequence of requests, every number of entries accepted per submission, every order and result of completions, any ring size", "why_tests_cant": "The kernel's completion order and results, partial submissions and a full ring cannot be enumerated by tests.", "anchors": ["src/kiouring_selector.c:kiouring_get_seq", "src/kiouring_selector.c:iouring_selector_read", "src/kiouring_selector.c:iouring_selector_write", "src/kiouring_selector.c:iouring_selector_sendfile", "src/kiouring_selector.c:iouring_sendfile_result", "src/kiouring_selector.c:handle_complete_event", "src/kiouring_selector.c:iouring_handle_cq"]}
{"id": "C50", "title": "The TLS versions of a context are exactly those named in the configuration text", "statement": "kgl_ssl_ctx_set_protocols with a non-empty text leaves a context that can use exactly the protocol versions whose names occur, in upper or lower case, as white-space separated words of the text, whatever switches were set before; other options are kept; NULL or the empty text changes no switch. The text is only read inside its bounds.", "quantifier": "every text, every previous state of the context", "why_tests_cant": "Texts of any length, any blanks and any mixture of names.", "anchors": ["src/kgl_ssl.c:kgl_ssl_ctx_set_protocols", "src/kgl_ssl.c:kgl_ssl_protocols"]}
{"id": "C51", "title": "Certificates and keys: a context has exactly what the texts say, or everything is released", "statement": "kgl_ssl_certificate returns 0 exactly when the text has a first certificate, a chain that can be read to its end and a key that one of the passwords opens and that fits; the context then has that certificate, the others in order as chain and that key. Passwords are offered in order, each once, none after the right one, and at most the buffer's size of each. On every path BIOs are closed and each reference to certificates, keys, stacks and contexts is owned by the context or released (up to the leaks listed as findings); kgl_ssl_ctx_new_server2 returns a context exactly when the texts are good, requires client certificates exactly when an authority is given, and otherwise releases the context.", "quantifier": "every text, every list of passwords, every failure of OpenSSL, every previous state of the context", "why_tests_cant": "Chains and password lists are unbounded and every allocation may fail.", "anchors": ["src/kgl_ssl.c:kgl_ssl_certificate", "src/kgl_ssl.c:kgl_ssl_load_certificate", "src/kgl_ssl.c:kgl_ssl_load_certificate_key", "src/kgl_ssl.c:kgl_ssl_password_callback", "src/kgl_ssl.c:kgl_ssl_ctx_new_server2", "src/kgl_ssl.c:kgl_ssl_ctx_post_init"]}
{"id": "C52", "title": "TLS contexts of a server: counted exactly, and a new context reaches every listener", "statement": "A kgl_ssl_ctx handed to kserver_bind or kserver_set_ssl_ctx is freed exactly once, when the application, the server, its listeners and the updates under way have all let go of it, and the SSL_CTX inside exactly once, when in addition the last connection made with it is gone; nothing is used after that. Once the call has returned and the updates have run, every listener, old or new, makes its connections with the new context; setting NULL on a TLS server changes nothing; a listener that has a context makes no plain connection, not even when the TLS object cannot be made. kserver_bind fails exactly for a bad address or a TLS server given no context, and then releases what it was given and changes no context.", "quantifier": "every interleaving of the application's calls with the listeners' threads and connections, any number of contexts, listeners and connections", "why_tests_cant": "The order in which other threads run their updates, accepts and clean-ups relative to the calls cannot be enumerated.", "anchors": ["src/kserver.c:kserver_set_ssl_ctx", "src/kserver.c:kserver_ssl_ctx_next_update", "src/kserver.c:kserver_selectable_update_ssl_ctx", "src/kserver.c:kserver_selectable_init", "src/kserver.c:kserver_selectable_free", "src/kserver.c:kserver_free", "src/kserver.c:kserver_bind", "src/kserver.c:accept_result_new_connection", "include/kgl_ssl.h:kgl_release_ssl_ctx", "include/kgl_ssl.h:kgl_add_ref_ssl_ctx"]}
{"id": "C53", "title": "Server names and protocols of TLS connections", "statement": "create_sni is called for a server connection whenever a handshake callback finds a server name and no object was obtained yet, never again once it gave an object, and never for a client connection; the object is freed exactly once, when the connection is destroyed. The connection uses the last context create_sni gave, else the one it was made with. A handshake is refused exactly when no object was obtained, the client sent no name and the server has KGL_SERVER_REJECT_NOSNI. The protocol agreed is the first one of the list of the context now in use (http/1.1 alone if the program gives none) that the client offers, and none if the lists do not meet.", "quantifier": "every number of contexts and connections, every order and number of OpenSSL callbacks, all names, all protocol lists and all answers of the program's callbacks", "why_tests_cant": "The order in which OpenSSL runs the callbacks, the names and the lists are chosen by the peers.", "anchors": ["src/kgl_ssl.c:kgl_ssl_sni", "src/kgl_ssl.c:kgl_ssl_npn_selected", "src/kgl_ssl.c:kgl_ssl_ctx_post_init", "src/kgl_ssl.c:kgl_ssl_ctx_new_client", "src/kconnection.c:kconnection_real_destroy", "src/kconnection.c:kconnection_ssl_accept"]}
{"id": "C54", "title": "Opening sockets: exactly what the flags ask for, nothing leaked on failure", "statement": "ksocket_listen, ksocket_new_udp, ksocket_accept, ksocket_connect, ksocket_half_connect, kconnection_half_connect and kudp_new2 either fail and leave every descriptor of the process as it was, or open exactly one: of the family and type asked for, blocking or not as asked, closed on exec where the system supports it, bound to the address asked for, with exactly the options the flags name that the kernel accepted. ksocket_listen removes nothing but a socket at its own path. kserver_open opens at most one listener per selector, all at one address (port 0 is replaced by one port chosen by the kernel), returns true exactly if there is a listener, makes at most one attempt per selector plus the retries left, and reaches all selectors if the kernel refuses nothing.", "quantifier": "every combination of flags, addresses, descriptor tables, files and failures of each system call, any number of selectors", "why_tests_cant": "Each system call can fail independently, at each attempt for each selector.", "anchors": ["src/ksocket.c:ksocket_listen", "src/ksocket.c:ksocket_new_udp", "src/ksocket.c:ksocket_accept", "src/ksocket.c:ksocket_connect", "src/ksocket.c:ksocket_half_connect", "src/ksocket.c:wait_socket_event", "src/kconnection.c:kconnection_half_connect", "src/kudp.c:kudp_new2", "src/kserver.c:kserver_listen_on_selector", "src/kserver.c:kserver_open"]}
{"id": "C55", "title": "UDP: every datagram to one read, whole, in order, with its own addresses", "statement": "On a connection made with kudp_new, the datagrams the kernel has queued are handed to reads one each, in the order of arrival, none twice and none left out; the read's callback is told the number of bytes in its buffers, which hold the beginning of the datagram as far as they go, and the connection then holds the address it came from, complete, for IPv4 and IPv6. Each read is answered exactly once and in order. No read waits while a datagram is there. kudp_get_recvaddr called after the callback gives the address this very datagram was sent to, until the next read, never that of an earlier one, and changes nothing but the address; it fails if packet information was not asked for. kudp_send_to sends one datagram with the given bytes to the given address and returns true, or none and returns false.", "quantifier": "every interleaving of arrivals, reads (on the main fiber or not), polls and services of the ready list, every datagram, every buffer size, every error of recvmsg, epoll and io_uring", "why_tests_cant": "Arrivals race with the edge-triggered poller, and what is left in the address and control buffers depends on all the previous receives.", "anchors": ["src/kudp.c:kudp_new2", "src/kudp.c:kudp_get_recvaddr", "src/kudp.c:kudp_send_to", "src/kselectable.c:selectable_recvmsg", "src/kselectable.c:selectable_udp_read_event", "src/kepoll_selector.c:epoll_selector_read", "src/kiouring_selector.c:iouring_selector_read", "include/ksocket.h:ksocket_addr_len"]}
{"id": "C56", "title": "Reads with a time limit lose no data", "statement": "On a connection with a read time limit, a kfiber_net_read that returns because the limit passed has not lost anything: the bytes returned by the calls so far followed by those not read yet are exactly what the peer has sent; every call returns exactly once, in order, and a call that returns bytes has them in its own buffer, at least one and at most as many as fit, also if the read was started by an earlier call; a call that waits while bytes are there returns with them when the connection is served; no other wait of the fiber is ended by the connection, and nothing is read or written through memory that is gone. After a time-out the program must repeat the call from the same place before it waits for something else (a program whose limits never pass need not care).", "quantifier": "every interleaving of arrivals, calls with any buffer, time-outs, services and uses of the fiber's stack between the calls", "why_tests_cant": "A time-out can pass at any moment relative to the data and the next call, and the pending read refers to the stack of a call that has returned.", "anchors": ["include/kfiber.h:kfiber_net_readv", "src/kselector.c:kselector_check_timeout", "src/kselectable.c:selectable_event_read", "src/kfiber.c:kfiber_result_callback"]}
{"id": "C57", "title": "Ticks: each registered one is called once per round", "statement": "In every round of a selector each registered tick is called exactly once, in the order of registration, with the function and argument it was created with and the number of events; a tick closed before its turn is not called, and a closed tick is never called again; ticks may be created, registered and closed by callbacks (a callback may close its own tick) without touching freed memory. The selector then waits at most 100 ms and at most as long as each callback asked for, and the time is 100 or one asked for. Rules: a tick is registered once, not used after closing, and a callback does not close the tick that follows its own.", "quantifier": "every number of ticks, every interleaving of creations, registrations and closings with rounds, also from inside callbacks, every returned number, every reuse of memory", "why_tests_cant": "Callbacks change the list that is being walked; which of the changes are safe depends on the position in the walk.", "anchors": ["src/kselector.c:kselector_new_tick", "src/kselector.c:kselector_register_tick", "src/kselector.c:kselector_close_tick", "src/kselector.c:kselector_check_timeout", "include/klist.h:klist_remove"]}
{"id": "C58", "title": "Calls executed on another thread deliver one result to their caller", "statement": "A function run with kfiber_thread_call, with kfiber_create2 on a selector and kfiber_join, or from a thread with kfiber_create_sync and kfiber_join is entered at most once, on the pool or the selector asked for, with the function, argument and number of that very call; a call answered with -1 runs nothing; the caller gets a result only after the function returned, exactly once, and it is the value returned by it. A fiber in kfiber_thread_call runs nothing until then. No result is lost: when nothing is left to do, every pool call has its result, and a caller is still blocked in kfiber_join only if the function itself has not returned. The fiber object is freed exactly after both the function returned and the handle was joined. No assertion fails.", "quantifier": "every number of selectors, fibers and threads, every interleaving of them, every function, argument and result, debug and release builds", "why_tests_cant": "The pool may finish before the caller has suspended itself, the joined fiber may end before, during or after the join, and the two references are dropped by two threads in either order.", "anchors": ["src/kfiber.c:kfiber_thread_call", "src/kfiber.c:_kfiber_worker_thread", "src/kfiber.c:kfiber_wakeup2", "src/kfiber.c:kfiber_create2", "src/kfiber.c:kfiber_create_sync", "src/kfiber.c:kfiber_join", "src/kfiber.c:result_fiber_exit", "src/kfiber_sync.c:kfiber_cond_wait_ts", "src/kfiber_sync.c:kfiber_cond_notice_ts", "src/kfiber_sync.c:kfiber_cond_wait_sync", "include/ksync.h:kcond_wait"]}
{"id": "C59", "title": "The selector manager: callbacks, hooks, timers from other threads, clock set back, shutdown", "statement": "Callbacks given to selector_manager_on_ready or as timers (selector_manager_add_timer, kselector_add_timer_ts, kselector_add_timer), before or after selector_manager_init and from any thread, are each called at most once, on a thread of a selector of the manager and never before they were asked for; a refused one is never called. Every selector thread calls each hook accepted by selector_manager_thread_init once with 0 before any callback and, if it ends, once with 1 after all of them. While the manager is not shut down, init does not overlap on_ready and the clock is set back only when no timer is on its way, no timer is called before its time - measured by a clock whose steps back are taken out - and the threads' own steps always lead, in a bounded number, to a state where every callback and every timer that is due has been called. Nothing is used after it was destroyed, also in a shutdown under the stated rules.", "quantifier": "every sequence and interleaving of calls from any number of threads, every number of selectors, every choice of get_perfect_selector, every sequence of clock readings, every moment of shutdown", "why_tests_cant": "the order in which notices of several threads arrive, the moment at which the clock is set back and the moment of shutdown cannot be enumerated; a lost or early timer shows only under one interleaving", "anchors": ["src/kselector_manager.c:selector_manager_on_ready", "src/kselector_manager.c:selector_manager_add_timer", "src/kselector_manager.c:kselector_add_timer_ts", "src/kselector_manager.c:selector_manager_thread_init", "src/kselector_manager.c:selector_manager_init", "src/kselector_manager.c:selector_manager_grow", "src/kselector_manager.c:selector_manager_close", "src/kselector_manager.c:kselector_thread", "src/kselector.c:kselector_adjust_time", "src/kselector.c:kselector_update_time", "src/kselector.c:kselector_add_timer", "src/kselector.c:kselector_check_timeout"]}
{"id": "C60", "title": "kqueue: every request is answered exactly once and no readiness is lost", "statement": "On BSD, for a stream connection used by the rules (one read-side and one write-side request at a time, connect first, nothing outstanding at removal or release), whatever the caller, the kernel and the selector do in any order: no released connection is touched and no assertion fails; every read, write, sendfile, connect, next_read and next_write has its callback called at most once; what a callback is told is what the system call of that moment returned, an error only if the call failed, 0 only for a request without buffer, and -1 for lack of polling only if kevent failed. If kevent does not fail: whenever the selector has nothing to do for the connection, a waiting read has nothing to read and a waiting write no room, the poller watches for it and the connection is on a timeout list; the selector left alone comes to rest after at most 18 moves, and then every request the kernel could satisfy is answered; a connect is reported only when the socket is writable.", "quantifier": "every history of requests, kernel events (data, space, hang-up), polls, ready-loop steps, timeouts, removal and release; every answer of the kernel", "why_tests_cant": "readiness lost by an edge-triggered poller shows only for particular interleavings of kernel events with the flags; tests on Linux never run this backend", "anchors": ["src/kkqueue_selector.c:kqueue_selector_select", "src/kkqueue_selector.c:kqueue_selector_read", "src/kkqueue_selector.c:kqueue_selector_write", "src/kkqueue_selector.c:kqueue_selector_sendfile", "src/kkqueue_selector.c:kqueue_selector_connect", "src/kkqueue_selector.c:kqueue_selector_remove", "src/kselector.c:kselector_check_timeout", "src/kselectable.c:selectable_event_read"]}
{"id": "C61", "title": "IOCP: every overlapped request is answered exactly once with its own outcome", "statement": "On Windows, for a connection, a listening socket or a file used by the rules (bound to the selector first, one request per direction, connect and file requests with nothing outstanding, nothing outstanding at release), whatever the caller, the kernel, other threads and the selector do in any order: no assertion fails and no released object is touched; every request has its callback called at most once and is told the number of bytes (or -1) that the kernel or the failed call decided for that very request, or 0 for next_read/next_write; left alone the selector comes to rest after at most five moves more than there are packets, and then every request still waiting is with the kernel, everything decided was delivered, and a connection with a waiting request is on a timeout list or already shut down; notices posted to the selector run exactly once, in order, with their value; every socket made for AcceptEx is handed to exactly one connection or closed exactly once, and after release nothing names the object.", "quantifier": "every history of requests, failing or succeeding overlapped calls, completions in any order, notices, ready-loop steps, timeouts and release, for the three kinds of objects", "why_tests_cant": "completions arrive in any order relative to requests made in callbacks; only particular interleavings show a lost, doubled or misdirected completion, and the Linux tests never run this backend", "anchors": ["src/kiocp_selector.c:handle_complete_event", "src/kiocp_selector.c:iocp_selector_read", "src/kiocp_selector.c:iocp_selector_write", "src/kiocp_selector.c:iocp_selector_connect", "src/kiocp_selector.c:iocp_selector_accept", "src/kiocp_selector.c:kiocp_accept_ex", "src/kiocp_selector.c:iocp_selector_next", "src/kiocp_selector.c:iocp_selector_sendfile", "src/kiocp_selector.c:iocp_selector_aio_read", "src/kserver.c:kserver_get_socket", "src/kselector.c:kselector_check_timeout"]}
{"id": "C62", "title": "Debugging allocator: blocks, guards, use after free and leak report", "statement": "With the debugging allocator in place of malloc, calloc, realloc and free, and any number of threads: a program that frees and resizes only what it has never makes the allocator do anything undefined, even if it writes up to eight bytes beside its blocks or into blocks it freed. It is stopped exactly when it frees or resizes a block with a damaged byte among the eight on either side, or when the checking thread finds a freed block that was written to; a program that writes only into its blocks is never stopped. Blocks lie apart, inside blocks of the C library; nothing but a write to it changes a block until it is freed or resized; realloc keeps the bytes up to the smaller size, calloc clears, and both deliver whole guards. A freed block stays filled with 0xee until the checking thread has come by twice and is then given back; when everything is freed the C library has everything back. The leak report lists each block not yet freed once, with its size, and nothing else.", "quantifier": "all histories of start_hook_alloc, malloc, calloc, realloc, free, dump_memory_leak, writes and the checking thread, all sizes and addresses the C library may return, all interleavings of a realloc's three parts with other threads", "why_tests_cant": "The guards and the copying depend on the sizes and addresses of every block, and a realloc takes two locks one after the other: tests see a few sizes and few interleavings.", "anchors": ["src/kmalloc_debug.c: realloc", "src/kmalloc_debug.c: free", "src/kmalloc_debug.c: calloc", "src/kmalloc_debug.c: malloc", "src/kmalloc_debug.c: check_ptr", "src/kmalloc_debug.c: free_ptr", "src/kmalloc_debug.c: memory_debug_thread", "src/kmalloc_debug.c: start_hook_alloc", "src/kmalloc_debug.c: dump_memory_leak"]}
{"id": "C63", "title": "Calls of fibers on addresses, connections and files", "statement": "For any number of fibers that look up addresses, connect, accept, shake hands, shut down and close, open and close files, whatever resolver, kernel, selector and OpenSSL answer and in whatever order: every call returns once, and its result is the right one for what happened during it - an address lookup returns 0 exactly with an address that was found, stored and referenced for the caller, and -1 without touching the caller's variable; a handshake returns 0 exactly when OpenSSL finished it, and OpenSSL is called once more after each event until it is done or fails; shutting down and closing first finish the TLS shutdown, which is begun only after a handshake was begun and no earlier shutdown has ended, is not forgotten on a live connection, and does not wait on a failed one. No freed address or connection is touched, an address lives until its last reference is released and is then freed once; every open descriptor belongs to exactly one connection or file and is closed exactly once, also when accepting or opening fails half way.", "quantifier": "all histories of calls by any number of fibers, answers of the resolver, events and errors, all numbers of connections, files and addresses", "why_tests_cant": "Calls are split over events that arrive in any order and are mixed with those of other fibers; leaks and double frees show only in some of these orders and failures.", "anchors": ["src/kfiber.c: kfiber_getaddr_callback", "src/kfiber.c: kfiber_net_getaddr", "src/kfiber.c: kfiber_net_connect", "src/kfiber.c: kfiber_net_accept", "src/kfiber.c: result_fiber_ssl_shutdown", "src/kfiber.c: result_fiber_ssl_handshake", "src/kfiber.c: kfiber_ssl_handshake", "src/kfiber.c: kfiber_ssl_shutdown", "src/kfiber.c: kfiber_net_shutdown", "src/kfiber.c: kfiber_net_close", "src/kfiber.c: kfiber_file_open", "src/kfiber.c: kfiber_file_close", "src/kserver.c: accept_result_new_connection", "src/kconnection.c: kconnection_real_destroy"]}
{"id": "C64", "title": "TLS session id contexts, and contexts made from files", "statement": "A context made from a certificate file accepts the TLS sessions of another one exactly if the names of the certificate files followed by the first MiB of their contents are the same (unless SHA-1 collides): after the file was renewed old sessions are refused, an unchanged file keeps them, for files of any length. For contexts that have a list of authorities the lists must be the same too. kgl_ssl_ctx_new_server returns a context exactly if both files are good and fit, the digest could be computed and the authorities, if given, could be loaded; it has exactly that certificate and key and demands client certificates exactly if authorities are given. kgl_ssl_ctx_new_client verifies the server exactly if authorities are given. On every path and failure the digest is released once, the file closed once, and a context is given to the caller or released.", "quantifier": "all names, file contents of any length, lists of authorities, every failure of OpenSSL and of the disk at any point", "why_tests_cant": "Contents and lists are unbounded, the reading loop has boundaries at 512 bytes and at a MiB, and every step can fail.", "anchors": ["src/kgl_ssl.c: kgl_ssl_session_digest_x509_list", "src/kgl_ssl.c: kgl_ssl_session_id_context_from_buffer", "src/kgl_ssl.c: kgl_ssl_session_id_context", "src/kgl_ssl.c: kgl_ssl_ctx_load_cert_key", "src/kgl_ssl.c: kgl_ssl_ctx_new_server", "src/kgl_ssl.c: kgl_ssl_ctx_new_server2", "src/kgl_ssl.c: kgl_ssl_ctx_new_client", "src/kgl_ssl.c: kgl_ssl_ctx_post_init"]}
{"id": "C65", "title": "Augmented trees keep every summary right", "statement": "A client that keeps in every node a summary of its subtree, computed by a callback from the node and the summaries of its children, and calls rb_augment_insert after rb_insert_color, and rb_augment_erase_begin before and rb_augment_erase_end after rb_erase, finds every summary of the whole tree right after each of these operations, whatever summary the new node came with and whichever rotations happened. rb_augment_erase_begin never reads through a NULL pointer; the node it returns is not the erased one and is still in the tree; it returns NULL exactly when the tree becomes empty. The calls change no shape, colour or identity. With an associative operation the summary of any node is the total over the items of its subtree in order.", "quantifier": "all trees, insertion points, erased nodes, callbacks, initial summaries and histories", "why_tests_cant": "The nodes recomputed must cover all damage of every rebalancing of trees of any size; tests only see some rotations.", "anchors": ["src/krbtree.c: rb_augment_path", "src/krbtree.c: rb_augment_insert", "src/krbtree.c: rb_augment_erase_begin", "src/krbtree.c: rb_augment_erase_end"]}
{"id": "C66", "title": "File access by worker threads", "statement": "Where files are read and written by worker threads (KF_ASYNC_WORKER) and each file has at most one operation under way, whose buffer no other operation and not the program writes: the callback of each operation is called exactly once, with the answer of the one system call made for it, which had exactly the arguments asked for (file, command, buffer, length, and the file offset at that time). When the callback of a read is called with r, the first r bytes of its buffer are those of the file at its offset at the time of the system call, the file's contents being exactly what all writes made before left. Nothing else in memory changes. A fiber reading a file call after call gets exactly its bytes, in order, without gaps or repetition, from where it sought to. At most the configured number of threads work, an operation under way always can go on, and everything settles in boundedly many steps. Findings: on macOS every kfiber_file_read and kfiber_file_write returns -1, for aio_return is asked about a request the system never got; a second operation on a file replaces the first.", "quantifier": "all numbers of files, operations and threads, all schedules of threads and selectors, all short reads and writes and errors, all seeks", "why_tests_cant": "The worker reads the request from the file when it gets to run, not when it was queued; only some schedules show a mixed-up request.", "anchors": ["src/kasync_file.c: kasync_file_worker_callback", "src/kasync_file.c: kasync_file_worker_start", "src/kasync_worker.c: kasync_worker_add", "src/kkqueue_selector.c: kqueue_selector_aio_read", "src/kkqueue_selector.c: kqueue_selector_aio_write", "src/kfiber.c: kfiber_file_callback", "src/kfiber.c: kfiber_file_read"]}
{"id": "C67", "title": "Addresses come out of look-ups right", "statement": "An address built from a look-up result and a port (kgl_addr_build, ksocket_addrinfo_sockaddr, kconnection_new2) has the result's family and host and the port, every other byte being the result's or, beyond it, untouched; the result itself changes only in its port. Threads that share one cached result each get the right family and host and a port that one of them asked for; the right one if all ask the same or nobody intervenes. ksocket_getaddr succeeds exactly when the resolver gives a result, asks what it was asked, uses the first result, releases the results and leaves the address alone on failure. The text ksocket_ipaddr_ip writes is read back by ksocket_get_ipaddr as the same address and always fits in MAXIPLEN bytes; a Unix path that fits is found again. Findings: threads using one name with different ports can get each other's; a canonical name is never asked for; a long path is cut silently and unterminated; ksocket_is_block answers the opposite; off Linux ksocket_delay takes back 'for ever'; a failing conversion writes into an empty buffer.", "quantifier": "all look-up results, ports, previous contents, numbers of threads and interleavings, hosts, buffer sizes and paths", "why_tests_cant": "Which thread's port ends up in whose address depends on the interleaving of two statements.", "anchors": ["src/ksocket.c: ksocket_addrinfo_sockaddr", "src/ksocket.c: ksocket_getaddr", "src/ksocket.c: ksocket_get_ipaddr", "src/ksocket.c: ksocket_ipaddr_ip", "src/ksocket.c: ksocket_unix_addr", "src/kaddr.c: get_addr", "include/kaddr.h: kgl_addr_build", "include/ksocket.h: ksocket_is_block"]}
{"id": "C68", "title": "Plain files: every byte is read and written where the calls say", "statement": "kfopen gives a new descriptor at the beginning of the file the path leads to, with the access of its mode, and touches nothing else; it fails exactly for want of a descriptor, of a file the mode does not create, or for a link with KFILE_NOFOLLOW. A read gives the bytes at the descriptor's offset, a write puts a beginning of its bytes there (at the end in append mode, a gap reads as zeros), kfseek goes exactly where asked or changes nothing, and other descriptors, files and offsets are not disturbed. kfread_all stores the next bytes of the file one after the other, answers true exactly when all are there, and gets all if the kernel refuses nothing and the file has them; what was written is read back. A file opened only for appending and reading is, after any history through any descriptors, its old bytes followed by exactly the bytes the writes said they took, in order; opened only for reading it never changes. A file kfopen creates is empty and nobody else's. kfsize, kftime, kfutime and kfile_last_modified agree. Findings: a signal makes kfread_all fail without telling how much was read; kfile_last_modified of a link is 0; kfsize of a bad descriptor is 0; an unknown seek position means the beginning; writers without append mode overwrite each other.", "quantifier": "all files, paths, modes, flags, descriptors, offsets, lengths, refusals and short counts of the kernel, and all histories of calls", "why_tests_cant": "Short counts and failures can happen at every call, and the order of calls through several descriptors is unbounded.", "anchors": ["src/kfile.c: kfopen", "src/kfile.c: kfseek", "include/kfile.h: kfread_all", "include/kfile.h: kfsize", "include/kfile.h: kfutime", "include/kfile.h: kftime", "include/kfile.h: kfile_last_modified"]}
{"id": "C69", "title": "A server's address, flags and listeners agree with what its calls answered", "statement": "kserver_bind succeeds exactly for a path or numeric host on a server that does not lack its TLS context; the server then has exactly that address, port and kind, and a failure changes nothing. kserver_open_exsit succeeds exactly if the descriptor is open and the selector takes it; the server then has the socket's address (every Internet address, Unix paths up to 25 bytes) and one more listener and reference. kfiber_net_listen and each selector of kserver_open give a listener exactly if the socket could be made, keep an address with a port and replace port 0 by the kernel's; a listener that cannot accept is closed and leaves the books as they were. After any history of binding, adopting, listening, ending listeners and closing, the server holds one reference per listener and its owner's, lists no listener twice, every listed descriptor is open, and the Unix flag says whether the address is a path. Findings: an adopted Unix socket's path is cut to 26 bytes, followed by the rest of an earlier path; when the selector refuses, kserver_open_exsit answers false but the listener stays listed with its reference; true is answered although the only listener is already closed; kfiber_net_listen always answers 0.", "quantifier": "all addresses, ports, paths, descriptors, answers of kernel and selector, and all histories of calls", "why_tests_cant": "The address is kept in a union that each call overwrites in part; histories of calls are unbounded.", "anchors": ["src/kserver.c: kserver_bind", "src/kserver.c: kserver_open_exsit", "src/kserver.c: kserver_listen", "src/kserver.c: kserver_open", "src/kserver.c: kserver_selectable_destroy", "src/kfiber.c: kfiber_net_listen"]}
{"id": "C70", "title": "Atomic operations lose nothing, whatever threads do at the same time", "statement": "However threads interleave their katom_* calls on a variable, the value and all results are those of the same calls made one after the other, each thread's in its order, none lost and none twice; no call ever waits. katom_inc and katom_dec give the new value, katom_add, katom_sub, katom_set and katom_get the old one, katom_cas stores exactly if it finds what it compares with and says whether it did. So: calls that only add leave the sum; threads that only count up get different numbers (until the counter wraps around); exchanged values are each handed to exactly one later call; a reference count given up only by owners is exact, and exactly one call, the last, sees 0; a lock taken with katom_cas succeeds exactly if nobody holds it. Findings: katom_sub of -2147483648 is undefined; a reference given up too many is answered with 4294967295 instead of an error.", "quantifier": "all widths, initial values, numbers of threads, programs and interleavings", "why_tests_cant": "The number of interleavings grows exponentially and a test sees the few the scheduler happens to choose.", "anchors": ["include/katom.h: katom_inc", "include/katom.h: katom_dec", "include/katom.h: katom_add", "include/katom.h: katom_sub", "include/katom.h: katom_set", "include/katom.h: katom_get", "include/katom.h: katom_cas"]}
{"id": "C71", "title": "Numbers are written to buffers in full and can be read back", "statement": "krw_write_int, krw_write_int64, ks_write_int and ks_write_int64 append exactly the decimal notation of the number to what the buffer holds: a minus sign exactly for negative numbers, no leading zeros, at most 11 and 20 bytes; no number is cut, no byte behind the text is copied, nothing before it is changed. Notations are unique, and a sequence of numbers, each followed by a separator that is neither a digit nor a minus sign, arrives in order and determines the numbers. Finding: without a separator different sequences give the same bytes.", "quantifier": "all 32-bit and 64-bit numbers, buffer states, chunk sizes and sequences of numbers", "why_tests_cant": "The range has 2^64 numbers, and the text may be split over chunks at any place; the length snprintf reports is used unchecked.", "anchors": ["src/kbuf.c: krw_write_int", "src/kbuf.c: krw_write_int64", "src/kbuf.c: ks_write_int", "src/kbuf.c: ks_write_int64"]}
{"id": "C72", "title": "Small helpers answer exactly what they are asked, within limits", "statement": "kgl_get_bufs_size of the first n entries of a vector is the sum of their lengths up to a multiple of 2^32, and the sum itself exactly if that is below 2^31; a count of zero or less gives 0, a count above the length reads behind the vector. kgl_is_absolute_path answers yes exactly for strings that start with a slash and reads nothing but the string. kgl_msleep, outside fibers, pauses exactly the given time for 0 to 2147483 ms and is undefined above. Findings: 2 GiB of buffers have a negative size and 4 GiB the size 0; a pause of -1 ms lasts 71 minutes.", "quantifier": "all vectors, counts, strings and times", "why_tests_cant": "The limits lie at sizes no test allocates.", "anchors": ["include/klib.h: kgl_get_bufs_size", "include/klib.h: kgl_is_absolute_path", "src/klib.c: kgl_msleep"]}
