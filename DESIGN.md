# Formal model of keengo99/kasync in Lean 4 — design

## Trusted base

* Lean 4.33.0's kernel, and the part of Mathlib imported (which the kernel checks too). No axioms are added; the
  theorems named in MANIFEST.json depend at most on `propext`, `Classical.choice`, `Quot.sound` (listed one by one at the end). No
  compiled-code decision procedures are used.
* The reading of the C code: every model definition cites the file and lines it models, and says what it simplifies. The code is
  neither compiled nor run, so that the model agrees with the binary is a matter of review.
* Environment assumptions, all of them parameters or nondeterministic choices of the models and not axioms:
  * pthread mutexes exclude; a region between `kmutex_lock` and `kmutex_unlock` is one atomic step (where the code calls out while it holds the
    lock, the model has several steps and the lock is explicit: `Sync/RWLock`, `Srv/Server`);
  * the `katom` operations and the lock words of `ksync.h` are sequentially consistent;
  * the kernel: edge-triggered epoll, eventfd, aio ring, descriptors, `read`/`write` counts: any behaviour its documentation allows;
  * OpenSSL: any result, any bytes put in the outgoing BIO;
  * context switches (fcontext assembly, ucontext) save and restore a fiber; DNS answers anything.
* Conventions: integers are unbounded `Nat`/`Int` unless the property is about overflow (then `BitVec`, or `Int` with an explicit range check);
  undefined behaviour (NULL dereference, access outside an object, signed overflow where it matters) and failed `assert`/`kassert` are
  outcomes of their own (`none`, `ub`, `abort`), and theorems show that they are not reached, or exhibit a history that reaches them;
  allocation failure is not modelled unless stated (`Pool` models it); sizes are those of 64-bit Linux.

## Plan per property

Each area is a directory under `lean/Verif/`: a transcription of the code (`Model`, or the file named after the C unit), `Spec` = the vocabulary of the statement where it is more than a few lines, `Lemmas`/`Inv` = helper proofs, `*Props` = the property theorems, each followed by a concrete case that meets its hypotheses.

| id | property | what is modelled, where | how it is proved |
|---|---|---|---|
| C01 | Red-black tree behaves as an ordered map | krbtree.c as trees with a zipper for the parent pointers: `RB/Model` | refinement to a sorted list of nodes, `RB/Props` |
| C02 | Traversal visits every node once in key order | rb_first/last/next/prev on zippers: `RB/Search` | in-order position of a zipper |
| C03 | Red-black tree stays balanced and rebalancing never dereferences NULL | `RB/Model`; NULL dereference is an outcome of the model | red-black invariant over the ancestor path, by induction on the rebalancing loops |
| C04 | find_cover returns the greatest key not above the argument, wrapping to the maximum | rbtree_find_cover: `RB/Search` | induction on the search path; comparison with the specification on the sorted list |
| C05 | Iterating with removal removes exactly the nodes the callback asked to remove | the iterate-with-remove loop: `RB/Search` | induction on the remaining nodes |
| C06 | Intrusive list is a sequence | klist.h on a heap of link cells, load by load: `KList/Model` | representation predicate `IsList`, refinement to `List` |
| C07 | Chunked read/write buffer is a lossless FIFO byte stream | kbuf.c `krw_buffer` as chunks with memory contents: `KBuf/Model` | refinement to a byte stream over arbitrary histories |
| C08 | Gathered read buffers describe exactly the next readable bytes | the same | history invariant |
| C09 | Prepending to a buffer that has not been partially read puts the bytes first | the same | history invariant; counter-example for a partly read buffer |
| C10 | Linear send buffer keeps all bytes through growth | `ks_buffer`: `KBuf/SBuf` | refinement to the bytes written |
| C11 | Seeking in a buffer chain or iovec skips exactly n bytes | iovec and buffer seek helpers: `KBuf/SBuf` | induction on the vectors |
| C12 | Pool allocations never overlap and lie in memory the pool owns | kmalloc.c pool with numeric addresses and a system allocator that may answer anything: `Pool/Model` | invariant: live blocks disjoint, inside memory of the pool |
| C13 | Pool destroy frees everything once and runs clean-ups in reverse order | the same, clean-ups and large blocks | invariant on the list of system regions |
| C14 | Dynamic array keeps pushed elements in order | dynamic array in a pool with memory contents: `Pool/Array` | refinement to a list of elements |
| C15 | Fiber mutex admits at most its limit of holders | kfiber_mutex, each lock region a step: `Sync/Mutex` | inductive invariant |
| C16 | Fiber mutex loses no wake-up | the same | invariant (no idle place while somebody waits), rank; starvation witness |
| C17 | Mutex try-lock bound | try_lock of `Sync/Mutex` | inductive invariant |
| C18 | Fiber read-write lock excludes writers | kfiber_rwlock with the internal lock explicit: `Sync/RWLock` | inductive invariant |
| C19 | Fiber read-write lock loses no wake-up | the same | progress under the stated condition; deadlock witness without it |
| C20 | Auto-reset fiber condition counts notices | kfiber_cond auto-reset: `Sync/Cond` | counting invariant |
| C21 | Manual-reset fiber condition releases everyone and stays set | kfiber_cond manual-reset: `Sync/Cond` | invariant |
| C22 | Channel delivers each sent value to exactly one receiver | kfiber_chan: `Sync/Chan` | history invariant (each value tagged by its send call) |
| C23 | Joining a fiber returns its exit value and frees it exactly once | fiber create/exit/join/release: `Fiber/Join` | invariant over all orders of the steps |
| C24 | Timers fire exactly once, never early, in deadline order | timer tree of kselector.c on top of `RB/Model`: `Sel/Timer` | refinement to a list of deadlines (`TimerSpec`) |
| C25 | Connection timeout lists stay consistent and ordered | connection lists and the timeout check: `Sel/Lists` | order invariant, induction on the check loop |
| C26 | Clock adjustment preserves remaining times | clock adjustment: `Sel/Timer`, `Sel/Lists` | refinement; all deadlines move by the same amount |
| C27 | Selector choice is always in range and locally balanced | kselector_manager.c: `Mgr/Model` | arithmetic on integers and `BitVec 32` |
| C28 | Worker pool runs every accepted job exactly once within its limits | kasync_worker.c: `Thr/Worker` | interleaving invariant |
| C29 | Thread pool hands each task to exactly one thread | kthread.c: `Thr/Pool` | interleaving invariant |
| C30 | Cross-thread notices are delivered exactly once | notice queue of the epoll selector: `Sel/Notice` | interleaving invariant |
| C31 | Spin read-write lock excludes writers | spin locks of ksync.h, each atomic access a step: `Thr/Spin` | interleaving invariant |
| C32 | Thread condition does not lose a notice | kcond of ksync.h: `Thr/KCond` | interleaving invariant, counter-examples |
| C33 | Address cache resolves each waiter exactly once | address cache kaddr.c: `Addr/Model` | history and reference-count invariant (`Addr/Inv`) |
| C34 | Full read/write loops transfer exactly the requested bytes | full transfer loops: `NetIO/Full` | induction over the results of the single transfers |
| C35 | TLS gather/scatter returns the length of an exact prefix | TLS gather/scatter and fallbacks: `NetIO/Tls` | induction over the results |
| C36 | Readiness events are neither lost nor delivered twice | edge-triggered epoll selector, one connection with the kernel's side: `Sel/Epoll` | invariants for accounting (`EpollAcct`), polling (`EpollPoll`), supervision (`EpollWatch`); rank functions for progress (`EpollRank`, `EpollServe`) |
| C37 | File reads and writes move exactly the bytes at the file position | asynchronous file access and the harvesting of completions: `File/Aio`, `File/AioLoop` | arithmetic; interleaving invariant with the kernel's ring |
| C38 | Server object lives until its last listener and connection is gone | server object: `Srv/Server` | interleaving invariant (`Srv/Lemmas`), progress (`Srv/Finish`) |
| C39 | Shared strings are freed exactly once | shared strings: `Str/KString` | interleaving invariant on the 32-bit count |
| C40 | Address comparison, masking and hashing agree | address comparison, masks, hashes: `Addr/Ip` | `BitVec` reasoning for all words |
| C41 | Integer comparator is an order only on small differences | integer comparator: `RB/Cmp` | arithmetic with overflow as undefined behaviour |
| C42 | File open flags follow the documented mode table | kfopen with a model of open(2): `File/Open` | case analysis over all modes and flags |
| C43 | Every completed file operation is reported exactly once | aio ring, eventfd and `result_aio_event`: `File/AioLoop` | interleaving invariant with the kernel's side |
| C44 | String comparators are total orders | string comparators: `RB/Cmp` | induction on the strings; total order |
| C45 | TLS handshake is answered exactly once and truthfully, TLS connections are destroyed exactly once | TLS handshake and shutdown drivers: `Tls/Handshake` | invariants over all results of OpenSSL and the selector |
| C46 | The tree in memory: no dangling pointers, consistent links, nothing else touched | krbtree.c statement by statement on a heap of nodes with the colour in the parent word: `RB/Heap` | representation of a tree in the heap (`HeapRep`), simulation of `RB/Model`, then C01-C05 carry over (`HeapProps`) |
| C47 | Switching between fibers: nested wake-ups return in order, calls return their own completion | kfiber_wakeup, __kfiber_wait, kfiber_exit, __kfiber_switch with the debug fields, one step per call: `Fiber/Sched` | inductive invariant: the active fibers are the chain of `switch_from` (`SchedLemmas`, `SchedInv`) |
| C48 | TLS through memory BIOs: bytes in order, writes answered after their bytes left, one answer each | the BIO callbacks, selectable_ssl_read/write, the event functions and result_ssl_bio_read/write over the krw_buffer model: `Tls/Bio`; OpenSSL is an arbitrary list of BIO calls and a result | invariant over all histories (`KBuf/Tight`, `Tls/BioLemmas`, `Tls/BioInv`) |
| C49 | io_uring selector: every request answered once with the kernel's result | kiouring_selector.c: requests, the submission ring with stale entries, completions in any order, sendfile over a pipe: `Uring/Model`; the kernel is arbitrary | invariant over all histories with a request in progress as parameter (`Uring/Inv`, `Steps`, `Reach`) |
| C50 | The TLS versions of a context are exactly those named in the configuration text | kgl_ssl_ctx_set_protocols character by character over a NUL-terminated buffer, context switches as six booleans and bounds: `Tls/Proto` | declarative words-of-a-text specification; strong induction on the rest of the text |
| C51 | Certificates and keys: a context has exactly what the texts say, or everything is released | kgl_ssl_certificate and the functions below it, new_server2 and post_init, with reference counts, over an arbitrary OpenSSL: `Tls/Cert` | declarative specification of texts (`Tls/CertLemmas`); accounting invariant: every reference is the context's or somebody else's (`Tls/CertProps`) |
| C52 | TLS contexts of a server: counted exactly, and a new context reaches every listener | the TLS context of server, listeners and connections, posted updates in any order, each call split where other threads can run: `Srv/SslCtx` | accounting of both counters by holders, interleaving invariant (`Srv/SslCtxInv`, `SslCtxSteps`); a second invariant follows a context to a listener (`SslCtxProps`) |
| C53 | Server names and protocols of TLS connections | contexts and connections with the server-name and protocol callbacks in any order: `Tls/Sni` | per-connection invariant over the calls of `create_sni`; wire form of protocol lists decoded by induction; second invariant for the registered callbacks (`Tls/SniProps`) |
| C54 | Opening sockets: exactly what the flags ask for, nothing leaked on failure | the functions that open sockets as sequences of system calls on a descriptor table, with the kernel's answers as environment; the retry loop and the loop over selectors: `Sock/Model` | case analysis of each call (`Sock/Props`); loop invariant over attempts and selectors (`Sock/Server`) |
| C55 | UDP: every datagram to one read, whole, in order, with its own addresses | one UDP connection with its epoll or io_uring poller and the kernel's queue; addresses and control data as bytes: `Udp/Model` | case analysis of a receive (`readEvent_cases`), invariants over all executions (`Inv`, `Live`), `Udp/Props` |
| C56 | Reads with a time limit lose no data | a fiber reading a connection with STF_RTIME_OUT: the pending read, the fiber's stack by address, the peer's stream: `Fiber/RTime` | one invariant over all executions (`Inv`), `Fiber/RTimeProps` |
| C57 | Ticks: each registered one is called once per round | the tick list as links in memory (the macros of `KList/Model`), callbacks as arbitrary code between call and return: `Sel/Tick` | invariant relating the links to the history of events (`Inv`, `Mid`), using C06, `Sel/TickProps` |
| C58 | Calls executed on another thread deliver one result to their caller | selectors with stacks of fibers, their inboxes and ready lists, pool jobs and workers, plain threads, close conditions and reference counts: `Fiber/Remote` | invariant in three parts (places, join protocol, history), one lemma per step (`RemoteStep1`–`4`), `Fiber/RemoteProps` |
| C59 | The selector manager: callbacks, hooks, timers from other threads, clock set back, shutdown | selectors with thread phase, inbox, timers and due timers; the lists of the manager; clock and its adjustment; shutdown flags; MALLOCDEBUG as a parameter: `Mgr/Life` | three invariants (every callback in one place: `LifeInv`/`LifeStep`; what happened on each thread: `LifeThread`; times with pending adjustments: `LifeTime`), a measure for termination (`LifeEnd`), `Mgr/LifeProps` |
| C60 | kqueue: every request is answered exactly once and no readiness is lost | one stream connection on kqueue: the bits of st_flags, its list, the copy of the ready loop, two knotes with EV_CLEAR semantics, ghost list of answers: `Sel/Kqueue` (not: listening and datagram sockets, TLS, EVFILT_AIO, EVFILT_USER) | accounting invariant (`KqueueInv`/`KqueueStep`), polling invariant for histories in which kevent does not fail (`KqueuePoll`), a measure for `kq_settles`, `Sel/KqueueProps`; truth of the answers `Sel/KqueueAns` |
| C61 | IOCP: every overlapped request is answered exactly once with its own outcome | one selectable on a completion port: bits of st_flags, its list, the copy of the ready loop, the kernel's pending calls, the queue of packets and notices, AcceptEx sockets, ghost lists of outcomes and answers: `Iocp/Model` (not: TLS, reads with a time limit) | accounting invariant (`Iocp/Inv`, `Iocp/Step`), a measure for `iocp_settles`, `Iocp/Props` |
| C62 | Debugging allocator: blocks, guards, use after free and leak report | `MDbg/Model`: memory bytes, the C library's blocks, chains and lists of records, threads inside realloc, the hook | `MDbg/Inv` (environment, rules, structural invariant), `Struct`, `Struct2`, `Step` (kept by every step), `Mem`, `Eff`, `Data`, `Guard` (bytes), theorems in `MDbg/Props` |
| C63 | Calls of fibers on addresses, connections and files | `FNet/Model`: fibers in calls, connections, files, descriptors, reference counts of addresses, answers on their way, the history | `FNet/Spec` (histories and ownership), invariants `FNet/InvA` (addresses), `InvF` (descriptors), `InvL` (history), kept by every step in `Step`, theorems in `FNet/Props` |
| C64 | TLS session id contexts, and contexts made from files | `Tls/Sid`: the digest as the bytes given to it, the reading loop, contexts, failures of every call, objects made and released | `Tls/SidProps`: induction over the reading loop and over the authorities, case analysis of failures, cancellation of common prefixes for separation |
| C65 | Augmented trees keep every summary right | `RB/Augment`: nodes with summaries, the callback, the path walk, insert and erase updates on the zipper model of the tree | `RB/AugmentProps`: stale nodes lie on the path to the returned node or are siblings of it, an invariant kept by every rebalancing step; induction over histories |
| C66 | File access by worker threads | `File/WorkerIo`: files, jobs in the queue and with workers, system calls on file contents and memory, notices, the fibers' callback | `File/WorkerIoProps`: invariant over all runs tying each job to its request and system call; refinement of file contents to the list of writes; a measure for termination |
| C67 | Addresses come out of look-ups right | `Addr/Lookup`: addresses as bytes, calls of several threads on one look-up result in three steps each, resolver and namer as environment | `Addr/LookupProps`: byte-wise specification of the copy, invariant over all interleavings, round trip through text |
| C68 | Plain files: every byte is read and written where the calls say | `File/Plain`: names, files, descriptors with offsets, a kernel that may refuse or shorten every call; `kfread_all` statement by statement into memory | `File/PlainProps`: byte-wise specification of each call, induction on the loop and on histories |
| C69 | A server's address, flags and listeners agree with what its calls answered | `Srv/Adopt`: the address of a server as the bytes of the union, binding, adopting, listening, ending listeners | `Srv/AdoptProps`: byte-wise specification of each call, invariant over histories |
| C70 | Atomic operations lose nothing, whatever threads do at the same time | `Thr/Atom`: one variable of w bits, any number of threads with programs, an operation per step | `Thr/AtomProps`: every interleaving is a sequence of the same calls; sums, tickets, exchange, reference counts and locks follow by induction over it |
| C71 | Numbers are written to buffers in full and can be read back | `KBuf/Num`: the numbers' texts, the array they are made in, the copy into both kinds of buffer | `KBuf/NumProps`: decimal notation defined by evaluation and shape, uniqueness, lengths; buffers by C08-C10's lemmas |
| C72 | Small helpers answer exactly what they are asked, within limits | `KBuf/Klib`: the loop over the vector in `int` and `size_t` arithmetic, the first byte of a path, microseconds | `KBuf/KlibProps`: induction over the vector modulo 2^32; arithmetic |

## Exactly what is modelled

| file | modelled | not modelled |
|---|---|---|
| src/krbtree.c, include/krbtree.h | everything, twice (trees, pointers) | the C++ wrapper |
| include/klist.h | all list macros and functions | type punning of `kgl_list_data` |
| src/kbuf.c, include/kbuf.h | `krw_buffer`, `ks_buffer`, seek helpers, numbers (C71) | allocation failure, `flags` |
| src/kmalloc.c (11-371), include/kmalloc.h | pool, large blocks, clean-ups, array, alignment; the checking allocator of src/kmalloc_debug.c (C62) | stack traces, src/kmalloc_debug_win32.c |
| include/kfiber_sync.h, src/kfiber_sync.c | mutex, rwlock, cond (all flavours), chan | |
| src/kfiber.c, include/kfiber.h | wake-ups, waits, starts and exits of fibers and the order of switches, create/join/release, full transfers, file access, TLS drivers | the context switch primitives, signal masks, stack allocation |
| src/kselector.c | timer tree, connection lists, timeouts, clock adjustment | |
| src/kepoll_selector.c, include/kepoll_selector.h | registration, readiness, wait loop, notices, aio, recvmsg/sendfile paths as in `Sel/Epoll` | datagram edge (see below) |
| src/kiouring_selector.c | requests, ring, completions, sendfile | set-up of the ring |
| src/kselectable.c | event dispatch, gather/scatter, TLS transport | |
| src/kselector_manager.c | pow2, choice, timeouts, ready callbacks | |
| src/kasync_worker.c, src/kthread.c, include/ksync.h, include/katom.h | everything on POSIX | Windows branches |
| src/kaddr.c | cache, jobs, refresh, flush, hints of look-ups, addresses built from results (C67) | `getaddrinfo` itself |
| src/kssl_bio.c, include/kssl_bio.h | everything after the handshake | `BIO_METHOD` set-up |
| src/kserver.c, include/kserver.h | references, listeners, accept, close, TLS contexts, retries of a failed listen (C54), binding and adopted sockets (C69) | |
| src/kconnection.c, src/kgl_ssl.c | handshake, shutdown, destruction, protocol versions, certificates and keys, server contexts, server names and ALPN, session identifiers' digests, client contexts (C64) | cipher lists, early data switches |
| src/kasync_file.c, include/kasync_file.h, src/kfile.c | Linux branch; the worker branch (macOS, C66) | Windows branch |
| include/kstring.h, include/ksocket.h, src/ksocket.c | everything named in C39, C40; opening of sockets (C54), look-ups, texts, Unix paths and switches (C67) | |
| src/kkqueue_selector.c | registration, readiness, wait loop, notices, sendfile (`Sel/Kqueue`), file access by workers (C66) | set-up |
| src/kiocp_selector.c | requests, completions, accept, files, notices (`Iocp`, C61) | set-up |
| src/kudp.c | sockets, sending, receiving, addresses of arrival | kudp_add_multicast, kudp_bind (one system call each) |
| src/klib.c, include/klib.h | POSIX branch (C72) | Windows branch |
| src/klog.c, fcontext assembly | | not modelled |

## Findings: places where the code does not do what one would expect

Each is a theorem (a concrete history, or for every input of the named kind) in the model; the property theorems exclude exactly these cases by an explicit hypothesis or by their wording.


`Addr/IpProps`
* `ipaddr_v4_compare_not_an_order`: On the whole IPv4 space the comparison is not an order: some pair overflows (undefined behaviour), and with wrapping arithmetic there are `a < b < c < a`; sorting or tree search by it is unsound.
* `ipaddr_v4_compare_not_numeric`: The order is not the numeric order of dotted addresses, since the word is in network order: 1.0.0.2 compares above 2.0.0.1.
* `cpp_lt_disagrees_with_compare`: The C comparison and the C++ operator order IPv4 addresses differently: C++ says 0.0.0.0 < 0.0.0.144 (word 0x90000000), the C function says it is greater.
* `cpp_hash_reads_garbage`: For IPv4 the C++ hash also reads the three words `ksocket_ipaddr` never writes: the same address extracted into two variables hashes differently as soon as their old contents do.

`Addr/LookupProps`
* `shared_port_race`: **C67, finding.** The port is written into the shared look-up result before it is copied: of two threads that use one cached name at the same time with different ports, both can get the port of one, so one connects to the wrong port.
* `cname_never_asked`: **C67, finding.** `kgl_addr_cname` is no different from `kgl_addr_ip`: the branch that asks for the canonical name runs on into the default one, so the resolver is asked the same.
* `unix_addr_cut`: **C67, finding.** A path that does not fit is cut without an error, and the path left has no end.
* `is_block_inverted`: **C67, finding.** `ksocket_is_block` answers the opposite of its name.
* `forever_taken_back`: **C67, finding.** Elsewhere than on Linux `ksocket_delay` takes back what `ksocket_no_delay` promised for ever.
* `ipaddr_text_no_room`: **C67, finding.** A failing conversion writes its empty text even into a buffer of no bytes.

`Addr/Props`
* `addr_result_use_after_free`: The answer is posted without a reference of its own: when the entry is flushed between caching the result and posting the answers (here because the entry was last used an hour before the resolver answered), the address is used after it was freed.
* `addr_refresh_of_pending_ub`: A refresh that ends while the name is being resolved again (flushed and requested meanwhile) unlinks an entry that is not in the list: it follows a NULL link.
* `addr_flush_misses_idle`: A refresh moves the entry to the end of the list without marking it used, so an entry idle for more than an hour can hide behind a younger one and survive the flush.

`FNet/Props`
* `accept_zero_without_connection`: `kfiber_net_accept` returns 0 although it has no connection for its caller: when the accept failed (the event has -1), and when `SSL_new` failed. A caller that looks at the result only uses a null pointer; -1 is returned only if the selector did not take the request.
* `shutdown_after_failed_handshake`: The flag that a handshake was done is set when it begins: after a handshake that *failed* closing the connection calls `SSL_shutdown` on it (OpenSSL forbids this: "It is not possible to call SSL_shutdown if a previous fatal error has occurred"), and waits if OpenSSL says so.
* `shutdown_zero_on_failure`: `kfiber_ssl_shutdown` returns 0 whatever happened: also when `SSL_shutdown` failed and when the connection broke while waiting.

`Fiber/JoinProps`
* `join2_after_exit_loses_value`: kfiber_join2 on a fiber that already exited calls back with 0, not with the exit value.
* `ref_self_twice_hangs`: Two handles taken with kfiber_ref_self on a detached fiber: after the exit and one join the other join waits for ever (its condition is auto-reset) and the fiber is never freed: from then on no step is possible.
* `exit_callback_twice_fails`: Two exit callbacks on a detached fiber: the exit calls only the later one and then fails the assertion that nobody waits on the condition being destroyed.

`Fiber/RTimeProps`
* `repeated_elsewhere_wrong_buffer`: The call repeated from another place of the program (its variables elsewhere) returns bytes that were not put into its buffer: they are in the buffer of the call that timed out, which may not exist any more; nothing in the API or its comments asks for the same place.
* `repeated_elsewhere_undefined`: If the place was overwritten in the meantime the read goes through whatever is there: undefined.
* `other_wait_woken`: After ST_ERR_TIME_OUT the read is still pending: a fiber that then waits for something else (a pause before it tries again, say) is woken from that wait by the connection's data, and by the next limit that passes.

`Fiber/RemoteProps`
* `finding_spurious`: kcond_wait (include/ksync.h:57-63) calls pthread_cond_wait once, without testing its condition again; POSIX lets that call return without a notice. Then kfiber_join on a thread answers 0 with a value nobody computed: here the function has not even been entered, and the result handed out is the 0 of a fresh fiber.
* `finding_spurious_not_ok`: `remote_call_ok` is false of the code with such wake-ups

`File/AioLoop`
* `aio_two_operations_on_a_file`: Two operations at once on one file (say a read and a write by two fibers): both completions run the callback of the second, so the first fiber is never woken and the second one twice.

`File/AioProps`
* `aio_direct_eof_aborts`: Without NDEBUG every direct read at the end of the file aborts (`assert(got>direct_io_offset)`), even when the end is on a block boundary and the kernel correctly returns 0.
* `aio_direct_eof_is_error`: With NDEBUG a direct read behind the last byte in a partly filled block returns -1, an error, instead of end of file.
* `aio_read_full_direct_unaligned`: `kfiber_file_read_full` on a direct file moves the buffer pointer by what it got: after a first read that does not end on a block boundary, the buffer of the next one is not aligned and `epoll_selector_aio_read` aborts. (Without NDEBUG; with it the kernel refuses the request.) Here: 600 bytes wanted, the first read got `r = 600 - 100 = 500` of them because the position was at 100.
* `aio_read_request_misses_tail`: And what it leaves in the caller's buffer starts at `kfiber_file_adjust(file, buf)`, which depends on the last read only.
* `aio_large_alignment_wrong_offset`: With an alignment size of 64 KiB (a device with 64 KiB logical blocks) the `int16_t` cast of `_kasync_file_get_adjust_offset` makes the kernel read from a wrong place: position 40000 in the first block is read from 65536.
* `aio_zero_read_asks_a_block`: A direct read of 0 bytes asks for a whole block: the buffer `aio_alloc_buffer(0)` returns (0 bytes) is overrun.
* `aio_length_overflow`: A length within one block of INT_MAX overflows the rounded length: the kernel is asked for a negative number of bytes.
* `aio_direct_write_length_unchecked`: A direct write of a length that is not a multiple of the block size passes the checks of `epoll_selector_aio_write`, but the kernel accepts no such request.

`File/Open`
* `open_temp_ignored`: KFILE_TEMP_MODEL, which on Windows makes the file private and deletes it when it is closed, has no effect here: the file stays.

`File/PlainProps`
* `read_all_interrupted`: `kfread_all` gives up at the first read the kernel refuses, also for a signal (EINTR); the bytes read so far are in memory and the offset has moved, but the caller is not told by how much.
* `last_modified_of_link`: `kfile_last_modified` does not follow links, `kfopen` does: a link to a file that can be opened has the time 0, which also means that there is no file, or that its time is 0.
* `size_of_nothing`: `kfsize` and `kftime` of a descriptor that is not open are 0, which is also the size of an empty file: the error cannot be seen.
* `seek_unknown_is_begin`: A `kfseek` with a position that is none of the three seeks from the beginning, instead of failing.
* `writers_overwrite`: Two descriptors of one file opened for writing but not for appending overwrite each other: both writes say they took all bytes, and one byte is lost.

`File/WorkerIoProps`
* `mac_calls_fail`: **C66, finding.** On macOS (KF_ASYNC_WORKER and BSD_OS) `kfiber_file_callback` asks `aio_return` about a request that was never given to the system: every `kfiber_file_read` and `kfiber_file_write` returns -1 and no offset advances, though the bytes were read or written.
* `second_operation_replaces_first`: **C66, finding.** A write asked for while a read of the same file is on its way takes the place of the read: the write is made twice, the read never, the callback of the write is called twice and that of the read never.

`Iocp/Props`
* `failed_post_is_silent`: When PostQueuedCompletionStatus fails, `iocp_selector_next` frees the notice and returns as if nothing had happened (`void`, src/kiocp_selector.c:274-278): no later move of anyone calls it, and whoever waits for it (a fiber woken from another thread, say) waits for ever.
* `accept_spins`: While AcceptEx fails (the listening socket went bad, say) `iocp_selector_accept` tries again at once, on the selector's thread, until the server is stopped (240-250): for every number of attempts, each makes and closes a socket, and nothing else runs.
* `recvfrom_dangles`: A read on a datagram socket without `kudp_extend` gives WSARecvFrom the address of a local variable for the length of the peer's address (src/kiocp_selector.c:111, 122-124): when the call completes later, the kernel writes to a stack frame that is gone.

`KBuf/KlibProps`
* `bufs_size_wraps`: Of 2 GiB of buffers the size is negative, of 4 GiB it is 0.
* `msleep_negative`: A pause of -1 ms lasts more than 71 minutes: the negative number of microseconds is taken as an unsigned one.

`KBuf/NumProps`
* `no_separator_ambiguous`: Without a separator the numbers 1, 23 and the numbers 12, 3 give the same bytes.

`KBuf/Props`
* `krw_insert_after_partial_read`: A concrete history: after reading 2 of 4 bytes, prepending one byte makes the two read bytes readable again, and `total_len` no longer counts the readable bytes.
* `krw_read_success_true_but_empty`: `krw_read_success` is documented to return true when there is still data to read, but returns true with nothing left to read if a buffer was reserved and not written.
* `krw_read_stops_at_empty_chunk`: An appended empty chunk makes `krw_read` return 0 although bytes are readable.
* `krw_read_between_get_and_success`: Reading everything between `krw_get_write_buffer` and `krw_write_success` frees the chunk under the writer: `krw_write_success` then fails its assertion.

`KBuf/SBufProps`
* `ks_switch_empty_then_write`: A buffer switched to reading that holds no bytes has size 0; writing it again through `ks_get_write_buffer` fails its assertion (without assertions the retry loop does not end: the doubled size stays 0).
* `iovec_seek_large_vector`: A vector of 2^31 bytes is skipped as a whole by a seek of 1 byte: `(int)iov_len` is negative.

`KList/Props`
* `klist_remove_unlinked_ub`: Removing an element whose links were never set (both NULL) is undefined behaviour.
* `klist_double_remove_corrupts`: `klist_remove` leaves the links of the removed element in place, so removing it again after one of its former neighbours was removed brings that neighbour back: the walk visits a removed element.

`MDbg/Props`
* `mdbg_misaligned`: The block handed out is eight bytes behind one of the C library's: its address is never a multiple of 16, as the C standard's `max_align_t` asks for on x86-64 and SSE instructions rely on.
* `mdbg_calloc_overflow`: `calloc` multiplies without looking for overflow: 2^32 + 1 objects of 2^32 bytes are "allocated" as 2^32 bytes, and the program believes it has more than 2^64.
* `mdbg_size_overflow`: A size within 16 of 2^64 is not refused: the sum with the guards wraps round, a block of a few bytes is allocated and `size` bytes are written to it.
* `mdbg_realloc_in_dump`: While one thread writes the leak report the hook is off for all; if another then resizes a block it got before, the C library is given an address it never handed out.
* `mdbg_overlapping_dumps`: Two threads that write the report at the same time leave the hook off for ever: the second saves "off" and restores it last.

`Mgr/LifeProps`
* `timer_after_setback_early`: After the clock was set back, a timer asked for before a selector has handled its notice is called too early, by as much as the clock was set back: it gets its time from the new clock, is put on the list, and then loses the difference again with everything else on the list (notices are handled last-in-first-out, so even a timer posted after the notice comes first). Here a timer of 4 seconds fires at once.
* `timer_after_setback_early_here`: the same for kselector_add_timer on the selector's own thread
* `timer_across_setback_late`: A timer that is on its way to its selector while the clock is set back is late by as much: the notice to adjust the timers overtakes it. Here a timer of 1 second has not been called after 5.
* `timer_before_clock`: A timer asked for before the clock was first read (kasync_init) starts from time 0 and fires at once.
* `on_ready_lost`: A selector_manager_on_ready that overlaps with selector_manager_init loses its callback: it finds the manager not initialised, and puts the callback on the list after the list was emptied for good.
* `close_loses_callbacks`: selector_manager_close (MALLOCDEBUG build) does not wait for posted callbacks: they are never called.
* `close_before_born`: selector_manager_close may destroy a selector whose thread has been handed to the thread pool but not begun: `thread_id` is still 0. The thread then uses it.
* `close_forward_destroyed`: It destroys the selectors one by one as their threads end; a thread that still has a timer asked for before initialisation to place may choose a destroyed one.
* `close_hangs`: In a build without MALLOCDEBUG the loops never end, so selector_manager_close, which waits for them, never returns once a thread has begun (`release_never_ends`).

`Mgr/Props`
* `perfect_may_choose_most_loaded`: The choice only compares neighbours: the most loaded selector, far above the average, may be chosen.

`NetIO/FullProps`
* `writev_full_empty_tail`: The documentation says "if all complete bc will be 0"; with an empty last vector all bytes are written but `*bc` stays positive, so the caller takes the write for failed.
* `writev_full_large_vector`: A vector of 2 GB or more is skipped as a whole after a short write of `g` bytes: the bytes after the first `g` of it are never written, and the loop then reads past the end of the array.
* `file_safe_read_failure_is_eof`: `kfiber_file_safe_read` reports 0, as for the end of the file, when it could not create its fiber.

`NetIO/TlsProps`
* `ssl_readv_early_wait_is_eof`: While TLS early data is read, a call that would have to wait (or fails) before any byte is read makes `kgl_ssl_readv` return 0, which the caller takes for the end of the stream; without early data the same situation is reported as -1.
* `ssl_writev_huge_buffer`: The length of a buffer is converted to `int`: of a buffer of `2^32 + m` bytes only the first `m` are written before the next buffer follows, so what is written is not a prefix.

`Pool/Array`
* `array_zero_capacity_overflows`: An array created with capacity 0 never gets any: after another block was taken, a push returns a slot in an allocation of 0 bytes that is the next block's memory.

`Pool/Props`
* `pool_unaligned_size_overflows`: In a pool whose size is not a multiple of 8 an aligned allocation can lie behind the end of the block: `end - m` wraps.
* `pool_too_small_overflows`: A pool smaller than its own header (64 bytes) hands out memory behind its block.
* `pool_cleanup_entry_freed`: In a pool with less than 24 bytes of room a clean-up entry is itself a large allocation, so that `kgl_pfree` of the returned entry frees memory the pool still refers to.

`RB/Cmp`
* `int_cmp_not_an_order`: On the full int range the comparator overflows, and where signed arithmetic wraps it is not an order: there are three ints with `x < y`, `y < z` and yet `z < x`.

`Sel/EpollProps`
* `epoll_ctl_failure_hangs_next_read`: `epoll_add_event` sets STF_REV before `epoll_ctl` and leaves it set when the call fails (src/kepoll_selector.c:97-134): the read that failed reports the error, but the next read believes the socket is registered and hangs although there is input.
* `epoll_readhup_after_hangup_hangs`: A readhup request made after the hang-up was noticed (a read returned end of file) is never told: the edge is gone and STF_ERR is not consulted (src/kepoll_selector.c:263-285).
* `epoll_half_close_refuses_writes`: EPOLLRDHUP, which only says that the peer will send no more, sets STF_ERR for good (378), and `selectable_event_write` then refuses every write (src/kselectable.c:486-488): a half-closed connection cannot be answered although the socket is writable.
* `epoll_half_close_allows_sendfile`: `sendfile` does not look at STF_ERR and is not refused.
* `epoll_next_read_unregistered`: `selectable_next_read` on a connection the poller does not know leaves STF_READ set (`st_flags` has no STF_ET, so `selectable_read_event` does not clear it): the next read fails its assertion.
* `epoll_next_write_hangup`: `selectable_next_write` that meets a hang-up leaves STF_WREADY2 set: the next write fails its assertion.
* `epoll_accept_twice`: An accept can be completed twice: the first one is answered while the listening socket is not registered (STF_READ stays set); the shutdown of the listening socket then runs its callback again.
* `epoll_superseded_readhup_destroy`: A read that supersedes a readhup request whose hang-up is already on the ready list leaves the connection there: destroying it fails the assertion of `selectable_clean` (in a release build the list keeps a dangling pointer).

`Sel/KqueueProps`
* `kq_settles`: The selector comes to rest: left alone by the caller and the kernel it makes at most 18 moves for a connection, whatever the answers of the system calls (`sendfile` failing excepted, see the findings).
* `sendfile_error_spins`: On BSD a `sendfile` that fails with an error other than EAGAIN before anything was sent (the peer reset the connection, say) is tried again at once with STF_WREADY still set (src/kselectable.c:336-344): the ready loop takes the connection again and again, the callback is never called and, as the loop is left only with an empty ready list, the selector thread serves nothing else. For every number of rounds:
* `sendfile_error_recursion`: Off the main fiber the same error is retried by recursion until the stack is exhausted.
* `failed_sendfile_poisons_write`: When `kevent` fails for a `sendfile`, only STF_WRITE is cleared (src/kkqueue_selector.c:229-232): STF_SENDFILE stays, and the next ordinary write is taken for a `sendfile`, its I/O vector for the description of a file.
* `failed_registration_hangs`: The flags are set before `kevent` is called and a failure does not clear them: after a read that was refused for that reason the next read believes the connection registered, and waits although data is there.
* `refused_connect_reported_ok`: STF_ERR is never set by this selector: a connect the peer refused is reported like one that succeeded.
* `connect_reported_early`: Registering a connect sets STF_WREADY before the connection exists: anything that puts the connection on the ready list meanwhile (`selectable_next_read` here) reports the connect as done.
* `next_read_unregistered`: After `selectable_next_read` on a connection the poller does not know STF_READ stays set (as with epoll, C36): the next read fails its assertion.

`Sel/ListsProps`
* `unadjusted_step_back_hides_due`: A step back within the same second is not adjusted (src/kselector.c:138-139), so a list can get out of order: connection 2 has been idle for longer than the timeout but the check stops at connection 1.
* `zero_timeout_loops_forever`: With a timeout of 0 a connection that asked for read timeouts makes the check loop forever: it is re-queued at its end with the current time and is due again at once.

`Sel/Notice`
* `notice_order_reversed`: Notices are delivered newest first: two notices posted one after the other by the same thread arrive in the opposite order.
* `notice_lost_on_write_failure`: After a failed eventfd write a notice stays behind although the selector is idle; a later notice does not flush it.

`Sel/TickProps`
* `close_next_undefined`: A callback that closes the tick registered after its own makes the selector go on in freed memory.
* `registered_twice_undefined`: A tick registered twice is accepted (`kselector_register_tick` returns true); when it is closed, freed memory stays in the list and the next round uses it.
* `more`: One more call in the same round: the callback registers a new tick and returns.
* `round_without_end`: A round need not end: callbacks that register further ticks have these called in the same round (unless the callback is the last one), so with two ticks whose callbacks, and those of the ticks they make, each register another one, the selector serves nothing else; for every number there is an execution that keeps the rules with as many calls in its first round.

`Sel/TimerProps`
* `posted_adjust_fires_new_timer_early`: When another thread updates the global clock, the adjustment reaches this selector as a posted message; a timer registered in between has been computed from the new clock and is moved again: here a 2000 ms timer is called at once.
* `small_step_back_not_adjusted`: A step back within one second is not adjusted at all: the remaining time grows.

`Sock/Server`
* `unix_server_only_last_reachable`: A server on a Unix path with two selectors: each `ksocket_listen` removes the socket of the one before, so the first listener is open and listening but the path no longer leads to it; only the last selector ever gets connections.
* `unix_listen_removes_live_socket`: `ksocket_listen` on a path removes the socket of a server that is running there, and if `bind` then fails the path is gone.
* `unix_accept_reads_beyond`: A connection accepted on a Unix path: `kconnection_new` copies `sizeof(struct sockaddr_un)` (110) bytes from an address of `sizeof(sockaddr_i)` (28) followed by 4 more bytes of the listener, that is beyond its end.
* `inet_accept_in_bounds`: **C54.** For Internet addresses the copy stays inside an object that has room for an address, even without the bytes that follow.
* `no_cloexec_leaks`: Without SOCK_CLOEXEC (macOS) no descriptor kasync opens is closed on exec: the only statement of `kfile_close_on_exec` is commented out.
* `reconnect_leaks`: `kconnection_half_connect` on a connection that has a descriptor (a second attempt with the same object) overwrites it: the old descriptor stays open and nothing names it any more.
* `retries_used_up`: `kgl_failed_tries` is never reset: after 11 failed attempts in the life of the process every later listening call makes a single attempt.
* `connect_timeout_overflow`: The timeout of `ksocket_connect` does not bound connecting: `connect` is called on a blocking socket, and only then the (already connected) socket is polled; for a timeout above 2147483 seconds the multiplication overflows.

`Srv/AdoptProps`
* `adopt_path_cut`: `kserver_open_exsit` hands `getsockname` the size of a `sockaddr_i` (28 bytes): of a Unix socket's path the server keeps 26 bytes, followed by what was there before. On a new server the path is cut silently.
* `adopt_path_mixed`: On a server that was bound to a longer path before, the server's path is a mixture that names neither.
* `adopt_refused_keeps_listener`: If the selector refuses the listener, `kserver_open_exsit` answers false, but the descriptor stays in the server's list with a reference, on a server that is not started: nobody accepts from it, and the caller, who was told that it failed, closes a descriptor the server will close again.
* `open_true_without_listener`: If accepting cannot be started, `kserver_open_exsit` and `kserver_open` have already closed the only listener when they answer true.
* `net_listen_zero`: `kfiber_net_listen` answers 0 also when there is no listener.

`Srv/Finish`
* `server_close_hits_foreign_socket`: `kserver_close` reads the descriptor of a listener that its own thread is closing (src/kserver.c:355-356 run without the lock): if the number was reused in between, `kserver_close` shuts down a descriptor of somebody else.
* `server_close_mac_own_socket`: In the macOS build that cannot happen: the shutdown runs on the listener's own thread.
* `server_unix_path_never_removed`: The path of a unix listener is never removed: `kserver_selectable_free` unlinks it only if the descriptor is still open (src/kserver.c:122-129), and the destructor has always closed it before (354-357).
* `server_accept_error_kills_listener`: One failing accept (say, for lack of descriptors) destroys the listener for good while the server still counts as started.
* `server_posted_callback_dangling`: A user callback posted to another selector gets the listener as `data` (include/kserver.h:45), which may be freed before it runs.
* `server_close_misses_new_listener`: A listener that is being made while `kserver_close` runs is not shut down by it, and goes on accepting.

`Srv/SslCtxProps`
* `sslctx_set_reaches`: **C52.** `kserver_set_ssl_ctx(server, c)` reaches every listener: whatever happens afterwards short of another context being set, once the call has returned and the updates of listener `i` have run, `i` uses `c`; the listener may also be one added after the call. (Required: no older update of `i` was still pending when the call was made, see the finding.)
* `sslctx_two_updates_older_wins`: Two contexts set one after the other on a started server: the updates are delivered newest first (see C30), so the listener ends with the older one for ever.
* `sslctx_tls_server_serves_plain`: The same with "no context" first: a started plain server is bound again without TLS and then given a context; its listener goes on serving plain connections although the server has a context.
* `sslctx_update_of_freed_listener`: A listener that is destroyed (an accept error is enough) while an update is pending: the update writes to the freed listener.
* `sslctx_listen_races_set`: `kserver_listen` reads the server's context before `ss_lock` is taken: if another thread sets a context meanwhile, the new listener refers to a freed one.
* `sslctx_set_after_close_races_accept`: After `kserver_close` (the listeners still run down on their own threads) `kserver_set_ssl_ctx` replaces their contexts directly instead of posting: a connection being made uses a freed context.
* `sslctx_failed_bind_refuses_plain`: A TLS bind that fails for its address marks the server as TLS: a later bind without a context is refused although the server has none.

`Str/KStringProps`
* `string_from2_embedded_nul`: `kstring_from2` copies with `strndup`, which stops at a NUL, but records the length asked for: for every buffer with a NUL inside, `len` promises more bytes than `data` holds (with the final NUL counted, a reader that trusts `len` runs past the allocation unless the NUL is the last byte).
* `string_from2_huge`: A buffer of 4 GiB or more is recorded with its length modulo 2^32.
* `string_many_references_abort`: The bound on the number of references is needed: whoever legitimately takes 0xffffffe more references has the next release fail its assertion and end the process, although nothing is wrong.

`Sync/ChanProps`
* `chan_lifo_witness`: Waiting senders are served last-in first-out: of two waiting senders the later one is received first.
* `chan_cross_selector_fails`: A second fiber of another selector that uses the channel while somebody waits fails an assertion: the channel works only between fibers of one selector.

`Sync/CondProps`
* `cond_value_lost_when_notice_first`: The value given to `notice` reaches a fiber only if the fiber was already waiting: a notice that precedes the wait is delivered with the waiter's own stale `retval` (src/kfiber_sync.c:141,188,270), a callback gets 0 (41, 51).
* `cond_auto_lifo`: Auto-reset waiters are released last-in first-out.

`Sync/MutexProps`
* `mutex_starvation`: Waiters are served last-in first-out, so a waiter can be overtaken without bound: for every `n` there is an execution in which `n` lock calls issued after fiber 1 started to wait are all granted while fiber 1 keeps waiting.
* `mutex_lowered_limit_not_enforced`: After lowering the limit, hand-over keeps the old number of holders as long as there are waiters: limit 1, two holders, and each unlock hands its place over.
* `mutex_raised_limit_does_not_wake`: Raising the limit does not wake waiters: a fiber keeps waiting although a place is free.
* `mutex_lock2_unlock_asserts`: The callback flavour `kfiber_mutex_lock2` does not increment `count`, so the matching unlock fails the assertion `count > 0` (include/kfiber_sync.h:110).
* `mutex_init2_zero_deadlocks`: `kfiber_mutex_init2(num)` with `num < 1` accepts no one: the first lock waits though nobody holds the mutex (set_limit clamps, init2 does not).

`Sync/RWLockProps`
* `rwlock_same_selector_deadlock`: With two fibers on one selector the lock can deadlock its thread: fiber 0 holds for writing, fiber 1 (same selector) waits for reading; `wunlock` wakes fiber 1 while still owning the internal mutex, the switch is immediate, and fiber 1's `runlock` locks the mutex its own thread already owns.

`Thr/AtomProps`
* `sub_least_undefined`: `katom_sub` negates its argument as an `int32_t`: for -2147483648 this is undefined, while `katom_sub64` is defined for every argument.
* `dec_below_zero`: One reference given up too many is not seen in the result: `katom_dec` of 0 is 4294967295 as the `uint32_t` it returns, and the count then says that there are references.

`Thr/KCond`
* `kcond_one_notice_two_returns`: One notice of an auto-reset event can release two waits: one waiter is woken, another thread takes the event before it resumes.
* `kcond_second_notice_swallowed`: A resuming waiter clears an event that a second notice has set for another waiter: two notices, two later waits, one stays blocked (auto-reset: the second notice is merged although the first was already taken).
* `kcond_manual_event_consumed`: A manual-reset event is not kept: a wait that finds it set clears it, so of two later waits one blocks.
* `kcond_spurious_return`: There is no predicate loop: a spurious wake-up makes a wait return although no notice was ever given.

`Thr/PoolProps`
* `pool_flush_negative_asserts`: `kthread_flush` with a negative minimum fails its assertion when no thread is parked: it tests `free_thread_count > 0` where the list is known to be empty.

`Thr/SpinProps`
* `krw_writer_starves`: A `krw_mutex` writer can starve: with readers 0 and 1 overlapping, the state at the writer's every try repeats.

`Thr/WorkerProps`
* `worker_limit_off_by_one`: The queue limit is checked with `>`: with `max_queue = 1` two jobs may be queued.
* `worker_start_failure_ub`: If no thread can be started the code decrements the pointer `worker` and releases through it.
* `worker_zero_max_never_runs`: With `max_worker = 0` jobs are accepted and never executed.

`Tls/HandshakeProps`
* `tls_handshake_timeout_asserts`: A connection flagged STF_RTIME_OUT: a read timeout during the handshake (-2) is taken for readiness; the driver runs again while its read request is still pending, and asks for another one: assertion failure (src/kconnection.c:202-213 with src/kselector.c:188-195).
* `tls_handshake_timeout_use_after_free`: Or the handshake completes in that call, the parameter block is freed while the read request that points to it is still pending, and the next event uses it.
* `tls_handshake_alert_not_sent`: The alert OpenSSL writes when a handshake fails stays in the outgoing BIO (src/kconnection.c:171-175 flushes only if there is no error): whenever the first call fails with an error other than a certificate look-up, the bytes of that call are not sent.

`Tls/ShutdownProps`
* `tls_close_notify_not_sent`: With BIOs, the usual first `SSL_shutdown` puts close_notify into the outgoing BIO and returns 0, for which `SSL_get_error` gives SSL_ERROR_SYSCALL; the driver takes it for an error and destroys the connection: close_notify is never sent (src/kgl_ssl.c:820-834, src/kconnection.c:127-131).

`Tls/SidProps`
* `authorities_not_separated`: The authorities given to `kgl_ssl_ctx_new_server` are loaded after the digest was computed, and loading them does not fill the list the digest is computed from (`SSL_CTX_load_verify_locations` does not set the client CA list): two servers with the same certificate accept each other's sessions whatever authorities they trust, even if one of them does not ask for client certificates at all. A client that was accepted under one set of authorities (or without a certificate) can resume its session where another set is demanded.
* `text_name_not_content`: `kgl_ssl_ctx_new_server2` digests the text as given: if the certificate is given by the name of a file, a renewed certificate keeps its session id context; and with an empty text (the key's text then has both, src/kgl_ssl.c:615-617) all servers have the same one.
* `name_runs_into_content`: Name and content are not separated in what is digested: the file "a" that begins with "b" and the file "ab" can have the same session id context.
* `failed_update_ignored`: An `EVP_DigestUpdate` that fails for a block of the file only ends the loop: the function goes on and returns true, and the session id context no longer depends on the certificate.
* `client_id_refused`: The session id context of a client's context has 100 bytes, more than the 32 OpenSSL takes: it is refused, the error is not looked at (and stays in OpenSSL's error queue), and the context has none.

`Tls/SniProps`
* `sni_asked_twice`: A `create_sni` that gives a context but no object is asked again by the protocol callback of the same handshake, with the same name: `c->sni` is the only mark that it was asked.
* `unset_sni_crashes`: `kssl_set_sni_callback(NULL, NULL)` while contexts made before it are in use makes the next handshake that sends a server name fail the assertion (or call NULL), and destroying a connection that has an object calls NULL.
* `no_server_crashes`: A connection that was not accepted by a `kserver` (its `server` is NULL) and is made a TLS server with `kconnection_ssl_accept` crashes in the server-name callback.

`Udp/Props`
* `recvaddr_before_first_read`: The room for packet information is allocated and not cleared: until the first read, `kudp_get_recvaddr` may report success and hand out what happened to be in that memory.
* `recvaddr_never_v6`: On an IPv6 socket `kudp_get_recvaddr` never works once something was received: only IP_PKTINFO is asked for (src/kudp.c:86), never IPV6_RECVPKTINFO.
* `eintr_loses_the_event`: EINTR is treated like EAGAIN (src/kselectable.c:190-193): STF_RREADY is cleared although datagrams are waiting, and as epoll is edge-triggered the read waits until another one arrives.
* `failed_registration_hangs`: If `epoll_ctl` fails once the read fails, but STF_REV stays set (src/kepoll_selector.c:102-108): the socket is never registered and the next read waits for ever.
* `truncation_not_reported`: A datagram cut to the buffers is not distinguished from one that just fits: `msg_flags` (MSG_TRUNC) is not looked at.

### Observed while reading, outside the models

* `kfiber_ssl_shutdown` repeats its call after a read timeout (-2) as if the descriptor were ready.
* A datagram read that is interrupted (EINTR) loses the readiness edge.
* `result_aio_event` uses `i` uninitialised when `io_getevents` fails at once.
* Unix-socket addresses are compared by the bytes of a pointer (`ksocket_addr_compare`).
* `selectable_recvmsg` dereferences `c->udp` before its NULL test.
* io_uring: `tmo * 1000000` overflows `int` for timeouts of 2148 ms or more, and `arg` is ignored by the aio functions.
* `kfiber_net_listen`/`kfiber_net_accept` return 0 on some failures.
* `get_addr` falls through a missing `break` (src/kaddr.c:107-114); `ksocket_is_block` answers the opposite of its name.
* The endless loop of `zero_timeout_loops_forever` cannot be configured through `selector_manager_set_timeout`
  (theorem `Mgr.timeouts_positive`), only by assigning the selector's fields directly.

## Axioms of each theorem named in MANIFEST.json

`#print axioms` on every theorem of the manifest gives (P = `propext`, Q = `Quot.sound`, C = `Classical.choice`; nothing else occurs):

* **C01** — PQ: `RB.rbtree_is_ordered_map`, `RB.rbtree_remove_exact`, `RB.find2_spec`, `RB.replace_node_spec`
* **C02** — PCQ: `RB.walk_next_visits_all`, `RB.walk_prev_visits_all`; PQ: `RB.next_is_least_greater`, `RB.prev_next`
* **C03** — PQ: `RB.rbtree_balanced`, `RB.rb_erase_safe`, `RB.rb_insert_color_safe`, `RB.rbtree_ways_short`
* **C04** — PQ: `RB.find_cover_spec`
* **C05** — PCQ: `RB.iterator_spec`; PQ: `RB.sorted_nodup`
* **C06** — PCQ: `KList.klist_is_sequence`, `KList.klist_init_empty`, `KList.klist_insert_appends`, `KList.klist_remove_deletes`, `KList.klist_rforeach_visits`, `KList.klist_empty_iff`, `KList.klist_frame`, `KList.kforward_list_init_empty`, `KList.kforward_list_append_first`, `KList.kforward_list_remove_deletes`; PQ: `KList.klist_foreach_visits`; none: `KList.klist_remove_unlinked_ub`, `KList.klist_double_remove_corrupts`
* **C07** — P: `KBuf.krw_read_success_true_but_empty`, `KBuf.krw_read_stops_at_empty_chunk`, `KBuf.krw_read_between_get_and_success`; PCQ: `KBuf.krw_fifo`, `KBuf.krw_read_spec`, `KBuf.krw_read_success_spec`, `KBuf.krw_get_write_buffer_spec`
* **C08** — PQ: `KBuf.krw_get_read_buffers_prefix`
* **C09** — P: `KBuf.krw_insert_redelivers`, `KBuf.krw_insert_after_partial_read`; PQ: `KBuf.krw_insert_first`
* **C10** — PCQ: `SBuf.ks_buffer_lossless`, `SBuf.ks_buffer_read_back`, `SBuf.ks_read_success_flag`; PQ: `SBuf.ks_get_write_buffer_room`; none: `SBuf.ks_switch_empty_then_write`
* **C11** — PCQ: `align_bits`; PQ: `SBuf.kbuf_seek_drops`, `SBuf.kbuf_seek_past_end`, `SBuf.iovec_seek_drops`, `SBuf.iovec_seek_past_end`; none: `SBuf.iovec_seek_large_vector`
* **C12** — PCQ: `Pool.pool_blocks_safe`, `Pool.pool_no_failure`, `Pool.pool_palloc_result`, `Pool.pool_pmemalign_result`, `Pool.array_memory_safe`; PQ: `Pool.pool_unaligned_size_overflows`, `Pool.pool_too_small_overflows`, `Pool.pool_limit`
* **C13** — PCQ: `Pool.pool_destroy_exact`, `Pool.pool_reset_exact`, `Pool.pool_pfree_once`; PQ: `Pool.pool_cleanup_entry_freed`
* **C14** — PCQ: `Pool.array_keeps_elements`, `Pool.array_memory_safe`, `Pool.array_push_safe`, `Pool.array_destroy_safe`; PQ: `Pool.array_zero_capacity_overflows`
* **C15** — PCQ: `Mutex.mutex_holders_le_limit`, `Mutex.mutex_mutual_exclusion`, `Mutex.mutex_admits_below_limit`, `Mutex.mutex_holders_le_limit_callbacks`, `Mutex.mutex_no_assert_failure`; PQ: `Mutex.mutex_lowered_limit_not_enforced`
* **C16** — PCQ: `Mutex.mutex_waits_only_when_full`, `Mutex.mutex_no_lost_wakeup`, `Mutex.mutex_unlock_hands_over`, `Mutex.mutex_drains`, `Mutex.mutex_starvation`; PQ: `Mutex.mutex_raised_limit_does_not_wake`
* **C17** — PCQ: `Mutex.mutex_try_lock_refuses_iff`
* **C18** — PCQ: `RWLock.rwlock_exclusion`, `RWLock.rwlock_no_failure`, `RWLock.rwlock_nobody_lost`, `RWLock.rwlock_one_role`
* **C19** — PCQ: `RWLock.rwlock_no_lost_wakeup`, `RWLock.rwlock_reader_waits_for_writer`, `RWLock.rwlock_wunlock_completes`, `RWLock.rwlock_nobody_lost`; PQ: `RWLock.rwlock_same_selector_deadlock`
* **C20** — P: `Cond.cond_try_wait_empty`; PQ: `Cond.cond_auto_counts`, `Cond.cond_auto_notice`, `Cond.cond_auto_wait_stored`, `Cond.cond_no_waiter_lost`
* **C21** — P: `Cond.cond_no_spurious_completion`; PQ: `Cond.cond_manual_notice_releases_all`, `Cond.cond_manual_stays_set`, `Cond.cond_no_waiter_lost`
* **C22** — PCQ: `Chan.chan_exactly_once`, `Chan.chan_sender_order`, `Chan.chan_never_both_wait`, `Chan.chan_service_order`, `Chan.chan_no_failure`, `Chan.chan_closed_refuses`, `Chan.chan_close_releases`; PQ: `Chan.chan_lifo_witness`, `Chan.chan_cross_selector_fails`
* **C23** — PCQ: `Join.fiber_join_value`, `Join.fiber_freed_exactly_once`, `Join.fiber_no_use_after_free`, `Join.fiber_join_completes`, `Join.fiber_detached_freed_at_exit`, `Join.fiber_detached_no_failure`, `Join.fiber_callback_value`; PQ: `Join.join2_after_exit_loses_value`, `Join.ref_self_twice_hangs`, `Join.exit_callback_twice_fails`
* **C24** — PCQ: `Sel.timer_refines`, `Sel.timer_never_ub`, `Sel.timer_first_is_earliest`, `Sel.timer_exactly_once`, `Sel.timer_never_early`, `Sel.timer_fires_at_first_due_check`, `Sel.timer_check_order`
* **C25** — PCQ: `Sel.sel_lists_consistent`, `Sel.sel_lists_no_failure`, `Sel.sel_lists_ordered`, `Sel.timeout_check_exact`, `Sel.shutdown_only_after_grace`; PQ: `Sel.unadjusted_step_back_hides_due`, `Sel.zero_timeout_loops_forever`
* **C26** — P: `Sel.posted_adjust_fires_new_timer_early`, `Sel.small_step_back_not_adjusted`; PCQ: `Sel.clock_jump_keeps_remaining`; PQ: `Sel.clock_jump_keeps_idle`
* **C27** — P: `Mgr.on_ready_exactly_once`; PCQ: `Mgr.pow2_spec`, `Mgr.selector_count_power_of_two`, `Mgr.selector_by_index_exists`, `Mgr.perfect_selector_exists`, `Mgr.perfect_selector_round_robin`, `Mgr.timeouts_positive`, `Mgr.timeouts_configured`, `Mgr.grow_succeeds_iff`; PQ: `Mgr.perfect_may_choose_most_loaded`
* **C28** — P: `Worker.worker_limit_off_by_one`, `Worker.worker_start_failure_ub`, `Worker.worker_zero_max_never_runs`; PCQ: `Worker.worker_exactly_once`, `Worker.worker_concurrency_bound`, `Worker.worker_no_stuck_job`, `Worker.worker_steps_terminate`, `Worker.worker_quiescent_all_done`, `Worker.worker_start_woken_once`, `Worker.worker_order`, `Worker.worker_refuses_iff`, `Worker.worker_start_accepts`, `Worker.worker_freed_iff`
* **C29** — PCQ: `ThrPool.pool_task_exactly_once`, `ThrPool.pool_counts`, `ThrPool.pool_flush_exact`, `ThrPool.pool_close_all_exact`, `ThrPool.pool_start_exact`, `ThrPool.pool_no_failure`, `ThrPool.pool_wake_has_command`, `ThrPool.pool_no_lost_task`, `ThrPool.pool_steps_terminate`; none: `ThrPool.pool_flush_negative_asserts`
* **C30** — P: `Notice.notice_order_reversed`, `Notice.notice_lost_on_write_failure`; PQ: `Notice.notice_exactly_once`, `Notice.notice_never_empty`, `Notice.notice_drained`, `Notice.notice_progress`, `Notice.notice_steps_terminate`, `Notice.notice_at_most_once`
* **C31** — P: `Spin.krw_writer_starves`; PCQ: `Spin.krw_exclusion`, `Spin.krw_word_counts`, `Spin.krw_acquires_when_free`, `Spin.kwr_exclusion`, `Spin.kwr_one_announced_writer`, `Spin.kwr_writer_stops_new_readers`, `Spin.kwr_acquires_when_free`
* **C32** — PCQ: `KCond.kcond_notice_wakes`, `KCond.kcond_returns_bounded`; PQ: `KCond.kcond_no_lost_notice`, `KCond.kcond_woken_returns`, `KCond.kcond_wait_when_set`, `KCond.kcond_single_waiter_exact`, `KCond.kcond_one_notice_two_returns`, `KCond.kcond_second_notice_swallowed`, `KCond.kcond_manual_event_consumed`, `KCond.kcond_spurious_return`, `KCond.kcond_wait_when_clear`, `KCond.kcond_try_wait`
* **C33** — PCQ: `Addr.addr_request_exactly_once`, `Addr.addr_answer_matches`, `Addr.addr_one_resolution`, `Addr.addr_find_exact`, `Addr.addr_find_cache_exact`, `Addr.addr_result_recorded`, `Addr.addr_count_exact`, `Addr.addr_refs_exact`, `Addr.addr_flush_exact`, `Addr.addr_only_failures`; PQ: `Addr.addr_refresh_policy`, `Addr.addr_result_use_after_free`, `Addr.addr_refresh_of_pending_ub`, `Addr.addr_flush_misses_idle`
* **C34** — PCQ: `NetIO.write_full_exact`, `NetIO.read_full_exact`, `NetIO.sendfile_full_exact`, `NetIO.file_read_full_exact`, `NetIO.file_write_full_exact`, `NetIO.writev_full_exact`; PQ: `NetIO.write_full_empty`, `NetIO.file_safe_write_full_exact`, `NetIO.writev_full_large_vector`, `NetIO.file_safe_read`; none: `NetIO.writev_full_empty_tail`, `NetIO.file_safe_read_failure_is_eof`
* **C35** — PCQ: `NetIO.ssl_writev_prefix`, `NetIO.ssl_writev_error`, `NetIO.kgl_writev_prefix`, `NetIO.ssl_readv_prefix`, `NetIO.kgl_readv_prefix`; PQ: `NetIO.ssl_writev_complete`, `NetIO.ssl_writev_huge_buffer`; none: `NetIO.ssl_readv_early_wait_is_eof`
* **C36** — P: `Epoll.epoll_ctl_failure_hangs_next_read`, `Epoll.epoll_readhup_after_hangup_hangs`, `Epoll.epoll_half_close_refuses_writes`, `Epoll.epoll_half_close_allows_sendfile`, `Epoll.epoll_next_read_unregistered`, `Epoll.epoll_next_write_hangup`, `Epoll.epoll_accept_twice`, `Epoll.epoll_superseded_readhup_destroy`, `Epoll.epoll_remove_forgets`; PCQ: `Epoll.epoll_no_ub`, `Epoll.epoll_exactly_once`, `Epoll.epoll_answers_final`, `Epoll.epoll_withdrawn_by_caller`, `Epoll.epoll_hangup_sound`, `Epoll.epoll_registration_consistent`, `Epoll.epoll_read_not_lost`, `Epoll.epoll_write_not_lost`, `Epoll.epoll_readiness_remembered`, `Epoll.epoll_read_served`, `Epoll.epoll_write_served`, `Epoll.epoll_read_completes`, `Epoll.epoll_write_completes`, `Epoll.epoll_readhup_served`, `Epoll.epoll_waiting_supervised`, `Epoll.epoll_connect_supervised`, `Epoll.epoll_expire_answers`
* **C37** — P: `Aio.aio_direct_write_length_unchecked`; PCQ: `Aio.aio_read_exact`, `Aio.aio_reads_sequential`, `Aio.aio_write_exact`, `Aio.aio_write_accepts`, `Aio.aio_align_size_suits`, `Aio.aio_write_call`; PQ: `Aio.aio_read_request`, `Aio.aio_read_eof`, `Aio.aio_read_error`; none: `Aio.aio_seek`, `Aio.aio_set_direct`, `Aio.aio_direct_eof_aborts`, `Aio.aio_direct_eof_is_error`, `Aio.aio_read_full_direct_unaligned`, `Aio.aio_read_request_misses_tail`, `Aio.aio_large_alignment_wrong_offset`, `Aio.aio_zero_read_asks_a_block`, `Aio.aio_length_overflow`
* **C38** — PCQ: `Srv.server_no_ub`, `Srv.server_freed_iff`, `Srv.server_refs_exact`, `Srv.server_socket_closed_once`, `Srv.server_close_reaches_all`, `Srv.server_shut_accepts_nothing`, `Srv.server_shut_rank`, `Srv.server_shut_progress`, `Srv.server_shut_listener_finishes`, `Srv.server_close_mac_own_socket`, `Srv.server_unix_path_never_removed`; PQ: `Srv.server_close_hits_foreign_socket`, `Srv.server_accept_error_kills_listener`, `Srv.server_posted_callback_dangling`, `Srv.server_close_misses_new_listener`
* **C39** — PCQ: `Str.string_shared_safely`, `Str.string_freed_when_unreferenced`, `Str.string_last_release_frees`; PQ: `Str.string_from_contents`, `Str.string_from2_contents`, `Str.string_from2_embedded_nul`, `Str.string_from2_huge`, `Str.string_many_references_abort`
* **C40** — P: `Ip.ipaddr_v4_compare_not_an_order`, `Ip.ipaddr_v4_compare_not_numeric`, `Ip.cpp_lt_disagrees_with_compare`; PCQ: `Ip.ipaddr_compare_zero_iff`, `Ip.addr_compare_zero_iff`, `Ip.addr_hash_respects_compare`, `Ip.ipaddr_compare_undefined_iff`, `Ip.ipaddr6_compare_order`, `Ip.ipaddr_and_membership`, `Ip.cpp_eq_iff`, `Ip.cpp_lt_total_order`; PQ: `Ip.ipaddr_of_sockaddr_compare`, `Ip.ipaddr_compare_anti`, `Ip.ipaddr_compare_trans`, `Ip.ipaddr_and_idempotent`, `Ip.addr_port_roundtrip`, `Ip.cpp_hash_respects_eq`, `Ip.cpp_hash_reads_garbage`
* **C41** — PCQ: `RB.int_cmp_correct_iff`, `RB.int_cmp_order_on_window`, `RB.int_keyed_tree_is_map`, `RB.int_cmp_wrap_correct_iff`; PQ: `RB.int_cmp_window_maximal`; none: `RB.int_cmp_not_an_order`
* **C42** — PQ: `Open.kfopen_bits`, `Open.open_access`, `Open.open_effect`, `Open.open_read_changes_nothing`, `Open.fiber_open_same`, `Open.open_temp_ignored`
* **C43** — P: `AioLoop.aio_two_operations_on_a_file`; PQ: `AioLoop.aio_told_exactly_once`, `AioLoop.aio_none_lost`, `AioLoop.aio_loop_never_spins`, `AioLoop.aio_progress`, `AioLoop.aio_rank_decreases`
* **C44** — PCQ: `RB.string_cmp_order`, `RB.toLower_eq_iff`, `RB.string_keyed_tree_is_map`, `RB.string_case_cmp_order`, `RB.string_case_keyed_tree_is_map`
* **C45** — PCQ: `Tls.tls_handshake_no_ub`, `Tls.tls_handshake_answered_once`, `Tls.tls_handshake_final`, `Tls.tls_handshake_ok_truthful`, `Tls.tls_handshake_failed_truthful`, `Tls.tls_handshake_complete`, `Tls.tls_handshake_waits`, `Tls.tls_handshake_bytes`, `Tls.tls_handshake_early_byte`, `Tls.tls_handshake_early_mode`, `Tls.tls_shutdown_no_ub`, `Tls.tls_destroyed_once`, `Tls.tls_destroyed_final`, `Tls.tls_shutdown_waits`, `Tls.tls_shutdown_bytes`; PQ: `Tls.tls_handshake_alert_not_sent`, `Tls.tls_close_notify_not_sent`; none: `Tls.tls_status_numbers_coincide`, `Tls.tls_handshake_timeout_asserts`, `Tls.tls_handshake_timeout_use_after_free`
* **C46** — PCQ: `RBHeap.heap_tree_is_ordered_map`, `RBHeap.heap_iterator`, `RBHeap.heap_walk`, `RBHeap.heap_find_cover`, `RBHeap.heap_replace`, `RBHeap.insertColor_refines`, `RBHeap.eraseColor_refines`, `RBHeap.erase_refines`, `RBHeap.alloc_ok_of_distinct`; PQ: `RBHeap.heap_links_consistent`
* **C47** — PCQ: `Sched.fiber_no_failure`, `Sched.fiber_callers_form_stack`, `Sched.fiber_control_returns_to_waker`, `Sched.fiber_waker_stays_suspended`, `Sched.fiber_call_returns_given_value`, `Sched.fiber_completion_not_lost`, `Sched.fiber_wakeup_runs_at_once`, `Sched.fiber_posted_wakeup_delivered`, `Sched.fiber_immediate_completion`, `Sched.fiber_resumed_only_by_completion`, `Sched.fiber_exit_once`, `Sched.fiber_exit_recorded`, `Sched.fiber_exit_handled`, `Sched.fiber_main_iff`, `Sched.fiber_loop_reachable`
* **C48** — P: `Tls.Bio.bio_timeout_keeps`; PCQ: `Tls.Bio.bio_wire`, `Tls.Bio.bio_fed`, `Tls.Bio.bio_answered_once`, `Tls.Bio.bio_write_answer`, `Tls.Bio.bio_write_records`, `Tls.Bio.bio_eof`, `Tls.Bio.bio_end_remembered`, `Tls.Bio.bio_read_next`, `Tls.Bio.bio_wait_empty`, `Tls.Bio.bio_read_start`, `Tls.Bio.bio_again`, `Tls.Bio.bio_alloc`, `Tls.Bio.bio_iov`, `Tls.Bio.bio_write_progress`, `Tls.Bio.bio_release_safe`, `Tls.Bio.bio_debug_aborts`
* **C49** — PCQ: `Uring.uring_answered_once`, `Uring.uring_no_request_lost`, `Uring.uring_drained`, `Uring.uring_answers`, `Uring.uring_own_answers`, `Uring.uring_one_entry_per_slot`, `Uring.uring_safe`, `Uring.uring_pipe_released`, `Uring.uring_pipe_kept`, `Uring.uring_again`; PQ: `Uring.uring_ring_bound`
* **C50** — PCQ: `Tls.Proto.protocols_exact`, `Tls.Proto.protocols_usable`, `Tls.Proto.protocols_none`
* **C51** — PCQ: `Tls.Cert.certificate_defined`, `Tls.Cert.certificate_iff`, `Tls.Cert.certificate_contents`, `Tls.Cert.certificate_ledger`, `Tls.Cert.certificate_passwords`, `Tls.Cert.new_server_exact`; PQ: `Tls.Cert.password_callback_bound`, `Tls.Cert.post_init_key`
* **C52** — P: `SslCtx.sslctx_set_null_ignored`, `SslCtx.sslctx_two_updates_older_wins`, `SslCtx.sslctx_tls_server_serves_plain`, `SslCtx.sslctx_update_of_freed_listener`, `SslCtx.sslctx_listen_races_set`, `SslCtx.sslctx_set_after_close_races_accept`, `SslCtx.sslctx_failed_bind_refuses_plain`; PCQ: `SslCtx.sslctx_no_ub`, `SslCtx.sslctx_freed_iff`, `SslCtx.sslctx_refs_exact`, `SslCtx.sslctx_openssl_freed_iff`, `SslCtx.sslctx_connection_context_alive`, `SslCtx.sslctx_nothing_leaked`, `SslCtx.sslctx_set_reaches`, `SslCtx.sslctx_bind_reaches`, `SslCtx.sslctx_connection_uses`, `SslCtx.sslctx_update_runs`, `SslCtx.sslctx_bind_result`; PQ: `SslCtx.sslctx_stays_tls`
* **C53** — P: `Sni.client_offer`, `Sni.sni_asked_twice`, `Sni.unset_sni_crashes`, `Sni.no_server_crashes`; PCQ: `Sni.sni_asked`, `Sni.sni_freed_once`, `Sni.sni_context`, `Sni.sni_verdict`, `Sni.nosni_rejected`, `Sni.sni_no_crash`; PQ: `Sni.alpn_choice`, `Sni.chosen_unique`
* **C54** — P: `Sock.connect_timeout_overflow`; PCQ: `Sock.listen_exact`, `Sock.newUdp_exact`, `Sock.udpNew_exact`, `Sock.half_exact`, `Sock.connHalf_exact`, `Sock.listen_retries`, `Sock.server_listeners`, `Sock.server_address`, `Sock.server_attempts`, `Sock.server_all_selectors`, `Sock.no_cloexec_leaks`, `Sock.reconnect_leaks`, `Sock.retries_used_up`; PQ: `Sock.listen_failed`, `Sock.listen_iff`, `Sock.listen_paths`, `Sock.accept_exact`, `Sock.connect_exact`, `Sock.inet_accept_in_bounds`, `Sock.unix_server_only_last_reachable`, `Sock.unix_listen_removes_live_socket`; none: `Sock.unix_accept_reads_beyond`
* **C55** — P: `Udp.udp_recvaddr_stable`, `Udp.udp_send_exact`, `Udp.recvaddr_before_first_read`, `Udp.udp_recvaddr_kind`; PCQ: `Udp.udp_recvaddr_exact`; PQ: `Udp.udp_delivered`, `Udp.udp_answered_once`, `Udp.udp_answers_requests`, `Udp.udp_no_lost_wakeup`, `Udp.udp_recvaddr_sound`, `Udp.udp_recvaddr_without`, `Udp.recvaddr_never_v6`, `Udp.eintr_loses_the_event`, `Udp.failed_registration_hangs`, `Udp.truncation_not_reported`
* **C56** — P: `RTime.rtime_call`, `RTime.repeated_elsewhere_wrong_buffer`, `RTime.repeated_elsewhere_undefined`, `RTime.other_wait_woken`; PCQ: `RTime.rtime_eof`; PQ: `RTime.rtime_stream`, `RTime.rtime_calls`, `RTime.rtime_no_stray`, `RTime.rtime_no_ub`, `RTime.rtime_served`, `RTime.rtime_eof_served`, `RTime.rtime_again`, `RTime.rtime_limit`, `RTime.rtime_without_timeouts`
* **C57** — P: `Tick.close_next_undefined`, `Tick.registered_twice_undefined`; PCQ: `Tick.tick_rounds`, `Tick.tick_running`, `Tick.tick_created_once`, `Tick.tick_no_ub`, `Tick.round_without_end`
* **C58** — PCQ: `Remote.remote_safe`, `Remote.remote_call_ok`, `Remote.remote_result`, `Remote.remote_thread_call_waits`, `Remote.remote_rest_pool`, `Remote.remote_rest_join`, `Remote.remote_freed`, `Remote.remote_progress`; PQ: `Remote.finding_spurious`
* **C59** — PCQ: `Mlife.life_once`, `Mlife.life_thread`, `Mlife.life_on_time`, `Mlife.life_rest`, `Mlife.life_progress`, `Mlife.life_settles`, `Mlife.life_bounded`, `Mlife.life_no_ub`, `Mlife.shutdown_no_ub`, `Mlife.release_never_ends`; PQ: `Mlife.timer_after_setback_early`, `Mlife.timer_across_setback_late`, `Mlife.timer_before_clock`, `Mlife.on_ready_lost`, `Mlife.close_loses_callbacks`, `Mlife.close_before_born`, `Mlife.close_forward_destroyed`
* **C60** — P: `Kq.sendfile_error_spins`, `Kq.next_read_unregistered`; PCQ: `Kq.kq_no_ub`, `Kq.kq_released_unregistered`, `Kq.kq_exactly_once`, `Kq.kq_answers_true`, `Kq.kq_kind_kept`, `Kq.kq_not_lost`, `Kq.kq_watched`, `Kq.kq_settles`, `Kq.kq_read_completes`, `Kq.kq_write_completes`, `Kq.kq_connect_reported`, `Kq.sendfile_error_recursion`, `Kq.failed_registration_hangs`, `Kq.refused_connect_reported_ok`, `Kq.connect_reported_early`; PQ: `Kq.kq_answers_final`, `Kq.failed_sendfile_poisons_write`
* **C61** — PCQ: `Iocp.iocp_no_ub`, `Iocp.iocp_exactly_once`, `Iocp.iocp_answer_true`, `Iocp.iocp_outcome_source`, `Iocp.iocp_rest`, `Iocp.iocp_settles`, `Iocp.iocp_notices`, `Iocp.iocp_sockets`, `Iocp.iocp_accept_socket`, `Iocp.iocp_released`, `Iocp.failed_post_is_silent`, `Iocp.recvfrom_dangles`; PQ: `Iocp.accept_spins`
* **C62** — P: `MDbg.mdbg_overlapping_dumps`; PCQ: `MDbg.mdbg_safe`, `MDbg.mdbg_abort_iff`, `MDbg.mdbg_no_false_alarm`, `MDbg.mdbg_blocks`, `MDbg.mdbg_frame`, `MDbg.mdbg_malloc`, `MDbg.mdbg_realloc`, `MDbg.mdbg_realloc_plain`, `MDbg.mdbg_off`, `MDbg.mdbg_free`, `MDbg.mdbg_completes`, `MDbg.mdbg_kept`, `MDbg.mdbg_no_leak`, `MDbg.mdbg_not_kept`, `MDbg.mdbg_dump`, `MDbg.mdbg_realloc_in_dump`; PQ: `MDbg.mdbg_misaligned`, `MDbg.mdbg_size_overflow`; none: `MDbg.mdbg_calloc_overflow`
* **C63** — PCQ: `FNet.fnet_no_ub`, `FNet.fnet_answered`, `FNet.fnet_truthful`, `FNet.fnet_waiting`, `FNet.fnet_shutdown_right`, `FNet.fnet_shutdown_done`, `FNet.fnet_shutdown_at_once`, `FNet.fnet_owned`, `FNet.fnet_once`, `FNet.fnet_counted`, `FNet.fnet_addr_freed`, `FNet.fnet_all_closed`, `FNet.fnet_accept_gives`; PQ: `FNet.fnet_getaddr_gives`, `FNet.fnet_file_open`, `FNet.accept_zero_without_connection`, `FNet.shutdown_after_failed_handshake`, `FNet.shutdown_zero_on_failure`
* **C64** — PCQ: `Tls.Sid.sid_file_iff`, `Tls.Sid.sid_file_exact`, `Tls.Sid.sid_file_any`, `Tls.Sid.sid_text`, `Tls.Sid.sid_clean`, `Tls.Sid.ctx_clean`, `Tls.Sid.new_server`, `Tls.Sid.server_resume`, `Tls.Sid.server_renewed`, `Tls.Sid.load_resume`, `Tls.Sid.new_server2`, `Tls.Sid.authorities_not_separated`, `Tls.Sid.text_name_not_content`, `Tls.Sid.failed_update_ignored`; PQ: `Tls.Sid.new_client`, `Tls.Sid.client_id_refused`; none: `Tls.Sid.name_runs_into_content`
* **C65** — PCQ: `RB.Augment.augment_erase`, `RB.Augment.augment_history`, `RB.Augment.augment_total`; PQ: `RB.Augment.augment_insert`
* **C66** — P: `WFile.second_operation_replaces_first`; PCQ: `WFile.wfile_exactly_once`, `WFile.wfile_result`, `WFile.wfile_data`, `WFile.wfile_stream`, `WFile.wfile_memory`, `WFile.wfile_progress`; PQ: `WFile.wfile_disk`, `WFile.overwrite_get`, `WFile.wfile_returns`, `WFile.wfile_settles`, `WFile.mac_calls_fail`
* **C67** — P: `Lookup.shared_port_race`; PCQ: `Lookup.addr_build`, `Lookup.addr_build_reads`, `Lookup.addr_build_shared`, `Lookup.addr_build_one_port`, `Lookup.addr_build_undisturbed`, `Lookup.getaddr_spec`, `Lookup.ipaddr_text_round_trip`, `Lookup.ipaddr_text_fits`, `Lookup.ipaddr_text_no_room`; PQ: `Lookup.unix_addr_exact`, `Lookup.unix_addr_cut`; none: `Lookup.switches`, `Lookup.cname_never_asked`, `Lookup.is_block_inverted`, `Lookup.forever_taken_back`
* **C68** — P: `Plain.write_refused`, `Plain.close_exact`, `Plain.last_modified_exact`, `Plain.last_modified_of_link`, `Plain.size_of_nothing`; PCQ: `Plain.read_all_exact`, `Plain.read_all_complete`, `Plain.seek_exact`, `Plain.seek_end_is_size`, `Plain.append_history`, `Plain.readers_change_nothing`, `Plain.own_offset`, `Plain.write_read_back`, `Plain.created_is_private`; PQ: `Plain.read_exact`, `Plain.write_exact`, `Plain.open_exact`, `Plain.open_refused`, `Plain.open_succeeds`, `Plain.utime_exact`, `Plain.read_all_interrupted`, `Plain.writers_overwrite`; none: `Plain.size_exact`, `Plain.seek_unknown_is_begin`
* **C69** — P: `Adopt.adopt_path_mixed`, `Adopt.adopt_refused_keeps_listener`, `Adopt.net_listen_zero`; PCQ: `Adopt.bind_exact`, `Adopt.adopt_result`, `Adopt.open_one_exact`, `Adopt.server_books`, `Adopt.open_true_without_listener`; PQ: `Adopt.bind_port`, `Adopt.bind_path`, `Adopt.adopt_addr`, `Adopt.adopt_path`, `Adopt.net_listen_exact`, `Adopt.adopt_path_cut`
* **C70** — P: `Atom.atom_results`, `Atom.sub_least_undefined`; PCQ: `Atom.atom_linear`, `Atom.atom_total`, `Atom.atom_tickets`, `Atom.atom_refcount`, `Atom.atom_exchange`, `Atom.atom_lock`; PQ: `Atom.atom_never_blocks`; none: `Atom.dec_below_zero`
* **C71** — PCQ: `KBuf.Num.krw_int_exact`, `KBuf.Num.krw_int64_exact`, `KBuf.Num.ks_int_exact`, `KBuf.Num.ks_int64_exact`, `KBuf.Num.lines_exact`, `KBuf.Num.no_separator_ambiguous`; PQ: `KBuf.Num.decimal_unique`, `KBuf.Num.lines_readable`
* **C72** — P: `Klib.absolute_total`; PCQ: `Klib.bufs_size`, `Klib.bufs_size_count`, `Klib.msleep_exact`, `Klib.bufs_size_wraps`; PQ: `Klib.absolute_path`; none: `Klib.msleep_negative`
