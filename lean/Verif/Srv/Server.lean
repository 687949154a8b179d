import Verif.Common

/-!
# Model of the server object (src/kserver.c, include/kserver.h; kconnection_real_destroy of src/kconnection.c:62-79)

One `kserver` with any number of listeners (`kserver_selectable`), accepted connections, owners' references and threads.  A
listener belongs to one selector thread; the steps of one listener are therefore in program order (`Pc`), but steps of
different listeners, owners and `kserver_close` calls interleave freely.  Sections under `ss_lock` without a loop are one step;
`kserver_close` holds the lock over several steps.

Both branches of `kserver_close` are modelled: `noEvent = false` is Linux (src/kserver.c:409-414), `noEvent = true` is the
branch under ACCEPT_SOCKET_SHUTDOWN_NO_EVENT (macOS, include/kserver.h:23-26; src/kserver.c:398-408, 365-371, 375-392).

The kernel's table of file descriptors is modelled so far as numbers are reused: a descriptor number names a listener's socket, some other
object of the process, or nothing.

Simplifications: `refs` is an unbounded number (it is an int32_t); allocation succeeds; TLS contexts are left out.
-/

namespace Kasync.Srv

/-- Where a listener is.  `fresh`: between `kserver_selectable_init` and `klist_append` (src/kserver.c:163-170).  `idle`: no accept
requested.  `wait`: accept requested.  `busy`: the accept callback (or the fiber that called `kfiber_net_accept`) runs.
`closing` … `rel`, `free`: inside `kserver_selectable_destroy` (src/kserver.c:352-374): about to close the descriptor, to mark it closed, to
unlink, to look at the hold counter, to release the server, to free itself.  `held`: destroyed, but kept for the pending
`kserver_selectable_next_shutdown`.  `gone`: freed. -/
inductive Pc where
  | fresh | idle | wait | busy | closing | mark | unlink | check | rel | free | held | gone
  deriving Repr, DecidableEq

/-- What a descriptor number names. -/
inductive Obj where
  | listener (i : Nat)
  | other (k : Nat)
  deriving Repr, DecidableEq

structure St where
  /-- `server->refs` -/
  refs : Nat := 1
  /-- times the server object was freed -/
  freed : Nat := 0
  /-- KGL_SERVER_START -/
  start : Bool := false
  /-- `server->ss` -/
  lst : List Nat := []
  /-- held by a `kserver_close` call: the listeners it has not visited yet -/
  lock : Option (List Nat) := none
  /-- next listener number -/
  next : Nat := 0
  pc : Nat → Pc := fun _ => .gone
  /-- `st.fd`; `none` is -1 -/
  fd : Nat → Option Nat := fun _ => none
  /-- `queue.next != NULL` -/
  qn : Nat → Bool := fun _ => false
  /-- `hold_by_next_shutdown_refs` -/
  hold : Nat → Nat := fun _ => 0
  /-- the socket of the listener has been shut down (or an error is flagged): accept fails -/
  shut : Nat → Bool := fun _ => false
  /-- accepted by a fiber (kfiber_net_listen) and not with KACCEPT_CALLBACK -/
  fiber : Nat → Bool := fun _ => false
  /-- posted `kserver_selectable_next_shutdown` events -/
  pend : List Nat := []
  /-- accepted connections not yet destroyed -/
  conns : List Nat := []
  /-- user callbacks posted to another selector: (listener passed as `data`, connection) -/
  posted : List (Nat × Nat) := []
  nextConn : Nat := 0
  fds : Nat → Option Obj := fun _ => none
  -- ghosts
  /-- references of owners (the first from `kserver_init`, more by `kserver_refs`) -/
  owners : Nat := 1
  /-- `kserver_close` calls waiting for the lock -/
  waiting : Nat := 0
  /-- listeners whose reference on the server is not yet released -/
  live : List Nat := []
  /-- listeners inside `kserver_listen` -/
  creating : List Nat := []
  /-- how often the descriptor of a listener was closed -/
  closes : Nat → Nat := fun _ => 0
  /-- objects of others that a shutdown of a listener hit -/
  foreign : List Nat := []
  /-- how often the path of a unix listener was removed -/
  unlinked : Nat := 0

def upd {α : Type} (f : Nat → α) (i : Nat) (v : α) : Nat → α := fun j => if j = i then v else f j

inductive Op where
  -- owners
  | ownRef | ownRelease
  /-- `kserver_listen` / `kserver_open`: new listener on descriptor `n`; `fiber`: through `kfiber_net_listen` -/
  | listenInit (n : Nat) (fiber : Bool)
  | listenAppend (i : Nat)
  /-- KBIT_SET(flags, KGL_SERVER_START), src/kserver.c:283, 300, 310; src/kfiber.c:409 -/
  | setStart
  | closeBegin | closeLock | closeVisit | closeEnd
  -- the listener's thread
  | startAccept (i : Nat) (ok : Bool)
  | acceptOk (i : Nat) (cross : Bool)
  | acceptTls (i : Nat)
  | acceptFail (i : Nat)
  | rearm (i : Nat) (ok : Bool)
  | fiberAccept (i : Nat) (ok : Bool)
  | userDestroy (i : Nat)
  | dClose (i : Nat) | dMark (i : Nat) | dUnlink (i : Nat) | dCheck (i : Nat) | dRel (i : Nat) | dFree (i : Nat)
  | nextShutdown (i : Nat)
  -- connections
  | connDestroy (c : Nat)
  | runPosted (i c : Nat)
  -- the rest of the process
  | otherOpen (n k : Nat) | otherClose (n : Nat)
  deriving Repr, DecidableEq

/-- Access to the server object. -/
def touch (s : St) (r : Res St) : Res St := if s.freed = 0 then r else .ub

/-- `kserver_release` (src/kserver.c:344-350) with `kserver_free` (322-343), whose assertion says that no listener is left. -/
def release (s : St) : Res St :=
  touch s (
    if s.refs = 0 then .ub
    else if s.refs = 1 then (if s.lst = [] then .ok { s with refs := 0, freed := s.freed + 1 } else .ub)
    else .ok { s with refs := s.refs - 1 })

/-- `shutdown(n, SHUT_RDWR)` by the kernel. -/
def sysShutdown (s : St) (n : Option Nat) : St :=
  match n with
  | none => s
  | some n => match s.fds n with
    | some (.listener j) => { s with shut := upd s.shut j true }
    | some (.other k) => { s with foreign := k :: s.foreign }
    | none => s

/-- `kserver_free` has run, or the object `i` is freed memory. -/
def goneB (s : St) (i : Nat) : Bool := s.pc i == .gone

/-- The `kserver_close` calls and `kserver_listen` calls under way: each is made by somebody who has a reference. -/
def calls (s : St) : Nat := s.waiting + (if s.lock.isSome then 1 else 0) + s.creating.length

def step (noEvent : Bool) (s : St) (o : Op) : Res St :=
  match o with
  -- kserver_refs, include/kserver.h:157-160, by an owner
  | .ownRef => if s.owners > calls s then touch s (.ok { s with refs := s.refs + 1, owners := s.owners + 1 }) else .disabled
  -- kserver_release, src/kserver.c:344-350, by an owner who is not inside another call
  | .ownRelease => if s.owners > calls s then release { s with owners := s.owners - 1 } else .disabled
  -- ksocket_listen and kserver_selectable_init, src/kserver.c:171-198, 144-162
  | .listenInit n fiber =>
    if s.owners > calls s ∧ s.fds n = none then
      touch s (.ok { s with
        refs := s.refs + 1, next := s.next + 1, pc := upd s.pc s.next .fresh, fd := upd s.fd s.next (some n),
        qn := upd s.qn s.next false, hold := upd s.hold s.next 0, shut := upd s.shut s.next false,
        fiber := upd s.fiber s.next fiber, fds := upd s.fds n (some (.listener s.next)),
        live := s.next :: s.live, creating := s.next :: s.creating, closes := upd s.closes s.next 0 })
    else .disabled
  -- add_server_socket, src/kserver.c:166-168, under the lock
  | .listenAppend i =>
    if i ∈ s.creating ∧ s.lock = none then
      touch s (.ok { s with lst := s.lst ++ [i], qn := upd s.qn i true, pc := upd s.pc i .idle, creating := s.creating.erase i })
    else .disabled
  | .setStart => if s.owners > calls s then touch s (.ok { s with start := true }) else .disabled
  -- kserver_close, src/kserver.c:393-395
  | .closeBegin =>
    if s.owners > calls s then touch s (.ok { s with start := false, waiting := s.waiting + 1 }) else .disabled
  -- src/kserver.c:397
  | .closeLock =>
    if s.waiting > 0 ∧ s.lock = none then touch s (.ok { s with waiting := s.waiting - 1, lock := some s.lst }) else .disabled
  | .closeVisit =>
    match s.lock with
    | some (i :: rest) =>
      if goneB s i || s.pc i == .free then .ub
      else if noEvent then
        -- src/kserver.c:399-408: hold, unlink, post
        touch s (if s.hold i ≠ 0 then .ub else
          .ok { s with
            hold := upd s.hold i 1, lst := s.lst.erase i, qn := upd s.qn i false, pend := i :: s.pend, lock := some rest })
      else
        -- src/kserver.c:410-413
        touch s (.ok { sysShutdown s (s.fd i) with lock := some rest })
    | _ => .disabled
  -- src/kserver.c:415
  | .closeEnd => if s.lock = some [] then touch s (.ok { s with lock := none }) else .disabled
  -- kserver_next_accept, src/kserver.c:244-251; only for listeners of kserver_open
  | .startAccept i ok =>
    if s.pc i = .idle ∧ s.fiber i = false then
      .ok { s with pc := upd s.pc i (if ok then .wait else .closing) }
    else .disabled
  -- kselector_event_accept, src/kserver.c:26-46, and accept_result_new_connection, 71-81; `cross`: the user callback is posted to
  -- another selector (include/kserver.h:43-48), which kserver_get_perfect_selector (src/kserver.c:65-70) chooses only if no other listener is listed
  | .acceptOk i cross =>
    if s.pc i = .wait ∧ s.shut i = false ∧ (cross = true → s.lst.length ≤ 1 ∧ s.fiber i = false ∧ s.lock = none) then
      touch s (.ok { s with
        refs := s.refs + 1, conns := s.nextConn :: s.conns, nextConn := s.nextConn + 1, pc := upd s.pc i .busy,
        posted := if cross then (i, s.nextConn) :: s.posted else s.posted })
    else .disabled
  -- the TLS object cannot be made: the connection is destroyed at once (src/kserver.c:83-90)
  | .acceptTls i =>
    if s.pc i = .wait ∧ s.shut i = false then
      touch s (match release { s with refs := s.refs + 1 } with
        | .ok s1 => .ok { s1 with pc := upd s1.pc i (if s1.fiber i then .busy else .closing) }
        | r => r)
    else .disabled
  -- accept fails for whatever reason but EAGAIN (src/kserver.c:36-45); KACCEPT_CALLBACK destroys the listener (include/kserver.h:38-42)
  | .acceptFail i =>
    if s.pc i = .wait then .ok { s with pc := upd s.pc i (if s.fiber i then .busy else .closing) } else .disabled
  -- the end of KACCEPT_CALLBACK, include/kserver.h:49-51
  | .rearm i ok =>
    if s.pc i = .busy ∧ s.fiber i = false then
      touch s (.ok { s with pc := upd s.pc i (if s.start ∧ ok = true then .wait else .closing) })
    else .disabled
  -- kfiber_net_accept, src/kfiber.c:413-421
  | .fiberAccept i ok =>
    if (s.pc i = .idle ∨ s.pc i = .busy) ∧ s.fiber i = true then
      .ok { s with pc := upd s.pc i (if ok then .wait else .busy) }
    else .disabled
  -- kserver_selectable_destroy called by the fiber that accepts
  | .userDestroy i =>
    if (s.pc i = .idle ∨ s.pc i = .busy) ∧ s.fiber i = true then .ok { s with pc := upd s.pc i .closing } else .disabled
  -- src/kserver.c:354-355: close
  | .dClose i =>
    if s.pc i = .closing then
      match s.fd i with
      | none => .ok { s with pc := upd s.pc i .unlink }
      | some n =>
        if s.fds n = some (.listener i) then
          .ok { s with fds := upd s.fds n none, closes := upd s.closes i (s.closes i + 1), pc := upd s.pc i .mark }
        else .ub
    else .disabled
  -- src/kserver.c:356: ksocket_init
  | .dMark i => if s.pc i = .mark then .ok { s with fd := upd s.fd i none, pc := upd s.pc i .unlink } else .disabled
  -- src/kserver.c:359-364
  | .dUnlink i =>
    if s.pc i = .unlink ∧ s.lock = none then
      touch s (
        if s.qn i then
          (if i ∈ s.lst then .ok { s with lst := s.lst.erase i, pc := upd s.pc i .check } else .ub)
        else .ok { s with pc := upd s.pc i .check })
    else .disabled
  -- src/kserver.c:365-371
  | .dCheck i =>
    if s.pc i = .check then
      .ok { s with pc := upd s.pc i (if noEvent = true ∧ s.hold i > 0 then .held else .rel) }
    else .disabled
  -- src/kserver.c:372
  | .dRel i =>
    if s.pc i = .rel then
      (match release { s with live := s.live.erase i } with
        | .ok s1 => .ok { s1 with pc := upd s1.pc i .free }
        | r => r)
    else .disabled
  -- kserver_selectable_free, src/kserver.c:373, 115-137
  | .dFree i =>
    if s.pc i = .free then
      match s.fd i with
      | none => .ok { s with pc := upd s.pc i .gone }
      | some n => touch s (.ok { s with pc := upd s.pc i .gone, closes := upd s.closes i (s.closes i + 1), fds := upd s.fds n none,
                                         unlinked := s.unlinked + 1 })
    else .disabled
  -- kserver_selectable_next_shutdown, src/kserver.c:376-391
  | .nextShutdown i =>
    if i ∈ s.pend then
      if goneB s i || s.pc i == .free then .ub
      else if s.pc i = .idle ∨ s.pc i = .wait ∨ s.pc i = .held ∨ (s.pc i = .busy ∧ s.fiber i = true) then
        if s.hold i ≠ 1 then .ub
        else match s.fd i with
          | none => .ok { s with pend := s.pend.erase i, hold := upd s.hold i 0, shut := upd s.shut i true, pc := upd s.pc i .unlink }
          | some _ => .ok { sysShutdown { s with pend := s.pend.erase i, hold := upd s.hold i 0, shut := upd s.shut i true } (s.fd i) with
                              lock := s.lock }
      else .disabled
    else .disabled
  -- kconnection_real_destroy, src/kconnection.c:62-79
  | .connDestroy c => if c ∈ s.conns then release { s with conns := s.conns.erase c } else .disabled
  | .runPosted i c => if (i, c) ∈ s.posted then .ok { s with posted := s.posted.erase (i, c) } else .disabled
  | .otherOpen n k => if s.fds n = none then .ok { s with fds := upd s.fds n (some (.other k)) } else .disabled
  | .otherClose n =>
    match s.fds n with
    | some (.other _) => .ok { s with fds := upd s.fds n none }
    | _ => .disabled

/-- `kserver_init`, src/kserver.c:106-114 -/
def init : St := {}

end Kasync.Srv
