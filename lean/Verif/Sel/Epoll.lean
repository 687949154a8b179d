import Verif.Common

/-!
# Model of the edge-triggered epoll selector (src/kepoll_selector.c, src/kselectable.c, src/kselector.c, src/kserver.c)

One connection (`kselectable`) of one selector, together with the part of the kernel it talks to.  Everything here runs on the
selector's own thread, so an operation is atomic; the kernel's changes (`dataIn`, `spaceOut`, `hangup`) happen between
operations.  Connections interact only through the selector's lists, of which `loc` remembers the one this connection is linked
in (the lists themselves are `Verif.Sel.Lists`), so one connection among arbitrary others is the general case.

Modelled: a stream socket without TLS or with the TLS transport inside `readv`/`writev` (ENABLE_KSSL_BIO is off on Linux,
CMakeLists.txt:12), a listening socket, `readhup`, `connect`, `sendfile`, `selectable_next_read/write`.  Not modelled: datagram
sockets, the level-triggered eventfds of the selector itself, time (see `Verif.Sel.Lists`).
-/

namespace Kasync.Epoll

/-- The list the connection is linked in: none (`queue.next == NULL`), KGL_LIST_CONNECT, KGL_LIST_RW, KGL_LIST_READY
(include/kselector.h:12-15). -/
inductive Loc where
  | none | connect | rw | ready
  deriving Repr, DecidableEq

/-- What `e[OP_READ]` holds: a buffer to read into, no buffer (`selectable_next_read`), or an accept
(`result == kselector_event_accept`). -/
inductive RKind where
  | io | null | accept
  deriving Repr, DecidableEq

/-- What `e[OP_WRITE]` holds: a buffer or no buffer (connect, readhup, `selectable_next_write`). -/
inductive WKind where
  | io | null
  deriving Repr, DecidableEq

/-- What a result callback is told: a count the system call returned, 0 without a system call, the error of the system call,
-1 because the connection is marked STF_ERR, -1 because `epoll_ctl` failed. -/
inductive Out where
  | got (n : Nat) | zero | sysErr | hungUp | noPoll
  deriving Repr, DecidableEq

/-- The answer of the kernel to a read or write that does not fail with EAGAIN: a count and whether the socket is still
readable (writable) afterwards, or an error. -/
inductive Ans where
  | got (n : Nat) (still : Bool)
  | err
  deriving Repr, DecidableEq

/-- The copy of `st_flags` the ready loop works with (src/kselector.c:247): is a read event still to be delivered, and
the bits tested at 256-261. -/
structure Snap where
  todoR : Bool
  rd : Bool
  wr : Bool
  et : Bool
  deriving Repr, DecidableEq

/-- Which side a request belongs to: read side (read, accept, next_read), write side (write, sendfile, connect, next_write),
readhup. -/
inductive Side where
  | rd | wr | hup
  deriving Repr, DecidableEq

structure St where
  -- the bits of st_flags, include/kselectable.h:12-33
  read : Bool := false
  write : Bool := false
  rdhup : Bool := false
  sendfile : Bool := false
  rev : Bool := false
  wev : Bool := false
  et : Bool := false
  err : Bool := false
  rready : Bool := false
  wready : Bool := false
  rready2 : Bool := false
  wready2 : Bool := false
  -- e[OP_READ], e[OP_WRITE]: the kind and the number of the request they belong to
  rk : RKind := .io
  rid : Nat := 0
  wk : WKind := .io
  wid : Nat := 0
  loc : Loc := .none
  /-- the ready loop is at this connection -/
  cur : Option Snap := none
  alive : Bool := true
  -- the kernel: would poll report EPOLLIN, EPOLLOUT, EPOLLRDHUP; SOCK_NOSPACE; is the socket in the interest list for input,
  -- for output; is it on epoll's ready queue
  kin : Bool := false
  kout : Bool := true
  khup : Bool := false
  nospace : Bool := false
  regI : Bool := false
  regO : Bool := false
  queued : Bool := false
  -- ghosts: is it a listening socket; number of requests made, their sides, is a read-side one unanswered, the answers, the
  -- readhup requests withdrawn, was `selectable_next_write` ever used, was a readhup request superseded since the last `remove`
  listener : Bool := false
  pr : Bool := false
  nextW : Bool := false
  stale : Bool := false
  next : Nat := 0
  side : Nat → Side := fun _ => .rd
  done : List (Nat × Out) := []
  withdrawn : List Nat := []

/-- The callback of the read-side request is called. -/
def St.finishR (s : St) (o : Out) : St := { s with done := s.done ++ [(s.rid, o)], pr := false }

/-- The callback of the write-side request is called. -/
def St.finishW (s : St) (o : Out) : St := { s with done := s.done ++ [(s.wid, o)] }

/-- A new request of side `d`: it gets the next number. -/
def St.request (s : St) (d : Side) : St :=
  { s with next := s.next + 1, side := fun i => if i = s.next then d else s.side i }

/-- `KBIT_CLR(st_flags, STF_RDHUP)` or overwriting `e[OP_WRITE]`: a pending readhup request is forgotten. -/
def St.dropHup (s : St) : St :=
  { s with rdhup := false, stale := s.stale || s.rdhup, withdrawn := bif s.rdhup then s.withdrawn ++ [s.wid] else s.withdrawn }

/-- `epoll_ctl(EPOLL_CTL_ADD / EPOLL_CTL_MOD)` with interest in input (always) and output (`o`).  ADD of a registered and MOD of
an unregistered socket fail (EEXIST, ENOENT), and so does any call the kernel has no memory for (`ctl = false`).  The kernel
polls the socket: it is queued if something of interest is there, and asks for a write-space wake-up if it is not writable. -/
def epollCtl (s : St) (modify o ctl : Bool) : St × Bool :=
  if ctl = true ∧ modify = (s.regI || s.regO) then
    ({ s with regI := true, regO := o, nospace := s.nospace || !s.kout,
              queued := s.queued || s.kin || s.khup || (o && s.kout) }, true)
  else (s, false)

/-- `epoll_add_event` with ev = STF_REV, src/kepoll_selector.c:97-134 -/
def addEventR (s : St) (ctl : Bool) : St × Bool :=
  epollCtl { s with rev := true, et := true, wready := true } s.wev s.wev ctl

/-- `epoll_add_event` with ev = STF_REV|STF_WEV, src/kepoll_selector.c:97-134 -/
def addEventRW (s : St) (ctl : Bool) : St × Bool :=
  epollCtl { s with rev := true, et := true, wready := true, wev := true } (s.wev || s.rev) true ctl

/-- `kselector_add_list`, include/kselectable.h:94-108 (the place only) -/
def addList (s : St) (l : Loc) : St := { s with loc := l }

/-- Lines 304-313 of `epoll_selector_read`: not ready, wait for the poller. -/
def waitRead (s : St) (ctl : Bool) : St :=
  let (s1, ok) := if s.rev then (s, true) else addEventR s ctl
  if ok then (if s1.loc = .none then addList s1 .rw else s1)
  else { s1 with read := false }.finishR .noPoll

/-- Lines 327-336 of `epoll_selector_write` and 350-359 of `epoll_selector_sendfile`. -/
def waitWrite (s : St) (ctl : Bool) : St :=
  let (s1, ok) := if s.wev then (s, true) else addEventRW s ctl
  if ok then (if s1.loc = .none then addList s1 .rw else s1)
  else { s1 with write := false, sendfile := false }.finishW .noPoll

/-- `epoll_selector_accept` after the bookkeeping, src/kepoll_selector.c:190-206: true when it returned true. -/
def waitAccept (s : St) (ctl : Bool) : St × Bool :=
  if s.rready then (addList s .ready, true)
  else if s.rev then (s, true)
  else
    let (s1, ok) := epollCtl { s with rev := true, et := true } false false ctl
    if ok then (s1, true) else ({ s1 with read := false, et := false, rev := false }, false)

/-- `selectable_read_event` (src/kselectable.c:458-474), `selectable_event_read` (405-457) and, for a listening socket,
`kselector_event_accept` (src/kserver.c:26-45).  With nothing to read the system call fails with EAGAIN; the request is then
handed to `epoll_selector_read` (`epoll_selector_accept`) again, which with STF_RREADY just cleared can only wait. -/
def readEvent (s : St) (a : Ans) (ctl : Bool) : Res St :=
  if s.alive = false then .ub else
  let s1 := { s with read := s.read && !s.et, rready2 := false }
  match s.rk with
  | .null => .ok (s1.finishR .zero)
  | .io =>
    if s.kin then
      match a with
      | .got n still => .ok ({ s1 with kin := still || s.khup }.finishR (.got n))
      | .err => .ok (s1.finishR .sysErr)
    else if s1.read then .ub
    else .ok (waitRead ({ s1 with rready := false, read := true }.dropHup) ctl)
  | .accept =>
    if s.kin then
      match a with
      | .got n still => .ok ({ s1 with kin := still || s.khup }.finishR (.got n))
      | .err => .ok (s1.finishR .sysErr)
    else if s.err then .ok (s1.finishR .sysErr)
    else
      let (s2, ok) := waitAccept { s1 with rready := false, read := true } ctl
      .ok (if ok then s2 else s2.finishR .sysErr)

/-- `selectable_write_event` (src/kselectable.c:475-495), `selectable_event_write` (355-404), `selectable_event_sendfile`
(294-353).  A socket that poll reports as writable takes something; one that it does not may take something or fail with
EAGAIN (`again`), which makes the kernel ask for a write-space wake-up. -/
def writeEvent (s : St) (a : Ans) (again ctl : Bool) : Res St :=
  if s.alive = false then .ub else
  let sf := s.sendfile
  let s1 := { s with write := false, rdhup := false, sendfile := false }
  if sf = false ∧ s.err = true then .ok (s1.finishW .hungUp)
  else
    let s1 := { s1 with wready2 := sf && s.wready2 }
    match s.wk with
    | .null => .ok (s1.finishW .zero)
    | .io =>
      if s.kout = false ∧ again = true then
        .ok (waitWrite { s1 with wready := false, write := true, sendfile := sf, nospace := true } ctl)
      else
        match a with
        | .got n still => .ok ({ s1 with kout := s.kout && still }.finishW (.got n))
        | .err => .ok (s1.finishW .sysErr)

inductive Op where
  /-- `selectable_read` with a buffer; `main`: called on the selector's main fiber -/
  | read (main : Bool) (a : Ans) (ctl : Bool)
  /-- `kselector_module.accept` -/
  | accept (ctl : Bool)
  /-- `selectable_write` with a buffer -/
  | write (main : Bool) (a : Ans) (again ctl : Bool)
  /-- `selectable_sendfile` -/
  | sendfile (main : Bool) (a : Ans) (again ctl : Bool)
  | nextRead
  | nextWrite
  /-- `kselector_module.connect` -/
  | connect (ctl : Bool)
  /-- `selectable_readhup` -/
  | readhup (ctl : Bool)
  /-- `selectable_remove_readhup` -/
  | removeReadhup
  /-- `kselector_module.listen` -/
  | listen
  /-- `kserver_selectable_next_shutdown` on a listening socket that is still open -/
  | nextShutdown
  /-- `selectable_remove` -/
  | remove
  /-- `selectable_clean` and the release of the connection -/
  | destroy
  /-- an expired connection leaves its timeout list and is shut down, src/kselector.c:176-190 -/
  | expire
  /-- `epoll_selector_select` handles this connection's event -/
  | select
  /-- the ready loop takes the connection: removal, copy of the flags and the write part, src/kselector.c:233-251 -/
  | popWrite (a : Ans) (again ctl : Bool)
  /-- its read part, 252-255 -/
  | popRead (a : Ans) (ctl : Bool)
  /-- its last part, 256-262 -/
  | popEnd
  /-- the kernel: input arrives, the send buffer drains, the peer closes -/
  | dataIn
  | spaceOut
  | hangup
  deriving Repr, DecidableEq

/-- `epoll_selector_remove`, src/kepoll_selector.c:245-261 -/
def remove (s : St) : Res St :=
  if s.rev = false ∧ s.wev = false then .ok s
  else
    let s1 := addList s .none
    if s.read ∨ s.write ∨ s.rdhup then .ub
    else .ok { s1 with rev := false, wev := false, et := false, rready := false, wready := false, stale := false,
                       regI := false, regO := false, queued := false }

/-- `epoll_selector_select` for one returned event, src/kepoll_selector.c:354-403; poll reports RDHUP only together with IN.
`err` is line 378, `wready` 383 and 389, `rready` 397; the connection goes to the ready list at 385 (a write or readhup waits and the
peer hung up), 391 (a write waits) or 399 (a read waits). -/
def select (s : St) : St :=
  let s0 := { s with queued := false, nospace := s.nospace || !s.kout }
  let evIn := s.kin || s.khup
  let evOut := s.kout && s.regO
  if ((s.regI || s.regO) && (evIn || evOut)) = true then
    { s0 with err := s.err || s.khup, wready := s.wready || s.khup || evOut, rready := s.rready || evIn,
              loc := bif (s.khup && (s.write || s.rdhup)) || (!s.khup && evOut && s.write) || (evIn && s.read) then .ready else s.loc }
  else s0

def step (s : St) (op : Op) : Res St :=
  match op with
  -- epoll_selector_read, src/kepoll_selector.c:288-314; kselectable_is_read_ready, include/kselectable.h:109-116
  | .read main a ctl =>
    if s.alive = false ∨ s.read then .ub else
    let s1 := { (s.request .rd).dropHup with rk := .io, rid := s.next, pr := true, read := true }
    if s.rready then
      if main then .ok (addList s1 .ready) else readEvent s1 a ctl
    else .ok (waitRead s1 ctl)
  -- epoll_selector_accept, src/kepoll_selector.c:182-207
  | .accept ctl =>
    if s.alive = false then .ub else
    let s1 := { s.request .rd with rk := .accept, rid := s.next, pr := true, read := true }
    let (s2, ok) := waitAccept s1 ctl
    .ok (if ok then s2 else s2.finishR .noPoll)
  -- selectable_write, src/kselectable.c:546-557; epoll_selector_write, src/kepoll_selector.c:315-337; kselectable_is_write_ready, include/kselectable.h:117-124
  | .write main a again ctl =>
    if s.alive = false ∨ s.write ∨ s.wready2 then .ub else
    let s1 := { (s.request .wr).dropHup with wk := .io, wid := s.next, write := true }
    if s.wready then
      if main then .ok (addList s1 .ready) else writeEvent s1 a again ctl
    else .ok (waitWrite s1 ctl)
  -- epoll_selector_sendfile, 339-360
  | .sendfile main a again ctl =>
    if s.alive = false ∨ s.write ∨ s.sendfile then .ub else
    let s1 := { (s.request .wr).dropHup with wk := .io, wid := s.next, write := true, sendfile := true }
    if s.wready then
      if main then .ok (addList s1 .ready) else writeEvent s1 a again ctl
    else .ok (waitWrite s1 ctl)
  -- selectable_next_read, src/kselectable.c:496-506
  | .nextRead =>
    if s.alive = false ∨ s.read ∨ s.rready2 then .ub else
    .ok (addList { (s.request .rd).dropHup with rk := .null, rid := s.next, pr := true, read := true, rready2 := true } .ready)
  -- selectable_next_write, src/kselectable.c:507-517
  | .nextWrite =>
    if s.alive = false ∨ s.write ∨ s.wready2 then .ub else
    .ok (addList { (s.request .wr).dropHup with wk := .null, wid := s.next, write := true, wready2 := true, nextW := true } .ready)
  -- epoll_selector_connect, 228-244
  | .connect ctl =>
    if s.alive = false ∨ s.read ∨ s.write ∨ s.rdhup ∨ s.rev ∨ s.wev then .ub else
    let s1 := { s.request .wr with wk := .null, wid := s.next, write := true }
    let (s2, ok) := addEventRW s1 ctl
    .ok (if ok then addList s2 .connect else { s2 with write := false }.finishW .noPoll)
  -- epoll_selector_readhup, 263-285; a refused request leaves no trace
  | .readhup ctl =>
    if s.alive = false then .ub else
    if s.read || s.write then .ok s
    else
      let s1 := { (s.request .hup).dropHup with wk := .null, wid := s.next, rdhup := true }
      let (s2, ok) := if s.wev || s.rev then (s1, true) else addEventRW s1 ctl
      .ok (if ok then s2 else { s2 with rdhup := false }.finishW .noPoll)
  -- epoll_selector_remove_readhup, 286-299
  | .removeReadhup =>
    if s.alive = false then .ub
    else if s.rdhup = false then .ok s
    else if s.read ∨ s.write then .ub
    else remove s.dropHup
  -- epoll_selector_listen, 217-227
  | .listen => if s.alive = false then .ub else .ok { s with rready := true, listener := true }
  -- kserver_selectable_next_shutdown, src/kserver.c:376-391
  | .nextShutdown =>
    if s.alive = false then .ub else
    .ok (addList { s with rready := true, err := true, kin := true, khup := true, queued := s.queued || s.regI || s.regO } .ready)
  | .remove => if s.alive = false then .ub else remove s
  -- selectable_clean, src/kselectable.c:141-161
  | .destroy =>
    if s.alive = false ∨ s.read ∨ s.write ∨ s.loc ≠ .none then .ub else
    match remove s with
    | .ok s1 => .ok { s1 with alive := false, regI := false, regO := false, queued := false }
    | r => r
  | .expire =>
    if s.loc = .rw ∨ s.loc = .connect then
      if s.alive = false then .ub else
      .ok { s with loc := .none, kin := true, kout := true, khup := true, queued := s.queued || s.regI || s.regO }
    else .disabled
  | .select =>
    if s.cur = none ∧ s.queued = true then
      if s.alive = false then .ub else .ok (select s)
    else .disabled
  | .popWrite a again ctl =>
    if s.cur = none ∧ s.loc = .ready then
      if s.alive = false then .ub else
      let s1 := addList s .none
      let tr := (s.rready || s.rready2) && s.read
      if (s.wready || s.wready2) && (s.write || s.rdhup) then
        let s2 := { s1 with cur := some ⟨tr, s.read, false, s.et⟩ }
        writeEvent s2 a again ctl
      else .ok { s1 with cur := some ⟨tr, s.read, s.write, s.et⟩ }
    else .disabled
  | .popRead a ctl =>
    match s.cur with
    | some k =>
      if k.todoR then readEvent { s with cur := some { k with todoR := false, rd := false } } a ctl else .disabled
    | none => .disabled
  | .popEnd =>
    match s.cur with
    | some k =>
      if k.todoR then .disabled
      else if (k.rd || k.wr) && k.et then
        if s.alive = false then .ub
        else .ok { (if s.loc = .none then addList s .rw else s) with cur := none }
      else .ok { s with cur := none }
    | none => .disabled
  | .dataIn => .ok { s with kin := true, queued := s.queued || s.regI || s.regO }
  | .spaceOut => .ok { s with kout := true, nospace := false, queued := s.queued || (s.regO && s.nospace) }
  | .hangup => .ok { s with kin := true, khup := true, queued := s.queued || s.regI || s.regO }

end Kasync.Epoll
