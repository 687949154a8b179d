import Verif.Common

/-!
# Model of the completion port selector (src/kiocp_selector.c, with src/kselector.c and src/kselectable.c as compiled for Windows)

One `kselectable` of a selector (a connection, a listening socket or a file), the completion port, and the notices posted to the
selector.  Everything but `iocp_selector_next` runs on the selector's own thread, so an operation is atomic; the kernel completes
what it holds between operations, in any order.  A successful overlapped call always leads to one packet in the port, whether it
succeeded at once or is pending (the mode FILE_SKIP_COMPLETION_PORT_ON_SUCCESS is not used, 66-70); a failed one to none.  The port
is a queue.  Other selectables of the selector meet this one only in the lists; `loc` remembers the one it is linked in.

Not modelled: TLS, the reads with a time limit (C56), `tmo_left` (C25).  STF_RREADY, STF_WREADY, STF_ERR and STF_RDHUP are never
set on a completion port.  Byte counts are below 2^31, so that the conversion to `int` keeps them.
-/

namespace Kasync.Iocp

inductive Dir where
  | r | w
  deriving Repr, DecidableEq

/-- The list the selectable is linked in (include/kselector.h:12-15). -/
inductive Loc where
  | none | connect | rw | ready
  deriving Repr, DecidableEq

inductive Kind where
  | conn | server | file
  deriving Repr, DecidableEq

/-- A packet of the completion port: key and OVERLAPPED name the selectable and the direction (`id` is a ghost: the request it was
made for); or a posted notice. -/
inductive Pkt where
  | io (d : Dir) (id : Nat) (ok : Bool) (n : Nat)
  | notice (id : Nat) (got : Int)
  deriving Repr, DecidableEq

/-- The copy of `st_flags` the ready loop works with (src/kselector.c:247). -/
structure Snap where
  todoR : Bool
  rd : Bool
  wr : Bool
  deriving Repr, DecidableEq

/-- How an attempt of `kiocp_accept_ex` ends: no socket, AcceptEx fails, it is under way. -/
inductive Try where
  | noSock | noEx | ok
  deriving Repr, DecidableEq

structure St where
  kind : Kind := .conn
  -- the bits of st_flags, include/kselectable.h:12-33
  read : Bool := false
  write : Bool := false
  rready2 : Bool := false
  wready2 : Bool := false
  bound : Bool := false
  -- e[OP_READ], e[OP_WRITE]: the number of the request whose callback they hold
  rid : Nat := 0
  wid : Nat := 0
  loc : Loc := .none
  /-- the ready loop is at this connection -/
  cur : Option Snap := none
  alive : Bool := true
  /-- the socket was shut down -/
  shut : Bool := false
  -- the kernel: the overlapped calls it holds (by request); a WSARecvFrom whose length argument is on a dead stack frame
  pendR : Option Nat := none
  pendW : Option Nat := none
  dang : Bool := false
  port : List Pkt := []
  /-- ss->accept_sockfd -/
  asock : Option Nat := none
  /-- KGL_SERVER_START -/
  running : Bool := true
  -- ghosts: the sockets made for AcceptEx: their number, those closed, those handed to a connection
  nsock : Nat := 0
  closed : List Nat := []
  given : List Nat := []
  -- ghosts: the requests: their number, direction, the outcome the kernel decided on, the callbacks called and what they were told
  next : Nat := 0
  req : Nat → Dir := fun _ => .r
  outcome : List (Nat × Int) := []
  done : List (Nat × Int) := []
  -- ghosts: the notices accepted by the port, those called
  posted : List (Nat × Int) := []
  called : List (Nat × Int) := []

/-- A new request. -/
def St.request (s : St) (d : Dir) : St := { s with next := s.next + 1, req := fun i => if i = s.next then d else s.req i }

/-- The callback in `e[OP_READ]` is called. -/
def St.finishR (s : St) (v : Int) : St := { s with done := s.done ++ [(s.rid, v)] }

/-- The callback in `e[OP_WRITE]` is called. -/
def St.finishW (s : St) (v : Int) : St := { s with done := s.done ++ [(s.wid, v)] }

/-- What the kernel (or a failed call) decides for a request. -/
def St.decide (s : St) (id : Nat) (v : Int) : St := { s with outcome := s.outcome ++ [(id, v)] }

/-- `kselector_add_list`, include/kselectable.h:94-108 (the place only) -/
def addList (s : St) (l : Loc) : St := { s with loc := l }

/-- 166-168, 204-206, 370-372: on a list anyhow, so that it can time out -/
def ensureRw (s : St) : St := if s.loc = .none then addList s .rw else s

/-- `kserver_get_socket`, src/kserver.c:49-64, called first thing by every accept callback (src/kserver.c:74, include/kserver.h:39) -/
def getSocket (s : St) (ok : Bool) : St :=
  match s.asock with
  | some k => if ok then { s with asock := none, given := s.given ++ [k] } else { s with asock := none, closed := s.closed ++ [k] }
  | none => s

/-- The loop of `iocp_selector_accept` (240-250) over `kiocp_accept_ex` (32-55): the attempts it makes until one is under way or
the server was stopped. -/
def acceptTries (s : St) : List Try → St × Bool
  | [] => (s, false)
  | .noSock :: ts => acceptTries s ts
  | .noEx :: ts => acceptTries { s with nsock := s.nsock + 1, closed := s.closed ++ [s.nsock] } ts
  | .ok :: _ =>
    ({ s.request .r with asock := some s.nsock, nsock := s.nsock + 1, read := true, rid := s.next, pendR := some s.next }, true)

/-- `handle_complete_event`, 375-403; on a listening socket the callback is `iocp_accept_result` (230-239) -/
def complete (s : St) (d : Dir) (ok : Bool) (n : Nat) : Res St :=
  if s.alive = false then .ub else
  let s1 := if s.read && s.write then (if s.rready2 || s.wready2 then s else addList s .rw) else addList s .none
  let v : Int := if ok then n else -1
  match d with
  | .r =>
    if s.read = false ∨ s.rready2 then .ub
    else
      let s2 := { s1 with read := false }.finishR v
      .ok (if s.kind = .server then getSocket s2 ok else s2)
  | .w =>
    if s.write = false ∨ s.wready2 then .ub
    else .ok ({ s1 with write := false }.finishW v)

inductive Op where
  /-- `selectable_bind` -/
  | bind
  /-- `selectable_read`, `selectable_write`, `selectable_sendfile`; `ok`: the overlapped call does not fail -/
  | read (ok : Bool)
  /-- `selectable_read` on a datagram socket without `kudp_extend`: WSARecvFrom, 122-124 -/
  | recvFrom
  | write (ok : Bool)
  | sendfile (ok : Bool)
  | connect (ok : Bool)
  | aioRead (ok : Bool)
  | aioWrite (ok : Bool)
  /-- `kserver_selectable_accept` -/
  | accept (tries : List Try)
  | nextRead
  | nextWrite
  /-- `selectable_clean`, or `kserver_selectable_free`, and the release of the memory -/
  | destroy
  /-- an expired connection leaves its timeout list and is shut down, src/kselector.c:176-190 -/
  | expire
  /-- `kserver_close` clears KGL_SERVER_START -/
  | stop
  /-- the kernel completes the call it holds -/
  | kernel (d : Dir) (ok : Bool) (n : Nat)
  /-- `iocp_selector_next` on any thread; `ok`: PostQueuedCompletionStatus succeeds -/
  | post (id : Nat) (got : Int) (ok : Bool)
  /-- `iocp_selector_select(x)` handles the next packet -/
  | select
  /-- the ready loop takes the connection: removal, copy of the flags and the write part, src/kselector.c:233-251 -/
  | popWrite
  /-- its read part, 252-255 -/
  | popRead
  /-- its last part, 256-262 -/
  | popEnd
  deriving Repr, DecidableEq

def step (s : St) (op : Op) : Res St :=
  match op with
  -- iocp_selector_bind, 57-74
  | .bind => if s.alive = false ∨ s.bound then .ub else .ok { s with bound := true }
  -- iocp_selector_read, 127-170
  | .read ok =>
    if s.alive = false ∨ s.read ∨ s.bound = false then .ub else
    let s1 := { s.request .r with rid := s.next, read := true }
    if ok then .ok (ensureRw { s1 with pendR := some s.next })
    else .ok (({ s1 with read := false }.decide s.next (-1)).finishR (-1))
  -- the same with iocp_selector_recvmsg, 102-126
  | .recvFrom =>
    if s.alive = false ∨ s.read then .ub else
    let s1 := { s.request .r with rid := s.next, read := true }
    .ok (ensureRw { s1 with pendR := some s.next, dang := true })
  -- selectable_write, src/kselectable.c:546-557; iocp_selector_write, 171-208
  | .write ok =>
    if s.alive = false ∨ s.write ∨ s.wready2 ∨ s.bound = false then .ub else
    let s1 := { s.request .w with wid := s.next, write := true }
    if ok then .ok (ensureRw { s1 with pendW := some s.next })
    else .ok (({ s1 with write := false }.decide s.next (-1)).finishW (-1))
  -- iocp_selector_sendfile, 348-374
  | .sendfile ok =>
    if s.alive = false ∨ s.write then .ub else
    let s1 := { s.request .w with wid := s.next, write := true }
    if ok then .ok (ensureRw { s1 with pendW := some s.next })
    else .ok (({ s1 with write := false }.decide s.next (-1)).finishW (-1))
  -- iocp_selector_connect, 209-229: a failure is told by the result false
  | .connect ok =>
    if s.alive = false ∨ s.write then .ub
    else if ok then
      if s.loc ≠ .none then .ub
      else .ok (addList { s.request .w with wid := s.next, write := true, pendW := some s.next } .connect)
    else .ok s
  -- iocp_selector_aio_read, 321-347, and iocp_selector_aio_write, 293-320
  | .aioRead ok =>
    if s.alive = false ∨ s.write ∨ s.read then .ub
    else if ok then .ok { s.request .r with rid := s.next, read := true, pendR := some s.next }
    else .ok s
  | .aioWrite ok =>
    if s.alive = false ∨ s.write ∨ s.read then .ub
    else if ok then .ok { s.request .w with wid := s.next, write := true, pendW := some s.next }
    else .ok s
  -- iocp_selector_accept, 240-250: it returns false only when the server was stopped, before the first attempt or after a failed one
  | .accept tries =>
    if s.alive = false ∨ s.bound = false ∨ s.asock ≠ none then .ub
    else if s.running = false ∨ tries = [] then .ok { s with running := false }
    else
      let (s1, ok) := acceptTries s tries
      .ok (if ok then s1 else { s1 with running := false })
  -- selectable_next_read, src/kselectable.c:496-506
  | .nextRead =>
    if s.alive = false ∨ s.read ∨ s.rready2 then .ub else
    .ok (addList { s.request .r with rid := s.next, read := true, rready2 := true } .ready)
  -- selectable_next_write, src/kselectable.c:507-517
  | .nextWrite =>
    if s.alive = false ∨ s.write ∨ s.wready2 then .ub else
    .ok (addList { s.request .w with wid := s.next, write := true, wready2 := true } .ready)
  -- selectable_clean, src/kselectable.c:141-161; kserver_selectable_free, src/kserver.c:115-137
  | .destroy =>
    if s.alive = false ∨ s.loc ≠ .none then .ub else
    .ok (match s.asock with
      | some k => { s with alive := false, asock := none, closed := s.closed ++ [k] }
      | none => { s with alive := false })
  | .expire =>
    if s.cur = none ∧ (s.loc = .rw ∨ s.loc = .connect) then
      if s.alive = false then .ub else .ok { s with loc := .none, shut := true }
    else .disabled
  | .stop => .ok { s with running := false }
  | .kernel d ok n =>
    let v : Int := if ok then n else -1
    match d with
    | .r =>
      match s.pendR with
      | some id =>
        if s.dang then .ub
        else
          let s1 := { s with pendR := none }.decide id v
          .ok (if s.bound then { s1 with port := s.port ++ [.io .r id ok n] } else s1)
      | none => .disabled
    | .w =>
      match s.pendW with
      | some id =>
        let s1 := { s with pendW := none }.decide id v
        .ok (if s.bound then { s1 with port := s.port ++ [.io .w id ok n] } else s1)
      | none => .disabled
  -- iocp_selector_next, 259-279
  | .post id got ok =>
    .ok (if ok then { s with port := s.port ++ [.notice id got], posted := s.posted ++ [(id, got)] } else s)
  -- iocp_selector_selectx, 404-420, iocp_selector_select, 421-436; next_call_back, 25-31
  | .select =>
    if s.cur = none then
      match s.port with
      | [] => .disabled
      | .io d _ ok n :: p => complete { s with port := p } d ok n
      | .notice id got :: p => .ok { s with port := p, called := s.called ++ [(id, got)] }
    else .disabled
  -- selectable_write_event with STF_WREADY2, src/kselectable.c:475-495, 355-404: the callback gets 0
  | .popWrite =>
    if s.cur = none ∧ s.loc = .ready then
      if s.alive = false then .ub else
      let s1 := addList s .none
      let tr := s.rready2 && s.read
      if s.wready2 && s.write then
        .ok (({ s1 with cur := some ⟨tr, s.read, false⟩, write := false, wready2 := false }.decide s.wid 0).finishW 0)
      else .ok { s1 with cur := some ⟨tr, s.read, s.write⟩ }
    else .disabled
  -- selectable_read_event with STF_RREADY2, 458-474, 405-457
  | .popRead =>
    match s.cur with
    | some k =>
      if k.todoR then
        if s.alive = false then .ub else
        .ok (({ s with cur := some { k with todoR := false, rd := false }, read := false, rready2 := false }.decide s.rid 0).finishR 0)
      else .disabled
    | none => .disabled
  | .popEnd =>
    match s.cur with
    | some k =>
      if k.todoR then .disabled
      else if k.rd || k.wr then
        if s.alive = false then .ub else .ok { ensureRw s with cur := none }
      else .ok { s with cur := none }
    | none => .disabled

end Kasync.Iocp
