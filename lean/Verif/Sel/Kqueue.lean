import Verif.Common

/-!
# Model of the kqueue selector (src/kkqueue_selector.c, with src/kselectable.c and src/kselector.c as compiled on BSD)

One stream connection (`kselectable`) of one selector, and the part of the kernel it talks to.  Everything runs on the selector's
own thread, so an operation is atomic; what the kernel does by itself (`dataIn`, `spaceOut`, `hangup`) happens between operations.
Connections interact only through the selector's lists, of which `loc` remembers the one this connection is linked in.

A kqueue holds at most one *knote* per socket and filter.  All are registered with EV_CLEAR: a knote is queued when its condition
holds at registration and whenever the kernel wakes the socket up, and dequeued by the `kevent` call that reports it; a queued
knote whose condition does not hold at that time is dequeued without being reported.

Not modelled: listening sockets, datagram sockets, TLS, `EVFILT_AIO`, the selector's own `EVFILT_USER` knote.  `readhup` is
`kselector_default_readhup`, which refuses (src/kselector.c:48-51), so STF_RDHUP is never set; STF_ERR is never set on a connection.
-/

namespace Kasync.Kq

/-- The list the connection is linked in (include/kselector.h:12-15). -/
inductive Loc where
  | none | connect | rw | ready
  deriving Repr, DecidableEq

/-- What `e[OP_READ]` holds: a buffer, or none (`selectable_next_read`). -/
inductive RKind where
  | io | null
  deriving Repr, DecidableEq

/-- What `e[OP_WRITE]` holds: a buffer, the description of a file, none (connect, `selectable_next_write`). -/
inductive WKind where
  | io | file | null
  deriving Repr, DecidableEq

/-- What a callback is told: a count the kernel returned, 0 without a system call, the error of the system call, -1 because
`kevent` failed. -/
inductive Out where
  | got (n : Nat) | zero | sysErr | noPoll
  deriving Repr, DecidableEq

/-- The answer of the kernel to a read or write that does not fail with EAGAIN: a count and whether the socket is still readable
(writable) afterwards, or an error. -/
inductive Ans where
  | got (n : Nat) (still : Bool)
  | err
  deriving Repr, DecidableEq

/-- How a `kevent` call with a list of changes ends: all are made, the first one fails, or the first is made and the second fails
(the kernel handles them in order and stops at the first error when there is no room to report it). -/
inductive Ctl where
  | ok | first | second
  deriving Repr, DecidableEq

/-- The copy of `st_flags` the ready loop works with (src/kselector.c:247). -/
structure Snap where
  todoR : Bool
  rd : Bool
  wr : Bool
  et : Bool
  deriving Repr, DecidableEq

/-- What was asked: a read-side request (read, next_read), a write-side one, or one of its kinds sendfile and connect. -/
inductive Req where
  | rd | wr | file | conn
  deriving Repr, DecidableEq

structure St where
  -- the bits of st_flags, include/kselectable.h:12-33
  read : Bool := false
  write : Bool := false
  sendfile : Bool := false
  rev : Bool := false
  wev : Bool := false
  et : Bool := false
  rready : Bool := false
  wready : Bool := false
  rready2 : Bool := false
  wready2 : Bool := false
  -- e[OP_READ], e[OP_WRITE]: the kind and the number of the request they belong to
  rk : RKind := .io
  rid : Nat := 0
  wk : WKind := .io
  wid : Nat := 0
  loc : Loc := .none
  /-- the ready loop is at this connection -/
  cur : Option Snap := none
  alive : Bool := true
  -- the kernel: a read (a write) would not fail with EAGAIN; the stream ended; the socket was shut down; the two knotes:
  -- registered, queued
  kin : Bool := false
  kout : Bool := true
  eof : Bool := false
  shut : Bool := false
  regR : Bool := false
  regW : Bool := false
  qR : Bool := false
  qW : Bool := false
  -- ghosts: number of requests made, what they were, the answers in order
  next : Nat := 0
  req : Nat → Req := fun _ => .rd
  /-- ghost: the request has no buffer (`selectable_next_read`, `selectable_next_write`, connect) -/
  nul : Nat → Bool := fun _ => false
  done : List (Nat × Out) := []

/-- The callback of the read-side request is called. -/
def St.finishR (s : St) (o : Out) : St := { s with done := s.done ++ [(s.rid, o)] }

/-- The callback of the write-side request is called. -/
def St.finishW (s : St) (o : Out) : St := { s with done := s.done ++ [(s.wid, o)] }

/-- A new request: it gets the next number. -/
def St.request (s : St) (d : Req) : St :=
  { s with next := s.next + 1, req := fun i => if i = s.next then d else s.req i }

/-- A new request without a buffer. -/
def St.nrequest (s : St) (d : Req) : St :=
  { s.request d with nul := fun i => if i = s.next then true else s.nul i }

/-- `EV_ADD` of EVFILT_READ -/
def evAddR (s : St) : St := { s with regR := true, qR := s.qR || s.kin }

/-- `EV_ADD` of EVFILT_WRITE -/
def evAddW (s : St) : St := { s with regW := true, qW := s.qW || s.kout }

/-- `kqueue_add_event` with ev = STF_REV on a connection without STF_REV, src/kkqueue_selector.c:49-71 -/
def addEventR (s : St) (c : Ctl) : St × Bool :=
  let s1 := { s with rev := true, et := true, wready := true }
  match c with
  | .ok => (evAddR s1, true)
  | _ => (s1, false)

/-- `kqueue_add_event` with ev = STF_REV|STF_WEV on a connection without STF_WEV, src/kkqueue_selector.c:49-71: one change
or two. -/
def addEventRW (s : St) (c : Ctl) : St × Bool :=
  if s.rev then
    let s1 := { s with wev := true, et := true }
    match c with
    | .ok => (evAddW s1, true)
    | _ => (s1, false)
  else
    let s1 := { s with rev := true, et := true, wready := true, wev := true }
    match c with
    | .ok => (evAddW (evAddR s1), true)
    | .first => (s1, false)
    | .second => (evAddR s1, false)

/-- `kselector_add_list`, include/kselectable.h:94-108 (the place only) -/
def addList (s : St) (l : Loc) : St := { s with loc := l }

/-- Lines 182-191 of `kqueue_selector_read`: not ready, wait for the poller. -/
def waitRead (s : St) (c : Ctl) : St :=
  let (s1, ok) := if s.rev then (s, true) else addEventR s c
  if ok then (if s1.loc = .none then addList s1 .rw else s1)
  else { s1 with read := false }.finishR .noPoll

/-- Lines 205-214 of `kqueue_selector_write` and 228-237 of `kqueue_selector_sendfile`: not ready, wait for the poller.  A failure
clears STF_WRITE only. -/
def waitWrite (s : St) (c : Ctl) : St :=
  let (s1, ok) := if s.wev then (s, true) else addEventRW s c
  if ok then (if s1.loc = .none then addList s1 .rw else s1)
  else { s1 with write := false }.finishW .noPoll

/-- `selectable_read_event` (src/kselectable.c:458-474) and `selectable_event_read` (405-457).  With nothing to read the system
call fails with EAGAIN; the request is handed to `kqueue_selector_read` again, which with STF_RREADY just cleared can only wait. -/
def readEvent (s : St) (a : Ans) (c : Ctl) : Res St :=
  if s.alive = false then .ub else
  let s1 := { s with read := s.read && !s.et, rready2 := false }
  match s.rk with
  | .null => .ok (s1.finishR .zero)
  | .io =>
    if s.kin then
      match a with
      | .got n still => .ok ({ s1 with kin := still || s.eof }.finishR (.got n))
      | .err => .ok (s1.finishR .sysErr)
    else if s1.read then .ub
    else .ok (waitRead { s1 with rready := false, read := true } c)

/-- `selectable_write_event` (src/kselectable.c:475-495), `selectable_event_write` (355-404) and, on BSD,
`selectable_event_sendfile` (294-299, 330-347).  A socket that is writable takes something, one that is not may take something or
fail with EAGAIN (`again`).  `main`: on the selector's main fiber.  An error of `sendfile` other than EAGAIN with nothing sent
calls `kqueue_selector_sendfile` again with STF_WREADY still set: on the main fiber that puts the connection on the ready list; off it
the same function is entered again, so that the last attempt decides and an error that stays exhausts the stack. -/
def writeEvent (s : St) (main : Bool) (a : Ans) (again : Bool) (c : Ctl) : Res St :=
  if s.alive = false then .ub else
  let s1 := { s with write := false, sendfile := false }
  if s.sendfile then
    if s.wk = .file then
      if s.kout = false ∧ again = true then
        .ok (waitWrite { s1 with wready := false, write := true, sendfile := true } c)
      else
        match a with
        | .got n still => .ok ({ s1 with kout := (s.kout && still) || s.shut }.finishW (.got n))
        | .err =>
          if s.wready then
            if main then .ok (addList { s1 with write := true, sendfile := true } .ready) else .ub
          else .ok (waitWrite { s1 with write := true, sendfile := true } c)
    else .ub
  else
    let s2 := { s1 with wready2 := false }
    match s.wk with
    | .null => .ok (s2.finishW .zero)
    | .file => .ub
    | .io =>
      if s.kout = false ∧ again = true then
        .ok (waitWrite { s2 with wready := false, write := true } c)
      else
        match a with
        | .got n still => .ok ({ s2 with kout := (s.kout && still) || s.shut }.finishW (.got n))
        | .err => .ok (s2.finishW .sysErr)

inductive Op where
  /-- `selectable_read` with a buffer; `main`: called on the selector's main fiber -/
  | read (main : Bool) (a : Ans) (c : Ctl)
  /-- `selectable_write` with a buffer -/
  | write (main : Bool) (a : Ans) (again : Bool) (c : Ctl)
  /-- `selectable_sendfile` -/
  | sendfile (main : Bool) (a : Ans) (again : Bool) (c : Ctl)
  | nextRead
  | nextWrite
  /-- `kselector_module.connect`; `now`: the connection is established already -/
  | connect (now : Bool) (c : Ctl)
  /-- `selectable_remove` -/
  | remove
  /-- `selectable_clean` and the release of the connection -/
  | destroy
  /-- an expired connection leaves its timeout list and is shut down, src/kselector.c:176-190 -/
  | expire
  /-- `kqueue_selector_select` handles this connection's EVFILT_READ, EVFILT_WRITE event -/
  | selectR
  | selectW
  /-- the ready loop takes the connection: removal, copy of the flags and the write part, src/kselector.c:233-251 -/
  | popWrite (a : Ans) (again : Bool) (c : Ctl)
  /-- its read part, 252-255 -/
  | popRead (a : Ans) (c : Ctl)
  /-- its last part, 256-262 -/
  | popEnd
  /-- the kernel: input arrives, the send buffer drains (or the connection is established), the peer closes (and takes nothing more) -/
  | dataIn
  | spaceOut
  | hangup (reset : Bool)
  deriving Repr, DecidableEq

/-- `kqueue_selector_remove`, src/kkqueue_selector.c:389-411: it deletes the knotes and clears the flags, but neither checks for
pending requests nor takes the connection off its list. -/
def remove (s : St) : St :=
  if s.rev = false ∧ s.wev = false then s
  else { s with rev := false, wev := false, et := false, rready := false, wready := false,
                regR := s.regR && !s.rev, qR := s.qR && !s.rev, regW := s.regW && !s.wev, qW := s.qW && !s.wev }

/-- The kernel wakes knotes up: that for reading, that for writing. -/
def wake (s : St) (r w : Bool) : St := { s with qR := s.qR || (r && s.regR), qW := s.qW || (w && s.regW) }

def step (s : St) (op : Op) : Res St :=
  match op with
  -- kqueue_selector_read, src/kkqueue_selector.c:168-192; kselectable_is_read_ready, include/kselectable.h:109-116
  | .read main a c =>
    if s.alive = false ∨ s.read then .ub else
    let s1 := { s.request .rd with rk := .io, rid := s.next, read := true }
    if s.rready then
      if main then .ok (addList s1 .ready) else readEvent s1 a c
    else .ok (waitRead s1 c)
  -- selectable_write, src/kselectable.c:546-557; kqueue_selector_write, src/kkqueue_selector.c:193-215; kselectable_is_write_ready, include/kselectable.h:117-124
  | .write main a again c =>
    if s.alive = false ∨ s.write ∨ s.wready2 then .ub else
    let s1 := { s.request .wr with wk := .io, wid := s.next, write := true }
    if s.wready then
      if main then .ok (addList s1 .ready) else writeEvent s1 main a again c
    else .ok (waitWrite s1 c)
  -- kqueue_selector_sendfile, 216-238
  | .sendfile main a again c =>
    if s.alive = false ∨ s.write then .ub else
    let s1 := { s.request .file with wk := .file, wid := s.next, write := true, sendfile := true }
    if s.wready then
      if main then .ok (addList s1 .ready) else writeEvent s1 main a again c
    else .ok (waitWrite s1 c)
  -- selectable_next_read, src/kselectable.c:496-506
  | .nextRead =>
    if s.alive = false ∨ s.read ∨ s.rready2 then .ub else
    .ok (addList { s.nrequest .rd with rk := .null, rid := s.next, read := true, rready2 := true } .ready)
  -- selectable_next_write, src/kselectable.c:507-517
  | .nextWrite =>
    if s.alive = false ∨ s.write ∨ s.wready2 then .ub else
    .ok (addList { s.nrequest .wr with wk := .null, wid := s.next, write := true, wready2 := true } .ready)
  -- kqueue_selector_connect, 151-167
  | .connect now c =>
    if s.alive = false ∨ s.read ∨ s.write ∨ s.rev ∨ s.wev then .ub else
    let s1 := { s.nrequest .conn with wk := .null, wid := s.next, write := true, kout := now || s.shut }
    let (s2, ok) := addEventRW s1 c
    .ok (if ok then addList s2 .connect else { s2 with write := false }.finishW .noPoll)
  | .remove => if s.alive = false then .ub else .ok (remove s)
  -- selectable_clean, src/kselectable.c:141-161; closing the socket removes its knotes
  | .destroy =>
    if s.alive = false ∨ s.loc ≠ .none then .ub else
    .ok { remove s with alive := false, regR := false, regW := false, qR := false, qW := false }
  | .expire =>
    if s.cur = none ∧ (s.loc = .rw ∨ s.loc = .connect) then
      if s.alive = false then .ub else
      .ok (wake { s with loc := .none, kin := true, kout := true, eof := true, shut := true } true true)
    else .disabled
  -- kqueue_selector_select, 283-323, for one knote
  | .selectR =>
    if s.cur = none ∧ s.qR = true then
      if s.alive = false then .ub else
      .ok (if s.kin then { s with qR := false, rready := true, loc := if s.read then .ready else s.loc } else { s with qR := false })
    else .disabled
  | .selectW =>
    if s.cur = none ∧ s.qW = true then
      if s.alive = false then .ub else
      .ok (if s.kout then { s with qW := false, wready := true, loc := if s.write then .ready else s.loc } else { s with qW := false })
    else .disabled
  | .popWrite a again c =>
    if s.cur = none ∧ s.loc = .ready then
      if s.alive = false then .ub else
      let s1 := addList s .none
      let tr := (s.rready || s.rready2) && s.read
      if (s.wready || s.wready2) && s.write then
        writeEvent { s1 with cur := some ⟨tr, s.read, false, s.et⟩ } true a again c
      else .ok { s1 with cur := some ⟨tr, s.read, s.write, s.et⟩ }
    else .disabled
  | .popRead a c =>
    match s.cur with
    | some k => if k.todoR then readEvent { s with cur := some { k with todoR := false, rd := false } } a c else .disabled
    | none => .disabled
  | .popEnd =>
    match s.cur with
    | some k =>
      if k.todoR then .disabled
      else if (k.rd || k.wr) && k.et then
        if s.alive = false then .ub
        else .ok { (if s.loc = .none then addList s .rw else s) with cur := none }
      else .ok { s with cur := none }
    | none => .disabled
  | .dataIn => .ok (wake { s with kin := true } true false)
  | .spaceOut => .ok (wake { s with kout := true } false true)
  | .hangup reset => .ok (wake { s with kin := true, eof := true, shut := s.shut || reset, kout := s.kout || reset } true reset)

end Kasync.Kq
