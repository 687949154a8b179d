/-!
# Model of the io_uring selector, src/kiouring_selector.c

Sockets and files are named by numbers; each has two events (`st->e[OP_READ]`, `st->e[OP_WRITE]`), the slots.  The submission
queue is the list of all entries ever taken (`hist`) with the number submitted (`head`): an entry keeps its old contents until it is
prepared again (liburing does not clear it), so the contents of a fresh entry are those of the entry taken `cap` earlier.  The
kernel may complete submitted entries in every order with every result.  Entries carry a ghost tag telling for which request
they were made; the code's `user_data` is the slot only.  `none` is undefined behaviour: a NULL or dangling pointer, a
descriptor closed twice, or (with `dbg`) a failed `kassert`.

Simplifications: the connection lists and timeouts of the selector are those of C12-C14; `STF_USEPOLL` is fixed for each socket;
memory allocation succeeds; `accept`, `connect`, `aio_read` and `aio_write`, which differ in the prepared entry only, are one
operation `plain`; sendfile on a TLS socket (STF_USEPOLL) is the operation `write`, as in 453-470.
-/

namespace Kasync.Uring

inductive Dir where
  | r | w
  deriving Repr, DecidableEq

/-- an event: socket or file, and direction -/
abbrev Key := Nat × Dir

/-- `e->result` and `e->arg`: the user's callback for a request, or the two callbacks of a sendfile (53-64) -/
inductive Cb where
  | none
  | user (id : Nat)
  | sfFile (id : Nat)
  | sfSock (id : Nat)
  deriving Repr, DecidableEq

/-- `kgl_event` with the flag STF_READ/STF_WRITE and STF_RREADY/STF_WREADY of its direction -/
structure Slot where
  flag : Bool := false
  ready : Bool := false
  /-- `e->st` -/
  st : Nat := 0
  cb : Cb := .none
  /-- `e->buffer == &null_buffer` -/
  nullb : Bool := false
  deriving Repr, DecidableEq

/-- ghost: what an entry was prepared for -/
inductive Kind where
  | poll
  | data
  | sfFile
  /-- second half of a sendfile; `stale` tells that `e->buffer` was still `&null_buffer` -/
  | sfSock (stale : Bool)
  deriving Repr, DecidableEq

structure Tag where
  req : Nat
  kind : Kind
  deriving Repr, DecidableEq

/-- a submission entry: never prepared; the timeout of 359-364; or an operation with `user_data` pointing to a slot -/
inductive Sqe where
  | zero
  | timeout
  | op (k : Key) (tag : Tag)
  deriving Repr, DecidableEq

/-- `iouring_sendfile`, 17-24; `p0`, `p1` tell that `pipe[0]`, `pipe[1]` are not -1 -/
structure Sf where
  st : Nat
  file : Nat
  p0 : Bool := true
  p1 : Bool := true
  refs : Nat := 1
  got : Int := 0
  skip : Bool := false
  deriving Repr, DecidableEq

structure St where
  /-- entries of the submission ring, URING_COUNT -/
  cap : Nat
  /-- STF_USEPOLL -/
  usepoll : Nat → Bool
  hist : List Sqe := []
  head : Nat := 0
  inflight : List Sqe := []
  cq : List (Sqe × Int) := []
  slots : Key → Slot := fun k => { st := k.1 }
  sfs : Nat → Option Sf := fun _ => none
  /-- the two ends of the pipe made for a sendfile: open? -/
  pipes : Nat → Bool × Bool := fun _ => (false, false)
  /-- requests accepted so far; the next one's name -/
  next : Nat := 0
  /-- user callbacks called -/
  ans : List (Nat × Int) := []
  /-- history: kernel results handled -/
  done : List (Tag × Int) := []
  /-- history: answers given without a kernel result: refused requests, and transfers made by the process itself (STF_USEPOLL) -/
  own : List (Nat × Int) := []

def upd {α β : Type} [DecidableEq α] (f : α → β) (a : α) (b : β) : α → β := fun x => if x = a then b else f x

/-- entries taken and not yet submitted -/
def St.sq (s : St) : List Sqe := s.hist.drop s.head

/-- `io_uring_submit` of `n` entries -/
def submit (s : St) (n : Nat) : St :=
  { s with head := s.head + min n s.sq.length, inflight := s.inflight ++ s.sq.take n }

/-- `kiouring_get_seq`, 65-82; `sub` is the outcome of `io_uring_submit` if it is called: `none` a failure, or how many
entries were submitted.  Result: is there an entry? -/
def getSeq (s : St) (sub : Option Nat) : St × Bool :=
  if s.sq.length < s.cap then (s, true)
  else
    match sub with
    | none => (s, false)
    | some n => (submit s n, (submit s n).sq.length < (submit s n).cap)

/-- prepare the entry just taken -/
def push (s : St) (q : Sqe) : St := { s with hist := s.hist ++ [q] }

/-- what is in an entry that is taken and not prepared -/
def stale (s : St) : Sqe := if s.hist.length < s.cap then .zero else (s.hist[s.hist.length - s.cap]?).getD .zero

def setSlot (s : St) (k : Key) (sl : Slot) : St := { s with slots := upd s.slots k sl }

/-- the user's callback -/
def answer (s : St) (id : Nat) (v : Int) : St := { s with ans := s.ans ++ [(id, v)] }

/-- the user's callback, called by the process without a kernel result -/
def answerOwn (s : St) (id : Nat) (v : Int) : St := { s with ans := s.ans ++ [(id, v)], own := s.own ++ [(id, v)] }

/-- `iouring_selector_read`, 211-252, and `iouring_selector_write`, 253-299; `buf` tells whether a buffer is given -/
def rw (dbg : Bool) (s : St) (k : Key) (buf : Bool) (id : Nat) (sub : Option Nat) : Option St :=
  let sl := s.slots k
  -- kassert, 215 (in the read function only)
  if dbg && sl.flag && k.2 == .r then none
  else if s.usepoll k.1 then
    let s := setSlot s k { sl with st := k.1, cb := .user id, nullb := false }
    if sl.ready then some (setSlot s k { s.slots k with flag := true })
    else
      let (s, ok) := getSeq s sub
      if !ok then some (answerOwn s id (-1))
      else some (push (setSlot s k { s.slots k with flag := true }) (.op k ⟨id, .poll⟩))
  else
    -- the read function stores the buffer before it asks for an entry (220), the write function after (279-284)
    let s := setSlot s k { sl with st := k.1, cb := .user id, nullb := if k.2 == .r then false else sl.nullb }
    let (s, ok) := getSeq s sub
    if !ok then some (answerOwn s id (-1))
    else
      let s := setSlot s k { s.slots k with flag := true, nullb := !buf }
      some (push s (.op k ⟨id, if buf then .data else .poll⟩))

/-- `iouring_selector_aio_read`, 319-337, `iouring_selector_aio_write`, 300-318, `iouring_selector_connect`, 338-358,
`iouring_selector_accept`, 165-195; a refused request returns false and is not counted -/
def plain (dbg : Bool) (s : St) (k : Key) (sub : Option Nat) : Option St :=
  let (s, ok) := getSeq s sub
  if !ok then some s
  else if dbg && (s.slots k).flag then none
  else
    let s := setSlot s k { s.slots k with st := k.1, cb := .user s.next, nullb := false, flag := true }
    some { push s (.op k ⟨s.next, .data⟩) with next := s.next + 1 }

/-- `iouring_selector_sendfile`, 471-518, on a socket without STF_USEPOLL; `pipe` tells whether `pipe2` succeeds -/
def sendfile (s : St) (c f : Nat) (pipe : Bool) (sub1 sub2 : Option Nat) : Option St :=
  let id := s.next
  let s := { s with next := s.next + 1 }
  let (s, ok) := getSeq s sub1
  if !ok then some (answerOwn s id (-1))
  else if !pipe then some (answerOwn (push s (stale s)) id (-1))
  else
    -- 482-498
    let s := { s with sfs := upd s.sfs id (some { st := c, file := f }), pipes := upd s.pipes id (true, true) }
    let s := setSlot s (f, .w) { s.slots (f, .w) with cb := .user id, st := c }
    let s := setSlot s (f, .r) { s.slots (f, .r) with cb := .sfFile id, st := f, flag := true }
    let s := push s (.op (f, .r) ⟨id, .sfFile⟩)
    let (s, ok) := getSeq s sub2
    if !ok then
      -- 501-504
      some (answerOwn { s with sfs := upd s.sfs id (some { st := c, file := f, skip := true }) } id (-1))
    else
      -- 505-511
      let s := { s with sfs := upd s.sfs id (some { st := c, file := f, refs := 2 }) }
      let b := (s.slots (c, .w)).nullb
      let s := setSlot s (c, .w) { s.slots (c, .w) with cb := .sfSock id, st := c, flag := true }
      some (push s (.op (c, .w) ⟨id, .sfSock b⟩))

/-- `close(sf->pipe[0])`; closing a closed descriptor is undefined behaviour (another thread may have got the number) -/
def close0 (s : St) (id : Nat) : Option St :=
  if (s.pipes id).1 then some { s with pipes := upd s.pipes id (false, (s.pipes id).2) } else none

/-- `close(sf->pipe[1])` -/
def close1 (s : St) (id : Nat) : Option St :=
  if (s.pipes id).2 then some { s with pipes := upd s.pipes id ((s.pipes id).1, false) } else none

/-- 40-43: the callback of the caller, kept in the write event of the file -/
def sfCall (s : St) (sf : Sf) : Option St :=
  if sf.skip then some s
  else
    match (s.slots (sf.file, .w)).cb with
    | .user i => some (answer s i sf.got)
    | _ => none

/-- `iouring_sendfile_result`, 32-52; the user's callback is called before the pipe is closed -/
def sfResult (s : St) (id : Nat) (got : Int) (final : Bool) : Option St :=
  match s.sfs id with
  | none => none
  | some sf =>
    let sf := { sf with got := if final then got else sf.got, refs := sf.refs - 1 }
    if sf.refs > 0 then some { s with sfs := upd s.sfs id (some sf) }
    else
      let s := sfCall { s with sfs := upd s.sfs id none } sf
      let s := if sf.p0 then s.bind (close0 · id) else s
      if sf.p1 then s.bind (close1 · id) else s

/-- call `e->result` -/
def callback (s : St) (cb : Cb) (got : Int) : Option St :=
  match cb with
  | .none => none
  | .user id => some (answer s id got)
  -- `iouring_sendfile_file_result`, 59-64
  | .sfFile id =>
    match s.sfs id with
    | none => none
    | some sf =>
      match close1 s id with
      | none => none
      | some s => sfResult { s with sfs := upd s.sfs id (some { sf with p1 := false }) } id got false
  -- `iouring_sendfile_selectable_result`, 53-58
  | .sfSock id =>
    match s.sfs id with
    | none => none
    | some sf =>
      match close0 s id with
      | none => none
      | some s => sfResult { s with sfs := upd s.sfs id (some { sf with p0 := false }) } id got true

/-- `handle_complete_event`, 365-415 -/
def complete (dbg : Bool) (s : St) (k : Key) (got : Int) : Option St :=
  let e := s.slots k
  let got := if got > 0 && e.nullb then 0 else got
  if e.st = k.1 then
    if dbg && !e.flag then none
    else if s.usepoll k.1 then some (setSlot s k { e with ready := true })
    else if dbg && e.ready then none
    else callback (setSlot s k { e with flag := false }) e.cb got
  else if dbg then none
  else callback s e.cb got

inductive Op where
  /-- `read` or `write` -/
  | rw (k : Key) (buf : Bool) (sub : Option Nat)
  | plain (k : Key) (sub : Option Nat)
  | sendfile (c f : Nat) (pipe : Bool) (sub1 sub2 : Option Nat)
  /-- `io_uring_submit_and_wait`, 443: the kernel takes `n` entries -/
  | submit (n : Nat)
  /-- `iouring_add_timeout`, 359-364 -/
  | timeout (sub : Option Nat)
  /-- the kernel completes the `i`th entry it has -/
  | kernel (i : Nat) (v : Int)
  /-- `iouring_handle_cq`, 416-434: the next completion -/
  | handle
  /-- STF_USEPOLL: the ready list makes the transfer (`selectable_read_event`/`selectable_write_event`); `some v` is its result,
  `keep` tells that the readiness is kept; `none` is EAGAIN: the request is made again -/
  | fire (k : Key) (v : Option Int) (keep : Bool) (sub : Option Nat)
  deriving Repr, DecidableEq

def step (dbg : Bool) (s : St) : Op → Option St
  | .rw k buf sub => rw dbg { s with next := s.next + 1 } k buf s.next sub
  | .plain k sub => plain dbg s k sub
  | .sendfile c f pipe sub1 sub2 => sendfile s c f pipe sub1 sub2
  | .submit n => some (submit s n)
  | .timeout sub =>
    let (s, ok) := getSeq s sub
    if !ok then none else some (push s .timeout)
  | .kernel i v =>
    match s.inflight[i]? with
    | none => some s
    | some q => some { s with inflight := s.inflight.eraseIdx i, cq := s.cq ++ [(q, v)] }
  | .handle =>
    match s.cq with
    | [] => some s
    | (q, v) :: cq =>
      let s := { s with cq := cq }
      match q with
      | .zero => none
      | .timeout => some s
      | .op k tag => complete dbg { s with done := s.done ++ [(tag, v)] } k v
  | .fire k v keep sub =>
    let sl := s.slots k
    match sl.cb with
    | .user id =>
      match v with
      | some v => some (answerOwn (setSlot s k { sl with flag := false, ready := keep }) id v)
      | none => rw dbg (setSlot s k { sl with flag := false, ready := false }) k true id sub
    | _ => none

/-- what the caller, the kernel and the selector do: one request at a time per direction of a socket; one request at a time per file;
the ready list serves what is ready.  `pipe2` succeeds and the ring has room for the timeout (see the findings for what
happens otherwise). -/
def Allowed (s : St) : Op → Prop
  | .rw k _ _ => (s.slots k).flag = false ∧ ∀ i sf, s.sfs i = some sf → sf.file ≠ k.1
  | .plain k _ => s.usepoll k.1 = false ∧ (s.slots k).flag = false ∧ ∀ i sf, s.sfs i = some sf → sf.file ≠ k.1
  | .sendfile c f pipe _ _ => pipe = true ∧ c ≠ f ∧ s.usepoll c = false ∧ s.usepoll f = false ∧
      (s.slots (c, .w)).flag = false ∧ (s.slots (f, .r)).flag = false ∧ (s.slots (f, .w)).flag = false ∧
      ∀ i sf, s.sfs i = some sf → sf.file ≠ c ∧ sf.file ≠ f
  | .timeout sub => (getSeq s sub).2 = true
  | .fire k _ _ _ => s.usepoll k.1 = true ∧ (s.slots k).flag = true ∧ (s.slots k).ready = true
  | _ => True

/-- states after some allowed history of a ring with `cap` entries -/
inductive Reachable (dbg : Bool) (cap : Nat) (up : Nat → Bool) : St → Prop
  | refl : Reachable dbg cap up { cap := cap, usepoll := up }
  | tail {s s' : St} (o : Op) : Reachable dbg cap up s → Allowed s o → step dbg s o = some s' → Reachable dbg cap up s'

end Kasync.Uring
