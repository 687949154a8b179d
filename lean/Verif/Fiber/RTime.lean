import Verif.Common

/-!
# Model of fiber reads with a time limit (include/kfiber.h:240-267, src/kselector.c:160-197, src/kselectable.c:408-475)

A connection with STF_RTIME_OUT, read by one fiber.  When the limit passes, the pending read's callback is called with ST_ERR_TIME_OUT while STF_READ
stays set: the fiber's `kfiber_net_read` returns, the read goes on.  The next `kfiber_net_read` finds STF_READ and only waits.

What `e[OP_READ].buffer` points to is a local variable of the call that started the read (`iovec_buf`, include/kfiber.h:243): the model has the
fiber's stack as a memory of such variables, by address.  A variable is alive while its call has not returned; afterwards other functions of the fiber
may overwrite it at any time (`clobber`).

Simplified: bytes are a stream of the peer, the poller reports readiness at any time (that it does report it is C36), plain socket without TLS,
release build (with assertions on, waking a fiber that waits for something else aborts).
-/

namespace Kasync.RTime

/-- `iovec_buf` and the vector it points to: the number of the call whose buffer it describes, and the buffer's size. -/
structure Iov where
  call : Nat
  len : Nat
  deriving Repr, DecidableEq

/-- What the fiber does: it runs, it is suspended in `kfiber_net_read`, it is suspended in another wait. -/
inductive Fib where
  | run | read | other
  deriving Repr, DecidableEq

/-- What a wait is woken with: ST_ERR_TIME_OUT, bytes written to the buffer of a call, end of stream (0). -/
inductive Val where
  | timeout
  | got (into : Nat) (bytes : List UInt8)
  | eof
  deriving Repr, DecidableEq

structure St where
  -- the peer's bytes not read yet, and whether it has closed
  inq : List UInt8 := []
  fin : Bool := false
  /-- STF_READ -/
  read : Bool := false
  /-- STF_RREADY -/
  rready : Bool := false
  /-- `e[OP_READ].buffer`: an address in the fiber's stack -/
  buf : Nat := 0
  /-- the stack; `none`: something else is there -/
  mem : Nat → Option Iov := fun _ => none
  fiber : Fib := .run
  /-- number and buffer size of the current call of `kfiber_net_read` -/
  cur : Nat := 0
  curLen : Nat := 0
  -- ghosts: calls made, their results, results that woke another wait, all the bytes the peer has sent
  calls : Nat := 0
  rets : List (Nat × Nat × Val) := []
  stray : List Val := []
  sent : List UInt8 := []

/-- `kfiber_result_callback` (src/kfiber.c:204-208) and `kfiber_wakeup` (include/kfiber.h:50-83) of the fiber: whatever it waits for returns. -/
def wakeup (s : St) (v : Val) : St :=
  match s.fiber with
  | .read => { s with fiber := .run, rets := s.rets ++ [(s.cur, s.curLen, v)] }
  | .other => { s with fiber := .run, stray := s.stray ++ [v] }
  | .run => { s with stray := s.stray ++ [v] }

/-- `selectable_read_event` (src/kselectable.c:459-475) and `selectable_event_read` (408-458): the vector is read through `e[OP_READ].buffer`.  After EAGAIN
the same request waits again.  `ub`: the vector is not there any more. -/
def readEvent (s : St) : Res St :=
  match s.mem s.buf with
  | none => .ub
  | some v =>
    if s.inq = [] then
      if s.fin then .ok (wakeup { s with read := false } .eof)
      else .ok { s with rready := false }
    else .ok (wakeup { s with read := false, inq := s.inq.drop v.len } (.got v.call (s.inq.take v.len)))

/-- `kfiber_net_readv`, include/kfiber.h:240-260, with a buffer of `len` bytes; its local variables are at address `addr`.  If a read is pending it waits
(249-257); otherwise the read is started (259), and served at once if the socket is known to be ready (`kselectable_is_read_ready`,
include/kselectable.h:109-116).  A vector of length 0 is not asked for. -/
def call (s : St) (addr len : Nat) : Res St :=
  if s.fiber = .run ∧ 0 < len then
    let s := { s with
      mem := fun a => if a = addr then some ⟨s.calls, len⟩ else s.mem a
      cur := s.calls
      curLen := len
      calls := s.calls + 1
      fiber := .read }
    if s.read then .ok s
    else
      let s := { s with read := true, buf := addr }
      if s.rready then readEvent s else .ok s
  else .disabled

inductive Step where
  /-- the peer sends -/
  | recv (bs : List UInt8)
  /-- the peer closes -/
  | hangup
  | call (addr len : Nat)
  /-- the selector serves the connection (it is ready or the poller said so); the fiber is suspended -/
  | serve
  /-- the limit of the pending read passes: src/kselector.c:188-195 -/
  | timeout
  /-- the fiber, not in `kfiber_net_read`, overwrites a variable of its stack -/
  | clobber (addr : Nat)
  /-- the fiber waits for something else (sleeps, reads another connection, …), and is woken -/
  | waitOther
  | wakeOther
  deriving Repr, DecidableEq

def step (s : St) : Step → Res St
  | .recv bs => if s.fin then .disabled else .ok { s with inq := s.inq ++ bs, sent := s.sent ++ bs }
  | .hangup => .ok { s with fin := true }
  | .call addr len => call s addr len
  | .serve => if s.read ∧ s.fiber ≠ .run then readEvent { s with rready := true } else .disabled
  | .timeout => if s.read ∧ s.fiber ≠ .run then .ok (wakeup s .timeout) else .disabled
  | .clobber a => if s.fiber = .run then .ok { s with mem := fun x => if x = a then none else s.mem x } else .disabled
  | .waitOther => if s.fiber = .run then .ok { s with fiber := .other } else .disabled
  | .wakeOther => if s.fiber = .other then .ok { s with fiber := .run } else .disabled

end Kasync.RTime
