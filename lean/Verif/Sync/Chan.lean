import Verif.Common

/-!
# Model of kfiber_chan, src/kfiber_sync.c:377-506, include/kfiber_internal.h:113-118

An unbuffered channel used by fibers of one selector.  A waiting fiber cannot call; a wake-up
(`kfiber_chan_wakeup` 378-380 → `kfiber_wakeup`, include/kfiber.h:57-86) on the same selector switches to the
woken fiber at once, which first reads its `wait_obj` (434, 447), so wake-up and read are one step.
`kfiber_chan_close` wakes its waiters one after the other and the woken fibers run in between, so the loop
(484-490) is modelled by separate `closeStep` steps.

Each value is tagged by the number of the send call that brought it and by its caller (specification only: the
code never looks at the opaque pointer).  The reference count of the channel (493-506) is not modelled here.
-/

namespace Kasync.Chan

/-- `KFIBER_CHAN_NO_WAITER`, `KFIBER_CHAN_SEND_WAITER`, `KFIBER_CHAN_RECV_WAITER`, src/kfiber_sync.c:6-8 -/
inductive Flag where
  | noWaiter
  | sendWaiter
  | recvWaiter
  deriving Repr, DecidableEq

/-- An opaque value, with ghost tags: number of the send call and calling fiber. -/
structure Msg where
  id : Nat
  sender : Nat
  data : Nat
  deriving Repr, DecidableEq

/-- `struct _kfiber_chan` plus the `wait_obj` of the fibers (include/kfiber_internal.h:69-76) and ghost logs. -/
structure State where
  flag : Flag := .noWaiter
  closed : Bool := false
  /-- the `waiter` list, head first; each entry is a fiber and its `wait_obj` (`none` = NULL) -/
  waiter : List (Nat × Option Msg) := []
  /-- local variable `waiter` of a running `kfiber_chan_close` -/
  closing : List (Nat × Option Msg) := []
  /-- the fiber running `kfiber_chan_close` -/
  closer : Nat := 0
  /-- senders taken by `kfiber_chan_recv` with a non-NULL `sender` argument and not yet woken (461-462) -/
  held : List (Nat × Msg) := []
  /-- ghost: number of send calls so far that found the channel open -/
  nsend : Nat := 0
  /-- ghost: (receiver, value) of every successful recv, latest first -/
  recvd : List (Nat × Msg) := []
  /-- ghost: sends that returned, with the value sent and the return value, latest first -/
  sendRet : List (Msg × Int) := []
  /-- ghost: sends released by close (they returned -1), latest first -/
  sendClosed : List Msg := []
  /-- ghost: receivers released by close, latest first -/
  recvClosed : List Nat := []
  /-- ghost: calls refused at once with -1 because the channel is closed (calling fiber), latest first -/
  refused : List Nat := []
  deriving Repr, DecidableEq

inductive Op where
  /-- `kfiber_chan_send(ch, data)` by fiber `f` -/
  | send (f : Nat) (data : Nat)
  /-- `kfiber_chan_recv(ch, &data, hold ? &sender : NULL)` by fiber `f` -/
  | recv (f : Nat) (hold : Bool)
  /-- `kfiber_chan_wakeup(ch, sender, got)` for a held sender -/
  | wakeup (f : Nat) (got : Int)
  /-- `kfiber_chan_close(ch)` by fiber `c` -/
  | close (c : Nat)
  /-- next iteration of the loop of `kfiber_chan_close` -/
  | closeStep
  deriving Repr, DecidableEq

/-- the fiber is suspended in a channel operation -/
def blocked (s : State) (f : Nat) : Prop :=
  f ∈ s.waiter.map (·.1) ∨ f ∈ s.closing.map (·.1) ∨ f ∈ s.held.map (·.1)

instance (s : State) (f : Nat) : Decidable (blocked s f) := by unfold blocked; infer_instance

/-- src/kfiber_sync.c:386-420. `sel` gives the selector of each fiber (assertions 401, 406). -/
def send (sel : Nat → Nat) (s : State) (f data : Nat) : Res State :=
  if s.closed then .ok { s with refused := f :: s.refused }          -- 390-392, returns -1
  else
    let m : Msg := ⟨s.nsend, f, data⟩
    let s := { s with nsend := s.nsend + 1 }
    match s.flag, s.waiter with
    | .noWaiter, [] => .ok { s with flag := .sendWaiter, waiter := [(f, some m)] }             -- 394-398
    | .noWaiter, _ :: _ => .ub                                                                 -- 396 assert
    | .sendWaiter, [] => .ub                                                                   -- 400 assert
    | .sendWaiter, w :: ws =>
      if sel w.1 = sel f then .ok { s with waiter := (f, some m) :: w :: ws } else .ub         -- 401-403
    | .recvWaiter, [] => .ub                                                                   -- 405 assert
    | .recvWaiter, w :: ws =>
      if sel w.1 = sel f then                                                                  -- 406-414
        .ok { s with waiter := ws, flag := if ws = [] then .noWaiter else s.flag,
                     recvd := (w.1, m) :: s.recvd, sendRet := (m, 0) :: s.sendRet }
      else .ub

/-- src/kfiber_sync.c:421-473 -/
def recv (sel : Nat → Nat) (s : State) (f : Nat) (hold : Bool) : Res State :=
  match s.flag, s.waiter with
  | .noWaiter, [] =>
    if s.closed then .ok { s with refused := f :: s.refused }                                  -- 428-430, returns -1
    else .ok { s with flag := .recvWaiter, waiter := [(f, none)] }                             -- 431-433
  | .noWaiter, _ :: _ => .ub                                                                   -- 427 assert
  | .recvWaiter, [] => .ub                                                                     -- 440 assert
  | .recvWaiter, w :: ws =>
    if sel w.1 = sel f then
      if s.closed then .ok { s with refused := f :: s.refused }                                -- 441-446
      else .ok { s with waiter := (f, none) :: w :: ws }
    else .ub
  | .sendWaiter, [] => .ub                                                                     -- 453 assert
  | .sendWaiter, (g, some m) :: ws =>
    if sel g = sel f then                                                                      -- 454-467
      let s := { s with waiter := ws, flag := if ws = [] then .noWaiter else s.flag, recvd := (f, m) :: s.recvd }
      if hold then .ok { s with held := (g, m) :: s.held }
      else .ok { s with sendRet := (m, 0) :: s.sendRet }
    else .ub
  | .sendWaiter, (_, none) :: _ => .ub       -- a sender always has a value; shown unreachable

/-- src/kfiber_sync.c:474-483: the channel is closed by fiber `c` and its list taken over by the loop. -/
def close (s : State) (c : Nat) : Res State :=
  if s.closed then
    if s.waiter = [] then .ok s else .ub                                                       -- 475-479
  else .ok { s with closed := true, closer := c, closing := s.waiter, waiter := [], flag := .noWaiter }

/-- one iteration of src/kfiber_sync.c:484-490: assertion on the selectors (485), `wait_obj = NULL`, wake with -1 -/
def closeStep (sel : Nat → Nat) (s : State) : Res State :=
  match s.closing with
  | [] => .disabled
  | (g, some m) :: ws =>
    if sel g = sel s.closer then .ok { s with closing := ws, sendClosed := m :: s.sendClosed } else .ub
  | (g, none) :: ws =>
    if sel g = sel s.closer then .ok { s with closing := ws, recvClosed := g :: s.recvClosed } else .ub

/-- `kfiber_chan_wakeup` on a held sender, src/kfiber_sync.c:378-380 -/
def wakeup (s : State) (f : Nat) (got : Int) : Res State :=
  match s.held.find? (·.1 = f) with
  | none => .disabled
  | some p => .ok { s with held := s.held.erase p, sendRet := (p.2, got) :: s.sendRet }

/-- One step of the system of fibers using one channel. -/
def step (sel : Nat → Nat) (s : State) : Op → Res State
  | .send f d => if blocked s f then .disabled else send sel s f d
  | .recv f h => if blocked s f then .disabled else recv sel s f h
  | .wakeup f g => wakeup s f g
  | .close c => close s c
  | .closeStep => closeStep sel s

/-- `kfiber_chan_create`, src/kfiber_sync.c:381-385 -/
def init : State := {}

end Kasync.Chan
