import Verif.Common

/-!
# Model of kfiber_cond, src/kfiber_sync.c:26-306, include/kfiber_internal.h:99-103

The `_ts` flavours do the same between `kmutex_lock` and `kmutex_unlock` as the plain ones do on one selector
thread, so one atomic step models both; `auto` selects the auto-reset (`_ar`) or manual-reset functions
(kfiber_cond_init / kfiber_cond_init_ts, 345-366).  There is no operation that resets a manual-reset condition.

A waiter is a fiber (kfiber_add_waiter) or a callback (kfiber_add_ev_waiter).  `done` records completed waits with
the value the waiter was given; `notices` the values given to `notice`.
-/

namespace Kasync.Cond

/-- A waiter: fiber id or callback id. -/
inductive Waiter where
  | fiber (f : Nat)
  | cb (c : Nat)
  deriving Repr, DecidableEq

/-- `struct _kfiber_cond`, include/kfiber_internal.h:99-103; `retval f` is `fiber->retval` of fiber `f`. -/
structure State where
  ev : Nat := 0
  waiter : List Waiter := []
  retval : Nat → Int
  /-- ghost: completed waits, latest first -/
  done : List (Waiter × Int) := []
  /-- ghost: values given to notice, latest first -/
  notices : List Int := []
  /-- ghost: all waits that were begun, latest first (a refused try_wait is none) -/
  asked : List Waiter := []

inductive Op where
  | wait (f : Nat)
  | tryWait (f : Nat)
  | waitCallback (c : Nat)
  | notice (got : Int)
  deriving Repr, DecidableEq

/-- hand `got` to a waiter: `kfiber_wakeup_waiter`, include/kfiber.h:144-160 — a fiber gets it through
`fiber->retval` (79), which it returns from the wait, a callback as its argument (155). -/
def wakeup (s : State) (w : Waiter) (got : Int) : State :=
  match w with
  | .fiber f =>
    let s := { s with retval := fun x => if x = f then got else s.retval x }
    { s with done := (w, s.retval f) :: s.done }
  | .cb _ => { s with done := (w, got) :: s.done }

/-- `kfiber_wakeup_all_waiter`, include/kfiber.h:161-167: head first. -/
def wakeupAll (s : State) (got : Int) : List Waiter → State
  | [] => s
  | w :: ws => wakeupAll (wakeup s w got) got ws

/-- kfiber_cond_wait_ar 181-198, kfiber_cond_wait_ts_ar 131-152, kfiber_cond_wait 264-280, kfiber_cond_wait_ts 199-219.
When `ev > 0` the caller is given its own `fiber->retval` (188, 270). -/
def wait (auto : Bool) (s : State) (f : Nat) : State :=
  if s.ev > 0 then
    { s with ev := if auto then s.ev - 1 else s.ev, done := (.fiber f, s.retval f) :: s.done, asked := .fiber f :: s.asked }
  else { s with waiter := .fiber f :: s.waiter, asked := .fiber f :: s.asked }

/-- kfiber_cond_try_wait_ar 169-180, _ts_ar 153-168, kfiber_cond_try_wait 281-291, _ts 221-235. Result: success. -/
def tryWait (auto : Bool) (s : State) (f : Nat) : State × Bool :=
  if s.ev > 0 then
    ({ s with ev := if auto then s.ev - 1 else s.ev, done := (.fiber f, s.retval f) :: s.done, asked := .fiber f :: s.asked }, true)
  else (s, false)

/-- kfiber_cond_wait_callback_ar 37-47, kfiber_cond_wait_callback 48-56, _ts_ar 57-71, _ts 72-84: an immediate
completion is posted with `got = 0`. -/
def waitCallback (auto : Bool) (s : State) (c : Nat) : State :=
  if s.ev > 0 then { s with ev := if auto then s.ev - 1 else s.ev, done := (.cb c, 0) :: s.done, asked := .cb c :: s.asked }
  else { s with waiter := .cb c :: s.waiter, asked := .cb c :: s.asked }

/-- kfiber_cond_notice_ar 100-110, _ts_ar 85-99 (auto); kfiber_cond_notice 123-130, _ts 111-121 (manual). -/
def notice (auto : Bool) (s : State) (got : Int) : State :=
  let s := { s with notices := got :: s.notices }
  if auto then
    match s.waiter with
    | [] => { s with ev := s.ev + 1 }
    | w :: ws => wakeup { s with waiter := ws } w got
  else
    wakeupAll { s with ev := 1, waiter := [] } got s.waiter

/-- One step. A fiber that waits cannot call again. -/
def step (auto : Bool) (s : State) : Op → Res State
  | .wait f => if .fiber f ∈ s.waiter then .disabled else .ok (wait auto s f)
  | .tryWait f => if .fiber f ∈ s.waiter then .disabled else .ok (tryWait auto s f).1
  | .waitCallback c => .ok (waitCallback auto s c)
  | .notice got => .ok (notice auto s got)

/-- `kfiber_cond_init`, src/kfiber_sync.c:345-366 -/
def init (retval : Nat → Int) : State := { retval := retval }

end Kasync.Cond
