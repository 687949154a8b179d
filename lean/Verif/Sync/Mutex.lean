import Verif.Common

/-!
# Model of the fiber mutex, include/kfiber_sync.h:18-24 and 40-123, src/kfiber_sync.c:11-24

Each operation below is the region between `kmutex_lock(&mutex->lock)` and `kmutex_unlock`, hence one
atomic step (trusted: the pthread mutex).  A fiber that was taken off the waiter list is `granted`; it
becomes a holder when its selector resumes it (`resume`; `kfiber_wakeup_waiter`, include/kfiber.h:144-160,
either switches at once or posts to the fiber's selector — both are the step `resume`, taken at once or
later).

`holding` and `granted` are the callers' view (ghost): fibers whose `lock` has returned and that have not yet
called `unlock`; and fibers whose wake-up was issued but that have not run yet.
-/

namespace Kasync.Mutex

/-- `struct _kfiber_mutex`, include/kfiber_sync.h:18-24, plus the callers' view. -/
structure State where
  waiter : List Nat          -- mutex->waiter, head first
  count : Int
  worker : Int
  limit : Int
  holding : List Nat := []   -- ghost
  granted : List Nat := []   -- ghost
  deriving Repr, DecidableEq

/-- `kfiber_mutex_init2(num)`, include/kfiber_sync.h:57-62; `kfiber_mutex_init` is `num = 1`. -/
def init (num : Int) : State := { waiter := [], count := 0, worker := 0, limit := num }

/-- Requests to the mutex. -/
inductive Op where
  /-- kfiber_mutex_lock (`max = 0`), kfiber_mutex_try_lock -/
  | lock (f : Nat) (max : Int)
  | unlock (f : Nat)
  /-- a granted fiber continues after `__kfiber_wait` -/
  | resume (f : Nat)
  | setLimit (n : Int)
  /-- kfiber_mutex_lock2: callback flavour -/
  | lock2 (f : Nat)
  deriving Repr, DecidableEq

/-- The fiber is in none of the lists: it may start a lock call. -/
def State.idle (s : State) (f : Nat) : Bool := !(s.waiter.contains f || s.granted.contains f || s.holding.contains f)

/-- Result of the locked region of `__kfiber_mutex_lock`. -/
inductive LockResult where
  | refused | acquired | waits
  deriving Repr, DecidableEq

/-- `__kfiber_mutex_lock`, include/kfiber_sync.h:40-56; `kfiber_add_waiter` (include/kfiber.h:169-173) pushes
at the head. -/
def lock (s : State) (f : Nat) (max : Int) : State × LockResult :=
  if max > 0 ∧ s.count ≥ max then (s, .refused)
  else
    let s := { s with count := s.count + 1 }
    if s.worker < s.limit then
      ({ s with worker := s.worker + 1, holding := f :: s.holding }, .acquired)
    else
      ({ s with waiter := f :: s.waiter }, .waits)

/-- `kfiber_mutex_unlock`, include/kfiber_sync.h:108-123. `none`: an assertion fails. -/
def unlock (s : State) (f : Nat) : Option State :=
  if s.count > 0 then
    let s := { s with count := s.count - 1, holding := s.holding.erase f }
    match s.waiter with
    | [] => if s.worker > 0 then some { s with worker := s.worker - 1 } else none
    | w :: ws => some { s with waiter := ws, granted := w :: s.granted }
  else none

/-- `kfiber_mutex_lock2`, src/kfiber_sync.c:11-24: note that `count` is not incremented. The callback of an
immediate success is posted with `next`, so it is granted first. -/
def lock2 (s : State) (f : Nat) : State :=
  if s.worker < s.limit then { s with worker := s.worker + 1, granted := f :: s.granted }
  else { s with waiter := f :: s.waiter }

/-- `kfiber_mutex_set_limit`, include/kfiber_sync.h:73-80 -/
def setLimit (s : State) (n : Int) : State := { s with limit := if n < 1 then 1 else n }

/-- One atomic step. Calling discipline: a fiber calls `lock` only when idle and `unlock` only as holder. -/
def step (s : State) : Op → Res State
  | .lock f max => if s.idle f then .ok (lock s f max).1 else .disabled
  | .unlock f =>
    if f ∈ s.holding then
      match unlock s f with
      | some s' => .ok s'
      | none => .ub
    else .disabled
  | .resume f =>
    if f ∈ s.granted then .ok { s with granted := s.granted.erase f, holding := f :: s.holding } else .disabled
  | .setLimit n => .ok (setLimit s n)
  | .lock2 f => if s.idle f then .ok (lock2 s f) else .disabled

/-- The operations of a program that never uses the callback flavour `lock2`. -/
def stepNoCb (s : State) : Op → Res State
  | .lock2 _ => .disabled
  | o => step s o

/-- The operations of a program that may use the callback flavour but never changes the limit. -/
def stepCb (s : State) : Op → Res State
  | .setLimit _ => .disabled
  | o => step s o

/-- The operations of a program that uses neither `lock2` nor changes the limit. -/
def stepFixed (s : State) : Op → Res State
  | .lock2 _ => .disabled
  | .setLimit _ => .disabled
  | o => step s o

end Kasync.Mutex
