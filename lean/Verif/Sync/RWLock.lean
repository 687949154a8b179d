import Verif.Common

/-!
# Model of the fiber read-write lock, include/kfiber_sync.h:26-31 and 138-213

`lock` is the pthread mutex inside the lock; it is identified by the selector thread that owns it.
`kfiber_rwlock_wunlock` (190-207) keeps it locked while it wakes the readers one after the other
(199-205); a reader that lives on the same selector is switched to *immediately*
(include/kfiber.h:87-91, 59-86), i.e. it runs while its own thread owns the pthread mutex.  The model therefore
has separate steps for the loop.  Any entry into the lock by a fiber whose own selector thread owns the mutex
is a self-deadlock of that thread: outcome `ub`.

Ghost (callers' view): `rhold`/`whold` fibers holding in read / write mode, `rgrant`/`wgrant` fibers whose wake-up
was posted to another selector and which have not run yet.
-/

namespace Kasync.RWLock

/-- `struct _kfiber_rwlock`, include/kfiber_sync.h:26-31, plus the progress of `wunlock` and the ghost lists. -/
structure State where
  reader : List Nat := []
  writer : List Nat := []
  cnt : Int := 0
  /-- owner (selector thread) of `mutex->lock` when it is held across steps -/
  owner : Option Nat := none
  /-- readers still to be woken by the running `wunlock` loop -/
  waking : List Nat := []
  rhold : List Nat := []
  whold : List Nat := []
  rgrant : List Nat := []
  wgrant : List Nat := []
  deriving Repr, DecidableEq

inductive Op where
  | rlock (f : Nat)
  | wlock (f : Nat)
  | runlock (f : Nat)
  | wunlock (f : Nat)
  /-- one iteration of the loop at include/kfiber_sync.h:199-205 -/
  | wakeNext
  /-- end of that loop: `kmutex_unlock`, 206 -/
  | wakeDone
  /-- a granted fiber continues after `__kfiber_wait` -/
  | resumeR (f : Nat)
  | resumeW (f : Nat)
  deriving Repr, DecidableEq

/-- The fiber is not involved with the lock. -/
def State.idle (s : State) (f : Nat) : Bool :=
  !((s.reader ++ s.writer ++ s.waking ++ s.rhold ++ s.whold ++ s.rgrant ++ s.wgrant).contains f)

/-- `kmutex_lock(&mutex->lock)` by a fiber running on selector `me`: proceed, block, or self-deadlock. -/
def enter (s : State) (me : Nat) (k : Res State) : Res State :=
  match s.owner with
  | none => k
  | some o => if o = me then .ub else .disabled

/-- hand the lock to a waiting writer: `__kfiber_rwlock_try_wakeup_writer`, include/kfiber_sync.h:167-178 -/
def tryWakeupWriter (s : State) : State :=
  match s.writer with
  | [] => s
  | w :: ws => { s with cnt := -1, writer := ws, wgrant := w :: s.wgrant }

/-- One atomic step; `sel f` is the selector (thread) of fiber `f`. -/
def step (sel : Nat → Nat) (s : State) : Op → Res State
  -- kfiber_rwlock_rlock, 138-152
  | .rlock f =>
    if s.idle f then
      enter s (sel f) <|
        if s.cnt < 0 ∨ s.writer ≠ [] then .ok { s with reader := f :: s.reader }
        else .ok { s with cnt := s.cnt + 1, rhold := f :: s.rhold }
    else .disabled
  -- kfiber_rwlock_wlock, 153-166
  | .wlock f =>
    if s.idle f then
      enter s (sel f) <|
        if s.cnt ≠ 0 then .ok { s with writer := f :: s.writer }
        else .ok { s with cnt := -1, whold := f :: s.whold }
    else .disabled
  -- kfiber_rwlock_runlock, 179-189
  | .runlock f =>
    if f ∈ s.rhold then
      enter s (sel f) <|
        if s.cnt > 0 then
          let s := { s with cnt := s.cnt - 1, rhold := s.rhold.erase f }
          if s.cnt = 0 then .ok (tryWakeupWriter s) else .ok s
        else .ub
    else .disabled
  -- kfiber_rwlock_wunlock, 190-208
  | .wunlock f =>
    if f ∈ s.whold then
      enter s (sel f) <|
        if s.cnt = -1 then
          let s := { s with cnt := 0, whold := s.whold.erase f }
          if s.reader ≠ [] then .ok { s with reader := [], waking := s.reader, owner := some (sel f) }
          else .ok (tryWakeupWriter s)
        else .ub
    else .disabled
  | .wakeNext =>
    match s.owner, s.waking with
    | some o, w :: ws =>
      let s := { s with cnt := s.cnt + 1, waking := ws }
      -- same selector: kfiber_wakeup switches to the reader now; otherwise the wake-up is posted
      if sel w = o then .ok { s with rhold := w :: s.rhold } else .ok { s with rgrant := w :: s.rgrant }
    | _, _ => .disabled
  | .wakeDone =>
    match s.owner, s.waking with
    | some _, [] => .ok { s with owner := none }
    | _, _ => .disabled
  | .resumeR f =>
    if f ∈ s.rgrant then .ok { s with rgrant := s.rgrant.erase f, rhold := f :: s.rhold } else .disabled
  | .resumeW f =>
    if f ∈ s.wgrant then .ok { s with wgrant := s.wgrant.erase f, whold := f :: s.whold } else .disabled

/-- `kfiber_rwlock_init`, include/kfiber_sync.h:132-136 -/
def init : State := {}

end Kasync.RWLock
