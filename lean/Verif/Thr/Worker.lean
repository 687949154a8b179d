import Verif.Common

/-!
# Model of the worker pool, src/kasync_worker.c, include/kasync_worker.h

Each critical section under `worker->lock` is one atomic step.  Worker threads are interchangeable, so the state only counts the
threads at the top of their loop (`idle`) and behind its end (`leaving`), and lists the jobs held by the threads that have taken
one (`got`: `kcond_notice` still to come; `running`: the callback still to end).  The `head`/`last`/`next` links are the list `queue`
(head first).  `accepted`, `taken`, `done`, `refused`, `woken` are ghost records of what callers can observe.
-/

namespace Kasync.Worker

/-- `kasync_worker_param`: `id` stands for `data`/`cb`; `wait`: a caller of `kasync_worker_start` waits for it; `high` records
the priority it was submitted with. -/
structure Job where
  id : Nat
  wait : Bool
  high : Bool
  deriving Repr, DecidableEq

structure St where
  maxWorker : Int
  maxQueue : Int
  queue : List Job := []
  /-- `worker->queue` -/
  nqueue : Int := 0
  /-- `worker->worker` -/
  nworker : Int := 0
  refs : Int := 1
  freed : Bool := false
  /-- references held by the users -/
  owners : Nat := 1
  idle : Nat := 0
  got : List Job := []
  running : List Job := []
  leaving : Nat := 0
  accepted : List Job := []
  taken : List Job := []
  done : List Job := []
  refused : List Nat := []
  woken : List Job := []
  deriving Repr, DecidableEq

inductive Op where
  /-- `kasync_worker_try_start`; `canStart`: a needed thread can be started -/
  | tryStart (id : Nat) (high canStart : Bool)
  /-- `kasync_worker_start` up to its wait -/
  | start (id : Nat) (canStart : Bool)
  /-- a worker thread runs the critical section of its loop -/
  | take
  /-- a worker thread signals the waiting caller, if there is one -/
  | notice (j : Job)
  /-- a worker thread runs the callback and frees the job -/
  | exec (j : Job)
  /-- a worker thread that left the loop drops its reference -/
  | leave
  /-- a user takes / drops a reference -/
  | ref | release
  deriving Repr, DecidableEq

/-- `kasync_worker_add`, src/kasync_worker.c:88-116.  A failed thread start decrements the local pointer (`worker--`) and releases
through it: undefined behaviour. -/
def addJob (s : St) (j : Job) (canStart : Bool) : Res St :=
  let q := if j.high then j :: s.queue else s.queue ++ [j]
  let s1 := { s with queue := q, nqueue := s.nqueue + 1, accepted := s.accepted ++ [j] }
  if s1.nworker ≥ s1.maxWorker then .ok s1
  else if canStart then .ok { s1 with nworker := s1.nworker + 1, refs := s1.refs + 1, idle := s1.idle + 1 }
  else .ub

/-- `kasync_worker_release`, src/kasync_worker.c:20-26 -/
def releaseRef (s : St) : St := { s with refs := s.refs - 1, freed := if s.refs - 1 = 0 then true else s.freed }

/-- One atomic step.  Submitting, `ref` and `release` need a reference of the caller's own. -/
def step (s : St) : Op → Res St
  | .tryStart id high canStart =>      -- src/kasync_worker.c:117-134
    if s.owners = 0 then .disabled else if s.freed then .ub else
    if s.maxQueue > 0 ∧ s.nqueue > s.maxQueue then .ok { s with refused := s.refused ++ [id] }
    else addJob s ⟨id, false, high⟩ canStart
  | .start id canStart =>              -- src/kasync_worker.c:142-162
    if s.owners = 0 then .disabled else if s.freed then .ub else
    addJob s ⟨id, decide (s.maxQueue > 0 ∧ s.nqueue > s.maxQueue), false⟩ canStart
  | .take =>                           -- src/kasync_worker.c:36-48
    if s.idle = 0 then .disabled else if s.freed then .ub else
    match s.queue with
    | [] => .ok { s with nworker := s.nworker - 1, idle := s.idle - 1, leaving := s.leaving + 1 }
    | j :: q => .ok { s with queue := q, nqueue := s.nqueue - 1, idle := s.idle - 1, got := s.got ++ [j], taken := s.taken ++ [j] }
  | .notice j =>                       -- src/kasync_worker.c:56-58
    if j ∈ s.got then
      .ok { s with got := s.got.erase j, running := s.running ++ [j], woken := if j.wait then s.woken ++ [j] else s.woken }
    else .disabled
  | .exec j =>                         -- src/kasync_worker.c:59-60
    if j ∈ s.running then .ok { s with running := s.running.erase j, done := s.done ++ [j], idle := s.idle + 1 } else .disabled
  | .leave =>                          -- src/kasync_worker.c:62
    if s.leaving = 0 then .disabled else if s.freed then .ub else .ok (releaseRef { s with leaving := s.leaving - 1 })
  | .ref => if s.owners = 0 then .disabled else if s.freed then .ub else .ok { s with refs := s.refs + 1, owners := s.owners + 1 }
  | .release => if s.owners = 0 then .disabled else if s.freed then .ub else .ok (releaseRef { s with owners := s.owners - 1 })

end Kasync.Worker
