import Verif.Common

/-!
# Model of the thread pool, src/kthread.c

Every critical section under `thread_lock` is one atomic step; the rest of a pool thread's life is split at the points other
threads can observe.  A `kthread_info` is an entry of `thr`, `free_threads` is the list `free` of their numbers (head first).
`klist` itself is verified in `Verif.KList`.  The wake-up signal of a thread is the flag `sig` (a standard signal is not queued twice).
Signals sent by other code to pool threads are not modelled.  Tasks are numbered in submission order; `began`/`ended` are ghost logs
of the calls of and returns from the task functions.
-/

namespace Kasync.ThrPool

/-- `kthread_command`, src/kthread.c:27-31 -/
inductive Cmd where
  | null | start | «end»
  deriving Repr, DecidableEq

/-- Where a thread is: not created, before its first task, in a task, behind a task, in `kthread_wait`, ended and freed. -/
inductive Pc where
  | absent | boot | running | finished | waiting | gone
  deriving Repr, DecidableEq

/-- `struct kthread_info_s`, src/kthread.c:36-48 (`run_count` is never read and left out) -/
structure Th where
  pc : Pc := .absent
  cmd : Cmd := .null
  /-- `work` and `param` -/
  task : Nat := 0
  endTime : Int := 0
  sig : Bool := false
  deriving Repr, DecidableEq

structure St where
  thr : Nat → Th := fun _ => {}
  /-- number of threads created so far -/
  nthr : Nat := 0
  /-- `free_threads` -/
  free : List Nat := []
  /-- `free_thread_count` -/
  freeCount : Int := 0
  /-- `work_thread_count` -/
  workCount : Int := 0
  ntask : Nat := 0
  began : List Nat := []
  ended : List Nat := []
  /-- starts that reported failure -/
  refused : Nat := 0

def upd (f : Nat → Th) (i : Nat) (x : Th) : Nat → Th := fun j => if j = i then x else f j

/-- `max_sleep_time`, src/kthread.c:25 -/
def maxSleep : Int := 60

/-- `kthread_notice`, src/kthread.c:72-81: a thread that runs a task does not block the signal and its handler ignores it; otherwise the
signal stays pending.  Signalling an ended thread is undefined. -/
def notice (s : St) (t : Nat) : Res St :=
  match (s.thr t).pc with
  | .absent | .gone => .ub
  | .boot | .running => .ok s
  | .finished | .waiting => .ok { s with thr := upd s.thr t { s.thr t with sig := true } }

inductive Op where
  /-- `kthread_pool_start`; `canCreate`: memory and a thread are available if they are needed -/
  | start (canCreate : Bool)
  /-- a new thread enters its first task -/
  | boot (t : Nat)
  /-- the task of a thread returns at time `now` -/
  | ret (t : Nat) (now : Int)
  /-- a thread puts itself on the free list -/
  | park (t : Nat)
  /-- a thread leaves `kthread_wait` -/
  | wake (t : Nat)
  /-- `kthread_flush` at time `now` -/
  | flush (minFree now : Int)
  /-- `kthread_close_all_free` -/
  | closeAll
  deriving Repr, DecidableEq

/-- `kthread_pool_start`, src/kthread.c:167-201 -/
def poolStart (s : St) (canCreate : Bool) : Res St :=
  match s.free.getLast? with
  | none =>
    if canCreate then
      .ok { s with thr := upd s.thr s.nthr { pc := .boot, task := s.ntask }, nthr := s.nthr + 1, ntask := s.ntask + 1,
                   workCount := s.workCount + 1 }
    else .ok { s with refused := s.refused + 1 }
  | some t =>
    if (s.thr t).pc = .gone then .ub else
    let s1 := { s with thr := upd s.thr t { s.thr t with cmd := .start, task := s.ntask },
                       freeCount := s.freeCount - 1, free := s.free.erase t, ntask := s.ntask + 1, workCount := s.workCount + 1 }
    notice s1 t

/-- the loop of `kthread_flush`, src/kthread.c:120-137; running out of fuel stands for not terminating -/
def flushLoop (minFree now : Int) : Nat → St → Res St
  | 0, _ => .ub
  | fuel + 1, s =>
    if s.freeCount ≤ minFree then .ok s else
    match s.free with
    | [] => if s.freeCount > 0 then .ok s else .ub
    | t :: r =>
      if (s.thr t).pc = .gone then .ub else
      if now - (s.thr t).endTime ≤ maxSleep then .ok s else
      match notice { s with free := r, freeCount := s.freeCount - 1, thr := upd s.thr t { s.thr t with cmd := .end } } t with
      | .ok s' => flushLoop minFree now fuel s'
      | .disabled => .disabled
      | .ub => .ub

/-- `kthread_close_all_free`, src/kthread.c:202-218 -/
def closeLoop : Nat → St → Res St
  | 0, _ => .ub
  | fuel + 1, s =>
    match s.free with
    | [] => if s.freeCount = 0 then .ok s else .ub
    | t :: r =>
      if (s.thr t).pc = .gone then .ub else
      match notice { s with free := r, thr := upd s.thr t { s.thr t with cmd := .end } } t with
      | .ok s' => closeLoop fuel { s' with freeCount := s'.freeCount - 1 }
      | .disabled => .disabled
      | .ub => .ub

/-- One atomic step. -/
def step (s : St) : Op → Res St
  | .start c => poolStart s c
  | .boot t =>                     -- src/kthread.c:82-86
    if (s.thr t).pc = .boot then
      .ok { s with thr := upd s.thr t { s.thr t with pc := .running }, began := s.began ++ [(s.thr t).task] }
    else .disabled
  | .ret t now =>                  -- src/kthread.c:86, 103, 89-94
    if (s.thr t).pc = .running then
      .ok { s with thr := upd s.thr t { s.thr t with pc := .finished, endTime := now }, ended := s.ended ++ [(s.thr t).task] }
    else .disabled
  | .park t =>                     -- src/kthread.c:95-100
    if (s.thr t).pc = .finished then
      .ok { s with thr := upd s.thr t { s.thr t with pc := .waiting, cmd := .null }, workCount := s.workCount - 1,
                   freeCount := s.freeCount + 1, free := s.free ++ [t] }
    else .disabled
  | .wake t =>                     -- src/kthread.c:101-111, 61-71
    if (s.thr t).pc = .waiting ∧ (s.thr t).sig = true then
      match (s.thr t).cmd with
      | .start =>
        .ok { s with thr := upd s.thr t { s.thr t with pc := .running, sig := false }, began := s.began ++ [(s.thr t).task] }
      | .end => .ok { s with thr := upd s.thr t { s.thr t with pc := .gone, sig := false } }
      | .null => .ok { s with thr := upd s.thr t { s.thr t with pc := .gone, sig := false } }
    else .disabled
  | .flush minFree now => flushLoop minFree now (s.free.length + 1) s
  | .closeAll => closeLoop (s.free.length + 1) s

/-- after `kthread_init`, src/kthread.c:147-159 -/
def pinit : St := {}

end Kasync.ThrPool
