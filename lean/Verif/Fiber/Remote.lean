import Verif.Common

/-!
# Model of calls executed on another thread: src/kfiber.c:209-217, 231-312, 367-382, 621-645 and src/kfiber_sync.c:112-123, 204-222, 237-250

Three ways to run a function elsewhere and get its result back:

* `kfiber_thread_call`: a fiber runs it on a thread of the pool;
* `kfiber_create2(selector, ...)` and `kfiber_join`: a fiber runs it as a new fiber of the given selector (also behind `kfiber_file_safe_read` and
  `kfiber_file_safe_write_full`, src/kfiber.c:650-693);
* `kfiber_create_sync` and `kfiber_join`: a thread without a selector runs it as a fiber of some selector.

Any number of selectors, fibers, pool threads and plain threads.  A selector thread runs the fibers on its `stack`: the head is running, each other one woke the
one above it, an empty stack is the selector's loop (that waking and waiting follow this discipline is C47).  The thread pool enters each accepted task once (C29),
the selector's inbox delivers each notice once, in any order here (C30).  A region under the lock of the close condition is one step (a joiner that suspends itself right
after that region is put to sleep in the same step: its selector's loop, which would deliver a wake-up, runs only once it sleeps); kcond (include/ksync.h:22-105) is
taken without spurious wake-ups here (`spurious` is the step with one).

Objects given to wait and wake-up (`Obj`) are compared by a debug build only; both builds are covered by `dbg`.  Everything else a fiber does — other waits — is
`suspend` and `resume`, and the latter overwrites `retval` like every wake-up.

Not modelled: stack memory, failing `malloc` (unchecked in the code), `kfiber_ref_self`, `kfiber_join2`, `kfiber_exit_callback` (C23), and a pool thread that ran a
selector before (its thread-local selector would still be set).
-/

namespace Kasync.Remote

/-- who makes a call: a fiber, or a thread without a selector -/
inductive Caller where
  | fib (c : Nat)
  | thr (p : Nat)
  deriving Repr, DecidableEq

/-- where a function runs: a thread of the pool, or selector `t` -/
inductive Place where
  | pool
  | sel (t : Nat)
  deriving Repr, DecidableEq

/-- the object named by a wait and the wake-up that ends it -/
inductive Obj where
  | null
  /-- the argument given to kfiber_thread_call -/
  | arg (a : Nat)
  /-- the address of the local variable `fiber` of the waiting fiber, src/kfiber_sync.c:217 -/
  | self (c : Nat)
  deriving Repr, DecidableEq

/-- what a fiber is doing -/
inductive FSt where
  /-- no such fiber -/
  | none
  /-- created, its start posted -/
  | fresh
  | run
  /-- in kfiber_thread_call, task handed to the pool, not yet suspended (src/kfiber.c:633-640) -/
  | armed
  /-- in kfiber_thread_call, suspended -/
  | waitCall
  /-- in kfiber_join of `g`, suspended -/
  | waitJoin (g : Nat)
  /-- in kfiber_join of `g`, after the condition's wait returned (src/kfiber.c:377) -/
  | joined (g : Nat)
  /-- suspended in something else -/
  | away
  /-- start function returned, `result_fiber_exit` on the ready list -/
  | exiting
  /-- close condition notified, reference not yet dropped -/
  | notified
  /-- reference of the execution dropped -/
  | gone
  deriving Repr, DecidableEq

/-- kinds of close condition: kfiber_cond_init_ts, kfiber_cond_init_sync -/
inductive Flav where
  | ts
  | sync
  deriving Repr, DecidableEq

/-- `struct _kfiber` (include/kfiber_internal.h:120-158) with its close condition (98-102) -/
structure Fib where
  st : FSt := .none
  sel : Nat := 0
  start : Nat := 0
  arg : Nat := 0
  retval : Int := 0
  code : Obj := .null
  ref : Nat := 0
  cond : Option Flav := .none
  ev : Bool := false
  /-- `close_cond->waiter`, or the thread inside kcond_wait -/
  waiter : List Caller := []
  freed : Bool := false
  /-- holder of the handle and whether it is joining (the caller's discipline: joined once, by the creator) -/
  owner : Option (Caller × Bool) := .none
  /-- ghost: number of the call this fiber executes -/
  own : Option Nat := .none
  /-- ghost: number of the kfiber_thread_call it is making -/
  call : Nat := 0
  deriving Repr, DecidableEq

/-- a posted wake-up: `kgl_selector_module.next(sel, obj, kfiber_result_callback, fib, val)`, src/kfiber.c:216 -/
structure Msg where
  sel : Nat
  fib : Nat
  obj : Obj
  val : Int
  deriving Repr, DecidableEq

/-- a plain thread: not calling, inside kcond_wait of the condition of `g`, or past it -/
inductive TSt where
  | idle
  | waiting (g : Nat)
  | woken (g : Nat)
  deriving Repr, DecidableEq

/-- what can be seen from outside of call number `k` -/
inductive Ev where
  /-- the API was called with function, argument and number -/
  | called (k : Nat) (who : Caller) (at_ : Place) (fn arg : Nat) (n : Int)
  /-- it answered -1 -/
  | refused (k : Nat)
  /-- the function was entered -/
  | entered (k : Nat) (at_ : Place) (fn arg : Nat) (n : Int)
  /-- the function returned `v` -/
  | left (k : Nat) (v : Int)
  /-- kfiber_thread_call or kfiber_join returned with the result `v` -/
  | returned (k : Nat) (v : Int)
  deriving Repr, DecidableEq

structure St where
  fib : Nat → Fib := fun _ => {}
  stack : Nat → List Nat := fun _ => []
  inbox : List Msg := []
  /-- tasks accepted by the pool: the fiber is the parameter -/
  jobs : List Nat := []
  /-- pool threads inside `_kfiber_worker_thread` of the fiber, with ghost call number -/
  workers : List (Nat × Nat) := []
  ready : Nat → List Nat := fun _ => []
  /-- the selector's loop is in `result_fiber_exit` of this fiber, past the notice -/
  reaping : Nat → Option Nat := fun _ => none
  thr : Nat → TSt := fun _ => .idle
  /-- ghost: number of the next call -/
  next : Nat := 0
  /-- ghost: what happened, in order -/
  hist : List Ev := []

def init : St := {}

def St.upd (s : St) (i : Nat) (f : Fib → Fib) : St := { s with fib := fun j => if j = i then f (s.fib j) else s.fib j }
def St.setStack (s : St) (x : Nat) (l : List Nat) : St := { s with stack := fun y => if y = x then l else s.stack y }
def St.push (s : St) (x c : Nat) : St := s.setStack x (c :: s.stack x)
def St.log (s : St) (e : List Ev) : St := { s with hist := s.hist ++ e }

/-- `kfiber_release` and `kfiber_destroy`, src/kfiber.c:89-96, 134-138 (the condition's release asserts that nobody waits, src/kfiber_sync.c:298-309) -/
def release (s : St) (g : Nat) : Res St :=
  if (s.fib g).freed ∨ (s.fib g).ref = 0 then .ub
  else if (s.fib g).ref = 1 then
    if (s.fib g).waiter = [] then .ok (s.upd g (fun f => { f with ref := 0, freed := true })) else .ub
  else .ok (s.upd g (fun f => { f with ref := f.ref - 1 }))

/-- `fiber_start`, src/kfiber.c:157-172: the new fiber runs its function with the number it was woken with -/
def enterFiber (s : St) (g : Nat) (v : Int) : St :=
  let s := (s.upd g (fun f => { f with st := .run, retval := v })).push (s.fib g).sel g
  match (s.fib g).own with
  | none => s
  | some k => s.log [.entered k (.sel (s.fib g).sel) (s.fib g).start (s.fib g).arg v]

/-- `kfiber_wakeup`, include/kfiber.h:53-86, on selector `x` -/
def wakeup (dbg : Bool) (s : St) (x g : Nat) (obj : Obj) (v : Int) : Res St :=
  if (s.fib g).freed ∨ (s.fib g).sel ≠ x then .ub else
  match (s.fib g).st with
  | .fresh => .ok (enterFiber s g v)
  | .waitCall =>
    if dbg && obj != (s.fib g).code then .ub else
    .ok (((s.upd g (fun f => { f with st := .run, retval := v })).push x g).log [.returned (s.fib g).call v])
  | .waitJoin h =>
    if dbg && obj != (s.fib g).code then .ub else
    .ok ((s.upd g (fun f => { f with st := .joined h, retval := v })).push x g)
  | _ => .ub

/-- `kfiber_wakeup2`, src/kfiber.c:211-217, by a thread whose selector is `here` -/
def wakeup2 (dbg : Bool) (s : St) (here : Option Nat) (x g : Nat) (obj : Obj) (v : Int) : Res St :=
  if here = some x then wakeup dbg s x g obj v
  else .ok { s with inbox := s.inbox ++ [⟨x, g, obj, v⟩] }

/-- `kfiber_wakeup_waiter` (include/kfiber.h:144-160) for a waiting fiber, `pthread_cond_broadcast` (include/ksync.h:96-103) for a waiting thread -/
def wakeAll (dbg : Bool) (s : St) (x : Nat) (v : Int) : List Caller → Res St
  | [] => .ok s
  | .fib c :: ws =>
    match wakeup2 dbg s (some x) (s.fib c).sel c (.self c) v with
    | .ok s' => wakeAll dbg s' x v ws
    | r => r
  | .thr p :: ws =>
    wakeAll dbg { s with thr := fun q => if q = p then (match s.thr q with | .waiting g => .woken g | t => t) else s.thr q } x v ws

/-- a fiber object as made by kfiber_new and the create functions, src/kfiber.c:231-274, 275-312: `fl` is the condition made when a handle is asked for -/
def mkFib (t fn arg : Nat) (fl : Option Flav) (who : Caller) (k : Nat) : Fib :=
  { st := .fresh, sel := t, start := fn, arg := arg, ref := if fl.isSome then 2 else 1, cond := fl,
    owner := if fl.isSome then some (who, false) else none, own := some k }

inductive Op where
  /-- some fiber `c` that is not the subject of a call here starts on selector `x` -/
  | spawn (x c : Nat)
  /-- the running fiber of `x` suspends itself in some other operation -/
  | suspend (x : Nat)
  /-- that operation completes with `v`: code running on `x` wakes `c` -/
  | resume (x c : Nat) (v : Int)
  /-- kfiber_thread_call by the running fiber of `x`, up to the return of kthread_pool_start (`ok`), src/kfiber.c:627-635 -/
  | threadCall (x fn arg : Nat) (n : Int) (ok : Bool)
  /-- its `__kfiber_wait`, src/kfiber.c:637, 640 -/
  | threadWait (x : Nat)
  /-- a pool thread enters `_kfiber_worker_thread` with fiber `c` and calls the function, src/kfiber.c:621-623 -/
  | enter (c : Nat)
  /-- the function returned `v`; the thread wakes the fiber, src/kfiber.c:623-625 -/
  | leave (c k : Nat) (v : Int)
  /-- the loop of the selector handles a posted wake-up: kfiber_result_callback, src/kfiber.c:204-208 -/
  | deliver (m : Msg)
  /-- kfiber_create2 for selector `t` by the running fiber of `x`, src/kfiber.c:289-312; the new fiber is `g`; `hd`: with `ret_fiber` -/
  | create (x t fn arg : Nat) (n : Int) (g : Nat) (hd ok : Bool)
  /-- kfiber_join of `g` by the running fiber of `x`: the wait of the condition, src/kfiber.c:367-373, src/kfiber_sync.c:204-222 -/
  | join (x g : Nat)
  /-- the rest of kfiber_join, src/kfiber.c:377-381 -/
  | joinEnd (x : Nat)
  /-- the start function of the running fiber of `x` returns: kfiber_exit, src/kfiber.c:150-156 -/
  | exit (x : Nat) (v : Int)
  /-- the loop of `x` takes a fiber off the ready list and runs result_fiber_exit up to the end of the notice, src/kfiber.c:139-145 -/
  | reap (x : Nat)
  /-- the rest of result_fiber_exit, src/kfiber.c:146 -/
  | reapEnd (x : Nat)
  /-- kfiber_create_sync by thread `p`, src/kfiber.c:275-288; get_perfect_selector chose `t` -/
  | tCreate (p t fn arg : Nat) (n : Int) (g : Nat) (hd ok : Bool)
  /-- kfiber_join of `g` by thread `p`: kcond_wait (include/ksync.h:57-63, src/kfiber_sync.c:243-247) -/
  | tJoin (p g : Nat)
  /-- the rest of kfiber_join, src/kfiber_sync.c:248-250, src/kfiber.c:377-381 -/
  | tJoinEnd (p : Nat)
  /-- pthread_cond_wait returns without a notice -/
  | spurious (p : Nat)
  deriving Repr, DecidableEq

/-- the selector's loop itself is running, outside `result_fiber_exit` -/
def idle (s : St) (x : Nat) : Prop := s.stack x = [] ∧ s.reaping x = none
instance (s : St) (x : Nat) : Decidable (idle s x) := inferInstanceAs (Decidable (_ ∧ _))

/-- the fiber running its own code on `x` -/
def top (s : St) (x : Nat) : Option Nat := (s.stack x).head?.filter (fun c => (s.fib c).st == .run)

/-- read the return value of `g`, hand it to the joiner and release: src/kfiber.c:377-381 -/
def finishJoin (s : St) (g : Nat) : Res St :=
  if (s.fib g).freed then .ub else
  let s1 := match (s.fib g).own with
    | none => s
    | some k => s.log [.returned k (s.fib g).retval]
  release (s1.upd g (fun f => { f with owner := none })) g

def step (dbg : Bool) (s : St) : Op → Res St
  | .spawn x c =>
    if (s.fib c).st = .none ∧ (idle s x ∨ (top s x).isSome) then
      .ok ((s.upd c (fun _ => { st := .run, sel := x, ref := 1 })).push x c)
    else .disabled
  | .suspend x =>
    match top s x with
    | none => .disabled
    | some c => .ok ((s.upd c (fun f => { f with st := .away })).setStack x (s.stack x).tail)
  | .resume x c v =>
    if (s.fib c).st = .away ∧ (s.fib c).sel = x ∧ (idle s x ∨ (top s x).isSome) then
      if (s.fib c).freed then .ub else .ok ((s.upd c (fun f => { f with st := .run, retval := v })).push x c)
    else .disabled
  | .threadCall x fn arg n ok =>
    match top s x with
    | none => .disabled
    | some c =>
      let s1 := (s.upd c (fun f => { f with start := fn, arg := arg, retval := n, call := s.next })).log [.called s.next (.fib c) .pool fn arg n]
      if ok then .ok { s1.upd c (fun f => { f with st := .armed }) with jobs := s.jobs ++ [c], next := s.next + 1 }
      else .ok { s1.log [.refused s.next] with next := s.next + 1 }
  | .threadWait x =>
    match s.stack x with
    | [] => .disabled
    | c :: rest =>
      if (s.fib c).st = .armed then
        .ok ((s.upd c (fun f => { f with st := .waitCall, code := .arg f.arg })).setStack x rest)
      else .disabled
  | .enter c =>
    if c ∈ s.jobs then
      if (s.fib c).freed then .ub else
      .ok { s.log [.entered (s.fib c).call .pool (s.fib c).start (s.fib c).arg (s.fib c).retval] with
              jobs := s.jobs.erase c, workers := s.workers ++ [(c, (s.fib c).call)] }
    else .disabled
  | .leave c k v =>
    if (c, k) ∈ s.workers then
      if (s.fib c).freed then .ub else
      wakeup2 dbg { s.log [.left k v] with workers := s.workers.erase (c, k) } none (s.fib c).sel c (.arg (s.fib c).arg) v
    else .disabled
  | .deliver m =>
    if m ∈ s.inbox ∧ idle s m.sel then wakeup dbg { s with inbox := s.inbox.erase m } m.sel m.fib m.obj m.val else .disabled
  | .create x t fn arg n g hd ok =>
    match top s x with
    | none => .disabled
    | some c =>
      if (s.fib g).st ≠ .none then .disabled else
      let s1 := { s.log [.called s.next (.fib c) (.sel t) fn arg n] with next := s.next + 1 }
      if ok then
        wakeup2 dbg (s1.upd g (fun _ => mkFib t fn arg (if hd then some .ts else none) (.fib c) s.next)) (some x) t g .null n
      else .ok (s1.log [.refused s.next])
  | .join x g =>
    match top s x with
    | none => .disabled
    | some c =>
      if (s.fib g).owner ≠ some (.fib c, false) then .disabled else
      if (s.fib g).freed ∨ (s.fib g).cond ≠ some .ts then .ub else
      let s1 := s.upd g (fun f => { f with owner := some (.fib c, true) })
      if (s.fib g).ev then .ok (s1.upd c (fun f => { f with st := .joined g }))
      else .ok (((s1.upd g (fun f => { f with waiter := .fib c :: f.waiter })).upd c
        (fun f => { f with st := .waitJoin g, code := .self c })).setStack x (s.stack x).tail)
  | .joinEnd x =>
    match s.stack x with
    | [] => .disabled
    | c :: _ =>
      match (s.fib c).st with
      | .joined g => finishJoin (s.upd c (fun f => { f with st := .run })) g
      | _ => .disabled
  | .exit x v =>
    match top s x with
    | none => .disabled
    | some c =>
      let s1 := { (s.upd c (fun f => { f with st := .exiting, retval := v })).setStack x (s.stack x).tail with
                    ready := fun y => if y = x then s.ready x ++ [c] else s.ready y }
      match (s.fib c).own with
      | none => .ok s1
      | some k => .ok (s1.log [.left k v])
  | .reap x =>
    match s.ready x with
    | [] => .disabled
    | g :: rest =>
      if ¬ idle s x then .disabled else
      if (s.fib g).freed then .ub else
      let s1 := { s.upd g (fun f => { f with st := .notified, ev := f.ev || f.cond.isSome, waiter := [] }) with
                    ready := fun y => if y = x then rest else s.ready y,
                    reaping := fun y => if y = x then some g else s.reaping y }
      wakeAll dbg s1 x (s.fib g).retval (s.fib g).waiter
  | .reapEnd x =>
    match s.reaping x with
    | none => .disabled
    | some g =>
      if s.stack x ≠ [] then .disabled else
      release { s.upd g (fun f => { f with st := .gone }) with reaping := fun y => if y = x then none else s.reaping y } g
  | .tCreate p t fn arg n g hd ok =>
    if s.thr p ≠ .idle ∨ (s.fib g).st ≠ .none then .disabled else
    let s1 := { s.log [.called s.next (.thr p) (.sel t) fn arg n] with next := s.next + 1 }
    if ok then
      wakeup2 dbg (s1.upd g (fun _ => mkFib t fn arg (if hd then some .sync else none) (.thr p) s.next)) none t g .null n
    else .ok (s1.log [.refused s.next])
  | .tJoin p g =>
    if s.thr p ≠ .idle ∨ (s.fib g).owner ≠ some (.thr p, false) then .disabled else
    if (s.fib g).freed ∨ (s.fib g).cond ≠ some .sync then .ub else
    let s1 := s.upd g (fun f => { f with owner := some (.thr p, true) })
    if (s.fib g).ev then
      .ok { s1.upd g (fun f => { f with ev := false }) with thr := fun q => if q = p then .woken g else s.thr q }
    else .ok { s1.upd g (fun f => { f with waiter := .thr p :: f.waiter }) with thr := fun q => if q = p then .waiting g else s.thr q }
  | .tJoinEnd p =>
    match s.thr p with
    | .woken g => finishJoin { s with thr := fun q => if q = p then .idle else s.thr q } g
    | _ => .disabled
  | .spurious p =>
    match s.thr p with
    | .waiting g =>
      .ok { s.upd g (fun f => { f with waiter := f.waiter.erase (.thr p) }) with thr := fun q => if q = p then .woken g else s.thr q }
    | _ => .disabled

/-- without spurious wake-ups of pthread_cond_wait -/
def stepN (dbg : Bool) (s : St) : Op → Res St
  | .spurious _ => .disabled
  | o => step dbg s o

end Kasync.Remote
