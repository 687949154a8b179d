import Verif.Mgr.Model

/-!
# Model of the life of the selector manager: src/kselector_manager.c:33-160, 161-170, 218-225, 243-295, 314-325 and src/kselector.c:48-53, 112-151, 193-230, 283-311

The selectors of the manager, each with its thread, the notices posted to it, and its timers; the callbacks handed to the manager before and after it is initialised;
the hooks called at the start and the end of every selector thread; the clock and its adjustment; shutdown.

Any thread may call the manager at any moment; code running on the thread of selector `y` is `here = some y`.  A call is one step (`init` and the calls before it are not
concurrent, as in C27; `onReadyTest`/`onReadyAdd` split one such call in two).  What get_perfect_selector chooses is a parameter (`pick`; that it is one of the
selectors is C27).  Posted notices are a stack, as in kepoll_notice and kepoll_notice_event (include/kepoll_selector.h:18-50; that they are delivered exactly once is C30).
Timers are a list (their order is C24); those that are due are taken off in one go and called one by one (src/kselector.c:193-230).

`md`: build with MALLOCDEBUG, the only one in which the loops of the threads end.  Times are integers (the overflow of 64-bit milliseconds is not modelled).
Not modelled: the rest of kselector_check_timeout (C25, C57, C36), kasync_main, a failing kthread_pool_start (the thread just never starts), the sleeps of selector_manager_close,
and the second change hook.
-/

namespace Kasync.Mlife

/-- a function posted to a selector, with what it needs -/
inductive Note where
  /-- a callback given to selector_manager_on_ready -/
  | call (id : Nat)
  /-- `next_add_timer`, src/kselector_manager.c:101-106, of a timer for time `act` -/
  | timer (id : Nat) (act : Int)
  /-- `add_timer_on_ready`, src/kselector_manager.c:107-113 -/
  | fwd (id : Nat) (act : Int)
  /-- `next_adjust_time`, src/kselector.c:48-53 -/
  | adjust (d : Int)
  deriving Repr, DecidableEq

/-- the thread of a selector -/
inductive Phase where
  /-- none -/
  | none
  /-- kselector_start: handed to the thread pool -/
  | posted
  /-- in kselector_init, these hooks still to be called -/
  | init (rest : List Nat)
  /-- in the loop of kselector_thread -/
  | loop
  /-- in kselector_exit, these hooks still to be called -/
  | exit (rest : List Nat)
  /-- past kselector_exit -/
  | gone
  deriving Repr, DecidableEq

/-- `struct kselector_s` (include/kselector.h:103-127), the part used here -/
structure Sel where
  phase : Phase := .none
  /-- posted notices, newest first -/
  inbox : List Note := []
  timers : List (Nat × Int) := []
  /-- due timers taken off, not yet called -/
  firing : List Nat := []
  /-- connections on the lists -/
  count : Nat := 0
  closed : Bool := false
  shutdown : Bool := false
  destroyed : Bool := false
  deriving Repr, DecidableEq

/-- what can be seen from outside -/
inductive Ev where
  /-- selector_manager_on_ready was called with callback `id` -/
  | onReady (id : Nat)
  /-- a timer with callback `id` was asked for, in `msec` milliseconds -/
  | timer (id : Nat) (msec : Int)
  /-- kselector_add_timer answered -1 -/
  | refused (id : Nat)
  /-- selector_manager_thread_init of hook `id` answered 0 (`ok`) or -1 -/
  | threadInit (id : Nat) (ok : Bool)
  /-- the thread of selector `x` starts -/
  | born (x : Nat)
  /-- hook `id` is called there with `got` -/
  | hook (x id : Nat) (got : Int)
  /-- callback `id` is called on the thread of selector `x` -/
  | ran (x id : Nat)
  | died (x : Nat)
  /-- the clock was read: it shows `t` milliseconds -/
  | clock (t : Int)
  /-- selector_manager_close was called -/
  | shutdown
  deriving Repr, DecidableEq

structure St where
  /-- `kgl_selector_count`; none: `kgl_selectors == NULL` -/
  n : Option Nat := none
  sel : Nat → Sel := fun _ => {}
  /-- `kgl_current_msec` -/
  clock : Int := 0
  /-- `on_ready_list`, head first -/
  ready : List Note := []
  /-- `thread_init`, head first -/
  tinit : List Nat := []
  /-- callbacks of selector_manager_on_ready calls that found the manager not initialised and have not yet put them on the list -/
  mid : List Nat := []
  /-- ghost: number of the next callback -/
  next : Nat := 0
  /-- ghost: what happened, in order -/
  hist : List Ev := []

def start : St := {}

def St.upd (s : St) (x : Nat) (f : Sel → Sel) : St := { s with sel := fun y => if y = x then f (s.sel y) else s.sel y }
def St.log (s : St) (e : List Ev) : St := { s with hist := s.hist ++ e }

/-- the code of the thread of this selector is running: `pthread_self() == selector->thread_id`, include/kselector.h:132-134 -/
def Phase.running : Phase → Bool
  | .init _ | .loop | .exit _ => true
  | _ => false

/-- `selector->thread_id == 0`: before kselector_init (src/kselector_manager.c:47) or after kselector_exit (64) -/
def Phase.noThread : Phase → Bool
  | .none | .posted | .gone => true
  | _ => false

/-- `kgl_selector_module.next`: post to selector `x` -/
def post (s : St) (x : Nat) (m : Note) : Res St :=
  if (s.sel x).destroyed then .ub else .ok (s.upd x (fun l => { l with inbox := m :: l.inbox }))

/-- the loop of selector_manager_init over the list, src/kselector_manager.c:284-290: get_perfect_selector chooses `picks` -/
def drain (s : St) : List Note → List Nat → St
  | [], _ => s
  | m :: ms, picks =>
    drain (s.upd (picks.headD 0) (fun l => { l with inbox := m :: l.inbox })) ms picks.tail

/-- the callback called: `cb->call_back(NULL, arg, ...)` -/
def doRan (s : St) (x id : Nat) : St := s.log [.ran x id]

inductive Op where
  /-- selector_manager_on_ready, 314-321 -/
  | onReady (pick : Nat)
  /-- its test (316) before selector_manager_init -/
  | onReadyTest
  /-- the rest (320) -/
  | onReadyAdd (id : Nat)
  /-- selector_manager_add_timer, 114-126 -/
  | addTimer (msec : Int) (pick : Nat)
  /-- kselector_add_timer_ts of selector `x`, 127-141 -/
  | addTimerTs (here : Option Nat) (x : Nat) (msec : Int)
  /-- kselector_add_timer on the selector's own thread, src/kselector.c:293-308 -/
  | addTimerHere (x : Nat) (msec : Int)
  /-- selector_manager_thread_init, 218-225 -/
  | threadInit (id : Nat)
  /-- selector_manager_init, 269-295 -/
  | init (size : Int) (picks : List Nat)
  /-- selector_manager_grow on the thread of `here`, 243-268 (the new threads are started by `start`) -/
  | grow (here : Option Nat) (size : Int)
  /-- kselector_start: in selector_manager_start (161-173) or selector_manager_grow (263) -/
  | start (x : Nat)
  /-- the thread enters kselector_init, 43-47 -/
  | born (x : Nat)
  /-- it calls the next hook or, after the last, goes on, 48-52, 56-64 -/
  | hook (x : Nat)
  /-- it handles a notice -/
  | handle (x pick : Nat)
  /-- it takes off the timers that are due, src/kselector.c:193-215 -/
  | check (x : Nat)
  /-- it calls the first of them, 217-230 -/
  | fire (x : Nat)
  /-- connections come and go -/
  | setCount (x k : Nat)
  /-- kselector_update_time on the thread of `here`, src/kselector.c:134-151: gettimeofday shows `t` milliseconds -/
  | update (here : Option Nat) (t : Int)
  /-- selector_manager_close, first loop, 148-150 -/
  | shutdown
  /-- second loop, 152-154 -/
  | close
  /-- the thread leaves its loop, 91-93 -/
  | leave (x : Nat)
  /-- third loop, 155-165: the selector is destroyed -/
  | destroy (x : Nat)
  deriving Repr, DecidableEq

/-- the selectors `0 ≤ x < n` -/
def St.inRange (s : St) (x : Nat) : Bool := match s.n with
  | none => false
  | some n => x < n

/-- a selector whose thread makes a call is running -/
def St.hereOk (s : St) : Option Nat → Bool
  | none => true
  | some y => (s.sel y).phase.running

def St.someDestroyed (s : St) : Bool := (List.range (s.n.getD 0)).any (fun x => (s.sel x).destroyed)

/-- selector_manager_adjust_time (src/kselector_manager.c:174-181) with kselector_adjust_time (src/kselector.c:112-133) by the thread of `here`:
its own selector at once, the others by a notice -/
def adjust (s : St) (here : Option Nat) (d : Int) : St :=
  { s with sel := fun x =>
      if s.inRange x then
        if here = some x then { s.sel x with timers := (s.sel x).timers.map (fun p => (p.1, p.2 + d)) }
        else { s.sel x with inbox := .adjust d :: (s.sel x).inbox }
      else s.sel x }

def step (md : Bool) (s : St) : Op → Res St
  | .onReady pick =>
    let s1 := { s.log [.onReady s.next] with next := s.next + 1 }
    match s.n with
    | none => .ok { s1 with ready := .call s.next :: s.ready }
    | some _ => if s.inRange pick then post s1 pick (.call s.next) else .disabled
  | .onReadyTest =>
    if s.n = none then .ok { s.log [.onReady s.next] with next := s.next + 1, mid := s.next :: s.mid } else .disabled
  | .onReadyAdd id => if id ∈ s.mid then .ok { s with mid := s.mid.erase id, ready := .call id :: s.ready } else .disabled
  | .addTimer msec pick =>
    let s1 := { s.log [.timer s.next msec] with next := s.next + 1 }
    match s.n with
    | none => .ok { s1 with ready := .fwd s.next (s.clock + msec) :: s.ready }
    | some _ => if s.inRange pick then post s1 pick (.timer s.next (s.clock + msec)) else .disabled
  | .addTimerTs here x msec =>
    if s.inRange x = false ∨ s.hereOk here = false then .disabled else
    let s1 := { s.log [.timer s.next msec] with next := s.next + 1 }
    if here = some x then .ok (s1.upd x (fun l => { l with timers := (s.next, s.clock + msec) :: l.timers }))
    else post s1 x (.timer s.next (s.clock + msec))
  | .addTimerHere x msec =>
    if (s.sel x).phase.running = false then .disabled else
    let s1 := { s.log [.timer s.next msec] with next := s.next + 1 }
    if md && (s.sel x).shutdown then .ok (s1.log [.refused s.next])
    else .ok (s1.upd x (fun l => { l with timers := (s.next, s.clock + msec) :: l.timers }))
  | .threadInit id =>
    match s.n with
    | none => .ok { s.log [.threadInit id true] with tinit := id :: s.tinit }
    | some _ => .ok (s.log [.threadInit id false])
  | .init size picks =>
    if s.n.isSome then .disabled else
    let k := (Mgr.kglPow2 size 7).toNat
    if picks.length = s.ready.length ∧ ∀ p ∈ picks, p < k then
      .ok { drain s s.ready picks with n := some k, ready := [] }
    else .disabled
  | .grow here size =>
    match s.n with
    | none => .disabled
    | some k =>
      let m := (Mgr.kglPow2 size 7).toNat
      if m ≤ k then .ok s
      else if 1 < k ∨ here ≠ some 0 ∨ (s.sel 0).phase.running = false then .ok s
      else .ok { s with n := some m }
  | .start x =>
    if s.inRange x ∧ (s.sel x).phase = .none then .ok (s.upd x (fun l => { l with phase := .posted })) else .disabled
  | .born x =>
    if (s.sel x).phase = .posted then
      if (s.sel x).destroyed then .ub else .ok ((s.log [.born x]).upd x (fun l => { l with phase := .init s.tinit }))
    else .disabled
  | .hook x =>
    match (s.sel x).phase with
    | .init [] => .ok (s.upd x (fun l => { l with phase := .loop }))
    | .init (id :: r) => .ok ((s.log [.hook x id 0]).upd x (fun l => { l with phase := .init r }))
    | .exit [] => .ok ((s.log [.died x]).upd x (fun l => { l with phase := .gone }))
    | .exit (id :: r) => .ok ((s.log [.hook x id 1]).upd x (fun l => { l with phase := .exit r }))
    | _ => .disabled
  | .handle x pick =>
    if (s.sel x).phase ≠ .loop ∨ (s.sel x).firing ≠ [] then .disabled else
    match (s.sel x).inbox with
    | [] => .disabled
    | m :: r =>
      if (s.sel x).destroyed then .ub else
      let s1 := s.upd x (fun l => { l with inbox := r })
      match m with
      | .call id => .ok (doRan s1 x id)
      | .timer id a => .ok (s1.upd x (fun l => { l with timers := (id, a) :: l.timers }))
      | .fwd id a => if s.inRange pick then post s1 pick (.timer id a) else .disabled
      | .adjust d => .ok (s1.upd x (fun l => { l with timers := l.timers.map (fun p => (p.1, p.2 + d)) }))
  | .check x =>
    if (s.sel x).phase ≠ .loop ∨ (s.sel x).firing ≠ [] then .disabled else
    if (s.sel x).destroyed then .ub else
    let due := fun p : Nat × Int => decide (p.2 ≤ s.clock) || (md && (s.sel x).shutdown)
    .ok (s.upd x (fun l => { l with timers := l.timers.filter (fun p => ! due p), firing := (l.timers.filter due).map Prod.fst }))
  | .fire x =>
    match (s.sel x).firing with
    | [] => .disabled
    | id :: r => .ok (doRan (s.upd x (fun l => { l with firing := r })) x id)
  | .setCount x k => .ok (s.upd x (fun l => { l with count := k }))
  | .update here t =>
    if s.hereOk here = false then .disabled else
    if t / 1000 < s.clock / 1000 then
      if s.someDestroyed then .ub else .ok { (adjust s here (t - s.clock)).log [.clock t] with clock := t }
    else .ok { s.log [.clock t] with clock := t }
  | .shutdown =>
    .ok { s.log [.shutdown] with sel := fun x => if s.inRange x then { s.sel x with shutdown := true } else s.sel x }
  | .close =>
    .ok { s with sel := fun x => if s.inRange x then { s.sel x with closed := true } else s.sel x }
  | .leave x =>
    if (s.sel x).phase ≠ .loop ∨ (s.sel x).firing ≠ [] then .disabled else
    if md ∧ (s.sel x).closed ∧ (s.sel x).count = 0 ∧ (s.sel x).timers = [] then .ok (s.upd x (fun l => { l with phase := .exit s.tinit }))
    else .disabled
  | .destroy x =>
    if (s.sel x).closed ∧ (s.sel x).destroyed = false ∧ (s.sel x).phase.noThread then .ok (s.upd x (fun l => { l with destroyed := true })) else .disabled

end Kasync.Mlife
