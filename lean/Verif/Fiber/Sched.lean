import Verif.Common

/-!
# Model of fiber switching: src/kfiber.c:47-60, 99-225, 275-318 and include/kfiber.h:53-143

The fibers of one selector thread; the other threads only post wake-ups to it (`kgl_selector_module.next`, whose delivery is C30).  Fiber 0 is the
*main fiber*, the selector's loop.  What the saved context of a suspended fiber will do when it is switched to is its status `st`; the switch itself
(fcontext, ucontext) is trusted to save and restore contexts.

The *calls* a fiber makes (read, lock, sleep, ...) follow one scheme: it announces the operation somewhere (`arm`), with an object `obj` that both sides
name, and then suspends itself with `__kfiber_wait` or `kfiber_wait_result`.  Whoever completes the operation wakes the fiber once, naming the same object:
another fiber or the loop on the same thread once the fiber is suspended (`wakeup`), the fiber itself while it is still running because the operation could be
done at once (`selfWake`), or another thread at any time (`post`).  This is the library's own discipline and is the enabledness of these steps.  Starting a
fiber is the completion of its call number 0.

The debug fields `wait_flag`, `notice_flag`, `wait_code` are kept in both builds; only a debug build (`dbg`) looks at them.
-/

namespace Kasync.Sched

/-- what a fiber is doing, or what its saved context will do when switched to -/
inductive Stat where
  /-- no such fiber -/
  | none
  /-- made by kfiber_new, not yet switched to -/
  | fresh
  /-- the fiber that is running -/
  | run
  /-- suspended inside `kfiber_wakeup`: it gave the processor to the fiber it woke -/
  | inWake
  /-- suspended inside `__kfiber_wait` -/
  | inWait
  /-- suspended inside the `__kfiber_wait` of `kfiber_exit` -/
  | inExit
  /-- its stack was given back -/
  | freed
  deriving Repr, DecidableEq

/-- `struct _kfiber`, include/kfiber_internal.h:120-158 -/
structure Fib where
  st : Stat := .none
  /-- `switch_from` -/
  sfrom : Option Nat := .none
  retval : Int := 0
  waitF : Bool := false
  noticeF : Bool := false
  code : Nat := 0
  /-- the object of the call being made -/
  pend : Option Nat := .none
  /-- the completion of that call has not been issued yet -/
  tok : Bool := false
  /-- the call was completed before the fiber suspended itself: it returned `kev_fiber_ok` -/
  self : Bool := false
  /-- ghost: number of the call being made, or of the last one (0 is the start) -/
  no : Nat := 0
  deriving Repr, DecidableEq

/-- a wake-up posted by another thread (`kgl_selector_module.next` with kfiber_result_callback), src/kfiber.c:216, include/kfiber.h:92 -/
structure Msg where
  fib : Nat
  obj : Nat
  val : Int
  /-- ghost: number of the call it completes -/
  no : Nat
  deriving Repr, DecidableEq

/-- ghost record: fiber, number of its call, value -/
abbrev Ev := Nat × Nat × Int

structure St where
  /-- `selector->current` -/
  cur : Nat := 0
  fib : Nat → Fib
  /-- wake-ups posted and not yet delivered -/
  inbox : List Msg := []
  /-- fibers with `result_fiber_exit` on the selector's ready list, src/kfiber.c:47-56, and their exit values -/
  ready : List (Nat × Int) := []
  /-- ghost: completions issued -/
  given : List Ev := []
  /-- ghost: calls that returned, with the value returned (number 0: the start function was entered with this value) -/
  returned : List Ev := []
  /-- ghost: fibers whose start function returned -/
  exited : List (Nat × Int) := []
  /-- ghost: fibers for which `result_fiber_exit` ran -/
  reaped : List (Nat × Int) := []

/-- the main fiber made by kfiber_thread_init, src/kfiber.c:173-195, is running -/
def init : St := { fib := fun i => if i = 0 then { st := .run } else {} }

/-- change one fiber -/
def St.upd (s : St) (i : Nat) (f : Fib → Fib) : St := { s with fib := fun j => if j = i then f (s.fib j) else s.fib j }

/-- `__kfiber_switch`, src/kfiber.c:106-133, up to the point where the fiber switched to runs its own code again: a fresh fiber enters `fiber_start`
(157-172, clearing the flags), one suspended in `__kfiber_wait` clears the flags and returns `retval` (include/kfiber.h:116-119), one suspended in `kfiber_wakeup`
returns from it.  A fiber suspended in `kfiber_exit` would fall off the end of `fiber_start`.  `sus` is the status the caller is left in. -/
def switch (s : St) (to : Nat) (sus : Stat) : Res St :=
  if s.cur = to then .ub else
  let s1 := s.upd s.cur (fun f => { f with st := sus })
  let r (clear : Bool) : St :=
    { s1.upd to (fun f => { f with st := .run, waitF := if clear then false else f.waitF, noticeF := if clear then false else f.noticeF,
                                    pend := if clear then none else f.pend }) with cur := to }
  match (s.fib to).st with
  | .fresh | .inWait => .ok { r true with returned := (to, (s.fib to).no, (s.fib to).retval) :: s.returned }
  | .inWake => .ok (r false)
  | _ => .ub

/-- `kfiber_wakeup`, include/kfiber.h:53-86 -/
def wakeup (dbg : Bool) (s : St) (g obj : Nat) (v : Int) : Res St :=
  if dbg && (s.fib g).noticeF then .ub else
  if dbg && (s.fib g).waitF && obj != (s.fib g).code then .ub else
  let s := s.upd g (fun f => { f with code := if f.waitF then f.code else obj, noticeF := true, retval := v })
  if s.cur = g then .ok s
  else switch (s.upd g (fun f => { f with sfrom := some s.cur })) g .inWake

/-- `__kfiber_wait` by the running fiber, include/kfiber.h:94-119 (`sus`: also called by kfiber_exit) -/
def wait (dbg : Bool) (s : St) (obj : Nat) (sus : Stat) : Res St :=
  match (s.fib s.cur).sfrom with
  | none => .ub
  | some h =>
    if dbg && (s.fib s.cur).waitF then .ub else
    if dbg && (s.fib s.cur).noticeF && obj != (s.fib s.cur).code then .ub else
    switch (s.upd s.cur (fun f => { f with code := if f.noticeF then f.code else obj, waitF := true })) h sus

inductive Op where
  /-- `kfiber_new`, src/kfiber.c:231-274: a fiber that can be started -/
  | create (g : Nat)
  /-- the running fiber announces an operation: CHECK_FIBER (include/kfiber_internal.h:42-46) and the registration with the selector, a timer, a waiter list ... -/
  | arm (obj : Nat)
  /-- code of the running fiber (or the selector's loop) completes the call of `g`: kfiber_result_callback (src/kfiber.c:204-208), kfiber_wakeup_ts
  (include/kfiber.h:87-93), kfiber_create2 and kfiber_start (src/kfiber.c:286, 301, 317) -/
  | wakeup (g : Nat) (v : Int)
  /-- the operation of the running fiber completes at once: the same function, called by the fiber itself -/
  | selfWake (v : Int)
  /-- the running fiber waits for its call: `kfiber_wait_result` (include/kfiber.h:128-143), or `__kfiber_wait` if it cannot have completed at once -/
  | wait
  /-- another thread completes the call of `g` (or starts it): `kgl_selector_module.next`, src/kfiber.c:216, include/kfiber.h:92 -/
  | post (g : Nat) (v : Int)
  /-- the selector's loop handles a posted wake-up: kfiber_result_callback -/
  | deliver (m : Msg)
  /-- the start function of the running fiber returns: kfiber_exit, src/kfiber.c:150-156 -/
  | exit (v : Int)
  /-- the selector's loop takes a fiber off its ready list (src/kselector.c:248-250) and calls result_fiber_exit (src/kfiber.c:139-149) -/
  | reap
  deriving Repr, DecidableEq

/-- the object of the call `g` is making -/
def St.obj (s : St) (g : Nat) : Nat := (s.fib g).pend.getD 0

/-- issue the completion `v` of the call of `g` (ghost) -/
def issue (s : St) (g : Nat) (v : Int) (self : Bool) : St :=
  { s.upd g (fun f => { f with tok := false, self := self }) with given := (g, (s.fib g).no, v) :: s.given }

def step (dbg : Bool) (s : St) : Op → Res St
  | .create g => if (s.fib g).st = .none then .ok (s.upd g (fun _ => { st := .fresh, pend := some 0, tok := true })) else .disabled
  | .arm o =>
    if s.cur = 0 ∨ (s.fib s.cur).pend ≠ none then .disabled else
    if dbg && ((s.fib s.cur).sfrom == none || (s.fib s.cur).waitF || (s.fib s.cur).noticeF) then .ub else
    .ok (s.upd s.cur (fun f => { f with pend := some o, tok := true, no := f.no + 1 }))
  | .wakeup g v =>
    if ((s.fib g).st = .inWait ∨ (s.fib g).st = .fresh) ∧ (s.fib g).tok = true then wakeup dbg (issue s g v false) g (s.obj g) v
    else .disabled
  | .selfWake v =>
    if (s.fib s.cur).tok = true then wakeup dbg (issue s s.cur v true) s.cur (s.obj s.cur) v else .disabled
  | .wait =>
    match (s.fib s.cur).pend with
    | none => .disabled
    | some o =>
      if (s.fib s.cur).self then
        if dbg && (!(s.fib s.cur).noticeF || (s.fib s.cur).waitF) then .ub
        else .ok { s.upd s.cur (fun f => { f with waitF := false, noticeF := false, pend := none, self := false }) with
                     returned := (s.cur, (s.fib s.cur).no, (s.fib s.cur).retval) :: s.returned }
      else wait dbg s o .inWait
  | .post g v =>
    if (s.fib g).tok = true then .ok { issue s g v false with inbox := ⟨g, s.obj g, v, (s.fib g).no⟩ :: s.inbox }
    else .disabled
  | .deliver m =>
    if s.cur = 0 ∧ m ∈ s.inbox then wakeup dbg { s with inbox := s.inbox.erase m } m.fib m.obj m.val else .disabled
  | .exit v =>
    if s.cur = 0 ∨ (s.fib s.cur).pend ≠ none then .disabled else
    let s := s.upd s.cur (fun f => { f with waitF := false, noticeF := false, retval := v })
    wait dbg { s with ready := s.ready ++ [(s.cur, v)], exited := (s.cur, v) :: s.exited } 0 .inExit
  | .reap =>
    match s.ready with
    | [] => .disabled
    | (g, v) :: rest =>
      if s.cur ≠ 0 then .disabled else
      if (s.fib g).st = .inExit then
        .ok { s.upd g (fun f => { f with st := .freed, retval := v }) with ready := rest, reaped := (g, v) :: s.reaped }
      else .ub

end Kasync.Sched
