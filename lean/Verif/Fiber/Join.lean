import Verif.Common

/-!
# Model of the life of one fiber: create, exit, join, release — src/kfiber.c:89-159, 275-382

One fiber is followed from creation to release.  The references to it are: one for its own execution
(`kfiber_new` 251, released by `result_fiber_exit` 146) and one per *handle* (`ret_fiber` of the create functions,
`kfiber_ref_self`), released by the join on it.  The caller's discipline — a handle is joined at most once, and only
the running fiber itself calls `kfiber_ref_self` / `kfiber_exit_callback` — is the enabledness of the steps.

`close_cond` is one of the conditions of src/kfiber_sync.c; its `_ts`, `_sync` and plain flavours are one atomic step
each (lock regions).  Touching the object after it was freed, freeing it with waiters left on its condition
(assertion in kfiber_cond_destroy, src/kfiber_sync.c:292-309) and joining without a condition (assertions 354, 368)
are `ub`.  Context switching itself and the stack memory are not modelled.
-/

namespace Kasync.Join

/-- Progress of the fiber itself. -/
inductive Phase where
  /-- start function running or suspended -/
  | running
  /-- start function returned, `result_fiber_exit` queued (kfiber_exit 150-156) -/
  | exiting
  /-- close condition notified (143-145), reference not yet dropped -/
  | notified
  /-- reference of the execution dropped (146) -/
  | done
  deriving Repr, DecidableEq

/-- Something waiting on the close condition: a joining holder of a handle or a callback. -/
inductive Waiter where
  | join (h : Nat)
  | cb (c : Nat)
  deriving Repr, DecidableEq

/-- the fiber object (include/kfiber_internal.h:120-150), its close condition, and ghost logs -/
structure State where
  phase : Phase := .running
  /-- `base.ref` -/
  ref : Nat
  retval : Int := 0
  /-- `close_cond`: NULL, manual-reset (`some false`) or auto-reset (`some true`) -/
  cond : Option Bool
  /-- `close_cond->ev` -/
  ev : Nat := 0
  /-- `close_cond->waiter` -/
  waiter : List Waiter := []
  /-- handles given out and not yet used for a join -/
  handles : List Nat
  /-- holders resumed from the wait of kfiber_join, about to read `retval` and release -/
  resumed : List Nat := []
  /-- ghost: number of times the object was freed -/
  freed : Nat := 0
  /-- ghost: value returned by the start function -/
  exitVal : Option Int := none
  /-- ghost: finished joins (handle, value handed out) -/
  joined : List (Nat × Int) := []
  /-- ghost: callbacks invoked (callback, value) -/
  called : List (Nat × Int) := []
  /-- ghost: number of handles given out and exit callbacks registered so far -/
  uses : Nat := 0
  deriving Repr, DecidableEq

/-- `kfiber_create2` / `kfiber_create_sync` / `kfiber_start`, src/kfiber.c:275-319: with `ret_fiber` (and always for
`kfiber_start`) a second reference and a manual-reset condition; without, a detached fiber. -/
def create (joinable : Bool) : State :=
  if joinable then { ref := 2, cond := some false, handles := [0], uses := 1 }
  else { ref := 1, cond := none, handles := [] }

/-- `kfiber_release` 134-138 and `kfiber_destroy` 89-96 (the condition's release asserts that nobody waits on it) -/
def release (s : State) : Res State :=
  if s.freed > 0 ∨ s.ref = 0 then .ub
  else if s.ref = 1 then
    if s.waiter = [] then .ok { s with ref := 0, freed := s.freed + 1 } else .ub
  else .ok { s with ref := s.ref - 1 }

/-- hand `got` to a waiter of the close condition: a joining fiber is resumed (kfiber_wakeup_waiter, include/kfiber.h:158),
a callback is posted with the value (155) -/
def wake (s : State) (got : Int) : Waiter → State
  | .join h => { s with resumed := h :: s.resumed }
  | .cb c => { s with called := (c, got) :: s.called }

def wakeAll (s : State) (got : Int) : List Waiter → State
  | [] => s
  | w :: ws => wakeAll (wake s got w) got ws

/-- notice of the close condition: src/kfiber_sync.c:85-130 -/
def notice (s : State) (auto : Bool) (got : Int) : State :=
  if auto then
    match s.waiter with
    | [] => { s with ev := s.ev + 1 }
    | w :: ws => wake { s with waiter := ws } got w
  else wakeAll { s with ev := 1, waiter := [] } got s.waiter

inductive Op where
  /-- the start function returns `v`: kfiber_exit 150-156 -/
  | exit (v : Int)
  /-- first half of result_fiber_exit 139-145 -/
  | exitNotice
  /-- second half of result_fiber_exit 146 -/
  | exitRelease
  /-- kfiber_join up to the return of the condition's wait, 367-376 -/
  | join (h : Nat)
  /-- kfiber_join from there on, 377-381 -/
  | joinEnd (h : Nat)
  /-- kfiber_try_join 353-366 -/
  | tryJoin (h : Nat)
  /-- kfiber_join2 320-331 -/
  | join2 (h c : Nat)
  /-- kfiber_exit_callback 332-339, called by the fiber -/
  | exitCallback (c : Nat)
  /-- kfiber_ref_self 340-352, called by the fiber; the new handle is `h` -/
  | refSelf (h : Nat)
  deriving Repr, DecidableEq

/-- consume an event of the close condition: auto-reset decrements (src/kfiber_sync.c:186), manual does not (269) -/
def takeEv (s : State) (auto : Bool) : State := if auto then { s with ev := s.ev - 1 } else s

def step (s : State) : Op → Res State
  | .exit v =>
    if s.phase = .running then
      if s.freed > 0 then .ub else .ok { s with phase := .exiting, retval := v, exitVal := some v }
    else .disabled
  | .exitNotice =>
    if s.phase = .exiting then
      if s.freed > 0 then .ub else
      let s := { s with phase := .notified }
      match s.cond with
      | none => .ok s
      | some auto => .ok (notice s auto s.retval)
    else .disabled
  | .exitRelease => if s.phase = .notified then release { s with phase := .done } else .disabled
  | .join h =>
    if h ∈ s.handles then
      if s.freed > 0 then .ub else
      match s.cond with
      | none => .ub
      | some auto =>
        if s.ev > 0 then
          .ok { takeEv s auto with handles := s.handles.erase h, resumed := h :: s.resumed }
        else .ok { s with handles := s.handles.erase h, waiter := .join h :: s.waiter }
    else .disabled
  | .joinEnd h =>
    if h ∈ s.resumed then
      if s.freed > 0 then .ub else
      release { s with resumed := s.resumed.erase h, joined := (h, s.retval) :: s.joined }
    else .disabled
  | .tryJoin h =>
    if h ∈ s.handles then
      if s.freed > 0 then .ub else
      match s.cond with
      | none => .ub
      | some auto =>
        if s.ev > 0 then
          release { takeEv s auto with handles := s.handles.erase h, joined := (h, s.retval) :: s.joined }
        else .ok s
    else .disabled
  | .join2 h c =>
    if h ∈ s.handles then
      if s.freed > 0 then .ub else
      match s.cond with
      | none => release { s with handles := s.handles.erase h, called := (c, -1) :: s.called }
      | some auto =>
        if s.ev > 0 then
          release { takeEv s auto with handles := s.handles.erase h, called := (c, 0) :: s.called }
        else release { s with handles := s.handles.erase h, waiter := .cb c :: s.waiter }
    else .disabled
  | .exitCallback c =>
    if s.phase = .running then
      if s.freed > 0 then .ub else
      let s := { s with uses := s.uses + 1, cond := some (s.cond.getD true) }
      match s.cond with
      | none => .ub
      | some auto =>
        if s.ev > 0 then .ok { takeEv s auto with called := (c, 0) :: s.called }
        else .ok { s with waiter := .cb c :: s.waiter }
    else .disabled
  | .refSelf h =>
    if s.phase = .running ∧ h ∉ s.handles ∧ h ∉ s.resumed ∧ Waiter.join h ∉ s.waiter ∧ h ∉ s.joined.map (·.1) then
      if s.freed > 0 then .ub else
      .ok { s with uses := s.uses + 1, cond := some (s.cond.getD true), ref := s.ref + 1, handles := h :: s.handles }
    else .disabled

end Kasync.Join
