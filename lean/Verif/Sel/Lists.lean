import Verif.Common

/-!
# Model of the selector's connection lists (src/kselector.c, include/kselectable.h)

`lists 0`, `lists 1`, `lists 2` are KGL_LIST_CONNECT, KGL_LIST_RW and KGL_LIST_READY (include/kselector.h:12-15).  That an
intrusive `kgl_list` behaves as a sequence is C06 (`Verif.KList`); here a list is the sequence of the connections
linked in it, and `linked i` is the test `queue.next != NULL` the code uses.  Times are unbounded integers.
-/

namespace Kasync.Sel

/-- The fields of `kselectable` used here (include/kselectable.h:56-84, kfiber_internal.h `kgl_base_selectable`):
`active_msec`, `tmo`, `tmo_left`; `rtmo` is `STF_RTIME_OUT && STF_READ`.  `since` and `grace` are ghosts: the time of the last
`kselector_add_list` to a timeout list (moved with the clock) and the value of `tmo` it copied to `tmo_left`. -/
structure Conn where
  active : Int := 0
  tmo : Nat := 0
  tmoLeft : Nat := 0
  rtmo : Bool := false
  since : Int := 0
  grace : Nat := 0
  deriving Repr, DecidableEq

/-- What a timeout check does to a connection. -/
inductive TEv where
  /-- `selectable_shutdown` (src/kselector.c:190) -/
  | shut (i : Nat) (at' : Int)
  /-- the read callback gets ST_ERR_TIME_OUT (186) -/
  | rtime (i : Nat) (at' : Int)
  deriving Repr, DecidableEq

structure LSt where
  now : Int := 0
  lists : Nat → List Nat := fun _ => []
  linked : Nat → Bool := fun _ => false
  conn : Nat → Conn := fun _ => {}
  count : Int := 0
  timeout : Nat → Int := fun _ => 60000
  log : List TEv := []

/-- Changes one connection. -/
def LSt.setConn (s : LSt) (i : Nat) (c : Conn) : LSt := { s with conn := fun j => if j = i then c else s.conn j }

/-- `klist_remove(&st->base.queue)` on a linked element: it leaves the list it is in. -/
def LSt.unlink (s : LSt) (i : Nat) : LSt := { s with lists := fun k => (s.lists k).erase i }

/-- `klist_append(&selector->list[k], ...)` -/
def LSt.append (s : LSt) (i k : Nat) : LSt :=
  { s with lists := fun j => if j = k then s.lists j ++ [i] else s.lists j,
           linked := fun j => if j = i then true else s.linked j }

/-- `memset(&st->base.queue, 0, ...)` -/
def LSt.clear (s : LSt) (i : Nat) : LSt := { s with linked := fun j => if j = i then false else s.linked j }

inductive LOp where
  /-- `kselector_add_list(selector, st, k)` -/
  | add (i k : Nat)
  /-- `kselector_add_fiber_ready` -/
  | ready (i : Nat)
  /-- `kselector_remove_list` -/
  | remove (i : Nat)
  /-- one iteration of the loop src/kselector.c:160-191 on list `k` -/
  | check (k : Nat)
  /-- one iteration of the ready loop, removal part (232-242); a re-registration (255-261) is an `add` -/
  | popReady
  /-- the clock is read -/
  | clock (ms : Int)
  /-- the clock is read and found set back: `kselector_adjust_time` first (126-132) -/
  | clockBack (ms : Int)
  /-- the connection's `tmo` or the read timeout flags are changed -/
  | config (i tmo : Nat) (rtmo : Bool)
  deriving Repr, DecidableEq

/-- `kselector_add_list`, include/kselectable.h:94-108; an index outside the lists fails the assertion at 101. -/
def addList (s : LSt) (i k : Nat) : Res LSt :=
  let c := s.conn i
  let c1 : Conn := { c with tmoLeft := c.tmo }
  let c2 : Conn := if k ≠ 2 then { c1 with active := s.now, since := s.now, grace := c.tmo } else c1
  let s1 := s.setConn i c2
  if k < 3 then
    if s.linked i then .ok ((s1.unlink i).append i k)
    else .ok ({ s1 with count := s1.count + 1 }.append i k)
  else .ub

/-- `kselector_add_fiber_ready`, include/kselectable.h:86-92 -/
def addReady (s : LSt) (i : Nat) : Res LSt :=
  if s.linked i then .ub else .ok ({ s with count := s.count + 1 }.append i 2)

/-- `kselector_remove_list`, include/kselectable.h:125-135 -/
def removeList (s : LSt) (i : Nat) : Res LSt :=
  if s.linked i then
    let s1 := (s.unlink i).clear i
    if s1.count > 0 then .ok { s1 with count := s1.count - 1 } else .ub
  else .ok s

/-- One iteration of the loop of `kselector_check_timeout` on list `k`, src/kselector.c:160-191; `disabled` is the `break`.
The read callback (186) runs after the iteration: whatever it does are further operations. -/
def checkIter (s : LSt) (k : Nat) : Res LSt :=
  match s.lists k with
  | [] => .disabled
  | i :: _ =>
    let c := s.conn i
    if s.now - c.active < s.timeout k then .disabled
    else
      let s1 := (s.unlink i).clear i
      if c.tmoLeft > 0 then
        .ok ((s1.setConn i { c with tmoLeft := c.tmoLeft - 1, active := s.now }).append i k)
      else if s1.count > 0 then
        if c.rtmo then
          let s2 := (s1.append i k).setConn i { c with active := s.now }
          .ok { s2 with log := s2.log ++ [.rtime i s.now] }
        else .ok { s1 with count := s1.count - 1, log := s1.log ++ [.shut i s.now] }
      else .ub

/-- Ready loop, src/kselector.c:232-242 -/
def popReady (s : LSt) : Res LSt :=
  match s.lists 2 with
  | [] => .disabled
  | i :: _ => .ok (let s1 := (s.unlink i).clear i; { s1 with count := s1.count - 1 })

/-- The list part of `kselector_adjust_time`, src/kselector.c:126-132 -/
def adjustLists (s : LSt) (d : Int) : LSt :=
  { s with conn := fun i =>
      if i ∈ s.lists 0 ∨ i ∈ s.lists 1 then
        { s.conn i with active := (s.conn i).active + d, since := (s.conn i).since + d }
      else s.conn i }

def lstep (s : LSt) : LOp → Res LSt
  | .add i k => addList s i k
  | .ready i => addReady s i
  | .remove i => removeList s i
  | .check k => if k < 2 then checkIter s k else .disabled
  | .popReady => popReady s
  | .clock ms => .ok { s with now := ms }
  | .clockBack ms => .ok { adjustLists s (ms - s.now) with now := ms }
  | .config i tmo rtmo => .ok (s.setConn i { s.conn i with tmo := tmo, rtmo := rtmo })

/-- The loop of src/kselector.c:160-191 on list `k` run to its `break` with callbacks that leave the lists alone;
`none` when `fuel` iterations do not end it. -/
def checkLoop : Nat → LSt → Nat → Option LSt
  | 0, _, _ => none
  | fuel + 1, s, k =>
    match checkIter s k with
    | .disabled => some s
    | .ok s' => checkLoop fuel s' k
    | .ub => none

end Kasync.Sel
