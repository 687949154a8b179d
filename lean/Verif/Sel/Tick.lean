import Verif.Common
import Verif.KList.Model

/-!
# Model of selector ticks (src/kselector.c:22-27, 269-280, 323-352)

One selector and its thread.  The ticks are `kgl_list` links in memory (`KList.Mem`, the macros of include/klist.h are those of `KList.Model`); a callback is
arbitrary code that may create, register and close ticks and then returns a number: between a call and its return any of these steps may happen.

Simplified: `kselector_new(tick)` (87-102) is a registration before the first round; on a thread without selector `kselector_register_tick` and
`kselector_close_tick` return false and do nothing, this is not modelled; a failing allocation of a tick returns NULL and does nothing.
-/

namespace Kasync.Tick

open KList (Mem)

/-- address of `selector->tick` -/
def HEAD : Nat := 1

/-- What happens, as seen from outside.  Ticks are numbered in the order of their creation (an address may be used again). -/
inductive Ev where
  | created (id fn arg : Nat)
  | registered (id : Nat)
  | closed (id : Nat)
  /-- the callback is called with its argument and the number of events -/
  | called (id fn arg : Nat) (n : Int)
  | returned (v : Int)
  /-- a round begins, with this number of events -/
  | began (n : Int)
  deriving Repr, DecidableEq

/-- A finished round: what happened before it, what happened in it, the number of events it was given, the time it returned. -/
structure Round where
  past : List Ev
  mid : List Ev
  ev : Int
  tmo : Int
  deriving Repr, DecidableEq

structure St where
  mem : Mem
  /-- the fields `cb` and `arg` of the tick at an address -/
  data : Nat → Nat × Nat
  /-- `some n`: a callback is running, `tick_next_list` is `n` -/
  pos : Option Nat := none
  /-- `event_number` -/
  ev : Int := 0
  /-- `min_event_time` -/
  min : Int := 100
  -- ghosts
  id : Nat → Nat
  nextId : Nat := 0
  past : List Ev := []
  mid : List Ev := []
  rounds : List Round := []

/-- A new selector: `klist_init(&selector->tick)`, src/kselector.c:96. -/
def init : St where
  mem := { valid := fun a => a == HEAD, next := fun _ => HEAD, prev := fun _ => HEAD }
  data := fun _ => (0, 0)
  id := fun _ => 0

/-- History. -/
def St.emit (s : St) (e : Ev) : St := { s with mid := s.mid ++ [e] }

/-- The loop test and the call, src/kselector.c:271-274, for `tick_list = p`; at the header the function returns (280). -/
def enter (s : St) (p : Nat) : Res St :=
  if p = HEAD then
    .ok { s with
      pos := none
      rounds := s.rounds ++ [⟨s.past, s.mid, s.ev, s.min⟩]
      past := s.past ++ s.mid
      mid := [] }
  else match s.mem.getNext p with
    | none => .ub
    | some n => .ok { s.emit (.called (s.id p) (s.data p).1 (s.data p).2 s.ev) with pos := some n }

inductive Op where
  /-- `kselector_new_tick(fn, arg)` gets the memory at `a` -/
  | new (a fn arg : Nat)
  | register (a : Nat)
  | close (a : Nat)
  /-- `kselector_check_timeout(selector, ev)` comes to the ticks -/
  | begin (ev : Int)
  /-- the running callback returns -/
  | ret (v : Int)
  deriving Repr, DecidableEq

def step (s : St) : Op → Res St
  -- `kselector_new_tick`, src/kselector.c:323-333
  | .new a fn arg =>
    if s.mem.valid a = true ∨ a = 0 ∨ a = HEAD then .disabled
    else
      match KList.init { s.mem with valid := fun x => if x = a then true else s.mem.valid x } a with
      | none => .ub
      | some m => .ok { s with
          mem := m
          data := fun x => if x = a then (fn, arg) else s.data x
          id := fun x => if x = a then s.nextId else s.id x
          nextId := s.nextId + 1
          mid := s.mid ++ [.created s.nextId fn arg] }
  -- `kselector_register_tick`, src/kselector.c:334-342
  | .register a =>
    match KList.insert s.mem HEAD a with
    | none => .ub
    | some m => .ok ({ s with mem := m }.emit (.registered (s.id a)))
  -- `kselector_close_tick`, src/kselector.c:343-352; the memory is gone afterwards
  | .close a =>
    match KList.remove s.mem a with
    | none => .ub
    | some m => .ok ({ s with mem := { m with valid := fun x => if x = a then false else m.valid x } }.emit (.closed (s.id a)))
  -- src/kselector.c:157 and 269
  | .begin ev =>
    if s.pos = none then
      match s.mem.getNext HEAD with
      | none => .ub
      | some p => enter { s with past := s.past ++ s.mid, mid := [.began ev], ev := ev, min := 100 } p
    else .disabled
  -- src/kselector.c:274-278
  | .ret v =>
    match s.pos with
    | none => .disabled
    | some p => enter { s.emit (.returned v) with min := if 0 < v ∧ v < s.min then v else s.min } p

end Kasync.Tick
