import Verif.Sel.Timer
import Mathlib.Data.List.Sort

/-!
# Specification of timers

A timer is a pair (identity, deadline).  The pending ones are kept newest first.  A check takes those whose
deadline has been reached; they are called in order of deadline, and the newest first among equal deadlines
(`List.insertionSort` is stable).  When the wall clock is set back, every deadline moves with it.
-/

namespace Kasync.Sel

structure Tm where
  id : Nat
  due : Int
  deriving Repr, DecidableEq

/-- deadline order -/
abbrev Tm.le (a b : Tm) : Prop := a.due ≤ b.due

structure Spec where
  now : Int := 0
  pending : List Tm := []
  firing : List Tm := []
  checkAt : Int := 0
  posted : List Int := []
  log : List Fired := []
  deriving DecidableEq

/-- every deadline moves with the clock -/
def shift (d : Int) (l : List Tm) : List Tm := l.map (fun t => ⟨t.id, t.due + d⟩)

def Spec.step (s : Spec) : Op → Option Spec
  | .add id msec => some { s with pending := ⟨id, s.now + msec⟩ :: s.pending }
  | .clock ms own =>
    if ms / 1000 < s.now / 1000 then
      if own then some { s with pending := shift (ms - s.now) s.pending, now := ms }
      else some { s with posted := s.posted ++ [ms - s.now], now := ms }
    else some { s with now := ms }
  | .deliver =>
    match s.posted with
    | [] => none
    | d :: ds => some { s with pending := shift d s.pending, posted := ds }
  | .check =>
    if s.firing ≠ [] then none else
    some { s with
      pending := s.pending.filter (fun t => decide (s.now < t.due)),
      firing := (s.pending.filter (fun t => decide (t.due ≤ s.now))).insertionSort Tm.le, checkAt := s.now }
  | .fire =>
    match s.firing with
    | [] => none
    | b :: bs => some { s with firing := bs, log := s.log ++ [⟨b.id, s.checkAt⟩] }

def Spec.run (s : Spec) : List Op → Option Spec
  | [] => some s
  | o :: os => match s.step o with
    | none => none
    | some s' => s'.run os

/-- Timers registered by a history, with the deadline `registration time + delay`. -/
def registered (now : Int) : List Op → List Tm
  | [] => []
  | .add id msec :: os => ⟨id, now + msec⟩ :: registered now os
  | .clock ms _ :: os => registered ms os
  | _ :: os => registered now os

/-- The wall clock never goes back in the history. -/
def ForwardClock (now : Int) : List Op → Prop
  | [] => True
  | .clock ms _ :: os => now ≤ ms ∧ ForwardClock ms os
  | _ :: os => ForwardClock now os

/-- The timers waiting in the tree of the code (identities only). -/
def pendingIds (s : St) : List Nat := s.tree.inorder.flatMap (fun n => (n.head :: n.rest).map Brq.id)

end Kasync.Sel
