import Verif.Mgr.Life

/-!
# What is required of the selector manager (C59), in terms of the history of visible events
-/

namespace Kasync.Mlife

/-- the callbacks called, in order -/
def runs (h : List Ev) : List Nat := h.filterMap (fun e => match e with | .ran _ id => some id | _ => none)

/-- the hooks accepted, last one first -/
def hooks (h : List Ev) : List Nat := (h.filterMap (fun e => match e with | .threadInit id true => some id | _ => none)).reverse

/-- the thread an event happens on -/
def Ev.on : Ev → Option Nat
  | .born x | .hook x _ _ | .ran x _ | .died x => some x
  | _ => none

/-- what happened on the thread of selector `x` -/
def life (x : Nat) (h : List Ev) : List Ev := h.filter (fun e => e.on == some x)

/-- A thread of a selector lives like this, up to some point: it starts, calls every hook once with 0, then callbacks, then every hook once with 1, and ends. -/
def LifeOk (x : Nat) (hk : List Nat) (l : List Ev) : Prop :=
  ∃ rs : List Ev, (∀ e ∈ rs, ∃ id, e = .ran x id) ∧
    l <+: .born x :: hk.map (fun id => .hook x id 0) ++ rs ++ hk.map (fun id => .hook x id 1) ++ [.died x]

/-- one more reading of the clock: last reading, sum of all steps back to an earlier second -/
def clkStep (c : Int × Int) : Ev → Int × Int
  | .clock t => if t / 1000 < c.1 / 1000 then (t, c.2 + (t - c.1)) else (t, c.2)
  | _ => c

def clk (h : List Ev) : Int × Int := h.foldl clkStep (0, 0)

/-- the clock with its steps back taken out: what it would show had it not been set back -/
def cont (h : List Ev) : Int := (clk h).1 - (clk h).2

/-- timer `id` was asked for, and at some moment since then its time had come -/
def OnTime (id : Nat) (h : List Ev) : Prop :=
  ∃ h1 m h2 h3, h = h1 ++ .timer id m :: h2 ++ h3 ∧ cont h1 + m ≤ cont (h1 ++ .timer id m :: h2)

/-- all selectors of the manager satisfy `p` -/
def St.all (s : St) (p : Sel → Bool) : Bool := (List.range (s.n.getD 0)).all (fun x => p (s.sel x))

def Note.isTimer : Note → Bool
  | .timer _ _ | .fwd _ _ => true
  | _ => false

def Note.isAdjust : Note → Bool
  | .adjust _ => true
  | _ => false

def Note.isFwd : Note → Bool
  | .fwd _ _ => true
  | _ => false

/-- Rules for shutting down: a selector is destroyed only if its thread is not about to start and no timer asked for before initialisation is still being
placed; after the first one is destroyed nobody starts a thread, calls the manager or sets the clock back. -/
def polite (s : St) : Op → Bool
  | .onReady _ | .addTimer _ _ | .addTimerTs _ _ _ | .start _ => ! s.someDestroyed
  | .update _ t => decide (s.clock / 1000 ≤ t / 1000) || ! s.someDestroyed
  | .destroy x => (s.sel x).phase != .posted && s.all (fun l => ! l.inbox.any Note.isFwd)
  | _ => true

/-- Rules for normal operation: selector_manager_init does not overlap with selector_manager_on_ready; the clock is set back only while no timer is
on its way to a selector, and no timer is asked for while some selector has not yet been told; no shutdown. -/
def calm (s : St) : Op → Bool
  | .init _ _ => s.mid.isEmpty
  | .addTimer _ _ | .addTimerTs _ _ _ | .addTimerHere _ _ => s.all (fun l => ! l.inbox.any Note.isAdjust)
  | .update _ t => decide (s.clock / 1000 ≤ t / 1000) || (s.all (fun l => ! l.inbox.any Note.isTimer) && ! s.ready.any Note.isTimer)
  | .shutdown | .close => false
  | _ => true

def stepP (md : Bool) (s : St) (o : Op) : Res St := if polite s o then step md s o else .disabled
def stepC (md : Bool) (s : St) (o : Op) : Res St := if calm s o then step md s o else .disabled

/-- initialised, every thread in its loop, nothing posted, no timer due -/
structure AtRest (s : St) : Prop where
  init : s.n ≠ none
  phase : ∀ x, s.inRange x = true → (s.sel x).phase = .loop
  inbox : ∀ x, s.inRange x = true → (s.sel x).inbox = []
  firing : ∀ x, s.inRange x = true → (s.sel x).firing = []
  timers : ∀ x, s.inRange x = true → ∀ p ∈ (s.sel x).timers, s.clock < p.2

/-- the steps the threads of the selectors take by themselves (`check` only with a timer that is due) -/
def isLib (s : St) : Op → Bool
  | .born _ | .hook _ | .handle _ _ | .fire _ => true
  | .check x => (s.sel x).timers.any (fun p => decide (p.2 ≤ s.clock))
  | _ => false

/-- a run of such steps -/
inductive LibRun (md : Bool) : St → List Op → St → Prop
  | nil (s : St) : LibRun md s [] s
  | cons {s t u : St} {o : Op} {os : List Op} : isLib s o = true → step md s o = .ok t → LibRun md t os u → LibRun md s (o :: os) u

/-- every selector's thread has at least been handed to the thread pool -/
def Started (s : St) : Prop := s.n ≠ none ∧ ∀ x, s.inRange x = true → (s.sel x).phase ≠ .none

end Kasync.Mlife
