import Verif.Fiber.Remote

/-!
# What a call executed elsewhere must look like from outside (C58)

Only the history of visible events is used here: calls, refusals, entries into and returns from the user's function, and returns to the caller.
-/

namespace Kasync.Remote

/-- the call an event is about -/
def Ev.no : Ev → Nat
  | .called k _ _ _ _ _ => k
  | .refused k => k
  | .entered k _ _ _ _ => k
  | .left k _ => k
  | .returned k _ => k

/-- the events of call `k`, in order -/
def proj (k : Nat) (h : List Ev) : List Ev := h.filter (fun e => e.no == k)

/-- The life of call `k` so far: it was made; it was refused; or its function was entered once, at the place asked for, with the function, argument
and number given; then left with some value `v`; then the caller got exactly that `v`. -/
inductive CallOk (k : Nat) : List Ev → Prop where
  | made (w : Caller) (p : Place) (f a : Nat) (n : Int) : CallOk k [.called k w p f a n]
  | refused (w : Caller) (p : Place) (f a : Nat) (n : Int) : CallOk k [.called k w p f a n, .refused k]
  | entered (w : Caller) (p : Place) (f a : Nat) (n : Int) : CallOk k [.called k w p f a n, .entered k p f a n]
  | left (w : Caller) (p : Place) (f a : Nat) (n v : Int) : CallOk k [.called k w p f a n, .entered k p f a n, .left k v]
  | returned (w : Caller) (p : Place) (f a : Nat) (n v : Int) :
      CallOk k [.called k w p f a n, .entered k p f a n, .left k v, .returned k v]

/-- nothing is left to do for the threads of the pool, the selectors' loops and the threads waking up -/
structure AtRest (s : St) : Prop where
  inbox : s.inbox = []
  jobs : s.jobs = []
  workers : s.workers = []
  stack : ∀ x, s.stack x = []
  ready : ∀ x, s.ready x = []
  reaping : ∀ x, s.reaping x = none
  thr : ∀ p g, s.thr p ≠ .woken g

end Kasync.Remote
