import Verif.Fiber.RemoteSpec

/-! # The invariant behind C58 -/

namespace Kasync.Remote

def onCpu : FSt → Prop
  | .run | .armed | .joined _ => True
  | _ => False

/-- suspended in, or about to suspend in, kfiber_thread_call -/
def calling : FSt → Prop
  | .armed | .waitCall => True
  | _ => False

def done : FSt → Prop
  | .notified | .gone => True
  | _ => False

def active : FSt → Prop
  | .run | .armed | .waitCall | .waitJoin _ | .joined _ | .away => True
  | _ => False

def over : FSt → Prop
  | .exiting | .notified | .gone => True
  | _ => False

def flight (s : St) : List Nat := s.inbox.map (·.fib) ++ (s.jobs ++ s.workers.map (·.1))

/-- where every fiber is -/
structure Loc (s : St) : Prop where
  nd : (flight s).Nodup
  inb : ∀ m ∈ s.inbox, m.sel = (s.fib m.fib).sel ∧
    ((s.fib m.fib).st = .fresh ∨ (calling (s.fib m.fib).st ∧ m.obj = .arg (s.fib m.fib).arg) ∨
      ((∃ h, (s.fib m.fib).st = .waitJoin h) ∧ m.obj = .self m.fib))
  job : ∀ c ∈ s.jobs, calling (s.fib c).st
  wrk : ∀ q ∈ s.workers, calling (s.fib q.1).st ∧ q.2 = (s.fib q.1).call
  fly : ∀ c, (s.fib c).st = .fresh ∨ calling (s.fib c).st → c ∈ flight s
  snd : ∀ x, (s.stack x).Nodup
  stk : ∀ x, ∀ c ∈ s.stack x, (s.fib c).sel = x ∧ onCpu (s.fib c).st
  cpu : ∀ c, onCpu (s.fib c).st → c ∈ s.stack (s.fib c).sel
  rnd : ∀ x, (s.ready x).Nodup
  rdy : ∀ x c, c ∈ s.ready x ↔ (s.fib c).st = .exiting ∧ (s.fib c).sel = x
  rpg : ∀ x c, s.reaping x = some c ↔ (s.fib c).st = .notified ∧ (s.fib c).sel = x
  cdc : ∀ c, (s.fib c).st = .waitCall → (s.fib c).code = .arg (s.fib c).arg
  cdj : ∀ c h, (s.fib c).st = .waitJoin h → (s.fib c).code = .self c
  new : ∀ c, (s.fib c).st = .none → s.fib c = {}

/-- who waits for whom, and the references -/
structure Jn (s : St) : Prop where
  wtr : ∀ g, (s.fib g).waiter = [] ∨ ∃ w, (s.fib g).waiter = [w] ∧ (s.fib g).owner = some (w, true) ∧ ¬ done (s.fib g).st
  ofj : ∀ g c, (s.fib g).owner = some (.fib c, true) ↔ ((s.fib c).st = .waitJoin g ∨ (s.fib c).st = .joined g)
  oft : ∀ g p, (s.fib g).owner = some (.thr p, true) ↔ (s.thr p = .waiting g ∨ s.thr p = .woken g)
  wjn : ∀ g c, (s.fib c).st = .waitJoin g →
    ((s.fib g).waiter = [.fib c] ∧ c ∉ flight s) ∨ (done (s.fib g).st ∧ c ∈ flight s)
  jnd : ∀ g c, (s.fib c).st = .joined g → done (s.fib g).st
  twt : ∀ g p, s.thr p = .waiting g → (s.fib g).waiter = [.thr p]
  twk : ∀ g p, s.thr p = .woken g → done (s.fib g).st
  evd : ∀ g, (s.fib g).ev = true → done (s.fib g).st
  evo : ∀ g w, done (s.fib g).st → (s.fib g).owner = some (w, false) → (s.fib g).ev = true
  cnf : ∀ g c b, (s.fib g).owner = some (.fib c, b) → (s.fib g).cond = some .ts
  cnt : ∀ g p b, (s.fib g).owner = some (.thr p, b) → (s.fib g).cond = some .sync
  ref : ∀ g, (s.fib g).st ≠ .none →
    (s.fib g).ref = (if (s.fib g).st = .gone then 0 else 1) + (if (s.fib g).owner.isSome then 1 else 0)
  frd : ∀ g, (s.fib g).freed = true ↔ (s.fib g).st ≠ .none ∧ (s.fib g).ref = 0

def H0 (s : St) (k : Nat) (w : Caller) (p : Place) (f a : Nat) (n : Int) : Prop :=
  proj k s.hist = [.called k w p f a n]
def H1 (s : St) (k : Nat) (p : Place) : Prop :=
  ∃ w f a n, proj k s.hist = [.called k w p f a n, .entered k p f a n]
def H2 (s : St) (k : Nat) (p : Place) (v : Int) : Prop :=
  ∃ w f a n, proj k s.hist = [.called k w p f a n, .entered k p f a n, .left k v]
def H3 (s : St) (k : Nat) (p : Place) (v : Int) : Prop :=
  ∃ w f a n, proj k s.hist = [.called k w p f a n, .entered k p f a n, .left k v, .returned k v]

/-- what the history says about every call -/
structure Hs (s : St) : Prop where
  fut : ∀ k, s.next ≤ k → proj k s.hist = []
  okk : ∀ k, k < s.next → CallOk k (proj k s.hist)
  ow1 : ∀ g g' k, (s.fib g).own = some k → (s.fib g').own = some k → g = g'
  ow2 : ∀ g c k, (s.fib g).own = some k → calling (s.fib c).st → (s.fib c).call ≠ k
  ow3 : ∀ c c', calling (s.fib c).st → calling (s.fib c').st → (s.fib c).call = (s.fib c').call → c = c'
  ow4 : ∀ g k, (s.fib g).own = some k → k < s.next
  ow5 : ∀ c, calling (s.fib c).st → (s.fib c).call < s.next
  hjob : ∀ c ∈ s.jobs, H0 s (s.fib c).call (.fib c) .pool (s.fib c).start (s.fib c).arg (s.fib c).retval
  hwrk : ∀ q ∈ s.workers, H1 s q.2 .pool
  hinb : ∀ m ∈ s.inbox, calling (s.fib m.fib).st → H2 s (s.fib m.fib).call .pool m.val
  hfr : ∀ m ∈ s.inbox, (s.fib m.fib).st = .fresh → ∀ k, (s.fib m.fib).own = some k →
    ∃ w, H0 s k w (.sel (s.fib m.fib).sel) (s.fib m.fib).start (s.fib m.fib).arg m.val
  hac : ∀ g k, (s.fib g).own = some k → active (s.fib g).st → H1 s k (.sel (s.fib g).sel)
  hov : ∀ g k, (s.fib g).own = some k → over (s.fib g).st →
    ((s.fib g).owner = none ∧ (s.fib g).cond ≠ none → H3 s k (.sel (s.fib g).sel) (s.fib g).retval) ∧
    (¬ ((s.fib g).owner = none ∧ (s.fib g).cond ≠ none) → H2 s k (.sel (s.fib g).sel) (s.fib g).retval)
  hcp : ∀ k c f a n, Ev.called k (.fib c) .pool f a n ∈ s.hist →
    Ev.refused k ∈ s.hist ∨ (∃ v, Ev.returned k v ∈ s.hist) ∨ (calling (s.fib c).st ∧ (s.fib c).call = k)
  hcs : ∀ k w t f a n, Ev.called k w (.sel t) f a n ∈ s.hist →
    Ev.refused k ∈ s.hist ∨ ∃ g, (s.fib g).own = some k ∧ (s.fib g).sel = t
  oow : ∀ g, (s.fib g).owner ≠ none → (s.fib g).own ≠ none
  hcd : ∀ g, (s.fib g).cond ≠ none → ¬ done (s.fib g).st → (s.fib g).owner ≠ none

structure Inv (s : St) : Prop where
  loc : Loc s
  jn : Jn s
  hs : Hs s

theorem inv_init : Inv init := by
  refine ⟨?_, ?_, ?_⟩ <;> constructor <;> simp [init, flight, calling, onCpu, done, active, over, proj]

theorem proj_append (k : Nat) (h l : List Ev) : proj k (h ++ l) = proj k h ++ proj k l := List.filter_append ..

@[simp] theorem proj_nil (k : Nat) : proj k [] = [] := rfl
theorem proj_cons (k : Nat) (e : Ev) (l : List Ev) : proj k (e :: l) = if e.no = k then e :: proj k l else proj k l := by
  simp [proj, List.filter_cons, beq_iff_eq]

end Kasync.Remote
