import Verif.Addr.Model

/-! # Vocabulary of the address cache properties -/

namespace Kasync.Addr

/-- failures since the last success, newest result first -/
def fails (h : List (Option Nat)) : Nat := (h.takeWhile (fun x => x.isNone)).length

/-- the most recent success -/
def lastSuccess (h : List (Option Nat)) : Option Nat := h.findSome? id

/-- What a cached entry with these results should serve: the most recent success, unless it was followed by ten or more failures. -/
def best (h : List (Option Nat)) : Option Nat := if fails h < 10 then lastSuccess h else none

/-- the requests waiting in a node -/
def queueOf : Option Node → List Req
  | some n => n.queue
  | none => []

/-- the requests waiting for a first resolution -/
def waiting (s : St) : List Req := (s.starting ++ s.jobs).flatMap (fun k => queueOf (s.tree k))

/-- the references to address `a` held by a node -/
def nodeRefs (a : Nat) : Option Node → Nat
  | some n => (if n.addr = some a then 1 else 0) + (if n.last = some a then 1 else 0)
  | none => 0

/-- the references to address `a` held by cached entries, posted or running callbacks and users -/
def holders (s : St) (a : Nat) : Nat :=
  (s.lru.map (fun k => nodeRefs a (s.tree k))).sum + (s.callbacks.filter (fun x => decide (x.2 = some a))).length +
  (s.calling.filter (fun x => decide (x.2 = some a))).length + (s.held.filter (fun b => decide (b = a))).length

end Kasync.Addr
