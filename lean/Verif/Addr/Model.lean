import Verif.Common

/-!
# Model of the address cache, src/kaddr.c

Each region under `addr_lock`, each atomic reference count access and each callback is one step; the order of all these steps is arbitrary.
A key is the pair (type, host name up to case), here a number.  `addr_tree` is the map `tree`, `addr_list` the list `lru` of the keys of
cached nodes (`cn->prev != NULL`, field `cached`).  `klist` and `krbtree` are verified in `Verif.KList` and `Verif.RB`.  A pending node can
only be removed by its own job, so jobs are named by their key.  `get_addr` (DNS) is nondeterministic: it never reports failure, only
an empty result.  Ghost fields: `owner` (the key an address was resolved for), `hist` (all results a node got, newest first),
`done` (callbacks that returned), `reqs` (all requests).
-/

namespace Kasync.Addr

structure Req where
  id : Nat
  key : Nat
  deriving Repr, DecidableEq

/-- `struct kgl_addr_node_s`, src/kaddr.c:37-50; `next`/`prev` and `queue` share storage: a cached node has no queue -/
structure Node where
  cached : Bool := false
  queue : List Req := []
  addr : Option Nat := none
  last : Option Nat := none
  err : Nat := 0
  lastTime : Int := 0
  lastVerify : Int := 0
  hist : List (Option Nat) := []
  deriving Repr, DecidableEq

structure St where
  tree : Nat → Option Node := fun _ => none
  lru : List Nat := []
  /-- `addr_count` -/
  count : Int := 0
  /-- reference count of an address; 0: not allocated or freed -/
  ref : Nat → Int := fun _ => 0
  naddr : Nat := 0
  /-- nodes whose job is about to be given to the worker (src/kaddr.c:344-348) -/
  starting : List Nat := []
  /-- first resolutions (`async_addr_worker`) and refreshes (`async_addr_cache_worker`) under way -/
  jobs : List Nat := []
  refresh : List Nat := []
  /-- requests `addr_result` still has to post, with the result; it holds no reference for them -/
  publishing : List (Req × Option Nat) := []
  /-- posted to a selector -/
  callbacks : List (Req × Option Nat) := []
  /-- callbacks called directly by `kgl_find_addr` that have not returned -/
  calling : List (Req × Option Nat) := []
  /-- references returned by `kgl_find_cache_addr` -/
  held : List Nat := []
  done : List (Req × Option Nat) := []
  reqs : List Req := []
  owner : Nat → Nat := fun _ => 0

def upd {α : Type} (f : Nat → α) (i : Nat) (x : α) : Nat → α := fun j => if j = i then x else f j

def bind {σ τ : Type} (r : Res σ) (f : σ → Res τ) : Res τ :=
  match r with
  | .ok s => f s
  | .disabled => .disabled
  | .ub => .ub

/-- `KADDR_*`, src/kaddr.c:16-19 -/
def freshTime : Int := 30
def maxCount : Int := 1048576
def maxIdle : Int := 3600
def maxErr : Nat := 10

/-- `kgl_addr_refs` on an optional address, src/kaddr.c:79-82 -/
def incOpt (s : St) : Option Nat → Res St
  | none => .ok s
  | some a => if s.ref a ≤ 0 then .ub else .ok { s with ref := upd s.ref a (s.ref a + 1) }

/-- `kgl_addr_release` on an optional address, src/kaddr.c:83-91 -/
def decOpt (s : St) : Option Nat → Res St
  | none => .ok s
  | some a => if s.ref a ≤ 0 then .ub else .ok { s with ref := upd s.ref a (s.ref a - 1) }

/-- the use of a found node in `find_addr_in_tree`, src/kaddr.c:279-298: a cached node moves to the end of the list and may be refreshed -/
def touch (s : St) (k : Nat) (n : Node) (now : Int) (tryOk : Bool) : St :=
  if n.cached then
    let s1 := { s with lru := s.lru.erase k ++ [k] }
    if now - n.lastVerify > freshTime then
      { s1 with tree := upd s.tree k (some { n with lastTime := now, lastVerify := now }),
                refresh := if tryOk then s.refresh ++ [k] else s.refresh }
    else { s1 with tree := upd s.tree k (some { n with lastTime := now }) }
  else s

/-- the address a cached node serves, src/kaddr.c:320-323 -/
def served (n : Node) : Option Nat := match n.addr with | some a => some a | none => n.last

/-- `kgl_find_addr` up to the unlock, src/kaddr.c:310-343 -/
def find (s : St) (k : Nat) (now : Int) (tryOk : Bool) : Res St :=
  let r : Req := ⟨s.reqs.length, k⟩
  let s0 := { s with reqs := s.reqs ++ [r] }
  match s.tree k with
  | none =>
    .ok { s0 with tree := upd s.tree k (some { queue := [r], lastTime := now, lastVerify := now }), starting := s.starting ++ [k] }
  | some n =>
    let s1 := touch s0 k n now tryOk
    if n.cached then
      let addr := served n
      bind (incOpt s1 addr) (fun s2 => .ok { s2 with calling := s2.calling ++ [(r, addr)] })
    else .ok { s1 with tree := upd s1.tree k (some { n with queue := r :: n.queue }) }

/-- `kgl_find_cache_addr`, src/kaddr.c:351-365 -/
def findCache (s : St) (k : Nat) (now : Int) (tryOk : Bool) : Res St :=
  match s.tree k with
  | none => .ok s
  | some n =>
    let s1 := touch s k n now tryOk
    if n.cached then
      bind (incOpt s1 n.addr) (fun s2 => .ok { s2 with held := match n.addr with | some a => s2.held ++ [a] | none => s2.held })
    else .ok s1

/-- `find_addr_result` without success, src/kaddr.c:215-228 and 202-214 -/
def resultFail (s : St) (k : Nat) : Res St :=
  match s.tree k with
  | none => .ub
  | some n =>
    if n.cached then .ub else
    bind (decOpt { s with tree := upd s.tree k none } n.addr) (fun s1 =>
    bind (decOpt s1 n.last) (fun s2 =>
    .ok { s2 with publishing := s2.publishing ++ n.queue.map (fun r => (r, none)) }))

/-- `find_addr_result` with success, src/kaddr.c:229-234 and 121-135; `found`: the result is not empty -/
def resultOk (s : St) (k : Nat) (found : Bool) : Res St :=
  match s.tree k with
  | none => .ub
  | some n =>
    if n.cached then .ub else
    if n.addr ≠ none ∨ n.last ≠ none then .ub else
    let a := if found then some s.naddr else none
    let s1 := if found then { s with naddr := s.naddr + 1, ref := upd s.ref s.naddr 1, owner := upd s.owner s.naddr k } else s
    bind (incOpt s1 a) (fun s2 =>
    .ok { s2 with tree := upd s.tree k (some { n with cached := true, queue := [], addr := a, last := a, hist := a :: n.hist }),
                  lru := s.lru ++ [k], count := s.count + 1, publishing := s.publishing ++ n.queue.map (fun r => (r, a)) })

/-- `update_addr_cache`, src/kaddr.c:136-176.  On a pending node `klist_remove` follows a NULL `prev`. -/
def updateCache (s : St) (k : Nat) (found : Bool) (now : Int) : Res St :=
  let fresh : Bool := (s.tree k).isNone
  let n0 : Node := (s.tree k).getD { cached := true, lastTime := now, lastVerify := now }
  if !n0.cached then .ub else
  let s0 := { s with count := if fresh then s.count + 1 else s.count, lru := (if fresh then s.lru else s.lru.erase k) ++ [k] }
  bind (decOpt s0 n0.addr) (fun s1 =>
  if found then
    let a := s1.naddr
    let s2 := { s1 with naddr := a + 1, ref := upd s1.ref a 1, owner := upd s1.owner a k }
    bind (decOpt s2 n0.last) (fun s3 =>
    bind (incOpt s3 (some a)) (fun s4 =>
    .ok { s4 with tree := upd s4.tree k (some { n0 with addr := some a, last := some a, err := 0, hist := some a :: n0.hist }) }))
  else
    let err := n0.err + 1
    if err ≥ maxErr then
      bind (decOpt s1 n0.last) (fun s2 =>
      .ok { s2 with tree := upd s2.tree k (some { n0 with addr := none, last := none, err := err, hist := none :: n0.hist }) })
    else .ok { s1 with tree := upd s1.tree k (some { n0 with addr := none, err := err, hist := none :: n0.hist }) })

/-- `kgl_flush_addr_cache`, src/kaddr.c:367-385; running out of fuel stands for not terminating -/
def flushLoop (now : Int) : Nat → St → Res St
  | 0, _ => .ub
  | fuel + 1, s =>
    match s.lru with
    | [] => .ok s
    | k :: r =>
      match s.tree k with
      | none => .ub
      | some n =>
        if now - n.lastTime < maxIdle ∧ s.count < maxCount then .ok s else
        bind (decOpt { s with tree := upd s.tree k none, lru := r } n.addr) (fun s1 =>
        bind (decOpt s1 n.last) (fun s2 => flushLoop now fuel { s2 with count := s2.count - 1 }))

inductive Op where
  | find (k : Nat) (now : Int) (tryOk : Bool)
  | findCache (k : Nat) (now : Int) (tryOk : Bool)
  /-- the user drops a reference got from `kgl_find_cache_addr` -/
  | releaseHeld (a : Nat)
  /-- the direct callback of `kgl_find_addr` returns -/
  | callDone (x : Req × Option Nat)
  /-- src/kaddr.c:344-348: the worker takes the job, or the caller runs it with -1 -/
  | startJob (k : Nat) (ok : Bool)
  /-- `async_addr_worker` after more than ten seconds in the queue -/
  | timeout (k : Nat)
  /-- `async_addr_worker` with the result of the resolver -/
  | resolved (k : Nat) (found : Bool)
  /-- one round of `addr_result` -/
  | publish (x : Req × Option Nat)
  /-- `addr_next_call` on the request's selector -/
  | deliver (x : Req × Option Nat)
  | refreshed (k : Nat) (found : Bool) (now : Int)
  | flush (now : Int)
  deriving Repr, DecidableEq

def step (s : St) : Op → Res St
  | .find k now t => find s k now t
  | .findCache k now t => findCache s k now t
  | .releaseHeld a => if a ∈ s.held then decOpt { s with held := s.held.erase a } (some a) else .disabled
  | .callDone x =>                 -- src/kaddr.c:328-333
    if x ∈ s.calling then decOpt { s with calling := s.calling.erase x, done := s.done ++ [x] } x.2 else .disabled
  | .startJob k ok =>
    if k ∈ s.starting then
      let s1 := { s with starting := s.starting.erase k }
      if ok then .ok { s1 with jobs := s1.jobs ++ [k] } else resultFail s1 k
    else .disabled
  | .timeout k => if k ∈ s.jobs then resultFail { s with jobs := s.jobs.erase k } k else .disabled
  | .resolved k found => if k ∈ s.jobs then resultOk { s with jobs := s.jobs.erase k } k found else .disabled
  | .publish x =>                  -- src/kaddr.c:193-199
    if x ∈ s.publishing then
      incOpt { s with publishing := s.publishing.erase x, callbacks := s.callbacks ++ [x] } x.2
    else .disabled
  | .deliver x =>                  -- src/kaddr.c:178-189
    if x ∈ s.callbacks then decOpt { s with callbacks := s.callbacks.erase x, done := s.done ++ [x] } x.2 else .disabled
  | .refreshed k found now =>
    if k ∈ s.refresh then updateCache { s with refresh := s.refresh.erase k } k found now else .disabled
  | .flush now => flushLoop now (s.lru.length + 1) s

/-- after `kgl_addr_init`, src/kaddr.c:413-425 -/
def ainit : St := {}

end Kasync.Addr
