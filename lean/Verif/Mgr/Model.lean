import Verif.Common

/-!
# Model of src/kselector_manager.c: number of selectors, selector choice, timeouts, on-ready callbacks

`int` arithmetic is on integers (an overflow of `sec * 1000` or `count + 64` is not modelled), `unsigned` indices are `BitVec 32`.
-/

namespace Kasync.Mgr

/-- The loop of `kgl_pow2`, src/kselector_manager.c:228-237; `rem` iterations are left. -/
def pow2Loop (size : Int) : Nat → Nat → Int → Int
  | 0, _, result => result
  | rem + 1, i, _ =>
    if (2 : Int) ^ i = size then 2 ^ i
    else if (2 : Int) ^ i > size then 2 ^ i / 2
    else pow2Loop size rem (i + 1) (2 ^ i)

/-- `kgl_pow2`, src/kselector_manager.c:226-242 -/
def kglPow2 (size : Int) (maxBits : Nat) : Int :=
  let r := pow2Loop size maxBits 0 0
  if r = 0 then 1 else r

/-- The globals of src/kselector_manager.c:29-32; `loads i` is `kgl_selectors[i]->count`, `timeouts i k` is
`kgl_selectors[i]->timeout[k]`. -/
structure Mgr where
  count : Nat
  hash : BitVec 32
  index : BitVec 32 := 0
  timeouts : Nat → Nat → Int := fun _ _ => 60000

/-- `selector_set_time_out`, src/kselector_manager.c:296-304 -/
def setTimeOut (m : Mgr) (k : Nat) (msec : Int) : Mgr :=
  let msec := if msec ≤ 0 then 60000 else msec
  { m with timeouts := fun i j => if i < m.count ∧ j = k then msec else m.timeouts i j }

/-- `selector_manager_set_timeout`, src/kselector_manager.c:305-312 -/
def setTimeouts (m : Mgr) (connectSec rwSec : Int) : Mgr :=
  let connectSec := if connectSec ≤ 0 then rwSec else connectSec
  setTimeOut (setTimeOut m 0 (connectSec * 1000)) 1 (rwSec * 1000)

/-- `selector_manager_init`, src/kselector_manager.c:269-283: the table of selectors. -/
def init (size : Int) : Mgr :=
  let n := (kglPow2 size 7).toNat
  setTimeouts { count := n, hash := BitVec.ofNat 32 n - 1 } 60 60

/-- `selector_manager_grow`, src/kselector_manager.c:243-268 (`safe`: called on selector 0's thread; the allocation succeeds). -/
def grow (m : Mgr) (newSize : Int) (safe : Bool) : Mgr × Bool :=
  let n := kglPow2 newSize 7
  if n ≤ m.count then (m, false)
  else if m.count > 1 ∨ safe = false then (m, false)
  else
    let n := n.toNat
    ({ m with count := n, hash := BitVec.ofNat 32 n - 1,
              timeouts := fun i j => if m.count ≤ i ∧ i < n then 60000 else m.timeouts i j }, true)

/-- `get_selector_by_index`, src/kselector_manager.c:326-329: the position used in `kgl_selectors`. -/
def byIndex (m : Mgr) (index : BitVec 32) : Nat := (index &&& m.hash).toNat

/-- The loop of `get_perfect_selector`, src/kselector_manager.c:332-340; `rem` iterations are left. -/
def perfectLoop (m : Mgr) (loads : Nat → Int) : Nat → BitVec 32 → Option (Nat × BitVec 32)
  | 0, _ => none
  | rem + 1, i =>
    if loads (byIndex m i) < loads (byIndex m (i + 1)) + 64 then some (byIndex m i, i + 1)
    else perfectLoop m loads rem (i + 1)

/-- `get_perfect_selector`, src/kselector_manager.c:330-343; `none` is the failing assertion at 341. The loads are
those read during the call, assumed not to change meanwhile. -/
def perfect (m : Mgr) (loads : Nat → Int) : Option (Nat × Mgr) :=
  match perfectLoop m loads m.count m.index with
  | none => none
  | some (k, i) => some (k, { m with index := i })

/-- `on_ready_list` and the notices posted to selectors by `kgl_selector_module.next`; `ready`: `is_selector_manager_init`. -/
structure RSt where
  ready : Bool := false
  waiting : List Nat := []
  posted : List Nat := []
  deriving Repr, DecidableEq

inductive ROp where
  /-- `selector_manager_on_ready(cb)` -/
  | onReady (cb : Nat)
  /-- `selector_manager_init` -/
  | init
  deriving Repr, DecidableEq

/-- `selector_manager_on_ready` (src/kselector_manager.c:314-321) with `selector_manager_add_callback` (210-217), and the loop
of `selector_manager_init` over the list (284-290); the manager is initialised once. -/
def rstep (s : RSt) : ROp → Res RSt
  | .onReady cb => if s.ready then .ok { s with posted := s.posted ++ [cb] } else .ok { s with waiting := cb :: s.waiting }
  | .init => if s.ready then .disabled else .ok { ready := true, waiting := [], posted := s.posted ++ s.waiting }

end Kasync.Mgr
