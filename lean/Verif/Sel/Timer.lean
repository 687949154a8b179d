import Verif.RB.Search
import Verif.Common

/-!
# Model of the selector's timer tree (src/kselector.c)

The tree is the code's own red-black tree (`Verif.RB.Model`): its nodes are `struct krb_node`s identified by an
address; `node->data` points at the head of a chain of `kgl_block_queue` entries (include/kselector.h:13-20)
linked by `next`.  `selector->block_first` is a node address.

Simplifications: times are unbounded integers (int64_t overflow of `kgl_current_msec + msec` is not modelled),
`xmalloc` succeeds, and the MALLOCDEBUG shutdown path is left out.  Calls of the timer callbacks are
steps of their own, so that a callback may register further timers (or anything else may happen) between them.
-/

namespace Kasync.Sel

open Kasync.RB

/-- `kgl_block_queue`: the callback (as an identity) and `active_msec`. -/
structure Brq where
  id : Nat
  active : Int
  deriving Repr, DecidableEq

/-- A tree node: its address, `data` (head of the chain) and the entries behind it (`next`). -/
structure TNode where
  addr : Nat
  head : Brq
  rest : List Brq
  deriving Repr, DecidableEq

/-- `kgl_insert_block_queue`, src/kselector.c:55-81, from the current position `n`/`parent` (tree and path);
`f` is `*is_first`, `fresh` the address xmalloc gives to a new node.  Result: tree, node returned, is_first. -/
def insertQ (b : Brq) (fresh : Nat) : Tree TNode → Path TNode → Bool → Option (Tree TNode × Nat × Bool)
  | .nil, p, f =>
    match insertColor (.node .red .nil ⟨fresh, b, []⟩ .nil) p with
    | none => none
    | some t => some (t, fresh, f)
  | .node c l x r, p, f =>
    if b.active - x.head.active < 0 then insertQ b fresh l (.left c x r :: p) f
    else if b.active - x.head.active > 0 then insertQ b fresh r (.right c l x :: p) false
    else some (zip p (.node c l ⟨x.addr, b, x.head :: x.rest⟩ r), x.addr, false)

/-- Dereference of a node pointer: the node with the given address in the tree. -/
def locAddr (a : Nat) : Tree TNode → Path TNode → Option (Loc TNode)
  | .nil, _ => none
  | .node c l x r, p =>
    if x.addr = a then some ⟨p, c, l, x, r⟩
    else match locAddr a l (.left c x r :: p) with
      | some z => some z
      | none => locAddr a r (.right c l x :: p)

/-- The extraction loop of `kselector_check_timeout`, src/kselector.c:193-216: `first` is `block_first`; due
nodes are erased and appended to the `block`/`last` list.  `fuel` bounds the iterations; `none` is a NULL
dereference, a dangling `block_first`, or lack of fuel. -/
def extractLoop (now : Int) : Nat → Tree TNode → Option Nat → List TNode → Option (Tree TNode × Option Nat × List TNode)
  | 0, _, _, _ => none
  | _ + 1, t, none, acc => some (t, none, acc)
  | fuel + 1, t, some a, acc =>
    match locAddr a t [] with
    | none => none
    | some z =>
      if now < z.x.head.active then some (t, some a, acc)
      else match removeAt z with
        | none => none
        | some t' => extractLoop now fuel t' ((next z).map (fun z' => z'.x.addr)) (acc ++ [z.x])

/-- The loop of `kselector_adjust_time`, src/kselector.c:119-125, at the node `z`: only the head of each chain
is changed. -/
def adjustLoop (diff : Int) : Nat → Loc TNode → Option (Tree TNode)
  | 0, _ => none
  | fuel + 1, z =>
    let z1 : Loc TNode := { z with x := { z.x with head := { z.x.head with active := z.x.head.active + diff } } }
    match next z1 with
    | none => some z1.root
    | some z2 => adjustLoop diff fuel z2

/-- The whole loop, started at `block_first`. -/
def adjustTree (diff : Int) (t : Tree TNode) (first : Option Nat) : Option (Tree TNode) :=
  match first with
  | none => some t
  | some a =>
    match locAddr a t [] with
    | none => none
    | some z => adjustLoop diff (t.size + 1) z

/-- A callback that has been made: which timer, and the clock of the check that found it due. -/
structure Fired where
  id : Nat
  at' : Int
  deriving Repr, DecidableEq

/-- The selector's timer state.  `firing` is what is left of the extracted `block` list (src/kselector.c:218-229),
`posted` the adjustments sent by `kgl_selector_module.next` and not yet run (113-118). `log` records the callbacks
made; `checkAt` the clock of the current check. -/
structure St where
  now : Int := 0
  tree : Tree TNode := .nil
  first : Option Nat := none
  fresh : Nat := 1
  firing : List Brq := []
  checkAt : Int := 0
  posted : List Int := []
  log : List Fired := []

inductive Op where
  /-- `kselector_add_timer` -/
  | add (id : Nat) (msec : Int)
  /-- `kselector_update_time` reading the clock value `ms`; `own`: run by this selector's thread -/
  | clock (ms : Int) (own : Bool)
  /-- `next_adjust_time` (src/kselector.c:48-54): the selector runs a posted adjustment -/
  | deliver
  /-- the extraction loop of `kselector_check_timeout` -/
  | check
  /-- one callback of the second loop -/
  | fire
  deriving Repr, DecidableEq

/-- `kselector_add_timer` (src/kselector.c:292-307) with `kselector_add_block_queue` (282-291) inlined;
the last test is the assertion of line 290. -/
def addTimer (s : St) (id : Nat) (msec : Int) : Res St :=
  match insertQ ⟨id, s.now + msec⟩ s.fresh s.tree [] true with
  | none => .ub
  | some (t, a, f) =>
    let first := if f then some a else s.first
    if first = (RB.first t).map (fun z => z.x.addr) then
      .ok { s with tree := t, first := first, fresh := s.fresh + 1 }
    else .ub

/-- `kselector_adjust_time` on the selector's own thread, src/kselector.c:119-125 (the connection lists are in
`Verif.Sel.Lists`). -/
def adjust (s : St) (diff : Int) : Res St :=
  match adjustTree diff s.tree s.first with
  | none => .ub
  | some t => .ok { s with tree := t }

/-- `kselector_update_time`, src/kselector.c:134-150: the adjustment is made only when the second went back;
`kgl_current_sec` is always `kgl_current_msec / 1000`. -/
def updateTime (s : St) (ms : Int) (own : Bool) : Res St :=
  if ms / 1000 < s.now / 1000 then
    if own then
      match adjust s (ms - s.now) with
      | .ok s' => .ok { s' with now := ms }
      | r => r
    else .ok { s with posted := s.posted ++ [ms - s.now], now := ms }
  else .ok { s with now := ms }

/-- One step of the selector thread. -/
def step (s : St) : Op → Res St
  | .add id msec => addTimer s id msec
  | .clock ms own => updateTime s ms own
  | .deliver =>
    match s.posted with
    | [] => .disabled
    | d :: ds =>
      match adjust s d with
      | .ok s' => .ok { s' with posted := ds }
      | r => r
  | .check =>
    if s.firing ≠ [] then .disabled else
    match extractLoop s.now (s.tree.size + 1) s.tree s.first [] with
    | none => .ub
    | some (t, f, nodes) =>
      .ok { s with tree := t, first := f, firing := nodes.flatMap (fun n => n.head :: n.rest), checkAt := s.now }
  | .fire =>
    match s.firing with
    | [] => .disabled
    | b :: bs => .ok { s with firing := bs, log := s.log ++ [⟨b.id, s.checkAt⟩] }

end Kasync.Sel
