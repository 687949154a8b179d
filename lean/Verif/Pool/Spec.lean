import Verif.Pool.Model

/-! # Specification of the pool: histories, live blocks, what the system allocator guarantees -/

namespace Kasync.Pool

/-- two ranges have no address in common (for ranges that are not empty) -/
def Disj (r q : Region) : Prop := r.addr + r.size ≤ q.addr ∨ q.addr + q.size ≤ r.addr

instance : DecidableRel Disj := fun _ _ => inferInstanceAs (Decidable (_ ∨ _))

/-- the first range lies inside the second -/
def Inside (r q : Region) : Prop := q.addr ≤ r.addr ∧ r.addr + r.size ≤ q.addr + q.size

/-- A request to the pool. `o1`, `o2` are the answers of the system allocator to the (at most two) requests it causes. -/
inductive Op where
  | palloc (n : Nat) (o1 o2 : Option Nat)
  | pnalloc (n : Nat) (o1 o2 : Option Nat)
  | pmemalign (n al : Nat) (o1 o2 : Option Nat)
  | pfree (a : Nat)
  | cleanupAdd (h : Option Nat) (d : Nat) (o1 o2 : Option Nat)
  | cleanupInsert (h : Option Nat) (o1 o2 : Option Nat)
  | setData (node d : Nat)
  | reset
  deriving Repr

/-- Pool, system allocations, and the client's view: `user` the blocks it was given and neither freed nor lost by a reset,
`regs` the clean-ups it registered since the last reset, oldest first, `events` what the pool did so far. -/
structure St where
  pool : Pool
  sys : List Region
  user : List Region := []
  regs : List Clean := []
  events : List Event := []
  deriving Repr, DecidableEq

/-- the client records a block it was given -/
def give (s : St) (n : Nat) : Pool × List Region × Option Nat → St × Option Nat
  | (p, sys, none) => ({ s with pool := p, sys := sys }, none)
  | (p, sys, some m) => ({ s with pool := p, sys := sys, user := ⟨m, n⟩ :: s.user }, some m)

/-- the client records a registered clean-up -/
def giveClean (s : St) (h : Option Nat) (d : Nat) : Pool × List Region × Option Nat → St × Option Nat
  | (p, sys, none) => ({ s with pool := p, sys := sys }, none)
  | (p, sys, some m) => ({ s with pool := p, sys := sys, regs := s.regs ++ [⟨m, h, d⟩] }, some m)

/-- One request: new state and returned pointer. The outer `none` is undefined behaviour (a wrong `free`). -/
def apply (s : St) : Op → Option (St × Option Nat)
  | .palloc n o1 o2 => (palloc s.pool s.sys n true o1 o2).map (give s n)
  | .pnalloc n o1 o2 => (palloc s.pool s.sys n false o1 o2).map (give s n)
  | .pmemalign n _ o1 o2 => (pmemalign s.pool s.sys n o1 o2).map (give s n)
  | .pfree a => (pfree s.pool s.sys a).map (fun r =>
      ({ s with pool := r.1, sys := r.2.1, user := if r.2.2 then s.user.filter (fun q => q.addr ≠ a) else s.user,
                events := if r.2.2 then s.events ++ [.free a] else s.events }, if r.2.2 then some a else none))
  | .cleanupAdd h d o1 o2 => (cleanupAdd s.pool s.sys h d o1 o2).map (giveClean s h d)
  | .cleanupInsert h o1 o2 =>
      if s.regs.any (fun c => c.handler = h) then (cleanupInsert s.pool s.sys h o1 o2).map (fun r => ({ s with pool := r.1, sys := r.2.1 }, r.2.2))
      else (cleanupInsert s.pool s.sys h o1 o2).map (giveClean s h 0)
  | .setData node d => some ({ s with pool := setData s.pool node d,
                                      regs := s.regs.map (fun c => if c.node = node then { c with data := d } else c) }, none)
  | .reset => (reset s.pool s.sys).map (fun r =>
      ({ s with pool := r.1, sys := r.2.2, user := [], regs := [], events := s.events ++ r.2.1 }, none))

/-- What the system allocator guarantees about an answer: aligned, inside the address space, apart from all live allocations. -/
def Fresh (sys : List Region) (n al : Nat) (o : Option Nat) : Prop :=
  ∀ a, o = some a → a % al = 0 ∧ a + n < 2 ^ 64 ∧ ∀ r ∈ sys, Disj ⟨a, n⟩ r

/-- the answers of the system allocator to the requests of `kgl_palloc(n)` -/
def FreshFor (s : St) (n : Nat) (o1 o2 : Option Nat) : Prop :=
  if n ≤ s.pool.max then Fresh s.sys s.pool.psize 16 o1
  else Fresh s.sys n 16 o1 ∧ ∀ a, o1 = some a → Fresh (⟨a, n⟩ :: s.sys) s.pool.psize 16 o2

/-- the client asks for at least one byte, and the system allocator does its part -/
def Allowed (s : St) : Op → Prop
  | .palloc n o1 o2 => 0 < n ∧ FreshFor s n o1 o2
  | .pnalloc n o1 o2 => 0 < n ∧ FreshFor s n o1 o2
  | .pmemalign n al o1 o2 => 0 < n ∧ Fresh s.sys n al o1 ∧ ∀ a, o1 = some a → Fresh (⟨a, n⟩ :: s.sys) s.pool.psize 16 o2
  | .pfree _ => True
  | .cleanupAdd _ _ o1 o2 => FreshFor s 24 o1 o2
  | .cleanupInsert _ o1 o2 => FreshFor s 24 o1 o2
  | .setData _ _ => True
  | .reset => True

/-- A history from a newly created pool of `size` bytes at `a`, with other allocations `ext` existing. -/
inductive Hist (size a : Nat) (ext : List Region) : St → Prop where
  | init : Hist size a ext { pool := create size a, sys := ⟨a, size⟩ :: ext }
  | step {s s' : St} {o : Op} {r : Option Nat} : Hist size a ext s → Allowed s o → apply s o = some (s', r) → Hist size a ext s'

/-- What is asked of the creation: the size holds the headers (and one large entry) and is a multiple of 8; the block is a
correct answer of the system allocator; the other allocations do not overlap. -/
structure GoodCreate (size a : Nat) (ext : List Region) : Prop where
  big : 88 ≤ size
  mult : size % 8 = 0
  aligned : a % 16 = 0
  bounded : a + size < 2 ^ 64
  apart : ∀ r ∈ ext, Disj ⟨a, size⟩ r
  others : ext.Pairwise Disj
  pos : ∀ r ∈ ext, 0 < r.size

/-- header of a block -/
def Block.header (b : Block) : Region := ⟨b.base, b.hdr⟩

/-- memory of a block -/
def Block.region (b : Block) : Region := ⟨b.base, b.size⟩

/-- The pool's own records: block headers, large entries, clean-up entries. -/
def records (p : Pool) : List Region :=
  p.blocks.map Block.header ++ p.large.map (fun l => ⟨l.node, 16⟩) ++ p.cleanup.map (fun c => ⟨c.node, 24⟩)

/-- memory the pool owns: its blocks and its large allocations -/
def owned (p : Pool) : List Region := p.blocks.map Block.region ++ p.large.filterMap Large.alloc

end Kasync.Pool
