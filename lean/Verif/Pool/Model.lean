import Verif.Align

/-!
# Model of the memory pool, src/kmalloc.c:11-231 and 352-371, include/kmalloc.h:64-100

Addresses are numbers.  `sys` is the list of regions obtained from the system allocator and not yet freed.  What the
system allocator answers is a parameter of each operation: `none` is NULL, `some a` the address of the new block.
Structure sizes are those of a 64 bit platform: `kgl_pool_data_t` 32, `kgl_pool_t` 64, `kgl_pool_large_t` 16,
`kgl_cleanup_t` 24, `KGL_ALIGNMENT` 8, `KGL_POOL_ALIGNMENT` 16.  `size_t` sums in requests are unbounded, except the
comparison `(size_t)(end - m) >= size`, which wraps.  The contents of memory are modelled in `Verif.Pool.Array`.
-/

namespace Kasync.Pool

/-- a range of addresses -/
structure Region where
  addr : Nat
  size : Nat
  deriving Repr, DecidableEq

/-- `kgl_pool_data_t` of one block, include/kmalloc.h:73-78. `size` is `end` minus the block address; `hdr` (not in the
code) is the size of the header at the start of the block: 64 for the pool, 32 for a further block. -/
structure Block where
  base : Nat
  size : Nat
  hdr : Nat
  last : Nat
  failed : Nat := 0
  deriving Repr, DecidableEq

/-- `kgl_pool_large_t`, include/kmalloc.h:80-83, at address `node`. The size inside `alloc` is not stored by the code. -/
structure Large where
  node : Nat
  alloc : Option Region
  deriving Repr, DecidableEq

/-- `kgl_cleanup_t`, include/kmalloc.h:68-72, at address `node` -/
structure Clean where
  node : Nat
  handler : Option Nat
  data : Nat
  deriving Repr, DecidableEq

/-- `kgl_pool_t`, include/kmalloc.h:84-90; `blocks` is the chain of `d.next` starting with the pool itself, `current` an index
into it. -/
structure Pool where
  blocks : List Block
  current : Nat := 0
  max : Nat
  large : List Large := []
  cleanup : List Clean := []
  deriving Repr, DecidableEq

/-- `KGL_MAX_ALLOC_FROM_POOL`, include/kmalloc.h:93: `kgl_pagesize - 1` in `unsigned`; `kgl_pagesize` (src/kmalloc.c:4) is never
assigned. -/
def maxFromPool : Nat := 2 ^ 32 - 1

/-- difference of two addresses as `size_t` -/
def wsub (x y : Nat) : Nat := (x + 2 ^ 64 - y) % 2 ^ 64

/-- `kgl_create_pool`, src/kmalloc.c:107-127, for a granted block at `a` -/
def create (size a : Nat) : Pool :=
  let left := wsub size 64
  { blocks := [{ base := a, size := size, hdr := 64, last := a + 64 }],
    max := if left < maxFromPool then left else maxFromPool }

/-- loop of `kgl_palloc_small`, src/kmalloc.c:48-65: first block from `current` on with enough room -/
def smallLoop (size : Nat) (align : Bool) : List Block → Option (List Block × Nat)
  | [] => none
  | b :: bs =>
    let m := if align then alignUp b.last 8 else b.last
    if wsub (b.base + b.size) m ≥ size then some ({ b with last := m + size } :: bs, m)
    else (smallLoop size align bs).map (fun r => (b :: r.1, r.2))

/-- loop of `kgl_palloc_block`, src/kmalloc.c:33-37: counts failures and moves `current` on; `i` is the index of the first
block of the list. -/
def bump : Nat → List Block → Nat → List Block × Nat
  | _, [], cur => ([], cur)
  | _, [b], cur => ([b], cur)
  | i, b :: b' :: bs, cur =>
    let r := bump (i + 1) (b' :: bs) (if b.failed > 4 then i + 1 else cur)
    ({ b with failed := b.failed + 1 } :: r.1, r.2)

/-- size of the blocks of the pool, src/kmalloc.c:16 -/
def Pool.psize (p : Pool) : Nat := (p.blocks.head?.map Block.size).getD 0

/-- `kgl_palloc_block`, src/kmalloc.c:11-42 -/
def pallocBlock (p : Pool) (sys : List Region) (size : Nat) (o : Option Nat) : Pool × List Region × Option Nat :=
  match o with
  | none => (p, sys, none)
  | some a =>
    let m := alignUp (a + 32) 8
    let n : Block := { base := a, size := p.psize, hdr := 32, last := m + size }
    let r := bump p.current (p.blocks.drop p.current) p.current
    ({ p with blocks := p.blocks.take p.current ++ r.1 ++ [n], current := r.2 }, ⟨a, p.psize⟩ :: sys, some m)

/-- `kgl_palloc_small`, src/kmalloc.c:44-68 -/
def pallocSmall (p : Pool) (sys : List Region) (size : Nat) (align : Bool) (o : Option Nat) :
    Pool × List Region × Option Nat :=
  match smallLoop size align (p.blocks.drop p.current) with
  | some (bs, m) => ({ p with blocks := p.blocks.take p.current ++ bs }, sys, some m)
  | none => pallocBlock p sys size o

/-- loop of `kgl_palloc_large`, src/kmalloc.c:83-92: reuse one of the first five entries whose allocation was freed -/
def reuse (r : Region) : Nat → List Large → Option (List Large)
  | _, [] => none
  | n, l :: ls =>
    if l.alloc = none then some ({ l with alloc := some r } :: ls)
    else if n > 3 then none
    else (reuse r (n + 1) ls).map (l :: ·)

/-- `free(a)`; `none` when `a` is not an allocation -/
def sysFree (sys : List Region) (a : Nat) : Option (List Region) :=
  if a ∈ sys.map Region.addr then some (sys.eraseP (fun r => r.addr == a)) else none

/-- enter an allocation in a new `kgl_pool_large_t`: src/kmalloc.c:93-103 and 360-370. On failure the allocation is freed again. -/
def addLarge (p : Pool) (sys : List Region) (r : Region) (o : Option Nat) : Option (Pool × List Region × Option Nat) :=
  match pallocSmall p sys 16 true o with
  | (p, sys, none) => (sysFree sys r.addr).map (fun sys => (p, sys, none))
  | (p, sys, some node) => some ({ p with large := ⟨node, some r⟩ :: p.large }, sys, some r.addr)

/-- `kgl_palloc_large`, src/kmalloc.c:71-104; `o1` answers `malloc`, `o2` a further block -/
def pallocLarge (p : Pool) (sys : List Region) (size : Nat) (o1 o2 : Option Nat) : Option (Pool × List Region × Option Nat) :=
  match o1 with
  | none => some (p, sys, none)
  | some a =>
    match reuse ⟨a, size⟩ 0 p.large with
    | some ls => some ({ p with large := ls }, ⟨a, size⟩ :: sys, some a)
    | none => addLarge p (⟨a, size⟩ :: sys) ⟨a, size⟩ o2

/-- `kgl_palloc` (`align`), src/kmalloc.c:174-182, and `kgl_pnalloc` (not `align`), src/kmalloc.c:185-192 -/
def palloc (p : Pool) (sys : List Region) (size : Nat) (align : Bool) (o1 o2 : Option Nat) :
    Option (Pool × List Region × Option Nat) :=
  if size ≤ p.max then some (pallocSmall p sys size align o1) else pallocLarge p sys size o1 o2

/-- `kgl_pmemalign`, src/kmalloc.c:352-371; the alignment is a demand on the answer `o1` -/
def pmemalign (p : Pool) (sys : List Region) (size : Nat) (o1 o2 : Option Nat) : Option (Pool × List Region × Option Nat) :=
  match o1 with
  | none => some (p, sys, none)
  | some a => addLarge p (⟨a, size⟩ :: sys) ⟨a, size⟩ o2

/-- loop of `kgl_pfree`, src/kmalloc.c:222-229 -/
def clearLarge (a : Nat) : List Large → Option (List Large)
  | [] => none
  | l :: ls => if l.alloc.map Region.addr = some a then some ({ l with alloc := none } :: ls) else (clearLarge a ls).map (l :: ·)

/-- `kgl_pfree`, src/kmalloc.c:219-232 (for a pointer that is not NULL) -/
def pfree (p : Pool) (sys : List Region) (a : Nat) : Option (Pool × List Region × Bool) :=
  match clearLarge a p.large with
  | some ls => (sysFree sys a).map (fun sys => ({ p with large := ls }, sys, true))
  | none => some (p, sys, false)

/-- `kgl_cleanup_add`, src/kmalloc.c:208-218 -/
def cleanupAdd (p : Pool) (sys : List Region) (h : Option Nat) (d : Nat) (o1 o2 : Option Nat) :
    Option (Pool × List Region × Option Nat) :=
  (palloc p sys 24 true o1 o2).map (fun r => match r with
    | (p, sys, none) => (p, sys, none)
    | (p, sys, some c) => ({ p with cleanup := ⟨c, h, d⟩ :: p.cleanup }, sys, some c))

/-- `kgl_cleanup_insert`, src/kmalloc.c:199-207 -/
def cleanupInsert (p : Pool) (sys : List Region) (h : Option Nat) (o1 o2 : Option Nat) : Option (Pool × List Region × Option Nat) :=
  match p.cleanup.find? (fun c => c.handler = h) with
  | some c => some (p, sys, some c.node)
  | none => cleanupAdd p sys h 0 o1 o2

/-- `kgl_cleanup_set_data`, src/kmalloc.c:196-198 -/
def setData (p : Pool) (node d : Nat) : Pool :=
  { p with cleanup := p.cleanup.map (fun c => if c.node = node then { c with data := d } else c) }

/-- what a pool does to its surroundings when it is emptied -/
inductive Event where
  | call (handler data : Nat)
  | free (a : Nat)
  deriving Repr, DecidableEq

/-- src/kmalloc.c:132-136 and 155-159 -/
def runCleanups (cs : List Clean) : List Event := cs.filterMap (fun c => c.handler.map (fun h => .call h c.data))

/-- free a list of addresses in order -/
def freeAll : List Region → List Nat → Option (List Region)
  | sys, [] => some sys
  | sys, a :: as => (sysFree sys a).bind (fun sys => freeAll sys as)

/-- addresses held by the large entries -/
def largeAddrs (ls : List Large) : List Nat := ls.filterMap (fun l => l.alloc.map Region.addr)

/-- `kgl_destroy_pool`, src/kmalloc.c:128-150 -/
def destroy (p : Pool) (sys : List Region) : Option (List Event × List Region) :=
  let frees := largeAddrs p.large ++ p.blocks.map Block.base
  (freeAll sys frees).map (fun sys => (runCleanups p.cleanup ++ frees.map .free, sys))

/-- `kgl_reset_pool`, src/kmalloc.c:151-173 -/
def reset (p : Pool) (sys : List Region) : Option (Pool × List Event × List Region) :=
  (freeAll sys (largeAddrs p.large)).map (fun sys =>
    ({ p with blocks := p.blocks.map (fun b => { b with last := b.base + 64, failed := 0 }), current := 0, large := [],
              cleanup := [] },
     runCleanups p.cleanup ++ (largeAddrs p.large).map .free, sys))

end Kasync.Pool
