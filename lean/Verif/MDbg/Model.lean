/-!
# Model of the debugging allocator (src/kmalloc_debug.c, MALLOCDEBUG without jemalloc)

`malloc`, `calloc`, `realloc` and `free` of the whole program are replaced: a block gets eight bytes in front of it and eight behind it,
and a record in a hash table of 16384 chains.  `chk` is ENABLE_FREE_MEMORY_CHECK: freed blocks are filled with 0xee, kept in two lists and
looked at by a thread every five seconds.

The C library's allocator is an environment: it hands out a block that lies apart from those it handed out before and were not given
back (`Env` in `Spec`; there is always a header between two blocks), with any contents.  A record lies in such a block of 152 bytes; its
fields are in `tab`, as the program can reach them only through its own mistakes (`write` into a record is undefined behaviour here).
A `realloc` that moves a block locks two chains one after the other, so it is three steps of its thread, between which other threads run;
everything else is done under one lock, or without sharing.  Not modelled: the stack traces, and the text of the report.
-/

namespace Kasync.MDbg

/-- `new_ptr_list_s`, 53-58; `user_addr` is `real + 8` -/
structure Rec where
  node : Nat
  real : Nat
  size : Nat
  deriving Repr, DecidableEq

def Rec.user (r : Rec) : Nat := r.real + 8

/-- Where a record is: in the chain `new_ptr_list[i]`, `delay_freed1[i]`, `delay_freed2[i]` (59-63), or only in the variable `ptr` of a
thread inside `realloc`. -/
inductive Place where
  | live (i : Nat)
  | d1 (i : Nat)
  | d2 (i : Nat)
  | var (t : Nat)
  deriving Repr, DecidableEq

/-- A thread inside `realloc`: the block it still has to take over (0: none), the size asked for, whether `calloc` called it; ghosts:
the contents of the old block at the call, and its size. -/
structure Pend where
  old : Nat
  size : Nat
  zero : Bool
  keep : Nat → UInt8 := fun _ => 0
  kn : Nat := 0

/-- Ghost: a block the program has: its size, whether it has a record, and the thread whose `realloc` it was given to. -/
structure Ent where
  n : Nat
  trk : Bool
  busy : Option Nat := none
  deriving Repr, DecidableEq

structure St where
  chk : Bool := false
  started : Bool := false
  /-- `saved_malloc_started` of the thread inside `dump_memory_leak` -/
  saved : Nat → Option Bool := fun _ => none
  mem : Nat → UInt8 := fun _ => 0
  /-- the blocks the C library handed out -/
  libc : Nat → Option Nat := fun _ => none
  tab : Place → List Rec := fun _ => []
  thr : Nat → Option Pend := fun _ => none
  own : Nat → Option Ent := fun _ => none
  /-- ghost: `start_hook_alloc` was called -/
  ever : Bool := false

inductive Out (α : Type) where
  | ok (a : α)
  | abort
  | ub
  | disabled

/-- `start_magic`, `end_magic`, 43-44 -/
def startMagic : Nat → UInt8
  | 0 => 0x12 | 1 => 0x56 | 2 => 0xdc | 3 => 0x78 | 4 => 0xef | 5 => 0x34 | 6 => 0x45 | _ => 0xc3
def endMagic : Nat → UInt8
  | 0 => 0xc3 | 1 => 0x45 | 2 => 0x34 | 3 => 0xef | 4 => 0x78 | 5 => 0xdc | 6 => 0x56 | _ => 0x12

/-- DEBUG_NEW_HASH, 46-51 -/
def hash (p : Nat) : Nat := p / 256 % 16384

/-- sizeof(new_ptr_list_t): 16 return addresses, size, user_addr, next -/
def nodeSize : Nat := 152

/-- Bytes `a .. a+n-1` become `f 0 .. f (n-1)`. -/
def fill (m : Nat → UInt8) (a n : Nat) (f : Nat → UInt8) : Nat → UInt8 := fun x => if a ≤ x ∧ x < a + n then f (x - a) else m x

def upd {α β : Type} [DecidableEq α] (f : α → β) (a : α) (b : β) : α → β := fun x => if x = a then b else f x

/-- `__libc_malloc` returns `a`; the contents are `j`. -/
def libcMalloc (s : St) (a n : Nat) (j : Nat → UInt8) : St := { s with libc := upd s.libc a (some n), mem := fill s.mem a n j }

/-- `__libc_free` -/
def libcFree (s : St) (a : Nat) : Out St :=
  if a = 0 then .ok s else
  match s.libc a with
  | some _ => .ok { s with libc := upd s.libc a none }
  | none => .ub

/-- `__libc_realloc` of a block, to a size other than 0: the block is `b` afterwards -/
def libcRealloc (s : St) (a n b : Nat) (j : Nat → UInt8) : Out St :=
  match s.libc a with
  | some k => .ok { s with libc := upd (upd s.libc a none) b (some n),
                           mem := fill s.mem b n (fun i => if i < k then s.mem (a + i) else j i) }
  | none => .ub

/-- `check_ptr`, 85-92: whether it returns -/
def intact (m : Nat → UInt8) (r : Rec) : Bool :=
  (List.range 8).all (fun i => m (r.real + i) == startMagic i) && (List.range 8).all (fun i => m (r.user + r.size + i) == endMagic i)

/-- The loop of `free_ptr` under ENABLE_FREE_MEMORY_CHECK, 75-79: whether it gets through -/
def untouched (m : Nat → UInt8) (r : Rec) : Bool := (List.range r.size).all (fun i => m (r.user + i) == 0xee)

/-- The two calls of `free_ptr`, 81-82 -/
def freePtr (s : St) (r : Rec) : Out St :=
  match libcFree s r.real with
  | .ok s1 => libcFree s1 r.node
  | o => o

/-- The search for a block in its chain, 233-239 and 278-281, 296-297 -/
def find (s : St) (p : Nat) : Option Rec := (s.tab (.live (hash p))).find? (fun r => r.user == p)

/-- What `free` (281-293) and `realloc` (240-254) do with a block they found, after taking it from its chain and, in `realloc`, copying it
(the copy is between `check_ptr` and the rest): `m` is the memory after the copy -/
def retire (s : St) (i : Nat) (r : Rec) (m : Nat → UInt8) : Out St :=
  let s1 := { s with tab := upd s.tab (.live i) ((s.tab (.live i)).erase r) }
  if intact s.mem r then
    let s2 := { s1 with mem := m }
    if s.chk then .ok { s2 with tab := upd s2.tab (.d2 i) (r :: s2.tab (.d2 i)), mem := fill m r.user r.size (fun _ => 0xee) }
    else freePtr s2 r
  else .abort

/-- The loop of the checking thread over one list, 99-105; the variable `ptr` is the rest of the list, `delay_freed1[i]` is overwritten
afterwards -/
def sweepList (i : Nat) : List Rec → St → Out St
  | [], s => .ok s
  | r :: rs, s =>
    if intact s.mem r && untouched s.mem r then
      match freePtr { s with tab := upd s.tab (.d1 i) rs } r with
      | .ok s1 => sweepList i rs s1
      | o => o
    else .abort

/-- The three calls that allocate. -/
inductive Req where
  | malloc (n : Nat)
  | calloc (cnt n : Nat)
  | realloc (p n : Nat)
  deriving Repr, DecidableEq

def Req.old : Req → Nat
  | .realloc p _ => p
  | _ => 0

/-- The bytes the caller asks for. -/
def Req.want : Req → Nat
  | .malloc n => n
  | .calloc c n => c * n
  | .realloc _ n => n

/-- The argument `size` of `realloc`: `malloc`, 313-316, `calloc`, 304-312 (`size *= n` in 64 bits). -/
def Req.size : Req → Nat
  | .malloc n => n
  | .calloc c n => c * n % 2 ^ 64
  | .realloc _ n => n

def Req.zero : Req → Bool
  | .calloc _ _ => true
  | _ => false

inductive Op where
  /-- `start_hook_alloc` -/
  | start
  /-- the first part of `realloc` while `malloc_started` -/
  | alloc (t : Nat) (q : Req) (node real : Nat) (j1 j2 : Nat → UInt8)
  /-- its second part: the old block; `b`, `j`: what `__libc_realloc` returns -/
  | unlink (t b : Nat) (j : Nat → UInt8)
  /-- its last part -/
  | link (t : Nat)
  /-- `realloc` while not `malloc_started` -/
  | plain (q : Req) (b : Nat) (j : Nat → UInt8)
  /-- `free`, and `realloc` to size 0 while `malloc_started` -/
  | free (p : Nat)
  /-- the program writes a byte -/
  | write (x : Nat) (v : UInt8)
  /-- the checking thread goes through chain `i` -/
  | sweep (i : Nat)
  /-- `dump_memory_leak` up to its loop, and its end -/
  | dumpBegin (t : Nat)
  | dumpEnd (t : Nat)

/-- Ghost: the block given to `realloc`, and its contents. -/
def St.size (s : St) (p : Nat) : Nat := match s.own p with | some e => e.n | none => 0

def St.give (s : St) (p t : Nat) : Nat → Option Ent :=
  match s.own p with
  | some e => upd s.own p (some { e with busy := some t })
  | none => s.own

/-- The memsets of `start_hook_alloc`, 116-120 -/
def clearTab (tab : Place → List Rec) : Place → List Rec
  | .var t => tab (.var t)
  | _ => []

def step (s : St) (op : Op) : Out St :=
  match op with
  -- start_hook_alloc, 114-135
  | .start => .ok { s with tab := clearTab s.tab, started := true, ever := true }
  -- realloc, 206-228; __libc_malloc(size + 16) in 64 bits, then writes of size + 16 bytes
  | .alloc t q node real j1 j2 =>
    match s.thr t with
    | some _ => .disabled
    | none =>
      if s.started = false ∨ q.size = 0 then .disabled
      else if q.size + 16 ≥ 2 ^ 64 then .ub
      else
        let s1 := libcMalloc (libcMalloc s node nodeSize j1) real (q.size + 16) j2
        let m := fill (fill (fill s1.mem real 8 startMagic) (real + 8) q.size (fun _ => 0xcc)) (real + 8 + q.size) 8 endMagic
        .ok { s1 with mem := m, tab := upd s1.tab (.var t) [⟨node, real, q.size⟩],
                      thr := upd s1.thr t (some ⟨q.old, q.size, q.zero, fun i => s.mem (q.old + i), if q.old = 0 then 0 else s.size q.old⟩),
                      own := if q.old = 0 then s.own else s.give q.old t }
  -- realloc, 229-264
  | .unlink t b j =>
    match s.thr t, s.tab (.var t) with
    | some p, [r] =>
      if p.old = 0 then .disabled
      else
        match find s p.old with
        | some h =>
          retire { s with thr := upd s.thr t (some { p with old := 0 }), own := upd s.own p.old none } (hash p.old) h
            (fill s.mem r.user (min h.size p.size) (fun i => s.mem (p.old + i)))
        | none =>
          match freePtr { s with tab := upd s.tab (.var t) [] } r with
          | .ok s1 =>
            match libcRealloc s1 p.old p.size b j with
            | .ok s2 => .ok { s2 with thr := upd s2.thr t none, own := upd (upd s2.own p.old none) b (some { n := p.size, trk := false }) }
            | o => o
          | o => o
    | _, _ => .disabled
  -- realloc, 266-272; calloc, 308-310
  | .link t =>
    match s.thr t, s.tab (.var t) with
    | some p, [r] =>
      if p.old ≠ 0 then .disabled
      else
        let i := hash r.user
        .ok { s with tab := upd (upd s.tab (.var t) []) (.live i) (r :: s.tab (.live i)), thr := upd s.thr t none,
                     mem := if p.zero then fill s.mem r.user p.size (fun _ => 0) else s.mem,
                     own := upd s.own r.user (some { n := p.size, trk := true }) }
    | _, _ => .disabled
  -- realloc, 200-205; calloc, 308-310
  | .plain q b j =>
    if s.started then .disabled
    else if q.old = 0 then
      let s1 := libcMalloc s b q.size j
      .ok { s1 with mem := if q.zero then fill s1.mem b q.size (fun _ => 0) else s1.mem, own := upd s1.own b (some { n := q.size, trk := false }) }
    else if q.size = 0 then
      match libcFree s q.old with
      | .ok s1 => .ok { s1 with own := upd s1.own q.old none }
      | o => o
    else
      match libcRealloc s q.old q.size b j with
      | .ok s1 => .ok { s1 with own := upd (upd s1.own q.old none) b (some { n := q.size, trk := false }) }
      | o => o
  -- free, 274-303; realloc, 206-209
  | .free p =>
    match find s p with
    | some r => retire { s with own := upd s.own p none } (hash p) r s.mem
    | none =>
      match libcFree s p with
      | .ok s1 => .ok { s1 with own := upd s1.own p none }
      | o => o
  | .write x v => .ok { s with mem := upd s.mem x v }
  -- memory_debug_thread, 94-112
  | .sweep i =>
    if s.chk then
      match sweepList i (s.tab (.d1 i)) s with
      | .ok s1 => .ok { s1 with tab := upd (upd s1.tab (.d1 i) (s1.tab (.d2 i))) (.d2 i) [] }
      | o => o
    else .disabled
  -- dump_memory_leak, 136-145
  | .dumpBegin t => if (s.saved t).isSome then .disabled else .ok { s with saved := upd s.saved t (some s.started), started := false }
  -- 146-150, 182
  | .dumpEnd t =>
    match s.saved t with
    | some b => .ok { s with saved := upd s.saved t none, started := b }
    | none => .disabled

/-- What the loop of `dump_memory_leak` (151-174) reports while no other thread allocates or frees: address and size of every record, chain
after chain. -/
def dump (s : St) : List (Nat × Nat) := (List.range 16384).flatMap (fun i => (s.tab (.live i)).map (fun r => (r.user, r.size)))

end Kasync.MDbg
