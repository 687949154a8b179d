import Verif.Common

/-!
# Model of the spin read-write locks, include/ksync.h:125-215

Every load, compare-and-swap, increment, decrement and store of a lock word is one atomic step of one thread (sequentially consistent memory;
the word is an unbounded integer, so fewer than 2^31 simultaneous readers are assumed).  `Pc` is the next atomic access of a thread.
-/

namespace Kasync.Spin

/-- Where a thread is in the code of `krw_mutex`. -/
inductive Pc where
  | idle
  /-- include/ksync.h:135: about to load -/
  | rLoad
  /-- include/ksync.h:141: about to compare-and-swap `x` with `x + 1` -/
  | rCas (x : Int)
  | reader
  /-- include/ksync.h:152: about to load -/
  | wLoad
  /-- include/ksync.h:156: about to compare-and-swap `0` with `-1` -/
  | wCas
  | writer
  deriving Repr, DecidableEq

structure St where
  /-- `*mutex` -/
  m : Int := 0
  pc : Nat → Pc := fun _ => .idle

def upd {α : Type} (f : Nat → α) (i : Nat) (x : α) : Nat → α := fun j => if j = i then x else f j

inductive Act where
  | rlock | wlock | unlock
  /-- the next atomic access of a thread inside a lock call -/
  | tick
  deriving Repr, DecidableEq

/-- One atomic step of thread `t`. -/
def step (s : St) (o : Nat × Act) : Res St :=
  let (t, a) := o
  match a, s.pc t with
  | .rlock, .idle => .ok { s with pc := upd s.pc t .rLoad }
  | .wlock, .idle => .ok { s with pc := upd s.pc t .wLoad }
  | .tick, .rLoad =>               -- include/ksync.h:135-140
    .ok { s with pc := upd s.pc t (if s.m < 0 then .rLoad else .rCas s.m) }
  | .tick, .rCas x =>              -- include/ksync.h:141-144
    if s.m = x then .ok { m := x + 1, pc := upd s.pc t .reader } else .ok { s with pc := upd s.pc t .rLoad }
  | .tick, .wLoad =>               -- include/ksync.h:152-155
    .ok { s with pc := upd s.pc t (if s.m ≠ 0 then .wLoad else .wCas) }
  | .tick, .wCas =>                -- include/ksync.h:156-159
    if s.m = 0 then .ok { m := -1, pc := upd s.pc t .writer } else .ok { s with pc := upd s.pc t .wLoad }
  | .unlock, .reader => .ok { m := s.m - 1, pc := upd s.pc t .idle }     -- include/ksync.h:166-169
  | .unlock, .writer => .ok { m := s.m + 1, pc := upd s.pc t .idle }     -- include/ksync.h:162-165
  | _, _ => .disabled

def sinit : St := {}

/-! ## `kwr_mutex`: writers announce themselves -/

/-- Where a thread is in the code of `kwr_mutex`. -/
inductive WPc where
  | idle
  /-- include/ksync.h:188: about to load `try_write` -/
  | rTry
  /-- include/ksync.h:196 -/
  | wTry
  /-- include/ksync.h:200 -/
  | wTryCas
  /-- inside `krw_mutex_rlock(&mutex->rw)` or `krw_mutex_wlock(&mutex->rw)`, or holding the lock -/
  | inner (p : Pc)
  /-- include/ksync.h:210: `rw` is released, `try_write` still set -/
  | wRel
  deriving Repr, DecidableEq

structure WSt where
  rw : Int := 0
  /-- `try_write` -/
  tw : Int := 0
  pc : Nat → WPc := fun _ => .idle

inductive WAct where
  | rlock (high : Bool) | wlock | unlock | tick
  deriving Repr, DecidableEq

def wstep (s : WSt) (o : Nat × WAct) : Res WSt :=
  let (t, a) := o
  match a, s.pc t with
  | .rlock high, .idle =>          -- include/ksync.h:184-187
    .ok { s with pc := upd s.pc t (if high then .inner .rLoad else .rTry) }
  | .wlock, .idle => .ok { s with pc := upd s.pc t .wTry }
  | .tick, .rTry =>                -- include/ksync.h:188-191
    .ok { s with pc := upd s.pc t (if s.tw > 0 then .rTry else .inner .rLoad) }
  | .tick, .wTry =>                -- include/ksync.h:196-199
    .ok { s with pc := upd s.pc t (if s.tw ≠ 0 then .wTry else .wTryCas) }
  | .tick, .wTryCas =>             -- include/ksync.h:200-203
    if s.tw = 0 then .ok { s with tw := 1, pc := upd s.pc t (.inner .wLoad) } else .ok { s with pc := upd s.pc t .wTry }
  | .tick, .inner p =>             -- include/ksync.h:185, 191, 205: the code of `krw_mutex`
    match p with
    | .rLoad => .ok { s with pc := upd s.pc t (.inner (if s.rw < 0 then .rLoad else .rCas s.rw)) }
    | .rCas x =>
      if s.rw = x then .ok { s with rw := x + 1, pc := upd s.pc t (.inner .reader) } else .ok { s with pc := upd s.pc t (.inner .rLoad) }
    | .wLoad => .ok { s with pc := upd s.pc t (.inner (if s.rw ≠ 0 then .wLoad else .wCas)) }
    | .wCas =>
      if s.rw = 0 then .ok { s with rw := -1, pc := upd s.pc t (.inner .writer) } else .ok { s with pc := upd s.pc t (.inner .wLoad) }
    | _ => .disabled
  | .unlock, .inner .reader => .ok { s with rw := s.rw - 1, pc := upd s.pc t .idle }     -- include/ksync.h:212-215
  | .unlock, .inner .writer => .ok { s with rw := s.rw + 1, pc := upd s.pc t .wRel }     -- include/ksync.h:207-209
  | .tick, .wRel => .ok { s with tw := 0, pc := upd s.pc t .idle }                       -- include/ksync.h:210
  | _, _ => .disabled

def winit : WSt := {}

end Kasync.Spin
