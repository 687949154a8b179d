import Verif.Common

/-!
# Model of the atomic operations (include/katom.h, POSIX branch)

One variable of `w` bits (16, 32 or 64) that any number of threads work on, each with a program of its own; the compiler's `__sync_` built-ins are atomic, so a step is
one operation of one thread.

Simplifications: which operations exist for which width is not tracked (there is no `katom_add16`, for instance); signed and unsigned results are the same bits; the
`__sync_` built-ins are taken as sequentially consistent, also `__sync_lock_test_and_set`, which promises to be an acquire barrier only.
-/

namespace Kasync.Atom

/-- A call; `v`, `c`: the bits of the arguments. -/
inductive Op (w : Nat) where
  | inc | dec | get
  | add (v : BitVec w)
  | sub (v : BitVec w)
  | set (v : BitVec w)
  | cas (c v : BitVec w)
  deriving DecidableEq

/-- A result. -/
inductive Ret (w : Nat) where
  | num (v : BitVec w)
  | bool (b : Bool)
  deriving DecidableEq

/-- `__sync_add_and_fetch`: new value and result. -/
def addFetch {w : Nat} (x v : BitVec w) : BitVec w × Ret w := (x + v, .num (x + v))
/-- `__sync_fetch_and_add`: new value and result. -/
def fetchAdd {w : Nat} (x v : BitVec w) : BitVec w × Ret w := (x + v, .num x)
/-- `__sync_fetch_and_sub`: new value and result. -/
def fetchSub {w : Nat} (x v : BitVec w) : BitVec w × Ret w := (x - v, .num x)

/-- One operation on the value `x`: the new value and the result.  include/katom.h: 7-14, 17-24, 34-41 (inc), 43-50, 53-60, 62-69 (dec), 71-78, 80-87 (add), 90-98, 100-107 (sub),
26-32, 109-125 (set), 127-143 (get), 144-167 (cas).  `katom_sub` negates its argument as an `int32_t` first (94): undefined for the least number. -/
def exec {w : Nat} (x : BitVec w) : Op w → Res (BitVec w × Ret w)
  | .inc => .ok (addFetch x 1)
  | .dec => .ok (addFetch x (-1))
  | .get => .ok (fetchAdd x 0)
  | .add v => .ok (fetchAdd x v)
  | .sub v => if w = 32 then (if v = BitVec.intMin w then .ub else .ok (fetchAdd x (-v))) else .ok (fetchSub x v)
  | .set v => .ok (v, .num x)
  | .cas c v => .ok (if x = c then (v, .bool true) else (x, .bool false))

structure St (w : Nat) where
  val : BitVec w
  /-- what each thread still has to do -/
  prog : Nat → List (Op w)
  /-- who did what with which result, oldest first (ghost) -/
  hist : List (Nat × Op w × Ret w) := []

/-- Thread `i` makes its next operation. -/
def step {w : Nat} (s : St w) (i : Nat) : Res (St w) :=
  match s.prog i with
  | [] => .disabled
  | o :: os =>
    match exec s.val o with
    | .ok (v, r) => .ok { val := v, prog := fun j => if j = i then os else s.prog j, hist := s.hist ++ [(i, o, r)] }
    | .ub => .ub
    | .disabled => .disabled

/-- The states every interleaving of the programs `P` leads to. -/
inductive Reach {w : Nat} (v0 : BitVec w) (P : Nat → List (Op w)) : St w → Prop
  | init : Reach v0 P { val := v0, prog := P }
  | step {s s' : St w} (i : Nat) : Reach v0 P s → step s i = .ok s' → Reach v0 P s'

end Kasync.Atom
