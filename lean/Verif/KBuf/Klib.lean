import Verif.KBuf.SBuf

/-!
# Model of include/klib.h and src/klib.c: sizes of vectors, kinds of paths, pauses (POSIX branches)
-/

namespace Kasync.Klib

/-- the loop of `kgl_get_bufs_size`, include/klib.h:20-26, from entry `i` on: `int` plus `size_t` is a `size_t`, and storing it in an `int` cuts it (as GCC and Clang define it).
`none` is a read behind the vector. -/
def bufsLoop (bufs : List Nat) (bc : Int) (i : Nat) (length : Int) : Option Int :=
  if (i : Int) < bc then
    match bufs[i]? with
    | none => none
    | some len => bufsLoop bufs bc (i + 1) (SBuf.toInt32 ((length % 2 ^ 64 + len) % 2 ^ 64))
  else some length
termination_by (bc + 1 - i).toNat
decreasing_by omega

/-- `kgl_get_bufs_size`; a vector is the list of its entries' lengths -/
def bufsSize (bufs : List Nat) (bc : Int) : Option Int := bufsLoop bufs bc 0 0

/-- `kgl_is_absolute_path`, include/klib.h:6-19; `mem` is the memory the pointer points to, `none` a read behind it -/
def isAbsolute (mem : List UInt8) : Option Bool :=
  match mem[0]? with
  | none => none
  | some c => some (c == 47)

/-- `kgl_msleep`, src/klib.c:8-16: the microseconds given to `usleep`; `none` is a failed assertion or an overflow of `int`.  A `useconds_t` is a `uint32_t`. -/
def msleep (mainFiber : Bool) (msec : Int) : Option Nat :=
  if mainFiber then
    if -(2 : Int) ^ 31 ≤ msec * 1000 ∧ msec * 1000 < (2 : Int) ^ 31 then some ((msec * 1000) % 2 ^ 32).toNat else none
  else none

end Kasync.Klib
