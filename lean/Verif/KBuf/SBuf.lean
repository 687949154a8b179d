import Verif.Align

/-!
# Model of the linear buffer ks_buffer and of the seek helpers

src/kbuf.c:198-252, include/kbuf.h:64-142 and 167-191.  `mem` is the memory of `buf` (its length is the allocated size).
`none` is a failed assertion or an access outside the memory. Allocation always succeeds and `int` sizes are unbounded.
-/

namespace Kasync.SBuf

abbrev Byte := Nat

/-- `ks_buffer`, include/kbuf.h:66-70 -/
structure State where
  mem : List Byte
  bufSize : Nat
  used : Nat
  deriving Repr, DecidableEq

/-- fresh, uninitialised memory -/
def fresh (junk : Nat → Byte) (n : Nat) : List Byte := (List.range n).map junk

/-- `memcpy` of `bs` to offset `off`; `none` when it does not fit -/
def store (mem : List Byte) (off : Nat) (bs : List Byte) : Option (List Byte) :=
  if off + bs.length ≤ mem.length then some (mem.take off ++ bs ++ mem.drop (off + bs.length)) else none

/-- `memcpy` from the first `n` bytes of `mem`; `none` when it has fewer -/
def load (mem : List Byte) (n : Nat) : Option (List Byte) :=
  if n ≤ mem.length then some (mem.take n) else none

/-- `ks_buffer_init`, include/kbuf.h:72-76 -/
def init (junk : Nat → Byte) (n : Nat) : State := ⟨fresh junk n, n, 0⟩

/-- move to a block of `newSize` bytes: src/kbuf.c:204-211, include/kbuf.h:108-112 and 122-127 -/
def regrow (junk : Nat → Byte) (s : State) (newSize : Nat) : Option State := do
  let old ← load s.mem s.used
  let mem ← store (fresh junk newSize) 0 old
  return { s with mem := mem, bufSize := newSize }

/-- `ks_guarantee`, src/kbuf.c:198-213 -/
def guarantee (junk : Nat → Byte) (s : State) (len : Nat) : Option State :=
  if s.used + len ≤ s.bufSize then some s else regrow junk s (alignUp (s.used + len) 1024)

/-- `ks_write_str`, src/kbuf.c:214-221 -/
def writeStr (junk : Nat → Byte) (s : State) (bs : List Byte) : Option State := do
  let s ← guarantee junk s bs.length
  let mem ← store s.mem s.used bs
  return { s with mem := mem, used := s.used + bs.length }

/-- `ks_get_write_buffer`, include/kbuf.h:99-114: state and `*len`; the returned pointer is `buf + used`. The `goto retry`
is taken at most once because the buffer at least doubles; a size of 0 fails the assertion at line 100. -/
def getWriteBuffer (junk : Nat → Byte) (s : State) : Option (State × Nat) :=
  if s.bufSize = 0 then none
  else if 0 < s.bufSize - s.used then some (s, s.bufSize - s.used)
  else do
    let s ← regrow junk s (alignUp (s.bufSize * 2) 1024)
    if 0 < s.bufSize - s.used then some (s, s.bufSize - s.used) else none

/-- the caller stores bytes at the pointer it was given -/
def fill (s : State) (bs : List Byte) : Option State := (store s.mem s.used bs).map (fun m => { s with mem := m })

/-- `ks_write_success`, include/kbuf.h:87-89 -/
def writeSuccess (s : State) (got : Nat) : State := { s with used := s.used + got }

/-- `ks_save_point(buf, buf->buf + k)`, include/kbuf.h:115-137 -/
def savePoint (junk : Nat → Byte) (s : State) (k : Nat) : Option State :=
  if s.bufSize = 0 then none
  else if k = 0 then
    if s.used = s.bufSize then regrow junk s (s.bufSize * 2) else some s
  else if k ≤ s.used then
    let left := s.used - k
    -- memmove(buf, buf + k, left), 133-135
    if s.used ≤ s.mem.length then
      some { s with mem := ((s.mem.drop k).take left) ++ s.mem.drop left, used := left }
    else none
  else none     -- assert(hot_left >= 0), 132

/-- `ks_buffer_switch_read`, include/kbuf.h:138-142 -/
def switchRead (s : State) : State := { s with bufSize := s.used, used := 0 }

/-- `ks_get_read_buffers`, src/kbuf.c:248-252: the bytes of the returned range -/
def readable (s : State) : List Byte := (s.mem.drop s.used).take (s.bufSize - s.used)

/-- `ks_read_success`, src/kbuf.c:243-247 -/
def readSuccess (s : State) (got : Nat) : Option (State × Bool) :=
  let s' := { s with used := s.used + got }
  if s'.bufSize ≥ s'.used then some (s', decide (s'.bufSize > s'.used)) else none

/-- `kbuf_seek`, include/kbuf.h:167-179, on the chain of byte ranges of the chunks. `none` is the dereference of NULL. -/
def kbufSeek : List (List Byte) → Nat → Option (List (List Byte))
  | cs, 0 => some cs
  | [], _ + 1 => none
  | c :: cs, n + 1 =>
    if c.length > n + 1 then some (c.drop (n + 1) :: cs) else kbufSeek cs (n + 1 - c.length)

/-- `kgl_iovec` (`struct iovec`): address and `size_t` length -/
structure IoVec where
  base : Nat
  len : Nat
  deriving Repr, DecidableEq

/-- conversion of a `size_t` / 64 bit value to `int` -/
def toInt32 (n : Int) : Int := (n + 2 ^ 31) % 2 ^ 32 - 2 ^ 31

/-- `kgl_iovec_seek`, include/kbuf.h:180-191: the remaining entries (the array from the returned pointer on) and `*bc`.
`none` is a read past the array. `(int)iov_len` and `offset -= iov_len` (computed in `size_t`, stored to `int`) truncate. -/
def iovecSeek : List IoVec → Int → Int → Option (List IoVec × Int)
  | [], bc, off => if off > 0 then none else some ([], bc)
  | v :: vs, bc, off =>
    if off > 0 then
      if toInt32 v.len > off then some (⟨v.base + off.toNat, v.len - off.toNat⟩ :: vs, bc)
      else iovecSeek vs (bc - 1) (toInt32 (off - v.len))
    else some (v :: vs, bc)

end Kasync.SBuf
