import Verif.Common

/-!
# Asynchronous file access (include/kasync_file.h, src/kasync_file.c, src/kepoll_selector.c:410-494, src/kfiber.c:566-616)

One open file and one operation on it: the alignment arithmetic of direct IO, the request handed to the kernel, and what is told
to the caller.  The kernel's answer is any count that the file's contents allow, or an error.  The harvesting of completions is
`Verif.File.AioLoop`.

`ndebug` says whether the library was built with NDEBUG; without it a failed `assert` aborts the process (`none`).
-/

namespace Kasync.Aio

abbrev Byte := Nat

/-- Conversion to `int`. -/
def toInt32 (n : Int) : Int := (n + 2 ^ 31) % 2 ^ 32 - 2 ^ 31

/-- Conversion to `int16_t`. -/
def toInt16 (n : Int) : Int := (n + 2 ^ 15) % 2 ^ 16 - 2 ^ 15

/-- Conversion to `uint16_t`. -/
def toUInt16 (n : Int) : Int := n % 2 ^ 16

/-- `kgl_align_floor(d,a)`, include/kmalloc.h:34, on two's complement words (`Verif.Align` has the bit form). -/
def floorI (d a : Int) : Int := d - d % a

/-- `kgl_align(d,a)`, include/kmalloc.h:35 -/
def alignI (d a : Int) : Int := floorI (d + (a - 1)) a

/-- The file part of `kselectable` (include/kselectable.h:74-82) and the contents of the file. -/
structure File where
  content : List Byte
  offset : Int
  direct : Bool := false
  origLen : Int := 0
  /-- `direct_io_offset`, a `uint16_t` -/
  dOff : Int := 0
  deriving Repr

/-- The part of `struct iocb` the kernel acts on. -/
structure Req where
  off : Int
  nbytes : Int
  deriving Repr, DecidableEq

/-- `_kasync_file_get_adjust_offset`, include/kasync_file.h:69-71 -/
def adjustOffset (f : File) : Int := f.offset - toInt16 f.dOff

/-- `epoll_selector_aio_read`, src/kepoll_selector.c:452-494; `aligned`: the buffer address is a multiple of `a`
(`kgl_aio_align_size`). -/
def startRead (ndebug : Bool) (a : Int) (f : File) (aligned : Bool) (length : Int) : Option (File × Req) :=
  if f.direct then
    if aligned = false ∧ ndebug = false then none
    else
      let newOffset := floorI f.offset a
      let newLength := toInt32 (alignI length a)
      let newLength := if newLength = 0 then toInt32 a else newLength
      let f1 := { f with origLen := length, dOff := toUInt16 (f.offset - newOffset) }
      some (f1, ⟨adjustOffset f1, newLength⟩)
  else
    let f1 := { f with dOff := 0 }
    some (f1, ⟨adjustOffset f1, length⟩)

/-- `epoll_selector_aio_write`, src/kepoll_selector.c:415-451 -/
def startWrite (ndebug : Bool) (a : Int) (f : File) (aligned : Bool) (length : Int) : Option (File × Req) :=
  let f1 := { f with dOff := 0 }
  if f.direct then
    if (aligned = false ∨ f.offset ≠ alignI f.offset a) ∧ ndebug = false then none
    else
      let f2 := { f1 with origLen := length }
      some (f2, ⟨adjustOffset f2, length⟩)
  else some (f1, ⟨adjustOffset f1, length⟩)

/-- `kasync_file_adjust_result`, include/kasync_file.h:72-84 -/
def adjustResult (ndebug : Bool) (f : File) (got : Int) : Option Int :=
  if f.direct = false then some got
  else if ¬ got > f.dOff ∧ ndebug = false then none
  else if got < f.dOff then some (-1)
  else some (min (got - f.dOff) f.origLen)

/-- `aio_result` (src/kepoll_selector.c:60-63) and `kfiber_file_callback` (src/kfiber.c:566-578): what the fiber is told, and the
file afterwards. -/
def finish (ndebug : Bool) (f : File) (got : Int) : Option (Int × File) :=
  match adjustResult ndebug f got with
  | none => none
  | some r => some (r, if r > 0 then { f with offset := f.offset + r } else f)

/-- What the caller finds at `kfiber_file_adjust(file, buf)` (include/kfiber.h:324-328), for the result `r`, when the kernel put
`data` at `buf`. -/
def delivered (f : File) (data : List Byte) (r : Int) : List Byte := (data.drop f.dOff.toNat).take r.toNat

/-- `pread` by the kernel: an error, or `res` bytes of the file from `off` on, never more than asked for and than there are.
With O_DIRECT everything must be aligned. -/
def PRead (a : Int) (f : File) (aligned : Bool) (q : Req) (res : Int) (data : List Byte) : Prop :=
  (res < 0 ∧ data = []) ∨
  (0 ≤ res ∧ 0 ≤ q.off ∧ res ≤ q.nbytes ∧ data = (f.content.drop q.off.toNat).take res.toNat ∧ data.length = res.toNat ∧
    (f.direct = true → aligned = true ∧ q.off % a = 0 ∧ q.nbytes % a = 0))

/-- The file after `bytes` have been written at `off` (a gap is filled with zeros). -/
def patch (content : List Byte) (off : Nat) (bytes : List Byte) : List Byte :=
  (content ++ List.replicate (off - content.length) 0).take off ++ bytes ++ content.drop (off + bytes.length)

/-- `pwrite` by the kernel: an error, or the first `res` bytes of the buffer are written at `off`. -/
def PWrite (a : Int) (f : File) (aligned : Bool) (buf : List Byte) (q : Req) (res : Int) (content' : List Byte) : Prop :=
  (res < 0 ∧ content' = f.content) ∨
  (0 ≤ res ∧ 0 ≤ q.off ∧ res ≤ q.nbytes ∧ res.toNat ≤ buf.length ∧ content' = patch f.content q.off.toNat (buf.take res.toNat) ∧
    (f.direct = true → aligned = true ∧ q.off % a = 0 ∧ q.nbytes % a = 0))

/-- `kfiber_file_read` (src/kfiber.c:582-591) with the kernel's answer `res`: what it returns, the file afterwards, and the
request it made. -/
def read (ndebug : Bool) (a : Int) (f : File) (aligned : Bool) (length res : Int) : Option (Int × File × Req) :=
  match startRead ndebug a f aligned length with
  | none => none
  | some (f1, q) => match finish ndebug f1 res with
    | none => none
    | some (r, f2) => some (r, f2, q)

/-- `kfiber_file_write` (src/kfiber.c:592-601) with the kernel's answer `res` and the contents `content'` the kernel left. -/
def write (ndebug : Bool) (a : Int) (f : File) (aligned : Bool) (length res : Int) (content' : List Byte) : Option (Int × File × Req) :=
  match startWrite ndebug a f aligned length with
  | none => none
  | some (f1, q) => match finish ndebug { f1 with content := content' } res with
    | none => none
    | some (r, f2) => some (r, f2, q)

inductive Whence where
  | begin | cur | fromEnd
  deriving Repr, DecidableEq

/-- `kfiber_file_seek`, src/kfiber.c:602-613 -/
def seek (f : File) (w : Whence) (offset : Int) : File × Int :=
  match w with
  | .begin => ({ f with offset := offset }, 0)
  | .cur => ({ f with offset := f.offset + offset }, 0)
  | .fromEnd => (f, -1)

/-- `kasync_file_direct`, src/kasync_file.c:125-135 (`ok`: both `fcntl` calls succeed) -/
def setDirect (f : File) (on ok : Bool) : File × Bool := if ok then ({ f with direct := on }, true) else (f, false)

/-- `init_aio_align_size`, src/kasync_file.c:72-106: `none` when /proc/mounts cannot be read, otherwise the logical block sizes
of the mounted devices that answer. -/
def alignSize (lbs : Option (List Nat)) : Nat :=
  match lbs with
  | none => 4096
  | some l => l.foldl (fun a b => if b > a then b else a) 512

end Kasync.Aio
