import Verif.KBuf.Model
import Verif.KBuf.SBuf

/-!
# Model of writing numbers to buffers (src/kbuf.c:163-174 and 222-233)

`snprintf` is what the C standard says: the text of the number, cut to what the array holds with its final zero; its result is the length of the whole text.
The functions pass that result on as the length to copy, so it matters that no text is cut: `none` is a read behind the array.
-/

namespace Kasync.KBuf.Num

/-- what `snprintf` makes of a number without sign -/
def natText (n : Nat) : List Nat := if n < 10 then [48 + n] else natText (n / 10) ++ [48 + n % 10]

/-- what `snprintf` makes of "%d" and "%" PRId64 -/
def text (v : Int) : List Nat := if v < 0 then 45 :: natText v.natAbs else natText v.natAbs

/-- `memset` of an array of `size` bytes and `snprintf` into it: the array afterwards and the result -/
def snprintf (size : Nat) (v : Int) : List Byte × Nat :=
  ((text v).take (size - 1) ++ List.replicate (size - min (size - 1) (text v).length) 0, (text v).length)

/-- `len` bytes from the start of an array -/
def load (buf : List Byte) (len : Nat) : Option (List Byte) := if len ≤ buf.length then some (buf.take len) else none

/-- `krw_write_int`, src/kbuf.c:163-168 -/
def krwWriteInt (junk : Nat → Byte) (s : State) (v : Int) : Option State := do
  let r := snprintf 16 v
  let bs ← load r.1 r.2
  writeStr junk s bs

/-- `krw_write_int64`, src/kbuf.c:169-174 -/
def krwWriteInt64 (junk : Nat → Byte) (s : State) (v : Int) : Option State := do
  let r := snprintf 32 v
  let bs ← load r.1 r.2
  writeStr junk s bs

/-- `ks_write_int`, src/kbuf.c:222-227 -/
def ksWriteInt (junk : Nat → Byte) (s : SBuf.State) (v : Int) : Option SBuf.State := do
  let r := snprintf 16 v
  let bs ← load r.1 r.2
  SBuf.writeStr junk s bs

/-- `ks_write_int64`, src/kbuf.c:228-233 -/
def ksWriteInt64 (junk : Nat → Byte) (s : SBuf.State) (v : Int) : Option SBuf.State := do
  let r := snprintf 32 v
  let bs ← load r.1 r.2
  SBuf.writeStr junk s bs

end Kasync.KBuf.Num
