import Verif.KBuf.Model

/-! # The byte stream a krw_buffer stands for -/

namespace Kasync.KBuf

/-- valid bytes of a chunk -/
def Chunk.bytes (c : Chunk) : List Byte := c.mem.take c.used

/-- all bytes that can still be read, in order -/
def stream (s : State) : List Byte := ((s.chunks.map Chunk.bytes).flatten).drop s.readOff

/-- Well-formed buffers. -/
structure WF (s : State) : Prop where
  fits : ∀ c ∈ s.chunks, c.used ≤ c.mem.length
  off : ∀ c cs, s.chunks = c :: cs → s.readOff ≤ c.used
  empty : s.chunks = [] → s.readOff = 0 ∧ s.writeOff = none
  last : ∀ o, s.writeOff = some o → ∀ c, s.chunks.getLast? = some c → o = c.used ∧ c.mem.length = s.chunkSize
  total : s.totalLen = (stream s).length

/-- A use of the buffer by a client. -/
inductive Op where
  /-- `krw_write_str(bs)` -/
  | write (bs : List Byte)
  /-- `krw_get_write_buffer`, then the caller stores the bytes `bs` (at most `*len`) at the returned pointer and calls
  `krw_write_success(got)` with `got ≤ length bs` -/
  | produce (bs : List Byte) (got : Nat)
  /-- `krw_get_write_buffer` without a write -/
  | reserve
  /-- `krw_append` of a chunk prepared by the caller -/
  | append (c : Chunk)
  /-- `krw_read(len)` -/
  | read (len : Nat)
  /-- `krw_get_read_buffers` followed by `krw_read_success(got)`: the caller takes `got` bytes -/
  | consume (got : Nat)

/-- Outcome of one use: new state, bytes written, bytes read; `none` is undefined behaviour. A `produce` with more bytes
than `*len` or a `consume` on a buffer without chunks is outside the interface (`Allowed` below). -/
def apply (junk : Nat → Byte) (s : State) : Op → Option (State × List Byte × List Byte)
  | .write bs => (writeStr junk s bs).map (fun s => (s, bs, []))
  | .produce bs got => do
      let (s, _) ← getWriteBuffer junk s
      let s ← fill s bs
      let s ← writeSuccess s got
      return (s, bs.take got, [])
  | .reserve => (getWriteBuffer junk s).map (fun p => (p.1, [], []))
  | .append c => some (append s c, c.bytes, [])
  | .read len => (read s len).map (fun p => (p.1, [], p.2))
  | .consume got => (readSuccess s got).map (fun p => (p.1, [], (getReadBuffers s s.chunks.length).flatten.take got))

/-- what the interface asks of the caller -/
def Allowed (junk : Nat → Byte) (s : State) : Op → Prop
  | .write _ => True
  | .produce bs got => got ≤ bs.length ∧ ∀ s' len, getWriteBuffer junk s = some (s', len) → bs.length ≤ len
  | .reserve => True
  | .append c => c.used ≤ c.mem.length
  | .read _ => True
  | .consume _ => s.chunks ≠ []

end Kasync.KBuf
