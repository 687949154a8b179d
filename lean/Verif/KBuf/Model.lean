/-!
# Model of the chunked buffer krw_buffer, src/kbuf.c:19-197

A chunk is its memory (`data`, as a list whose length is the allocated size) and `used`; `head`'s list is `chunks`,
`write_hot_buf` is its last element (`NULL` for the empty list), `read_hot` and `write_hot` are offsets into the first
and the last chunk.  Fresh memory has arbitrary contents (`junk`).  `none` is a failed assertion or an access outside a
chunk.  Allocation failure and the `flags` field are not modelled; `int` lengths are unbounded.
-/

namespace Kasync.KBuf

abbrev Byte := Nat

/-- `struct kbuf_s`, include/kfeature.h:114-119: `data`, `used`, `next` (the latter by the list). -/
structure Chunk where
  mem : List Byte
  used : Nat
  deriving Repr, DecidableEq

/-- `krw_buffer`, include/kbuf.h:51-58 -/
structure State where
  chunkSize : Nat
  chunks : List Chunk := []
  /-- `read_hot - head->data` -/
  readOff : Nat := 0
  /-- `write_hot - write_hot_buf->data`; `none` is NULL -/
  writeOff : Option Nat := none
  totalLen : Int := 0
  deriving Repr, DecidableEq

/-- `krw_buffer_init`, src/kbuf.c:62-65 -/
def init (chunkSize : Nat) : State := { chunkSize := chunkSize }

/-- `krw_newbuff`, src/kbuf.c:66-73: uninitialised memory -/
def newbuff (junk : Nat → Byte) (n : Nat) : Chunk := ⟨(List.range n).map junk, 0⟩

/-- `krw_append`, src/kbuf.c:19-32 -/
def append (s : State) (c : Chunk) : State :=
  { s with chunks := s.chunks ++ [c],
           readOff := if s.chunks = [] then 0 else s.readOff,
           totalLen := s.totalLen + c.used, writeOff := none }

/-- `krw_insert`, src/kbuf.c:33-44 -/
def insert (s : State) (c : Chunk) : State :=
  if s.chunks = [] then append s c
  else { s with chunks := c :: s.chunks, readOff := 0, totalLen := s.totalLen + c.used }

/-- change the last chunk (`write_hot_buf`) -/
def modifyLast (f : Chunk → Chunk) : List Chunk → List Chunk
  | [] => []
  | [c] => [f c]
  | c :: cs => c :: modifyLast f cs

/-- `krw_get_write_buffer`, src/kbuf.c:125-144. Result: new state and `*len`; the returned pointer is `write_hot`. -/
def getWriteBuffer (junk : Nat → Byte) (s : State) : Option (State × Nat) :=
  -- 126-132
  let s := if s.chunks = [] then
      { s with chunks := [newbuff junk s.chunkSize], readOff := 0, writeOff := some 0 } else s
  match s.chunks.getLast? with
  | none => none
  | some last =>
    let len : Int := s.chunkSize - last.used
    -- 133-141
    if len = 0 ∨ s.writeOff = none then
      if s.chunkSize = 0 then none      -- kassert(*len > 0), 142
      else some ({ s with chunks := s.chunks ++ [newbuff junk s.chunkSize], writeOff := some 0 }, s.chunkSize)
    else if len > 0 then some (s, len.toNat) else none

/-- overwrite memory at an offset -/
def overlay (mem : List Byte) (off : Nat) (bs : List Byte) : List Byte :=
  mem.take off ++ bs ++ mem.drop (off + bs.length)

/-- The caller stores `bs` at the pointer got from `krw_get_write_buffer`; storing past the chunk is undefined. -/
def fill (s : State) (bs : List Byte) : Option State :=
  match s.chunks.getLast?, s.writeOff with
  | some last, some off =>
    if off + bs.length ≤ last.mem.length then
      some { s with chunks := modifyLast (fun c => { c with mem := overlay c.mem off bs }) s.chunks }
    else none
  | _, _ => none

/-- `krw_write_success`, src/kbuf.c:145-150 -/
def writeSuccess (s : State) (got : Nat) : Option State :=
  if s.chunks = [] then none
  else some { s with chunks := modifyLast (fun c => { c with used := c.used + got }) s.chunks,
                     totalLen := s.totalLen + got, writeOff := s.writeOff.map (· + got) }

/-- loop of `krw_write_str`, src/kbuf.c:151-162; `fuel` bounds the rounds -/
def writeStrLoop (junk : Nat → Byte) : Nat → State → List Byte → Option State
  | 0, s, bs => if bs = [] then some s else none
  | fuel + 1, s, bs =>
    if bs = [] then some s else do
      let (s, wlen) ← getWriteBuffer junk s
      let wlen := min bs.length wlen
      let s ← fill s (bs.take wlen)
      let s ← writeSuccess s wlen
      writeStrLoop junk fuel s (bs.drop wlen)

/-- `krw_write_str` -/
def writeStr (junk : Nat → Byte) (s : State) (bs : List Byte) : Option State := writeStrLoop junk bs.length s bs

/-- `krw_get_read_buffers`, src/kbuf.c:74-92, for `buffer_count ≥ 1`: the bytes each returned range designates. -/
def getReadBuffers (s : State) (n : Nat) : List (List Byte) :=
  match s.chunks with
  | [] => []
  | c :: cs => ((c.mem.take c.used).drop s.readOff) :: (cs.take (n - 1)).map (fun c => c.mem.take c.used)

/-- loop of `krw_read_success`, src/kbuf.c:104-123. Result: chunks, read offset, total, and `some flag` the return value;
the state is re-initialised when the last chunk is used up (115-118). -/
def readLoop : List Chunk → Nat → Int → Nat → Option (List Chunk × Nat × Int × Bool)
  | cs, off, total, 0 => some (cs, off, total, true)
  | [], _, _, _ + 1 => none
  | c :: cs, off, total, got + 1 =>
    if off ≤ c.used then
      let n := min (got + 1) (c.used - off)
      if c.used = off + n then
        match cs with
        | [] => if total - n = 0 then some ([], 0, 0, false) else none
        | c' :: cs' => readLoop (c' :: cs') 0 (total - n) (got + 1 - n)
      else some (c :: cs, off + n, total - n, true)
    else none

/-- `krw_read_success`, src/kbuf.c:102-124 -/
def readSuccess (s : State) (got : Nat) : Option (State × Bool) :=
  if s.chunks = [] then none else
  match readLoop s.chunks s.readOff s.totalLen got with
  | none => none
  | some (cs, off, total, flag) =>
    if cs = [] then some (init s.chunkSize, flag)
    else some ({ s with chunks := cs, readOff := off, totalLen := total }, flag)

/-- loop of `krw_read`, src/kbuf.c:175-197 -/
def readBytes : Nat → State → Nat → Option (State × List Byte)
  | _, s, 0 => some (s, [])
  | 0, _, _ + 1 => none
  | fuel + 1, s, len + 1 =>
    match getReadBuffers s 1 with
    | [] => some (s, [])
    | b :: _ =>
      let n := min b.length (len + 1)
      if n = 0 then some (s, [])
      else
        match readSuccess s n with
        | none => none
        | some (s', false) => some (s', b.take n)
        | some (s', true) =>
          match readBytes fuel s' (len + 1 - n) with
          | none => none
          | some (s'', out) => some (s'', b.take n ++ out)

/-- `krw_read(rw_buffer, buf, len)`: the bytes stored in `buf` (their number is the return value). -/
def read (s : State) (len : Nat) : Option (State × List Byte) := readBytes len s len

end Kasync.KBuf
