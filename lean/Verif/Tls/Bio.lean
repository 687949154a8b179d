import Verif.KBuf.Tight

/-!
# Model of reading and writing through the memory BIOs (ENABLE_KSSL_BIO)

src/kssl_bio.c:7-40, 132-165, include/kssl_bio.h, src/kselectable.c:206-289, 355-560.

One TLS connection after its handshake: `rb` and `wb` are the krw_buffers of the incoming and the outgoing BIO (chunks of
`n` bytes; `bioChunk` in the code).  OpenSSL is not modelled: an `SSL_read` or `SSL_write` may make every sequence of calls
of `kgl_bio_read` and `kgl_bio_write` and may return every number.  The selector is modelled by what it tells: that a
registered wait is due, with every outcome of the `readv`/`writev` it then makes.  `none` is undefined behaviour: memory
outside a buffer, or (with `dbg`) a failed `kassert`.

Simplifications: allocation succeeds; both buffers are empty at the start; early data (`in_early`) is over; UDP and
sendfile are not used on the connection.
-/

namespace Kasync.Tls.Bio

open KBuf (Byte)

/-- chunk size of the BIO buffers, `krw_buffer_new(16384)`, src/kssl_bio.c:66; the theorems hold for every positive size -/
def bioChunk : Nat := 16384

/-- `KGL_MAX_IOVEC_COUNT - 1`, include/kssl_bio.h:18, 42 -/
def maxIov : Nat := 63

/-- `ST_ERR_TIME_OUT`, include/kselectable.h -/
def errTimeOut : Int := -2

/-- the read side: nothing registered; `result_ssl_bio_read` registered with one iovec of `len` bytes at the write
position of `rb`; or the user's callback registered with STF_RREADY2 set.  `buf` tells whether the user gave a buffer. -/
inductive Rd where
  | idle
  | sock (id : Nat) (buf : Bool) (len : Nat)
  | ready (id : Nat) (buf : Bool)
  deriving Repr, DecidableEq

/-- the write side: nothing registered; `result_ssl_bio_write` registered with iovecs of these lengths, starting at the
read position of `wb`; or the user's callback registered. -/
inductive Wr where
  | idle
  | sock (id : Nat) (lens : List Nat)
  | ready (id : Nat) (buf : Bool)
  deriving Repr, DecidableEq

/-- a call of `SSL_write` for the request `id`: its result, and how many bytes OpenSSL had produced when it returned -/
structure Req where
  id : Nat
  got : Int
  mark : Nat
  deriving Repr, DecidableEq

structure St where
  rb : KBuf.State
  wb : KBuf.State
  /-- `BIO_get_shutdown` of the incoming BIO -/
  shut : Bool := false
  /-- STF_ERR -/
  err : Bool := false
  rd : Rd := .idle
  wr : Wr := .idle
  /-- STF_WREADY2 -/
  wready2 : Bool := false
  /-- `ssl->bio[OP_WRITE].got` -/
  wgot : Int := 0
  /-- `kssl_bio_buffer`s allocated and not freed -/
  alloc : Nat := 0
  /-- number of requests made so far; also the next request's name -/
  next : Nat := 0
  /-- answers: user callbacks called for reads and for writes -/
  rans : List (Nat × Int) := []
  wans : List (Nat × Int) := []
  /-- read timeouts told to the user's callback while the read stays registered -/
  notes : List Nat := []
  /-- history: `SSL_write` calls -/
  reqs : List Req := []
  /-- history: bytes OpenSSL wrote into the outgoing BIO -/
  produced : List Byte := []
  /-- history: bytes OpenSSL got from the incoming BIO -/
  fed : List Byte := []
  /-- history: bytes received from the socket -/
  recv : List Byte := []
  /-- history: bytes the socket accepted -/
  wire : List Byte := []
  /-- history: the socket reported the end or an error to a read -/
  ended : Bool := false
  /-- history: for each end of file told to OpenSSL, how many bytes it had got and how many had been received -/
  eofs : List (Nat × Nat) := []
  deriving Repr, DecidableEq

/-- fresh BIOs with chunks of `n` bytes, `kgl_bio_new`, src/kssl_bio.c:64-75 -/
def start (n : Nat) : St := { rb := KBuf.init n, wb := KBuf.init n }

/-- what `kgl_bio_read` tells OpenSSL -/
inductive BioRes where
  | data (bs : List Byte)
  | retry
  | eof
  deriving Repr, DecidableEq

/-- `kgl_bio_read`, src/kssl_bio.c:19-40 -/
def bioRead (shut : Bool) (b : KBuf.State) (size : Nat) : Option (KBuf.State × BioRes) :=
  match KBuf.read b size with
  | none => none
  | some (b', out) =>
    if out.length = 0 then some (b', if shut then .eof else .retry)
    else some (b', .data out)

/-- `kgl_bio_write`, src/kssl_bio.c:7-18 -/
def bioWrite (junk : Nat → Byte) (b : KBuf.State) (bs : List Byte) : Option KBuf.State := KBuf.writeStr junk b bs

/-- `BIO_pending`, `kgl_bio_ctrl` with BIO_CTRL_PENDING, src/kssl_bio.c:50-51 -/
def bioPending (b : KBuf.State) : Int := b.totalLen

/-- a call OpenSSL makes of the BIOs: write to the outgoing one, read up to `n + 1` bytes from the incoming one -/
inductive Act where
  | w (bs : List Byte)
  | r (n : Nat)
  deriving Repr, DecidableEq

/-- one call of `kgl_ssl_readv` or `kgl_ssl_writev`: the BIO calls it makes, its result, and whether a negative result is
to be tried again (`errno == EAGAIN` or SSL_ERROR_WANT_READ) -/
structure Call where
  acts : List Act := []
  got : Int
  again : Bool := false
  deriving Repr, DecidableEq

/-- one BIO call of OpenSSL -/
def doAct (junk : Nat → Byte) (s : St) : Act → Option St
  | .w bs =>
    match bioWrite junk s.wb bs with
    | none => none
    | some wb => some { s with wb := wb, produced := s.produced ++ bs }
  | .r n =>
    match bioRead s.shut s.rb (n + 1) with
    | none => none
    | some (rb, .data bs) => some { s with rb := rb, fed := s.fed ++ bs }
    | some (rb, .retry) => some { s with rb := rb }
    | some (rb, .eof) => some { s with rb := rb, eofs := s.eofs ++ [(s.fed.length, s.recv.length)] }

/-- the BIO calls of OpenSSL, one after the other -/
def runActs (junk : Nat → Byte) : St → List Act → Option St
  | s, [] => some s
  | s, a :: as => (doAct junk s a).bind fun s => runActs junk s as

/-- call the user's callback for the read `id` -/
def answerR (s : St) (id : Nat) (v : Int) : St := { s with rd := .idle, rans := s.rans ++ [(id, v)] }

/-- call the user's callback for the write `id` -/
def answerW (s : St) (id : Nat) (v : Int) : St := { s with wr := .idle, wans := s.wans ++ [(id, v)] }

/-- `selectable_ssl_read`, src/kselectable.c:206-229, and `buffer_ssl_bio_read`, include/kssl_bio.h:30-37 -/
def sslRead (junk : Nat → Byte) (s : St) (id : Nat) (buf : Bool) : Option St :=
  if bioPending s.rb > 0 then some { s with rd := .ready id buf }
  else
    match KBuf.getWriteBuffer junk s.rb with
    | none => none
    | some (rb, len) => some { s with rb := rb, alloc := s.alloc + 1, rd := .sock id buf len }

/-- `selectable_event_read`, src/kselectable.c:401-452, after its first lines -/
def eventRead (junk : Nat → Byte) (s : St) (id : Nat) (buf : Bool) (call : Call) : Option St :=
  if !buf then some (answerR s id 0)
  else
    match runActs junk s call.acts with
    | none => none
    | some s =>
      if call.got ≥ 0 then some (answerR s id call.got)
      else if call.again then sslRead junk s id buf
      else some (answerR s id call.got)

/-- the lengths `buffer_ssl_bio_write` puts into its iovecs, include/kssl_bio.h:38-42 -/
def iovLens (b : KBuf.State) : List Nat := (KBuf.getReadBuffers b maxIov).map List.length

/-- the bytes that iovecs of these lengths designate: the first starts at offset `off` of the first chunk, the others at
the start of theirs -/
def iovBytes : List KBuf.Chunk → Nat → List Nat → List Byte
  | _, _, [] => []
  | [], _, _ :: _ => []
  | c :: cs, off, l :: ls => (c.mem.drop off).take l ++ iovBytes cs 0 ls

/-- `selectable_ssl_write`, src/kselectable.c:230-253; `selectable_write`, 545-556, with `dbg` for its `kassert` -/
def startWrite (junk : Nat → Byte) (dbg : Bool) (s : St) (buf : Bool) (call : Call) : Option St :=
  if dbg && (s.wready2 || s.wr != .idle) then none
  else
    let id := s.next
    let s := { s with next := s.next + 1 }
    match (if buf then runActs junk s call.acts else some s) with
    | none => none
    | some s =>
      let got := if buf then call.got else 0
      let s := { s with wgot := got, reqs := s.reqs ++ [(⟨id, got, s.produced.length⟩ : Req)] }
      if bioPending s.wb ≤ 0 then some { s with wr := .ready id buf, wready2 := true }
      else some { s with alloc := s.alloc + 1, wr := .sock id (iovLens s.wb) }

/-- `result_ssl_bio_write`, src/kssl_bio.c:150-165 -/
def resultBioWrite (s : St) (id : Nat) (got : Int) : Option St :=
  if got ≤ 0 then some (answerW { s with alloc := s.alloc - 1 } id got)
  else
    match KBuf.readSuccess s.wb got.toNat with
    | none => none
    | some (wb, true) => some { s with wb := wb, wr := .sock id (iovLens wb) }
    | some (wb, false) => some (answerW { s with wb := wb, alloc := s.alloc - 1 } id s.wgot)

/-- outcome of `writev` -/
inductive Io where
  /-- EAGAIN -/
  | again
  /-- so many bytes were accepted -/
  | bytes (k : Nat)
  /-- -1, or the wait could not be registered -/
  | fail
  deriving Repr, DecidableEq

/-- `selectable_write_event`, src/kselectable.c:476-495, with `selectable_low_event_write`, 255-271, and the part of
`selectable_event_write` for STF_WREADY2, 355-372 -/
def writeEvent (dbg : Bool) (s : St) (io : Io) : Option St :=
  match s.wr with
  | .idle => none
  | .sock id lens =>
    if s.err then resultBioWrite s id (-1)
    else if s.wready2 then
      -- kassert(result != result_ssl_bio_write), 361; the iovecs are not written
      if dbg then none else resultBioWrite { s with wready2 := false } id s.wgot
    else
      match io with
      | .again => some s
      | .fail => resultBioWrite s id (-1)
      | .bytes k =>
        resultBioWrite { s with wire := s.wire ++ (iovBytes s.wb.chunks s.wb.readOff lens).take k } id k
  | .ready id buf =>
    if s.err then some (answerW s id (-1))
    else if s.wready2 then
      let s := { s with wready2 := false }
      if buf then
        -- kassert(BIO_pending(ssl_bio->bio) <= 0), 363
        if dbg && decide (bioPending s.wb > 0) then none else some (answerW s id s.wgot)
      else some (answerW s id 0)
    else none

/-- `result_ssl_bio_read`, src/kssl_bio.c:132-148, for a result that is not ST_ERR_TIME_OUT; `bs` are the bytes `readv`
stored at the write position (with none the result is 0 or negative) -/
def resultBioRead (junk : Nat → Byte) (s : St) (id : Nat) (buf : Bool) (bs : List Byte) (call : Call) : Option St :=
  let s := { s with alloc := s.alloc - 1, rd := .idle }
  if bs = [] then eventRead junk { s with shut := true, ended := true } id buf call
  else
    match (KBuf.fill s.rb bs).bind (fun b => KBuf.writeSuccess b bs.length) with
    | none => none
    | some rb => eventRead junk { s with rb := rb, recv := s.recv ++ bs } id buf call

inductive Op where
  /-- `selectable_write` -/
  | write (buf : Bool) (call : Call)
  /-- the selector calls `selectable_write_event` -/
  | wEvent (io : Io)
  /-- the selector sets STF_ERR, src/kepoll_selector.c:382-383 -/
  | hup
  /-- `selectable_read`; `pend` is `SSL_pending > 0` -/
  | read (buf : Bool) (pend : Bool)
  /-- the socket wait of a read is over: `readv` gave `bs`, or with `[]` the end or an error; `call` is the following `SSL_read` -/
  | rSock (bs : List Byte) (call : Call)
  /-- the wait timed out (ST_ERR_TIME_OUT, src/kssl_bio.c:136-139) -/
  | rTimeout
  /-- `selectable_read_event` with STF_RREADY2; `pend` is `SSL_pending > 0` at that time -/
  | rReady (pend : Bool) (call : Call)
  deriving Repr, DecidableEq

/-- what the selector and the user may do: one read and one write at a time, events only for what is registered, and
`readv`/`writev` within the iovecs they are given -/
def Allowed (s : St) : Op → Prop
  | .write _ _ => s.wr = .idle
  | .wEvent io => s.wr ≠ .idle ∧ ∀ k, io = .bytes k → ∀ id lens, s.wr = .sock id lens → 0 < k ∧ k ≤ lens.sum
  | .hup => True
  | .read _ _ => s.rd = .idle
  | .rSock bs _ => ∃ id buf len, s.rd = .sock id buf len ∧ bs.length ≤ len
  | .rTimeout => ∃ id buf len, s.rd = .sock id buf len
  | .rReady _ _ => ∃ id buf, s.rd = .ready id buf

/-- one step; `none` is undefined behaviour -/
def step (junk : Nat → Byte) (dbg : Bool) (s : St) : Op → Option St
  | .write buf call => startWrite junk dbg s buf call
  | .wEvent io => writeEvent dbg s io
  | .hup => some { s with err := true }
  | .read buf pend =>
    -- `selectable_read`, src/kselectable.c:519-544
    let id := s.next
    let s := { s with next := s.next + 1 }
    if pend then some { s with rd := .ready id buf } else sslRead junk s id buf
  | .rSock bs call =>
    match s.rd with
    | .sock id buf _ => resultBioRead junk s id buf bs call
    | _ => none
  | .rTimeout =>
    match s.rd with
    | .sock id _ _ => some { s with notes := s.notes ++ [id] }
    | _ => none
  | .rReady pend call =>
    match s.rd with
    | .ready id buf =>
      -- kassert(... ssl_pending > 0 || bio_pending > 0 || BIO_get_shutdown), 412
      if dbg && buf && !pend && decide (bioPending s.rb ≤ 0) && !s.shut then none
      else eventRead junk { s with rd := .idle } id buf call
    | _ => none

/-- states after some allowed history -/
inductive Reachable (junk : Nat → Byte) (dbg : Bool) (n : Nat) : St → Prop
  | refl : Reachable junk dbg n (start n)
  | tail {s s' : St} (o : Op) : Reachable junk dbg n s → Allowed s o → step junk dbg s o = some s' → Reachable junk dbg n s'

end Kasync.Tls.Bio
