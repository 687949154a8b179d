import Verif.Common

/-!
# Model of the TLS handshake and shutdown drivers (src/kconnection.c, src/kgl_ssl.c, src/kfiber.c)

One TLS connection.  OpenSSL is not modelled: every call of it may give every result and, when the socket is reached through the memory BIOs
(ENABLE_KSSL_BIO, `bio = true`), may add every sequence of bytes to the outgoing BIO.  The selector is modelled by what it may tell a request:
that the descriptor is ready, that the request failed, or (connections flagged STF_RTIME_OUT, `rtmo = true`) that a read timed out while it
stays pending.

The fiber versions of the two drivers' callbacks, `result_fiber_ssl_handshake` and `result_fiber_ssl_shutdown` (src/kfiber.c:479-505), have the same cases: waking
the fiber with -1 or 0 takes the place of answering (and freeing the parameter block) or destroying; a fiber woken twice is undefined like a block freed twice.

Simplifications: allocation succeeds; `SSL_ERROR_*` not named in the code are one value `other`.
-/

namespace Kasync.Tls

abbrev Byte := BitVec 8

/-- the results of `SSL_get_error` the code tells apart, src/kgl_ssl.c:775-805 -/
inductive SslErr where
  | wantRead | wantWrite | wantConnect | wantAccept | syscall | ssl | zeroReturn | x509Lookup | other
  deriving Repr, DecidableEq

/-- `kssl_status` with the numbers the compiler gives it, include/kgl_ssl.h:27-34 -/
def retError : Nat := 0
def retOk : Nat := 1
def retWantRead : Nat := 2
def retWantWrite : Nat := 3
def retSni : Nat := 4

/-- OpenSSL's numbers of the errors (ssl.h), as far as they are compared with a `kssl_status` in src/kconnection.c:132-145 -/
def SSL_ERROR_WANT_READ : Nat := 2
def SSL_ERROR_WANT_WRITE : Nat := 3

/-- `kgl_ssl_handshake_status`, src/kgl_ssl.c:775-805 -/
def handshakeStatus : SslErr → Nat
  | .wantRead => retWantRead
  | .wantWrite | .wantConnect | .wantAccept => retWantWrite
  | .syscall => retError
  | .ssl | .zeroReturn => retError
  | .x509Lookup => retSni
  | .other => retError

/-- what `SSL_do_handshake` (or `SSL_shutdown`) does: 1, or a failure with its error -/
inductive SslRet where
  | one
  | fail (e : SslErr)
  deriving Repr, DecidableEq

/-- what `SSL_read_early_data` does -/
inductive EarlyRet where
  | finish
  | success (b : Byte)
  | fail (e : SslErr)
  deriving Repr, DecidableEq

/-- what OpenSSL does in one call of the driver: the result of `SSL_read_early_data` (if it is called), of `SSL_do_handshake` / `SSL_shutdown` (if it
is called), and the bytes put into the outgoing BIO -/
structure In where
  early : EarlyRet
  hs : SslRet
  out : List Byte
  deriving Repr, DecidableEq

structure Cfg where
  /-- ENABLE_KSSL_BIO -/
  bio : Bool
  /-- the connection is flagged STF_RTIME_OUT -/
  rtmo : Bool
  deriving Repr, DecidableEq

/-- What the user is told: the argument of the callback. -/
inductive Ans where
  | ok      -- 0
  | failed  -- -1
  deriving Repr, DecidableEq

structure St where
  started : Bool := false
  /-- `try_early_data`, `in_early`, `early_preread`, `early_buf` -/
  tryEarly : Bool := false
  inEarly : Bool := false
  preread : Bool := false
  earlyBuf : Byte := 0
  /-- STF_READ: a read is requested -/
  rd : Bool := false
  /-- STF_WRITE: a write is requested -/
  wr : Bool := false
  /-- the outgoing BIO -/
  out : List Byte := []
  /-- bytes handed to the socket, in order -/
  sent : List Byte := []
  /-- calls of the user's callback -/
  answers : List Ans := []
  /-- how often the parameter block was freed, src/kconnection.c:22 -/
  frees : Nat := 0
  -- ghosts
  /-- all bytes OpenSSL has put into the outgoing BIO -/
  made : List Byte := []
  /-- the last status -/
  status : Nat := 0
  deriving Repr, DecidableEq

/-- `ssl_handshake_result`, src/kconnection.c:19-24: the parameter block must still be there -/
def answer (s : St) (a : Ans) : Res St :=
  if s.frees = 0 then .ok { s with answers := s.answers ++ [a], frees := s.frees + 1 } else .ub

/-- `selectable_read(st, cb, NULL, arg)`: src/kselectable.c:518-546, with the assertion of src/kepoll_selector.c:295 -/
def reqRead (s : St) : Res St := if s.rd then .ub else .ok { s with rd := true }

/-- `selectable_write(st, cb, NULL, arg)`: src/kselectable.c:547-557 with its assertion -/
def reqWrite (s : St) : Res St := if s.wr then .ub else .ok { s with wr := true }

/-- `kgl_ssl_handshake`, src/kgl_ssl.c:806-819 -/
def sslHandshake : SslRet → Nat
  | .one => retOk
  | .fail e => handshakeStatus e

/-- what `kselectable_ssl_handshake` does with a status, src/kconnection.c:176-199 -/
def handshakeCheck (c : Cfg) (s : St) (status : Nat) : Res St :=
  let s := { s with status := status }
  if c.bio ∧ status ≠ retError ∧ s.out ≠ [] then reqWrite s
  else if status = retOk then answer s .ok
  else if status = retWantRead then reqRead s
  else if status = retWantWrite then reqWrite s
  else answer s .failed

/-- `kselectable_ssl_handshake`, src/kconnection.c:147-200.  The parameter block is used again when it answers or waits. -/
def handshake (c : Cfg) (s : St) (i : In) : Res St :=
  if s.frees ≠ 0 then .ub else
  let s := { s with out := s.out ++ i.out, made := s.made ++ i.out }
  if s.tryEarly then
    match i.early with
    | .finish => handshakeCheck c { s with tryEarly := false } (sslHandshake i.hs)
    | .success b =>
      answer { s with tryEarly := false, earlyBuf := b, inEarly := true, preread := true, status := retOk } .ok
    | .fail e => handshakeCheck c s (handshakeStatus e)
  else handshakeCheck c s (sslHandshake i.hs)

/-- `result_ssl_handshake`, src/kconnection.c:202-213, called by the selector -/
def handshakeResult (c : Cfg) (s : St) (got : Int) (i : In) : Res St :=
  if got = -1 then answer s .failed
  else if got = 1 then answer s .ok
  else handshake c s i

inductive Op where
  /-- `kconnection_ssl_handshake`, src/kconnection.c:240-249 -/
  | start (i : In)
  /-- the socket can be read (a request without buffer is told 0, src/kselectable.c:419-421; with BIOs the bytes go into the incoming BIO first, or a
  failure closes it, src/kssl_bio.c:132-148) -/
  | readable (i : In)
  /-- the socket can be written: without BIOs a request without buffer is told 0 (src/kselectable.c:367-369); with BIOs `k` bytes of the outgoing BIO are written, and
  the request goes on while there are more (src/kssl_bio.c:150-165) -/
  | writable (k : Nat) (i : In)
  /-- the read request fails: src/kepoll_selector.c:304-309.  With BIOs the incoming BIO is closed and the driver runs (src/kssl_bio.c:142-147) -/
  | readFail (i : In)
  /-- the write request fails: src/kselectable.c:486-488 (STF_ERR), src/kssl_bio.c:155-158 -/
  | writeFail
  /-- the read request has waited too long: it is told -2 and stays, src/kselector.c:188-195 -/
  | readTimeout (i : In)
  deriving Repr, DecidableEq

def step (c : Cfg) (s : St) : Op → Res St
  | .start i => if s.started then .disabled else handshake c { s with started := true } i
  | .readable i => if s.rd then handshakeResult c { s with rd := false } 0 i else .disabled
  | .writable k i =>
    if s.wr then
      if c.bio ∧ s.out ≠ [] then
        if 0 < k ∧ k ≤ s.out.length then
          let s := { s with sent := s.sent ++ s.out.take k, out := s.out.drop k }
          if s.out ≠ [] then .ok s else handshakeResult c { s with wr := false } 0 i
        else .disabled
      else handshakeResult c { s with wr := false } 0 i
    else .disabled
  | .readFail i => if s.rd then handshakeResult c { s with rd := false } (if c.bio then 0 else -1) i else .disabled
  | .writeFail => if s.wr then handshakeResult c { s with wr := false } (-1) ⟨.finish, .one, []⟩ else .disabled
  | .readTimeout i => if s.rd ∧ c.rtmo then handshakeResult c s (-2) i else .disabled

/-- a connection after `kconnection_ssl_accept` or `kconnection_ssl_connect`, src/kconnection.c:214-239 -/
def init (tryEarly : Bool) : St := { tryEarly := tryEarly }

/-! ## Shutdown: kconnection_destroy, src/kconnection.c:81-103, 123-146 -/

/-- `kgl_ssl_shutdown`, src/kgl_ssl.c:820-834 -/
def sslShutdown : SslRet → Nat
  | .one => retOk
  | .fail .wantRead => retWantRead
  | .fail .wantWrite => retWantWrite
  | .fail _ => retError

structure Sd where
  started : Bool := false
  rd : Bool := false
  wr : Bool := false
  out : List Byte := []
  sent : List Byte := []
  /-- how often the connection was destroyed, src/kconnection.c:62-79 -/
  destroyed : Nat := 0
  /-- calls of `SSL_shutdown` -/
  calls : Nat := 0
  status : Nat := 0
  made : List Byte := []
  deriving Repr, DecidableEq

/-- `kconnection_real_destroy` -/
def destroy (s : Sd) : Res Sd := if s.destroyed = 0 then .ok { s with destroyed := 1 } else .ub

/-- `kselectable_ssl_shutdown`, src/kconnection.c:123-146.  The switch compares the `kssl_status` with OpenSSL's error numbers, as the code does. -/
def shutdown (c : Cfg) (s : Sd) (i : In) : Res Sd :=
  if s.destroyed ≠ 0 then .ub else
  let status := sslShutdown i.hs
  let s := { s with out := s.out ++ i.out, made := s.made ++ i.out, calls := s.calls + 1, status := status }
  if c.bio ∧ status ≠ retError ∧ s.out ≠ [] then (if s.wr then .ub else .ok { s with wr := true })
  else if status = SSL_ERROR_WANT_READ then (if s.rd then .ub else .ok { s with rd := true })
  else if status = SSL_ERROR_WANT_WRITE then (if s.wr then .ub else .ok { s with wr := true })
  else destroy s

/-- `result_ssl_shutdown`, src/kconnection.c:81-89 -/
def shutdownResult (c : Cfg) (s : Sd) (got : Int) (i : In) : Res Sd :=
  if got = 0 then shutdown c s i else destroy s

inductive SdOp where
  /-- `kconnection_destroy`, src/kconnection.c:91-103: `tls`: a TLS connection not yet shut down; `err`: flagged STF_ERR -/
  | start (tls err : Bool) (i : In)
  | readable (i : In)
  | writable (k : Nat) (i : In)
  | readFail (i : In)
  | writeFail
  deriving Repr, DecidableEq

def sdStep (c : Cfg) (s : Sd) : SdOp → Res Sd
  | .start tls err i =>
    if s.started then .disabled
    else if tls ∧ ¬ err then shutdown c { s with started := true } i
    else destroy { s with started := true }
  | .readable i => if s.rd then shutdownResult c { s with rd := false } 0 i else .disabled
  | .writable k i =>
    if s.wr then
      if c.bio ∧ s.out ≠ [] then
        if 0 < k ∧ k ≤ s.out.length then
          let s := { s with sent := s.sent ++ s.out.take k, out := s.out.drop k }
          if s.out ≠ [] then .ok s else shutdownResult c { s with wr := false } 0 i
        else .disabled
      else shutdownResult c { s with wr := false } 0 i
    else .disabled
  | .readFail i => if s.rd then shutdownResult c { s with rd := false } (if c.bio then 0 else -1) i else .disabled
  | .writeFail => if s.wr then shutdownResult c { s with wr := false } (-1) ⟨.finish, .one, []⟩ else .disabled

def sdInit : Sd := {}

end Kasync.Tls
