import Verif.NetIO.Full

/-!
# Model of the gather/scatter helpers of src/kselectable.c

`kgl_ssl_writev` (21-61), `kgl_ssl_readv` (62-104), and the fallbacks `kgl_writev`/`kgl_readv` (112-144).  OpenSSL and the socket are the environment:
as in `Verif.NetIO.Full` a list of counts says what each call grants; a call never moves more than it is asked to, moves bytes from the front, and
moves nothing when it reports zero or less.  An early-data call that succeeds moves at least one byte when writing.  `got` is an unbounded
integer; the theorems assume less than 2 GB in total, so that the C `int` does not overflow.
-/

namespace Kasync.NetIO

/-- What one round over a buffer leaves: `ret` is the return value if the function returned. -/
structure W1 where
  ret : Option Int
  got : Int
  rs : List Int
  wire : List Byte
  deriving Repr, DecidableEq

/-- `got > 0 ? got : x` -/
def gotOr (got x : Int) : Int := if got > 0 then got else x

/-- the `while (len > 0)` loop of `kgl_ssl_writev`, src/kselectable.c:27-57.  `bio`: compiled with ENABLE_KSSL_BIO; `early`: `ssl->in_early`. -/
def sslWrite1 (bio early : Bool) : List Int → Buf → Int → Int → W1
  | [], _, len, got =>
    if len > 0 then
      if bio ∧ 65536 - got ≤ 0 then ⟨some got, got, [], []⟩ else ⟨some (gotOr got (-1)), got, [], []⟩
    else ⟨none, got, [], []⟩
  | r :: rs, hot, len, got =>
    if len > 0 then
      if bio ∧ 65536 - got ≤ 0 then ⟨some got, got, r :: rs, []⟩
      else
        let len := if bio then min (65536 - got) len else len
        let n := granted r len
        if early then
          if n > 0 then
            let x := sslWrite1 bio early rs (hot.drop n.toNat) (len - n) (got + n)
            { x with wire := hot.take n.toNat ++ x.wire }
          else ⟨some (gotOr got (-1)), got, rs, []⟩
        else if n ≠ len then ⟨some (if n > 0 then got + n else gotOr got n), got, rs, hot.take n.toNat⟩
        else ⟨none, got + n, rs, hot.take n.toNat⟩
    else ⟨none, got, r :: rs, []⟩

/-- `kgl_ssl_writev`, src/kselectable.c:21-61, from a given buffer on -/
def sslWritevFrom (bio early : Bool) : List Buf → List Int → Int → Int × List Byte
  | [], _, got => (got, [])
  | v :: vs, rs, got =>
    let x := sslWrite1 bio early rs v (toInt32 v.length) got
    match x.ret with
    | some n => (n, x.wire)
    | none =>
      let y := sslWritevFrom bio early vs x.rs x.got
      (y.1, x.wire ++ y.2)

def sslWritev (bio early : Bool) (bufs : List Buf) (rs : List Int) : Int × List Byte := sslWritevFrom bio early bufs rs 0

/-- the fallback `kgl_writev`, src/kselectable.c:112-123: one `send` per buffer, even for an empty one -/
def kglWritevFrom : List Buf → List Int → Int → Int × List Byte
  | [], _, got => (got, [])
  | v :: vs, rs, got =>
    let n := granted (rs.headD (-1)) v.length
    if n ≠ toInt32 v.length then (if n > 0 then got + n else gotOr got n, v.take n.toNat)
    else
      let y := kglWritevFrom vs rs.tail (got + n)
      (y.1, v.take n.toNat ++ y.2)

def kglWritev (bufs : List Buf) (rs : List Int) : Int × List Byte := kglWritevFrom bufs rs 0

/-- results of `SSL_read_early_data` -/
inductive ERes where
  | data (r : Int)
  | finish
  | err
  deriving Repr, DecidableEq

/-- the receiving side of a TLS session: `early_preread`/`early_buf`, `in_early`, the results to come and the bytes the peer has sent -/
structure RS where
  pre : Option Byte
  early : Bool
  ers : List ERes
  rs : List Int
  inc : List Byte
  deriving Repr, DecidableEq

structure R1 where
  ret : Option Int
  got : Int
  σ : RS
  mem : Buf
  deriving Repr, DecidableEq

/-- the part of the loop without early data, src/kselectable.c:93-99 -/
def sslReadPlain (σ : RS) (hot : Buf) (len got : Int) : R1 :=
  let n := granted (σ.rs.headD (-1)) (min len σ.inc.length)
  let σ' := { σ with rs := σ.rs.tail, inc := σ.inc.drop n.toNat }
  let mem := σ.inc.take n.toNat ++ hot.drop n.toNat
  if n ≠ len then ⟨some (if n > 0 then got + n else gotOr got n), got, σ', mem⟩ else ⟨none, got + n, σ', mem⟩

/-- the loop once no byte is stored ahead, src/kselectable.c:68, 77-99 -/
def sslReadE (σ : RS) : List ERes → Buf → Int → Int → R1
  | [], hot, len, got =>
    if len > 0 then if σ.early then ⟨some got, got, { σ with ers := [] }, hot⟩ else sslReadPlain { σ with ers := [] } hot len got
    else ⟨none, got, { σ with ers := [] }, hot⟩
  | e :: ers, hot, len, got =>
    if len > 0 then
      if σ.early then
        match e with
        | .finish => sslReadPlain { σ with ers := ers, early := false } hot len got
        | .err => ⟨some got, got, { σ with ers := ers }, hot⟩
        | .data r =>
          let n := max 0 (granted r (min len σ.inc.length))
          let x := sslReadE { σ with inc := σ.inc.drop n.toNat } ers (hot.drop n.toNat) (len - n) (got + n)
          { x with mem := σ.inc.take n.toNat ++ x.mem }
      else sslReadPlain { σ with ers := e :: ers } hot len got
    else ⟨none, got, { σ with ers := e :: ers }, hot⟩

/-- the `while (len > 0)` loop of `kgl_ssl_readv`, src/kselectable.c:68-101 -/
def sslRead1 (σ : RS) (hot : Buf) (len got : Int) : R1 :=
  match σ.pre with
  | some b =>
    if len > 0 then
      let x := sslReadE { σ with pre := none } σ.ers (hot.drop 1) (len - 1) (got + 1)
      { x with mem := b :: x.mem }
    else ⟨none, got, σ, hot⟩
  | none => sslReadE σ σ.ers hot len got

/-- `kgl_ssl_readv`, src/kselectable.c:62-104, from a given buffer on; returns the value, the session and the buffers -/
def sslReadvFrom : List Buf → RS → Int → Int × RS × List Buf
  | [], σ, got => (got, σ, [])
  | v :: vs, σ, got =>
    let x := sslRead1 σ v (toInt32 v.length) got
    match x.ret with
    | some n => (n, x.σ, x.mem :: vs)
    | none =>
      let y := sslReadvFrom vs x.σ x.got
      (y.1, y.2.1, x.mem :: y.2.2)

def sslReadv (bufs : List Buf) (σ : RS) : Int × RS × List Buf := sslReadvFrom bufs σ 0

/-- the fallback `kgl_readv`, src/kselectable.c:131-142 -/
def kglReadvFrom : List Buf → List Int → List Byte → Int → Int × List Byte × List Buf
  | [], _, inc, got => (got, inc, [])
  | v :: vs, rs, inc, got =>
    let n := granted (rs.headD (-1)) (min (v.length : Int) inc.length)
    let mem := inc.take n.toNat ++ v.drop n.toNat
    if n ≠ toInt32 v.length then (if n > 0 then got + n else gotOr got n, inc.drop n.toNat, mem :: vs)
    else
      let y := kglReadvFrom vs rs.tail (inc.drop n.toNat) (got + n)
      (y.1, y.2.1, mem :: y.2.2)

def kglReadv (bufs : List Buf) (rs : List Int) (inc : List Byte) : Int × List Byte × List Buf := kglReadvFrom bufs rs inc 0

end Kasync.NetIO
