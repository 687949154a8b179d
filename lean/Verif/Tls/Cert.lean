/-!
# Model of building TLS contexts from certificates and keys, src/kgl_ssl.c:358-406 and 459-762

OpenSSL is an environment: how a text is cut into PEM blocks, which allocations fail, which key fits which certificate.  Reference counts of
certificates and keys, open BIOs, stacks and contexts are counted; releasing something that is not held is undefined (`none`).
A context has one certificate slot (one key type), as a context made by this file has.
-/

namespace Kasync.Tls.Cert

abbrev Bytes := List UInt8

/-- a PEM block, as OpenSSL reads it -/
inductive Pem where
  /-- CERTIFICATE -/
  | cert (n : Nat)
  /-- TRUSTED CERTIFICATE: read by `PEM_read_bio_X509_AUX`, skipped by `PEM_read_bio_X509` -/
  | trusted (n : Nat)
  /-- a certificate that cannot be decoded, with the reason of the last error -/
  | badCert (reason : Nat)
  /-- a private key, with its password -/
  | key (n : Nat) (pw : Option Bytes)
  | badKey
  | other
  deriving Repr, DecidableEq

/-- `PEM_R_NO_START_LINE` -/
def noStart : Nat := 108

/-- a certificate object; every read makes a new one -/
structure X509 where
  id : Nat
  cert : Nat
  deriving Repr, DecidableEq

/-- what OpenSSL and the disk do during one call -/
structure Env where
  /-- PEM blocks of a text -/
  parse : Bytes → List Pem
  /-- `BIO_new_file`: `none` when the file cannot be opened -/
  file : Bytes → Option (List Pem)
  /-- `BIO_new_mem_buf` -/
  memOk : Bool
  /-- `sk_X509_new_null` -/
  stackOk : Bool
  /-- `sk_X509_push` of the certificate number n of the chain -/
  pushOk : Nat → Bool
  /-- `SSL_CTX_use_certificate` -/
  useOk : Bool
  /-- `SSL_CTX_set0_chain` -/
  chainOk : Bool
  /-- `SSL_CTX_use_PrivateKey`, apart from the test that it fits -/
  keyOk : Bool
  /-- the key belongs to the certificate -/
  fits : Nat → Nat → Bool
  /-- answer of the terminal (`PEM_def_callback`) -/
  tty : Bytes
  /-- `SSL_CTX_new` -/
  ctxOk : Bool
  /-- digest and `SSL_CTX_set_session_id_context` -/
  sidOk : Bool
  /-- `SSL_CTX_load_verify_locations` -/
  caOk : Bool

structure World where
  /-- references of a certificate object -/
  refs : X509 → Nat
  /-- references of a key object -/
  krefs : Nat → Nat
  /-- next object number -/
  next : Nat
  bios : Nat
  stacks : Nat
  ctxs : Nat
  /-- passwords given to OpenSSL, latest first -/
  tried : List Bytes

/-- the certificate part of an `SSL_CTX` -/
structure Ctx where
  cert : Option X509
  chain : Option (List X509)
  /-- object number and key -/
  key : Option (Nat × Nat)
  /-- `SSL_CTX_set_verify`: peer certificate requested, refused without one -/
  verify : Bool × Bool
  ca : Option (Option Bytes × Option Bytes)
  sid : Option Bytes
  sni : Bool
  alpn : Bool
  data : Option Nat

def upd {α β : Type} [DecidableEq α] (f : α → β) (a : α) (b : β) : α → β := fun x => if x = a then b else f x

/-- `X509_free` -/
def x509Free (w : World) (x : X509) : Option World :=
  if w.refs x = 0 then none else some { w with refs := upd w.refs x (w.refs x - 1) }

/-- `X509_free` of every element -/
def freeAll (w : World) : List X509 → Option World
  | [] => some w
  | x :: xs => (x509Free w x).bind (freeAll · xs)

/-- `sk_X509_pop_free(chain, X509_free)` -/
def popFree (w : World) (xs : List X509) : Option World :=
  if w.stacks = 0 then none else freeAll { w with stacks := w.stacks - 1 } xs

/-- `EVP_PKEY_free` -/
def keyFree (w : World) (k : Nat) : Option World :=
  if w.krefs k = 0 then none else some { w with krefs := upd w.krefs k (w.krefs k - 1) }

/-- `X509_free`, which accepts NULL -/
def freeCert (w : World) : Option X509 → Option World
  | some x => x509Free w x
  | none => some w

/-- `sk_X509_pop_free`, which accepts NULL -/
def freeChain (w : World) : Option (List X509) → Option World
  | some l => popFree w l
  | none => some w

/-- `EVP_PKEY_free`, which accepts NULL -/
def freeKey (w : World) : Option (Nat × Nat) → Option World
  | some k => keyFree w k.1
  | none => some w

/-- `BIO_free` -/
def bioFree (w : World) : Option World := if w.bios = 0 then none else some { w with bios := w.bios - 1 }

/-- a PEM read that found a certificate -/
def newX509 (w : World) (n : Nat) : World × X509 :=
  ({ w with refs := upd w.refs ⟨w.next, n⟩ 1, next := w.next + 1 }, ⟨w.next, n⟩)

/-- `kgl_ssl_password_callback`, 459-476, `rwflag` 0: the bytes written to the buffer of `size` bytes; their number is returned -/
def passwordCallback (size : Nat) : Option Bytes → Bytes
  | none => []
  | some pwd => if pwd.length > size then pwd.take size else pwd

/-- "data:" -/
def dataPrefix : Bytes := [100, 97, 116, 97, 58]

/-- 483-498 and 559-573: the BIO; the text after "data:", or the file -/
def openSrc (env : Env) (w : World) (src : Bytes) : Option (World × List Pem) :=
  if src.take 5 = dataPrefix then
    if env.memOk then some ({ w with bios := w.bios + 1 }, env.parse (src.drop 5)) else none
  else
    match env.file src with
    | none => none
    | some l => some ({ w with bios := w.bios + 1 }, l)

/-- `PEM_read_bio_X509_AUX`: the certificate and the rest of the text, or the reason of the error -/
def readAux : List Pem → Except Nat (Nat × List Pem)
  | [] => .error noStart
  | .cert n :: l => .ok (n, l)
  | .trusted n :: l => .ok (n, l)
  | .badCert r :: _ => .error r
  | _ :: l => readAux l

/-- `PEM_read_bio_X509` -/
def readX509 : List Pem → Except Nat (Nat × List Pem)
  | [] => .error noStart
  | .cert n :: l => .ok (n, l)
  | .badCert r :: _ => .error r
  | _ :: l => readX509 l

theorem readX509_lt {l l' : List Pem} {n : Nat} (h : readX509 l = .ok (n, l')) : l'.length < l.length := by
  fun_induction readX509 l <;> simp_all <;> omega

/-- the loop of 519-547: the chain grows at its end; `k` is the number of certificates pushed so far.
`none` undefined, `some (_, none)` failure. -/
def chainLoop (env : Env) (w : World) (x : X509) (chain : List X509) (k : Nat) (l : List Pem) : Option (World × Option (List X509)) :=
  match h : readX509 l with
  | .error r =>
    -- 523-529
    if r = noStart then some (w, some chain)
    else
      -- 531-537
      (bioFree w).bind fun w => (x509Free w x).bind fun w => (popFree w chain).map (·, none)
  | .ok (n, l') =>
    let (w, t) := newX509 w n
    -- 540-546: `temp` is not released
    if !env.pushOk k then (bioFree w).bind fun w => (x509Free w x).bind fun w => (popFree w chain).map (·, none)
    else chainLoop env w x (chain ++ [t]) (k + 1) l'
termination_by l.length
decreasing_by exact readX509_lt h

/-- `kgl_ssl_load_certificate`, 478-552 -/
def loadCertificate (env : Env) (w : World) (src : Bytes) : Option (World × Option (X509 × List X509)) :=
  match openSrc env w src with
  | none => some (w, none)
  | some (w, l) =>
    match readAux l with
    | .error _ => (bioFree w).map (·, none)
    | .ok (n, l) =>
      let (w, x) := newX509 w n
      -- 511-517
      if !env.stackOk then (bioFree w).bind fun w => (x509Free w x).map (·, none)
      else
        match chainLoop env { w with stacks := w.stacks + 1 } x [] 0 l with
        | none => none
        | some (w, none) => some (w, none)
        | some (w, some chain) => (bioFree w).map (·, some (x, chain))

/-- the key block a read finds -/
def keyBlock : List Pem → Option (Option (Nat × Option Bytes))
  | [] => none
  | .key n pw :: _ => some (some (n, pw))
  | .badKey :: _ => some none
  | _ :: l => keyBlock l

/-- `PEM_BUFSIZE` -/
def pemBuf : Nat := 1024

/-- `PEM_read_bio_PrivateKey` from the start of the text, with the password of entry `i`: `none` undefined (an entry outside of the array) -/
def readKey (env : Env) (w : World) (l : List Pem) (pws : Option (List Bytes)) (i : Nat) : Option (World × Option Nat) :=
  match keyBlock l with
  | none => some (w, none)
  | some none => some (w, none)
  | some (some (n, none)) => some (w, some n)
  | some (some (n, some pw)) =>
    match pws with
    | none => some ({ w with tried := env.tty :: w.tried }, if env.tty = pw then some n else none)
    | some ps =>
      match ps[i]? with
      | none => none
      | some p =>
        let given := passwordCallback pemBuf (some p)
        some ({ w with tried := given :: w.tried }, if given = pw then some n else none)

/-- the loop of 586-603; `tries` is not negative -/
def keyLoop (env : Env) (w : World) (l : List Pem) (pws : Option (List Bytes)) (i : Nat) : Nat → Option (World × Option Nat)
  | 0 => -- an empty array: one attempt, 0 > 1 is false
    (readKey env w l pws i)
  | t + 1 =>
    match readKey env w l pws i with
    | none => none
    | some (w, some n) => some (w, some n)
    | some (w, none) =>
      -- 593: `tries-- > 1`
      if t + 1 > 1 then keyLoop env w l pws (i + 1) t else some (w, none)

/-- 575-584: the number of attempts (`nelts` is below 2^32) -/
def tries : Option (List Bytes) → Nat
  | some ps => ps.length
  | none => 1

/-- `kgl_ssl_load_certificate_key`, 553-608; a new object number for the key -/
def loadKey (env : Env) (w : World) (src : Bytes) (pws : Option (List Bytes)) : Option (World × Option (Nat × Nat)) :=
  match openSrc env w src with
  | none => some (w, none)
  | some (w, l) =>
    match keyLoop env w l pws 0 (tries pws) with
    | none => none
    | some (w, none) => (bioFree w).map (·, none)
    | some (w, some n) =>
      let k := w.next
      let w := { w with krefs := upd w.krefs k 1, next := w.next + 1 }
      (bioFree w).map (·, some (k, n))

/-- `SSL_CTX_use_certificate` (OpenSSL): one more reference, the old certificate and a key that does not fit are released -/
def useCertificate (env : Env) (w : World) (c : Ctx) (x : X509) : Option (World × Ctx × Bool) :=
  if !env.useOk then some (w, c, false)
  else
    let w := { w with refs := upd w.refs x (w.refs x + 1) }
    (freeCert w c.cert).bind fun w =>
    match c.key with
    | none => some (w, { c with cert := some x }, true)
    | some (k, n) =>
      if env.fits x.cert n then some (w, { c with cert := some x }, true)
      else (keyFree w k).map fun w => (w, { c with cert := some x, key := none }, true)

/-- `SSL_CTX_set0_chain` (OpenSSL): takes the stack, releases the old one -/
def set0Chain (env : Env) (w : World) (c : Ctx) (chain : List X509) : Option (World × Ctx × Bool) :=
  if !env.chainOk then some (w, c, false)
  else
    match c.chain with
    | none => some (w, { c with chain := some chain }, true)
    | some old => (popFree w old).map fun w => (w, { c with chain := some chain }, true)

/-- `SSL_CTX_use_PrivateKey` (OpenSSL): refused when it does not fit; takes one more reference and releases the old key -/
def usePrivateKey (env : Env) (w : World) (c : Ctx) (k : Nat × Nat) : Option (World × Ctx × Bool) :=
  if !env.keyOk then some (w, c, false)
  else if (match c.cert with | some x => !env.fits x.cert k.2 | none => false) then some (w, c, false)
  else
    let w := { w with krefs := upd w.krefs k.1 (w.krefs k.1 + 1) }
    match c.key with
    | none => some (w, { c with key := some k }, true)
    | some (o, _) => (keyFree w o).map fun w => (w, { c with key := some k }, true)

/-- 615-617: without a certificate the key's text has both -/
def certSrc (cert : Option Bytes) (key : Bytes) : Bytes :=
  match cert with
  | none => key
  | some [] => key
  | some (a :: s) => a :: s

/-- `kgl_ssl_certificate`, 610-684; `cert` is `none` for NULL; `false` is -1 -/
def certificate (env : Env) (w : World) (c : Ctx) (cert : Option Bytes) (key : Bytes) (pws : Option (List Bytes)) : Option (World × Ctx × Bool) :=
  match loadCertificate env w (certSrc cert key) with
  | none => none
  | some (w, none) => some (w, c, false)
  | some (w, some (x, chain)) =>
    match useCertificate env w c x with
    | none => none
    | some (w, c, false) => (x509Free w x).bind fun w => (popFree w chain).map (·, c, false)
    | some (w, c, true) =>
      -- 642-646
      match set0Chain env w c chain with
      | none => none
      | some (w, c, false) => (popFree w chain).map (·, c, false)
      | some (w, c, true) =>
        match loadKey env w key pws with
        | none => none
        | some (w, none) => some (w, c, false)
        | some (w, some k) =>
          -- 677-682
          match usePrivateKey env w c k with
          | none => none
          | some (w, c, ok) => (keyFree w k.1).map (·, c, ok)

/-- `kgl_ssl_ctx_new`, 358-406 -/
def ctxNew (env : Env) (w : World) (data : Option Nat) : Option (World × Ctx) :=
  if !env.ctxOk then none
  else some ({ w with ctxs := w.ctxs + 1 }, { cert := none, chain := none, key := none, verify := (false, false), ca := none, sid := none, sni := false, alpn := false, data := data })

/-- `SSL_CTX_free`: the last reference -/
def ctxFree (w : World) (c : Ctx) : Option World :=
  if w.ctxs = 0 then none
  else
    let w := { w with ctxs := w.ctxs - 1 }
    (freeCert w c.cert).bind fun w => (freeChain w c.chain).bind fun w => freeKey w c.key

/-- `SSL_CTX_check_private_key` -/
def checkKey (env : Env) (c : Ctx) : Bool :=
  match c.cert, c.key with
  | some x, some (_, n) => env.fits x.cert n
  | _, _ => false

/-- `kgl_ssl_ctx_post_init`, 687-725; `sni` and `npn`: the application installed these hooks -/
def postInit (env : Env) (sni npn : Bool) (w : World) (c : Ctx) (caPath caFile : Option Bytes) : Option (World × Option Ctx) :=
  if !checkKey env c then (ctxFree w c).map (·, none)
  else
    let c' := if caPath.isSome || caFile.isSome then { c with verify := (true, true), ca := some (caFile, caPath) } else c
    if (caPath.isSome || caFile.isSome) && !env.caOk then (ctxFree w { c' with ca := none }).map (·, none)
    else
      some (w, some { c' with sni := sni, alpn := npn && c.data.isSome })

/-- `kgl_ssl_ctx_new_server2`, 750-762.  760: `cert_buffer->data`, also when `cert_buffer` is NULL.  The session id context is derived from the text; a failure is ignored -/
def newServer2 (env : Env) (sni npn : Bool) (w : World) (cert : Option Bytes) (key : Bytes) (caPath caFile : Option Bytes) (data : Option Nat) :
    Option (World × Option Ctx) :=
  match ctxNew env w data with
  | none => some (w, none)
  | some (w, c) =>
    match certificate env w c cert key none with
    | none => none
    | some (w, c, false) => (ctxFree w c).map (·, none)
    | some (w, c, true) =>
      match cert with
      | none => none
      | some s => postInit env sni npn w (if env.sidOk then { c with sid := some s } else c) caPath caFile

end Kasync.Tls.Cert
