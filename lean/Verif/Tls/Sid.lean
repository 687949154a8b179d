/-!
# Model of the session id context of TLS contexts and of contexts made from files (src/kgl_ssl.c:247-357, 407-425, 726-774)

A TLS session can be resumed only in a context that has the same *session id context* as the one it was made in.  This file computes it as a SHA-1 digest of the name and the content of the certificate file (or of the
text of the certificate) and of the names of the accepted authorities.

Environment: what OpenSSL and the disk answer.  `H` is the digest (SHA-1), a function with results of 20 bytes.  Simplifications: the part of a file that can be read (until its end or a read error) is a list of bytes; a failing
`EVP_DigestUpdate` adds nothing; certificates and keys are C51, protocols and server names C50 and C53.
-/

namespace Kasync.Tls.Sid

abbrev Bytes := List UInt8

/-- what OpenSSL and the disk do during one call -/
structure Env where
  /-- `EVP_MD_CTX_create` -/
  mdOk : Bool := true
  /-- `EVP_DigestInit_ex` -/
  initOk : Bool := true
  /-- `EVP_DigestUpdate` of the name or text -/
  nameOk : Bool := true
  /-- `EVP_DigestUpdate` of block i of the file -/
  chunkOk : Nat → Bool := fun _ => true
  /-- `X509_NAME_digest` of authority i -/
  caNameOk : Nat → Bool := fun _ => true
  /-- `EVP_DigestUpdate` of authority i -/
  caUpdOk : Nat → Bool := fun _ => true
  /-- `EVP_DigestFinal_ex` -/
  finalOk : Bool := true
  /-- `fopen` and what can be read -/
  file : Bytes → Option Bytes := fun _ => none
  /-- `SSL_CTX_new` -/
  ctxOk : Bool := true
  /-- `SSL_CTX_use_certificate_chain_file` -/
  chainFile : Bytes → Bool := fun _ => true
  /-- `SSL_CTX_use_PrivateKey_file` -/
  keyFile : Bytes → Bool := fun _ => true
  /-- `SSL_CTX_check_private_key` -/
  checkKey : Bool := true
  /-- `SSL_CTX_load_verify_locations` -/
  caOk : Bool := true

/-- objects made and released -/
inductive Ev where
  | mdNew
  | mdFree
  | fileOpen (name : Bytes)
  | fileClose
  | ctxNew
  | ctxFree
  deriving Repr, DecidableEq

/-- the part of an `SSL_CTX` that matters here -/
structure Ctx where
  /-- session id context -/
  sid : Option Bytes := none
  /-- `SSL_CTX_get_client_CA_list`: the names of the authorities sent to clients, encoded -/
  cas : List Bytes := []
  /-- files of the certificate and of the key -/
  cert : Option Bytes := none
  key : Option Bytes := none
  /-- peer certificate requested, refused without one -/
  verify : Bool × Bool := (false, false)
  /-- authorities accepted: file, directory -/
  ca : Option (Option Bytes × Option Bytes) := none
  deriving Repr, DecidableEq

/-- `SSL_CTX_set_session_id_context` (OpenSSL): refused above SSL_MAX_SID_CTX_LENGTH, which is 32 -/
def setSid (c : Ctx) (b : Bytes) : Bool × Ctx := if b.length ≤ 32 then (true, { c with sid := some b }) else (false, c)

/-- the loop over the file, src/kgl_ssl.c:327-341: what is added to the digest -/
def readLoop (env : Env) (data : Bytes) (total i : Nat) (acc : Bytes) : Bytes :=
  if h : total < 1048576 then
    if h2 : (data.take 512).length = 0 then acc
    else if env.chunkOk i then readLoop env (data.drop 512) (total + (data.take 512).length) (i + 1) (acc ++ data.take 512)
    else acc
  else acc
termination_by 1048576 - total
decreasing_by omega

/-- `kgl_ssl_session_digest_x509_list`, src/kgl_ssl.c:247-271 -/
def digestCas (H : Bytes → Bytes) (env : Env) : List Bytes → Nat → Bytes → Option Bytes
  | [], _, acc => some acc
  | n :: ns, i, acc =>
    if !env.caNameOk i then none
    else if !env.caUpdOk i then none
    else digestCas H env ns (i + 1) (acc ++ H n)

/-- the end of both functions, src/kgl_ssl.c:291-306 and 343-357: authorities, digest, session id context -/
def finish (H : Bytes → Bytes) (env : Env) (log : List Ev) (c : Ctx) (acc : Bytes) : List Ev × Ctx × Bool :=
  match digestCas H env c.cas 0 acc with
  | none => (.mdFree :: log, c, false)
  | some acc =>
    if !env.finalOk then (.mdFree :: log, c, false)
    else
      let r := setSid c (H acc)
      (.mdFree :: log, r.2, r.1)

/-- a C string: up to the first zero -/
def cstr (b : Bytes) : Bytes := b.takeWhile (· ≠ 0)

/-- `kgl_ssl_session_id_context_from_buffer`, src/kgl_ssl.c:272-306 -/
def fromBuffer (H : Bytes → Bytes) (env : Env) (log : List Ev) (c : Ctx) (text : Bytes) : List Ev × Ctx × Bool :=
  if !env.mdOk then (log, c, false)
  else
    let log := .mdNew :: log
    if !env.initOk then (.mdFree :: log, c, false)
    else if !env.nameOk then (.mdFree :: log, c, false)
    else finish H env log c (cstr text)

/-- `kgl_ssl_session_id_context`, src/kgl_ssl.c:307-357 -/
def fromFile (H : Bytes → Bytes) (env : Env) (log : List Ev) (c : Ctx) (name : Bytes) : List Ev × Ctx × Bool :=
  if !env.mdOk then (log, c, false)
  else
    let log := .mdNew :: log
    if !env.initOk then (.mdFree :: log, c, false)
    else if !env.nameOk then (.mdFree :: log, c, false)
    else
      match env.file name with
      | some data => finish H env (.fileClose :: .fileOpen name :: log) c (readLoop env data 0 0 name)
      | none => finish H env log c name

/-- src/kgl_ssl.c:727-729: without a certificate file the key file has both; `none` is NULL -/
def certName (cert : Option Bytes) (key : Bytes) : Bytes :=
  match cert with
  | none => key
  | some [] => key
  | some (a :: s) => a :: s

/-- `kgl_ssl_ctx_load_cert_key`, src/kgl_ssl.c:726-749; names have no zero byte -/
def loadCertKey (H : Bytes → Bytes) (env : Env) (log : List Ev) (c : Ctx) (cert : Option Bytes) (key : Bytes) : List Ev × Ctx × Bool :=
  let cert := certName cert key
  if !env.chainFile cert then (log, c, false)
  else
    let c := { c with cert := some cert }
    if !env.keyFile key then (log, c, false)
    else fromFile H env log { c with key := some key } cert

/-- `kgl_ssl_ctx_post_init`, src/kgl_ssl.c:687-707 -/
def postInit (env : Env) (log : List Ev) (c : Ctx) (caPath caFile : Option Bytes) : List Ev × Option Ctx :=
  if !env.checkKey then (.ctxFree :: log, none)
  else if caPath.isSome || caFile.isSome then
    if env.caOk then (log, some { c with verify := (true, true), ca := some (caFile, caPath) }) else (.ctxFree :: log, none)
  else (log, some c)

/-- `kgl_ssl_ctx_new_server`, src/kgl_ssl.c:763-774 -/
def newServer (H : Bytes → Bytes) (env : Env) (log : List Ev) (cert : Option Bytes) (key : Bytes) (caPath caFile : Option Bytes) : List Ev × Option Ctx :=
  if !env.ctxOk then (log, none)
  else
    match loadCertKey H env (.ctxNew :: log) {} cert key with
    | (log, _, false) => (.ctxFree :: log, none)
    | (log, c, true) => postInit env log c caPath caFile

/-- `kgl_ssl_ctx_new_server2`, src/kgl_ssl.c:750-762, after the certificate and the key were taken from the texts (C51): the result of 760 is not looked at -/
def newServer2 (H : Bytes → Bytes) (env : Env) (log : List Ev) (cert : Bytes) (caPath caFile : Option Bytes) : List Ev × Option Ctx :=
  if !env.ctxOk then (log, none)
  else
    let r := fromBuffer H env (.ctxNew :: log) {} cert
    postInit env r.1 r.2.1 caPath caFile

/-- the array of src/kgl_ssl.c:423: "msocket" and zeros, 100 bytes -/
def clientId : Bytes := [109, 115, 111, 99, 107, 101, 116] ++ List.replicate 93 0

/-- `kgl_ssl_ctx_new_client`, src/kgl_ssl.c:407-425 -/
def newClient (env : Env) (log : List Ev) (caPath caFile : Option Bytes) : List Ev × Option Ctx :=
  if !env.ctxOk then (log, none)
  else
    let log := .ctxNew :: log
    if caPath.isSome || caFile.isSome then
      if env.caOk then (log, some (setSid { verify := (true, false), ca := some (caFile, caPath) } clientId).2) else (.ctxFree :: log, none)
    else (log, some (setSid {} clientId).2)

end Kasync.Tls.Sid
