import Verif.Common

/-!
# Model of server-name and protocol selection (src/kgl_ssl.c:44-120, 404, 426-435, 708-722; src/kconnection.c:20-28, 62-79, 256-297)

Any number of TLS contexts and connections; the two callbacks kasync registers with OpenSSL run any number of times and in any order on each
connection, with any server name (or none) and any answers of the program's own `create_sni` and `npn` callbacks.

Simplifications: when and how often OpenSSL runs the callbacks is free, except that a callback only runs if kasync registered it: the
server-name callback in the context the connection was made with or the one it has now, the protocol callback in the one it has now.
`SSL_select_next_proto` is OpenSSL's: `selectNext`, which stops at an entry that is cut off.  Life times of `SSL_CTX` objects are those of C52
and are not repeated.  `kconnection_destroy` reaches `kconnection_real_destroy` exactly once per connection (C45), so destroying is one step.
NPN (`kgl_ssl_npn_advertise`), which TLS libraries no longer support, is left out.
-/

namespace Kasync.Sni

abbrev Bytes := List UInt8

/-- KGL_HTTP_NPN_ADVERTISE without its final zero (include/kgl_ssl.h:16, src/kgl_ssl.c:69-70): `\x08http/1.1`. -/
def dflt : Bytes := [8, 0x68, 0x74, 0x74, 0x70, 0x2f, 0x31, 0x2e, 0x31]

/-- Walks a list of length-prefixed names; stops where an entry is cut off. -/
def names : Nat → Bytes → List Bytes
  | 0, _ => []
  | _ + 1, [] => []
  | k + 1, n :: r => if r.length < n.toNat then [] else r.take n.toNat :: names k (r.drop n.toNat)

/-- `SSL_select_next_proto` (OpenSSL): the first name of `server` which is in `client`. -/
def selectNext (server client : Bytes) : Option Bytes :=
  (names server.length server).find? (fun p => decide (p ∈ names client.length client))

/-- A TLS context: which callbacks kasync registered and its `ssl_ctx_data`. -/
structure Ctx where
  sniCb : Bool
  alpnCb : Bool
  data : Option Nat
  /-- the protocols a client offers (`SSL_CTX_set_alpn_protos`) -/
  offer : Option Bytes := none
  deriving Repr, DecidableEq

/-- One call of the program's `create_sni`: the name asked for, the object and the context it gave, and whether OpenSSL switched to it. -/
structure Ask where
  name : Bytes
  obj : Option Nat
  ctx : Option Nat
  took : Bool
  deriving Repr, DecidableEq

/-- A connection. -/
structure Conn where
  /-- it has an `SSL` made from this context -/
  ctx0 : Nat
  /-- `SSL_get_SSL_CTX` -/
  ctx : Nat
  /-- the connection is stored in the `SSL` (`SSL_set_ex_data`, server side only) -/
  ex : Bool
  /-- the server it was accepted by, if any, as its KGL_SERVER_REJECT_NOSNI flag -/
  server : Option Bool
  /-- `c->sni` -/
  sni : Option Nat := none
  /-- `kconnection_real_destroy` ran -/
  dead : Bool := false
  /-- calls of `create_sni` made for it -/
  asks : List Ask := []
  deriving Repr, DecidableEq

/-- What a callback answers to OpenSSL. -/
inductive Ans where
  /-- SSL_TLSEXT_ERR_OK of the server-name callback -/
  | go
  /-- SSL_TLSEXT_ERR_ALERT_FATAL: the handshake fails -/
  | fatal
  /-- SSL_TLSEXT_ERR_NOACK: no protocol agreed -/
  | noack
  /-- SSL_TLSEXT_ERR_OK of the protocol callback with this protocol -/
  | proto (p : Bytes)
  deriving Repr, DecidableEq

structure St where
  /-- `kgl_ssl_create_sni`, `kgl_ssl_free_sni` and `ssl_npn` are set -/
  create : Bool := false
  free : Bool := false
  npn : Bool := false
  ctxs : Nat → Option Ctx := fun _ => none
  conns : Nat → Option Conn := fun _ => none
  /-- calls of `free_sni`: connection and object -/
  freed : List (Nat × Nat) := []
  /-- answers given to OpenSSL, by connection, oldest first -/
  ans : List (Nat × Ans) := []

/-- Writes a connection. -/
def St.put (s : St) (c : Nat) (k : Conn) : St := { s with conns := fun x => if x = c then some k else s.conns x }

/-- What `create_sni` answers when asked. -/
structure Reply where
  obj : Option Nat
  ctx : Option Nat
  /-- `SSL_set_SSL_CTX` succeeds -/
  took : Bool
  deriving Repr, DecidableEq

/-- The connection after `create_sni` answered (src/kgl_ssl.c:59-63). -/
def asked (k : Conn) (n : Bytes) (r : Reply) : Conn :=
  { k with
    sni := r.obj
    ctx := match r.ctx with
      | some x => if r.took then x else k.ctx
      | none => k.ctx
    asks := k.asks ++ [⟨n, r.obj, r.ctx, r.took⟩] }

/-- `kgl_ssl_sni` (src/kgl_ssl.c:45-65) on connection `k`: the connection after it and whether the handshake may go on. -/
def sni (create : Bool) (k : Conn) (name : Option Bytes) (r : Reply) : Res (Conn × Bool) :=
  if !create then .ub
  else if !k.ex || k.sni.isSome then .ok (k, true)
  else match name with
    | none => match k.server with
      | none => .ub
      | some reject => .ok (k, !reject)
    | some n => match k.server with
      | none => .ub
      | some _ => .ok (asked k n r, true)

/-- The part of `kgl_ssl_npn_selected` after the server name (src/kgl_ssl.c:77-91): the list of the context in use, or the default one. -/
def pick (s : St) (k : Conn) (adv : Option Nat → Option Bytes) (client : Bytes) : Ans :=
  match selectNext ((adv ((s.ctxs k.ctx).bind Ctx.data)).getD dflt) client with
  | some p => .proto p
  | none => .noack

/-- `kgl_ssl_npn_selected` (src/kgl_ssl.c:68-92). -/
def alpn (s : St) (k : Conn) (name : Option Bytes) (r : Reply) (adv : Option Nat → Option Bytes) (client : Bytes) : Res (Conn × Ans) :=
  if s.create then
    match sni s.create k name r with
    | .ok (k', true) => if s.npn then .ok (k', pick s k' adv client) else .ub
    | .ok (k', false) => .ok (k', .fatal)
    | .disabled => .disabled
    | .ub => .ub
  else if s.npn then .ok (k, pick s k adv client) else .ub

inductive Op where
  /-- `kssl_set_sni_callback` (src/kgl_ssl.c:116-119): which of the two are given -/
  | setSni (create free : Bool)
  /-- `kssl_set_npn_callback` (src/kgl_ssl.c:113-115) -/
  | setNpn (npn : Bool)
  /-- a new server context -/
  | newServer (x : Nat) (data : Option Nat)
  /-- a new client context; `adv` is what `npn` gives for it -/
  | newClient (x : Nat) (data : Option Nat) (adv : Option Bytes)
  /-- `kconnection_ssl_accept` on a new connection (src/kconnection.c:286-296) -/
  | accept (c x : Nat) (server : Option Bool)
  /-- `kconnection_ssl_connect` on a new connection (src/kconnection.c:269-285) -/
  | connect (c x : Nat)
  /-- OpenSSL runs the server-name callback -/
  | servername (c : Nat) (name : Option Bytes) (r : Reply)
  /-- OpenSSL runs the protocol callback -/
  | select (c : Nat) (name : Option Bytes) (r : Reply) (adv : Option Nat → Option Bytes) (client : Bytes)
  /-- `kconnection_real_destroy` (src/kconnection.c:62-79) -/
  | destroy (c : Nat)

/-- The context is registered for server names. -/
def sniOf (s : St) (x : Nat) : Bool := match s.ctxs x with | some d => d.sniCb | none => false
/-- The context is registered for protocols. -/
def alpnOf (s : St) (x : Nat) : Bool := match s.ctxs x with | some d => d.alpnCb | none => false

/-- The context `create_sni` offers exists. -/
def replyOk (s : St) (r : Reply) : Bool := match r.ctx with | some x => (s.ctxs x).isSome | none => true

def newCtx (s : St) (x : Nat) (d : Ctx) : Res St :=
  if (s.ctxs x).isSome then .disabled else .ok { s with ctxs := fun y => if y = x then some d else s.ctxs y }

def newConn (s : St) (c x : Nat) (k : Conn) : Res St :=
  if (s.conns c).isSome || !(s.ctxs x).isSome then .disabled else .ok (s.put c k)

/-- The server-name callback of connection `c`. -/
def stepName (s : St) (c : Nat) (name : Option Bytes) (r : Reply) : Res St :=
  match s.conns c with
  | none => .disabled
  | some k =>
    if k.dead || !(sniOf s k.ctx0 || sniOf s k.ctx) || !replyOk s r then .disabled
    else match sni s.create k name r with
      | .ok (k', b) => .ok { s.put c k' with ans := s.ans ++ [(c, if b then .go else .fatal)] }
      | .disabled => .disabled
      | .ub => .ub

/-- The protocol callback of connection `c`. -/
def stepSelect (s : St) (c : Nat) (name : Option Bytes) (r : Reply) (adv : Option Nat → Option Bytes) (client : Bytes) : Res St :=
  match s.conns c with
  | none => .disabled
  | some k =>
    if k.dead || !alpnOf s k.ctx || !replyOk s r then .disabled
    else match alpn s k name r adv client with
      | .ok (k', a) => .ok { s.put c k' with ans := s.ans ++ [(c, a)] }
      | .disabled => .disabled
      | .ub => .ub

/-- `kconnection_real_destroy` (src/kconnection.c:65-69). -/
def stepDestroy (s : St) (c : Nat) : Res St :=
  match s.conns c with
  | none => .disabled
  | some k =>
    if k.dead then .disabled
    else match k.sni with
      | none => .ok (s.put c { k with dead := true })
      | some o => if s.free then .ok { s.put c { k with dead := true } with freed := s.freed ++ [(c, o)] } else .ub

def step (s : St) : Op → Res St
  | .setSni c f => .ok { s with create := c, free := f }
  | .setNpn n => .ok { s with npn := n }
  -- src/kgl_ssl.c:404 (ex data), 708-722 (`kgl_ssl_ctx_post_init`)
  | .newServer x data => newCtx s x ⟨s.create, s.npn && data.isSome, data, none⟩
  -- src/kgl_ssl.c:404, 426-435 (`kgl_ssl_ctx_new_client`)
  | .newClient x data adv => newCtx s x ⟨false, false, data, if s.npn && data.isSome then some (adv.getD []) else none⟩
  | .accept c x server => newConn s c x { ctx0 := x, ctx := x, ex := true, server := server }
  | .connect c x => newConn s c x { ctx0 := x, ctx := x, ex := false, server := none }
  | .servername c name r => stepName s c name r
  | .select c name r adv client => stepSelect s c name r adv client
  | .destroy c => stepDestroy s c

/-- The calling discipline: callbacks, once given, are not taken away, `create_sni` comes with `free_sni`, and connections accepted with TLS
belong to a server. -/
def Disc (s : St) : Op → Prop
  | .setSni c f => (s.create = true → c = true) ∧ (s.free = true → f = true) ∧ (c = true → f = true)
  | .setNpn n => s.npn = true → n = true
  | .accept _ _ server => server.isSome = true
  | _ => True

/-- States reached by any calls. -/
abbrev Reach (s : St) : Prop := Reachable step {} s

/-- States reached under the calling discipline from `s0`. -/
inductive ReachD (s0 : St) : St → Prop where
  | refl : ReachD s0 s0
  | tail {s s'} (o : Op) : ReachD s0 s → Disc s o → step s o = .ok s' → ReachD s0 s'

theorem ReachD.reach {s : St} (h : ReachD {} s) : Reach s := by
  induction h with
  | refl => exact .refl
  | tail o _ _ he ih => exact .tail o ih he

end Kasync.Sni
