import Verif.Common

/-!
# Model of the TLS context of a server (src/kserver.c, include/kgl_ssl.h:69-103)

One `kserver`, any number of counted contexts (`kgl_ssl_ctx`), listeners and connections.  Calls that configure the server
(`kserver_bind`, `kserver_set_ssl_ctx`, `kserver_listen`) are split into the steps between which other threads can run; the steps of one
listener are made by its own thread and are in program order (`Stage`).  The same model runs with and without the calling discipline
(`Disc` of `Srv/SslCtxProps`).

Simplifications: every `kgl_ssl_ctx` has an `SSL_CTX` (`ctx` is not NULL); counts are unbounded numbers; allocation succeeds; sockets, addresses and the start of accepting are those of `Srv/Server`
and are left out; at most one configuring call of each kind (bind or set; listen) is under way at a time.
-/

namespace Kasync.SslCtx

/-- Where `kserver_bind` / `kserver_set_ssl_ctx` is.  `assign c`: the old context is released, `server->ssl_ctx` not yet written
(src/kserver.c:438-441).  `lock c`: written, waiting for `ss_lock` (442).  `visit c rest`: in the loop, `rest` not visited yet (444-457). -/
inductive SetPc where
  | idle
  | assign (c : Option Nat)
  | lock (c : Option Nat)
  | visit (c : Option Nat) (rest : List Nat)
  deriving Repr, DecidableEq

/-- Where `kserver_listen` is.  `ref i p`: the new listener `i` has copied the pointer `p` (src/kserver.c:156) but has not added its
reference (157-159).  `append i`: before `klist_append` (166-168). -/
inductive LisPc where
  | idle
  | ref (i : Nat) (p : Option Nat)
  | append (i : Nat)
  deriving Repr, DecidableEq

/-- Where a listener is.  `gone`: freed, or not made.  `init`: inside `kserver_listen`.  `idle`: waiting for events.  `acc p`: the accept
callback has read `ss->ssl_ctx = p` and not yet used it (src/kserver.c:83-85).  `unl`, `rel`: inside `kserver_selectable_destroy`, after
unlinking (359-364) and after releasing the server (372). -/
inductive Stage where
  | gone | init | idle
  | acc (p : Option Nat)
  | unl | rel
  deriving Repr, DecidableEq

structure St where
  /-- `kgl_ssl_ctx::refs`; 0 when the object is freed or not made -/
  refs : Nat → Nat := fun _ => 0
  /-- references OpenSSL counts on the `SSL_CTX` inside -/
  sslRefs : Nat → Nat := fun _ => 0
  /-- next context number -/
  next : Nat := 0
  /-- `server->refs` -/
  srvRefs : Nat := 1
  /-- times the server object was freed -/
  srvFreed : Nat := 0
  /-- `server->ssl_ctx` -/
  sctx : Option Nat := none
  /-- KGL_SERVER_START -/
  start : Bool := false
  /-- KGL_SERVER_SSL -/
  ssl : Bool := false
  /-- `server->ss` -/
  lst : List Nat := []
  /-- next listener number -/
  nextL : Nat := 0
  /-- `ss->ssl_ctx` -/
  lctx : Nat → Option Nat := fun _ => none
  stage : Nat → Stage := fun _ => .gone
  /-- posted `kserver_ssl_ctx_next_update` events, newest first: listener and context -/
  posted : List (Nat × Option Nat) := []
  /-- connections: number, context of the `SSL` object -/
  conns : List (Nat × Option Nat) := []
  nextC : Nat := 0
  set : SetPc := .idle
  lis : LisPc := .idle
  -- ghosts
  /-- times `kgl_ssl_ctx` was freed -/
  freed : Nat → Nat := fun _ => 0
  /-- times the `SSL_CTX` was freed by OpenSSL -/
  sslFreed : Nat → Nat := fun _ => 0
  /-- references of the application on a context -/
  ext : Nat → Nat := fun _ => 0
  /-- references of the application on the server -/
  owners : Nat := 1
  /-- listeners in memory that have their reference on `lctx` -/
  live : List Nat := []
  /-- listeners that have their reference on the server -/
  lrefs : List Nat := []
  /-- results of `kserver_bind`, newest first -/
  binds : List Bool := []

def upd {α : Type} (f : Nat → α) (i : Nat) (v : α) : Nat → α := fun j => if j = i then v else f j

inductive Op where
  -- the application
  | newCtx | extRef (c : Nat) | extRelease (c : Nat) | ownRef | ownRelease
  | setBegin (c : Option Nat) | bindBegin (c : Option Nat) (addrOk : Bool)
  | setAssign | setLock | setVisit | setEnd
  | lisInit | lisRef | lisAppend
  | setStart | clearStart
  -- the listener's thread
  | accRead (i : Nat) | accUse (i : Nat) (ok : Bool)
  | runPosted (k : Nat)
  | dUnlink (i : Nat) | dRel (i : Nat) | dFree (i : Nat)
  -- connections
  | connDestroy (k : Nat)
  deriving Repr, DecidableEq

/-- `SSL_CTX_free`: OpenSSL counts references and frees at the last one. -/
def sslDrop (s : St) (c : Nat) : St :=
  { s with sslRefs := upd s.sslRefs c (s.sslRefs c - 1),
           sslFreed := upd s.sslFreed c (s.sslFreed c + (if s.sslRefs c = 1 then 1 else 0)) }

/-- `kgl_release_ssl_ctx`, include/kgl_ssl.h:81-89. -/
def release (s : St) (c : Nat) : Res St :=
  if s.refs c = 0 then .ub
  else if s.refs c = 1 then
    if s.sslRefs c = 0 then .ub
    else .ok { sslDrop s c with refs := upd s.refs c 0, freed := upd s.freed c (s.freed c + 1) }
  else .ok { s with refs := upd s.refs c (s.refs c - 1) }

/-- `if (p) kgl_release_ssl_ctx(p)` -/
def releaseOpt (s : St) : Option Nat → Res St
  | none => .ok s
  | some c => release s c

/-- `if (p) kgl_add_ref_ssl_ctx(p)`, include/kgl_ssl.h:77-80 -/
def addRefOpt (s : St) : Option Nat → Res St
  | none => .ok s
  | some c => if s.refs c = 0 then .ub else .ok { s with refs := upd s.refs c (s.refs c + 1) }

/-- `kserver_release` and `kserver_free`, src/kserver.c:322-350: the assertion that no listener is left; the context of the server is released. -/
def srvRelease (s : St) : Res St :=
  if s.srvFreed ≠ 0 ∨ s.srvRefs = 0 then .ub
  else if s.srvRefs = 1 then
    if s.lst ≠ [] then .ub
    else releaseOpt { s with srvRefs := 0, srvFreed := 1 } s.sctx
  else .ok { s with srvRefs := s.srvRefs - 1 }

/-- Access to the server object. -/
def touch (s : St) (r : Res St) : Res St := if s.srvFreed = 0 then r else .ub

/-- Calls of the application under way; each is made by somebody who has a reference on the server. -/
def calls (s : St) : Nat := (if s.set = .idle then 0 else 1) + (if s.lis = .idle then 0 else 1)

/-- `ss_lock` is held by `kserver_set_ssl_ctx`. -/
def locked (s : St) : Bool := match s.set with
  | .visit _ _ => true
  | _ => false

/-- `kserver_set_ssl_ctx` up to the release of the old context, src/kserver.c:434-440. -/
def setEntry (s : St) (c : Option Nat) : Res St :=
  if s.sctx.isSome ∧ c = none then .ok s
  else match releaseOpt s s.sctx with
    | .ok s1 => .ok { s1 with set := .assign c }
    | r => r

/-- The reference that the application hands over with `c`. -/
def handOver (s : St) : Option Nat → St
  | none => s
  | some c => { s with ext := upd s.ext c (s.ext c - 1) }

/-- The application may hand over `c`. -/
def mayGive (s : St) : Option Nat → Bool
  | none => true
  | some c => s.ext c > 0

/-- one listener in the loop of `kserver_set_ssl_ctx`, src/kserver.c:444-457, and `kserver_selectable_update_ssl_ctx`, 418-424 -/
def visitOne (s : St) (c : Option Nat) (i : Nat) (rest : List Nat) : Res St :=
  if s.stage i = .gone then .ub
  else match addRefOpt s c with
    | .ok s1 =>
      if s.start = false then
        match releaseOpt s1 (s1.lctx i) with
        | .ok s2 => .ok { s2 with lctx := upd s2.lctx i c, set := .visit c rest }
        | r => r
      else .ok { s1 with posted := (i, c) :: s1.posted, set := .visit c rest }
    | r => r

/-- `kserver_ssl_ctx_next_update`, src/kserver.c:425-431, for the `k`-th pending event.  `selectable_next` keeps a plain pointer to the
listener; the event runs on the listener's thread, between its callbacks. -/
def runOne (s : St) (k : Nat) (e : Nat × Option Nat) : Res St :=
  match s.stage e.1 with
  | .gone => .ub
  | .idle =>
    match releaseOpt { s with posted := s.posted.eraseIdx k } (s.lctx e.1) with
    | .ok s1 => .ok { s1 with lctx := upd s1.lctx e.1 e.2 }
    | r => r
  | _ => .disabled

/-- `kconnection_ssl_accept`: `SSL_new` takes a reference on the `SSL_CTX`; the connection keeps a reference on the server (src/kserver.c:78-91). -/
def accept (s : St) (i : Nat) (p : Option Nat) (ok : Bool) : Res St :=
  match p with
  | none => .ok { s with srvRefs := s.srvRefs + 1, conns := (s.nextC, none) :: s.conns, nextC := s.nextC + 1, stage := upd s.stage i .idle }
  | some c =>
    -- kgl_get_ssl_ctx reads the object (include/kgl_ssl.h:90-96)
    if s.refs c = 0 then .ub
    else if ok then
      .ok { s with srvRefs := s.srvRefs + 1, sslRefs := upd s.sslRefs c (s.sslRefs c + 1), conns := (s.nextC, some c) :: s.conns,
                   nextC := s.nextC + 1, stage := upd s.stage i .idle }
    -- SSL_new failed: kconnection_real_destroy at once
    else .ok { s with stage := upd s.stage i .idle }

/-- `kconnection_real_destroy` (src/kconnection.c:62-79): `SSL_free` drops the reference on the `SSL_CTX`, then the server is released. -/
def connDrop (s : St) (e : Nat × Option Nat) : Res St :=
  match e.2 with
  | none => srvRelease s
  | some c => if s.sslRefs c = 0 then .ub else srvRelease (sslDrop s c)

def step (s : St) (o : Op) : Res St :=
  match o with
  -- kgl_new_ssl_ctx, include/kgl_ssl.h:97-103
  | .newCtx =>
    .ok { s with refs := upd s.refs s.next 1, sslRefs := upd s.sslRefs s.next 1, ext := upd s.ext s.next 1, next := s.next + 1 }
  | .extRef c =>
    if s.ext c > 0 then
      match addRefOpt s (some c) with
      | .ok s1 => .ok { s1 with ext := upd s1.ext c (s1.ext c + 1) }
      | r => r
    else .disabled
  | .extRelease c => if s.ext c > 0 then release { s with ext := upd s.ext c (s.ext c - 1) } c else .disabled
  -- kserver_refs, include/kserver.h:157-160
  | .ownRef => if s.owners > calls s then touch s (.ok { s with srvRefs := s.srvRefs + 1, owners := s.owners + 1 }) else .disabled
  | .ownRelease => if s.owners > calls s then srvRelease { s with owners := s.owners - 1 } else .disabled
  -- kserver_set_ssl_ctx(server, c)
  | .setBegin c =>
    if s.owners > calls s ∧ s.set = .idle ∧ mayGive s c = true then touch s (setEntry (handOver s c) c) else .disabled
  -- kserver_bind, src/kserver.c:212-236
  | .bindBegin c addrOk =>
    if s.owners > calls s ∧ s.set = .idle ∧ mayGive s c = true then
      touch s (
        if s.ssl = true ∧ c = none then .ok { s with binds := false :: s.binds }
        else
          let s1 := { handOver s c with ssl := s.ssl || c.isSome }
          if addrOk = false then
            match releaseOpt s1 c with
            | .ok s2 => .ok { s2 with binds := false :: s2.binds }
            | r => r
          else match setEntry s1 c with
            | .ok s2 => .ok { s2 with binds := true :: s2.binds }
            | r => r)
    else .disabled
  | .setAssign => match s.set with
    | .assign c => touch s (.ok { s with sctx := c, set := .lock c })
    | _ => .disabled
  | .setLock => match s.set with
    | .lock c => touch s (.ok { s with set := .visit c s.lst })
    | _ => .disabled
  | .setVisit => match s.set with
    | .visit c (i :: rest) => touch s (visitOne s c i rest)
    | _ => .disabled
  | .setEnd => match s.set with
    | .visit _ [] => touch s (.ok { s with set := .idle })
    | _ => .disabled
  -- kserver_selectable_init, src/kserver.c:144-161
  | .lisInit =>
    if s.owners > calls s ∧ s.lis = .idle then
      touch s (.ok { s with
        srvRefs := s.srvRefs + 1, lctx := upd s.lctx s.nextL s.sctx, stage := upd s.stage s.nextL .init,
        lrefs := s.nextL :: s.lrefs, lis := .ref s.nextL s.sctx, nextL := s.nextL + 1 })
    else .disabled
  | .lisRef => match s.lis with
    | .ref i p => match addRefOpt s p with
      | .ok s1 => .ok { s1 with live := i :: s1.live, lis := .append i }
      | r => r
    | _ => .disabled
  | .lisAppend => match s.lis with
    | .append i =>
      if locked s then .disabled
      else touch s (.ok { s with lst := s.lst ++ [i], stage := upd s.stage i .idle, lis := .idle })
    | _ => .disabled
  -- src/kserver.c:283, 300, 310; src/kfiber.c:409
  | .setStart => if s.owners > calls s then touch s (.ok { s with start := true }) else .disabled
  -- kserver_close, src/kserver.c:395
  | .clearStart => if s.owners > calls s then touch s (.ok { s with start := false }) else .disabled
  -- kserver_selectable_get_ssl_ctx reads ss->ssl_ctx, include/kserver.h:141-147
  | .accRead i => if s.stage i = .idle then .ok { s with stage := upd s.stage i (.acc (s.lctx i)) } else .disabled
  | .accUse i ok => match s.stage i with
    | .acc p => touch s (accept s i p ok)
    | _ => .disabled
  | .runPosted k => match s.posted[k]? with
    | some e => runOne s k e
    | none => .disabled
  -- kserver_selectable_destroy, src/kserver.c:352-374
  | .dUnlink i =>
    if s.stage i = .idle ∧ locked s = false then
      touch s (.ok { s with lst := s.lst.erase i, stage := upd s.stage i .unl })
    else .disabled
  | .dRel i =>
    if s.stage i = .unl then srvRelease { s with lrefs := s.lrefs.erase i, stage := upd s.stage i .rel } else .disabled
  -- kserver_selectable_free, src/kserver.c:131-136
  | .dFree i =>
    if s.stage i = .rel then
      releaseOpt { s with live := s.live.erase i, stage := upd s.stage i .gone } (s.lctx i)
    else .disabled
  | .connDestroy k => match s.conns[k]? with
    | some e => connDrop { s with conns := s.conns.eraseIdx k } e
    | none => .disabled

/-- `kserver_init`, src/kserver.c:106-114 -/
def init : St := {}

end Kasync.SslCtx
