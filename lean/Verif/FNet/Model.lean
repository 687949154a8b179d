import Verif.Common

/-!
# Model of the calls a fiber makes on addresses, connections and files (src/kfiber.c:393-552)

Any number of fibers call `kfiber_net_getaddr`, `kfiber_net_connect`, `kfiber_net_accept`, `kfiber_ssl_handshake`, `kfiber_ssl_shutdown`,
`kfiber_net_shutdown`, `kfiber_net_close`, `kfiber_file_open` and `kfiber_file_close`.  A call either returns at once or leaves its fiber waiting; events of
the selector and answers of the resolver, in any order, continue it.

Environment (chosen by the parameters of the operations, so the theorems hold for all of it): the resolver and its cache, what the kernel answers to opening,
connecting and accepting, what OpenSSL answers, when the selector marks a connection as failed.

Simplifications.  A descriptor has a number that is not used again (closing a closed one is undefined; the numbers of the kernel are C54).  TLS without memory
BIOs (`ENABLE_KSSL_BIO` off; with them: C45, C48).  An event of the selector has the result 0 or -1 (the read timeout -2: findings of C45).  How a waiting fiber is
switched to is C47, the list of waiters of the cache C33, references of the server object C38.
-/

namespace Kasync.FNet

/-- what OpenSSL says to `SSL_do_handshake` or `SSL_shutdown`: done, call again after an event, error (src/kgl_ssl.c:775-834) -/
inductive Out where
  | done
  | again
  | fail
  deriving Repr, DecidableEq

/-- `kssl_session` (include/kselectable.h): `handshake` and `shutdown` are its flags -/
structure Ssl where
  handshake : Bool := false
  shutdown : Bool := false
  deriving Repr, DecidableEq

/-- a connection object -/
structure Conn where
  /-- `st.fd`, if open -/
  fd : Option Nat := none
  ssl : Option Ssl := none
  /-- `st.base.selector` is set -/
  bound : Bool := false
  /-- STF_ERR -/
  err : Bool := false
  deriving Repr, DecidableEq

/-- which call waits for the TLS shutdown -/
inductive Then where
  | ret
  | shut
  | close
  deriving Repr, DecidableEq

/-- what a fiber waits for -/
inductive Pend where
  | idle
  | getaddr
  | connect (c : Nat)
  | accept (tls : Bool)
  | handshake (c : Nat)
  | shutdown (c : Nat) (k : Then)
  deriving Repr, DecidableEq

/-- the connection a waiting fiber is working on -/
def Pend.conn : Pend → Option Nat
  | .connect c | .handshake c | .shutdown c _ => some c
  | _ => none

/-- calls, as they appear in the history -/
inductive Call where
  | getaddr
  | connect (c : Nat)
  | accept
  | handshake (c : Nat)
  | sslShutdown (c : Nat)
  | netShutdown (c : Nat)
  | close (c : Nat)
  deriving Repr, DecidableEq

/-- the history -/
inductive Ev where
  /-- fiber `f` began a call -/
  | call (f : Nat) (k : Call)
  /-- it returned -/
  | ret (f : Nat) (k : Call) (r : Int)
  /-- `*addr` was set to the address `a` -/
  | setAddr (f : Nat) (a : Nat)
  /-- `*c` was set by `kfiber_net_accept` -/
  | setConn (f : Nat) (c : Option Nat)
  /-- an event of the selector for the fiber -/
  | event (f : Nat) (got : Int)
  /-- the resolver (or the cache, or the numeric parser) answered -/
  | resolved (f : Nat) (a : Option Nat)
  /-- `SSL_do_handshake` -/
  | sslHs (c : Nat) (o : Out)
  /-- `SSL_shutdown` -/
  | sslSd (c : Nat) (o : Out)
  /-- `shutdown` of the socket -/
  | sockShut (c : Nat)
  | opened (fd : Nat)
  | closed (fd : Nat)
  /-- `xfree` of the connection object, with `SSL_free` of its TLS session -/
  | destroyed (c : Nat)
  /-- `freeaddrinfo` and `xfree` of an address object -/
  | addrFreed (a : Nat)
  deriving Repr, DecidableEq

structure St where
  conns : Nat → Option Conn := fun _ => none
  nextConn : Nat := 0
  /-- open descriptors -/
  open? : Nat → Bool := fun _ => false
  nextFd : Nat := 0
  /-- reference count of an address object, 0: freed or not yet made -/
  refs : Nat → Nat := fun _ => 0
  nextAddr : Nat := 0
  /-- references the cache holds -/
  cache : List Nat := []
  /-- answers on their way to a fiber: `addr_next_call` queued by `addr_result` (src/kaddr.c:184-214), each holds a reference -/
  queue : List (Nat × Option Nat) := []
  /-- references the program got from `kfiber_net_getaddr` and has not released -/
  held : List Nat := []
  /-- file objects: the descriptor -/
  files : Nat → Option Nat := fun _ => none
  nextFile : Nat := 0
  fib : Nat → Pend := fun _ => .idle
  /-- every fiber from this number on is idle (so that the rule `Free` can be decided) -/
  nfib : Nat := 0
  /-- history, newest first -/
  log : List Ev := []

def upd {α : Type} (g : Nat → α) (i : Nat) (v : α) : Nat → α := fun j => if j = i then v else g j

def St.ev (s : St) (e : Ev) : St := { s with log := e :: s.log }

def St.wait (s : St) (f : Nat) (p : Pend) : St := { s with fib := upd s.fib f p, nfib := max s.nfib (f + 1) }

/-- the call returns: the fiber goes on -/
def St.ret (s : St) (f : Nat) (k : Call) (r : Int) : St := (s.wait f .idle).ev (.ret f k r)

/-! ## Addresses -/

/-- `kgl_addr_refs` (src/kaddr.c:81-84): a freed object must not be touched -/
def addrRefs (s : St) (a : Nat) : Res St :=
  if s.refs a = 0 then .ub else .ok { s with refs := upd s.refs a (s.refs a + 1) }

/-- `kgl_addr_release` (src/kaddr.c:85-92) -/
def addrRelease (s : St) (a : Nat) : Res St :=
  if s.refs a = 0 then .ub
  else if s.refs a = 1 then .ok ({ s with refs := upd s.refs a 0 }.ev (.addrFreed a))
  else .ok { s with refs := upd s.refs a (s.refs a - 1) }

/-- `kgl_addr_new` (src/kaddr.c:73-80) -/
def addrNew (s : St) : St := { s with refs := upd s.refs s.nextAddr 1, nextAddr := s.nextAddr + 1 }

/-- `kfiber_getaddr_callback` (src/kfiber.c:393-402) and the return of `kfiber_net_getaddr` it leads to (src/kfiber.c:425-444): the address is referenced and stored in
the variable of the caller -/
def getaddrCallback (s : St) (f : Nat) : Option Nat → Res St
  | none => .ok (s.ret f .getaddr (-1))
  | some a =>
    match addrRefs s a with
    | .ok s1 => .ok (({ s1 with held := a :: s1.held }.ev (.setAddr f a)).ret f .getaddr 0)
    | r => r

/-- what the numeric parser and the cache say when `kfiber_net_getaddr` is called -/
inductive Look where
  /-- `getaddrinfo` with AI_NUMERICHOST made a list -/
  | numeric
  /-- an address object of the cache -/
  | cached (a : Nat)
  /-- the cache knows that there is no address -/
  | negative
  /-- put into a queue -/
  | queued
  deriving Repr, DecidableEq

/-- `kfiber_net_getaddr` (src/kfiber.c:425-444) with the calling part of `kgl_find_addr` (src/kaddr.c:310-336): a cached address is referenced during the callback -/
def getaddr (s : St) (f : Nat) : Look → Res St
  | .numeric =>
    let a := s.nextAddr
    let s1 := addrNew (s.ev (.resolved f (some a)))
    .ok (({ s1 with held := a :: s1.held }.ev (.setAddr f a)).ret f .getaddr 0)
  | .cached a =>
    if a ∈ s.cache then
      match addrRefs (s.ev (.resolved f (some a))) a with
      | .ok s1 =>
        match getaddrCallback s1 f (some a) with
        | .ok s2 => addrRelease s2 a
        | r => r
      | r => r
    else .disabled
  | .negative => getaddrCallback (s.ev (.resolved f none)) f none
  | .queued => .ok (s.wait f .getaddr)

/-- `addr_result` for one waiter (src/kaddr.c:197-208): the answer is queued with a reference of its own -/
def answer (s : St) (f : Nat) : Option Nat → Res St
  | none => .ok ({ s with queue := s.queue ++ [(f, none)] }.ev (.resolved f none))
  | some a =>
    match addrRefs s a with
    | .ok s1 => .ok ({ s1 with queue := s1.queue ++ [(f, some a)] }.ev (.resolved f (some a)))
    | r => r

/-- `addr_next_call` (src/kaddr.c:184-195): callback, then the reference of the queue is released -/
def deliver (s : St) (f : Nat) (x : Option Nat) : Res St :=
  match getaddrCallback { s with queue := s.queue.erase (f, x) } f x with
  | .ok s1 =>
    match x with
    | some a => addrRelease s1 a
    | none => .ok s1
  | r => r

/-! ## Connections -/

def St.setConn (s : St) (c : Nat) (v : Option Conn) : St := { s with conns := upd s.conns c v }

/-- a new open descriptor -/
def fdOpen (s : St) : St := { s with open? := upd s.open? s.nextFd true, nextFd := s.nextFd + 1 }.ev (.opened s.nextFd)

/-- `ksocket_close`, `kfclose` -/
def fdClose (s : St) (fd : Nat) : Res St :=
  if s.open? fd then .ok ({ s with open? := upd s.open? fd false }.ev (.closed fd)) else .ub

/-- `kconnection_real_destroy` (src/kconnection.c:62-79) with `selectable_clean` (src/kselectable.c:128-153) -/
def realDestroy (s : St) (c : Nat) : Res St :=
  match s.conns c with
  | none => .ub
  | some k =>
    match k.fd with
    | none => .ok ((s.setConn c none).ev (.destroyed c))
    | some fd =>
      match fdClose s fd with
      | .ok s1 => .ok ((s1.setConn c none).ev (.destroyed c))
      | r => r

/-- `kconnection_new` (src/kconnection.c:27-61), `kfiber_net_open` -/
def connNew (s : St) : St := { s with conns := upd s.conns s.nextConn (some {}), nextConn := s.nextConn + 1 }

/-- `kfiber_net_connect` (src/kfiber.c:446-455) with `kconnection_half_connect` and `kconnection_connect` (src/kconnection.c:104-122).  `half`: the socket could be made;
`go`: the selector took the request, otherwise the callback is called at once with -1. -/
def connect (s : St) (f c : Nat) (k : Conn) (half go : Bool) : Res St :=
  if half then
    let s1 := (fdOpen s).setConn c (some { k with fd := some s.nextFd, bound := true })
    if go then .ok (s1.wait f (.connect c)) else .ok (s1.ret f (.connect c) (-1))
  else .ok ((s.setConn c (some { k with fd := none })).ret f (.connect c) (-1))

/-- `kconnection_ssl_connect` (src/kconnection.c:214-239, 250-285) -/
def sslConnect (s : St) (c : Nat) (k : Conn) (ok : Bool) : St :=
  if ok then s.setConn c (some { k with ssl := some {} }) else s

/-- the end of `kfiber_net_accept` (src/kfiber.c:418-423) with `accept_result_new_connection` (src/kserver.c:70-95): `fd`: a connection came; `tls`: the listener has a context; `sslOk`: `SSL_new`
worked -/
def accepted (s : St) (f : Nat) (tls got sslOk : Bool) : Res St :=
  if got then
    let c := s.nextConn
    let s1 := (connNew (fdOpen s)).setConn c (some { fd := some s.nextFd })
    if tls then
      if sslOk then
        .ok (((s1.setConn c (some { fd := some s.nextFd, ssl := some {}, bound := true })).ev (.setConn f (some c))).ret f .accept 0)
      else
        match realDestroy s1 c with
        | .ok s2 => .ok ((s2.ev (.setConn f none)).ret f .accept 0)
        | r => r
    else .ok (((s1.setConn c (some { fd := some s.nextFd, bound := true })).ev (.setConn f (some c))).ret f .accept 0)
  else .ok ((s.ev (.setConn f none)).ret f .accept 0)

/-! ## TLS -/

/-- `kselectable_ssl_handshake` (src/kconnection.c:147-200) with `result_fiber_ssl_handshake` (src/kfiber.c:492-505): one call of OpenSSL -/
def handshakeCall (s : St) (f c : Nat) (o : Out) : Res St :=
  let s1 := s.ev (.sslHs c o)
  match o with
  | .done => .ok (s1.ret f (.handshake c) 0)
  | .again => .ok (s1.wait f (.handshake c))
  | .fail => .ok (s1.ret f (.handshake c) (-1))

/-- `kfiber_ssl_handshake` (src/kfiber.c:506-513) -/
def handshake (s : St) (f c : Nat) (k : Conn) (o : Out) : Res St :=
  match k.ssl with
  | none => .ub
  | some l => handshakeCall (s.setConn c (some { k with ssl := some { l with handshake := true } })) f c o

/-- an event for a fiber in `kfiber_ssl_handshake` (src/kfiber.c:492-505) -/
def handshakeEvent (s : St) (f c : Nat) (got : Int) (o : Out) : Res St :=
  let s1 := s.ev (.event f got)
  if got = -1 then .ok (s1.ret f (.handshake c) (-1)) else handshakeCall s1 f c o

/-- what the caller of `kfiber_ssl_shutdown` does next (src/kfiber.c:514-543) -/
def afterShutdown (s : St) (f c : Nat) : Then → Res St
  | .ret => .ok (s.ret f (.sslShutdown c) 0)
  | .shut => .ok ((s.ev (.sockShut c)).ret f (.netShutdown c) 0)
  | .close =>
    match realDestroy s c with
    | .ok s1 => .ok (s1.ret f (.close c) 0)
    | r => r

/-- `c->st.ssl->shutdown = 1` (src/kfiber.c:525) -/
def setShutdown (s : St) (c : Nat) : St :=
  match s.conns c with
  | some k =>
    match k.ssl with
    | some l => s.setConn c (some { k with ssl := some { l with shutdown := true } })
    | none => s
  | none => s

/-- `kselectable_ssl_shutdown` (src/kconnection.c:123-146) with `result_fiber_ssl_shutdown` (src/kfiber.c:479-491): one call of OpenSSL; an error ends it too -/
def shutdownCall (s : St) (f c : Nat) (k : Then) (o : Out) : Res St :=
  let s1 := s.ev (.sslSd c o)
  match o with
  | .again => .ok (s1.wait f (.shutdown c k))
  | _ => afterShutdown (setShutdown s1 c) f c k

/-- `kfiber_ssl_shutdown` (src/kfiber.c:514-529) at the beginning of the call `k` -/
def sslShutdown (s : St) (f c : Nat) (k : Conn) (t : Then) (o : Out) : Res St :=
  match k.ssl with
  | none => afterShutdown s f c t
  | some l =>
    if l.handshake && !l.shutdown then
      if k.bound && !k.err then shutdownCall s f c t o
      else afterShutdown (setShutdown s c) f c t
    else afterShutdown s f c t

/-- an event for a fiber in the TLS shutdown (src/kfiber.c:479-491) -/
def shutdownEvent (s : St) (f c : Nat) (k : Then) (got : Int) (o : Out) : Res St :=
  let s1 := s.ev (.event f got)
  if got = -1 then afterShutdown (setShutdown s1 c) f c k else shutdownCall s1 f c k o

/-! ## Files -/

/-- `kfiber_file_open` (src/kfiber.c:553-565) with `kfiber_file_bind` (src/kfiber.c:543-552): `ok`: the file could be opened; `sel`: the thread has a selector.  The file object is number `nextFile`. -/
def fileOpen (s : St) (ok sel : Bool) : Res St :=
  if ok then
    let s1 := fdOpen s
    if sel then .ok { s1 with files := upd s1.files s1.nextFile (some s.nextFd), nextFile := s1.nextFile + 1 }
    else fdClose s1 s.nextFd
  else .ok s

/-- `kfiber_file_close` (src/kfiber.c:617-620) -/
def fileClose (s : St) (i fd : Nat) : Res St :=
  match fdClose s fd with
  | .ok s1 => .ok { s1 with files := upd s1.files i none }
  | r => r

/-! ## Steps -/

inductive Op where
  /-- calls of a fiber -/
  | getaddr (f : Nat) (l : Look)
  /-- `kgl_addr_release` of an address the program holds -/
  | release (a : Nat)
  | connNew
  | connect (f c : Nat) (half go : Bool)
  | sslConnect (c : Nat) (ok : Bool)
  | accept (f : Nat) (tls go : Bool)
  | handshake (f c : Nat) (o : Out)
  | sslShutdown (f c : Nat) (o : Out)
  | netShutdown (f c : Nat) (o : Out)
  | close (f c : Nat) (o : Out)
  | fileOpen (ok sel : Bool)
  | fileClose (i : Nat)
  /-- environment: the resolver answers, the answer is delivered -/
  | answer (f : Nat) (x : Option Nat)
  | deliver (f : Nat) (x : Option Nat)
  /-- the cache gets a new address object, or drops one of its references -/
  | cacheNew
  | cacheDrop (a : Nat)
  /-- events of the selector -/
  | connected (f : Nat) (got : Int)
  | acceptEv (f : Nat) (got sslOk : Bool)
  | sslEv (f : Nat) (got : Int) (o : Out)
  /-- the selector marks a connection as failed -/
  | setErr (c : Nat)
  deriving Repr, DecidableEq

/-- rule of the program: no other fiber is in a call on this connection -/
def St.Free (s : St) (c : Nat) : Prop := ∀ f, f < s.nfib → (s.fib f).conn ≠ some c

instance (s : St) (c : Nat) : Decidable (s.Free c) := inferInstanceAs (Decidable (∀ f, f < s.nfib → (s.fib f).conn ≠ some c))

/-- A call needs a fiber that is not waiting, a connection that exists and is not in use by another fiber; a TLS handshake needs a TLS session and a connected socket. -/
def step (s : St) : Op → Res St
  | .getaddr f l => if s.fib f = .idle then getaddr (s.ev (.call f .getaddr)) f l else .disabled
  | .release a =>
    if a ∈ s.held then addrRelease { s with held := s.held.erase a } a else .disabled
  | .connNew => .ok (connNew s)
  | .connect f c half go =>
    match s.conns c with
    | some k => if s.fib f = .idle ∧ s.Free c ∧ k.fd = none then connect (s.ev (.call f (.connect c))) f c k half go else .disabled
    | none => .disabled
  | .sslConnect c ok =>
    match s.conns c with
    | some k => if s.Free c ∧ k.fd ≠ none ∧ k.ssl = none then .ok (sslConnect s c k ok) else .disabled
    | none => .disabled
  | .accept f tls go =>
    if s.fib f = .idle then
      if go then .ok ((s.ev (.call f .accept)).wait f (.accept tls)) else .ok ((s.ev (.call f .accept)).ret f .accept (-1))
    else .disabled
  | .handshake f c o =>
    match s.conns c with
    | some k => if s.fib f = .idle ∧ s.Free c ∧ k.ssl ≠ none ∧ k.bound = true then handshake (s.ev (.call f (.handshake c))) f c k o else .disabled
    | none => .disabled
  | .sslShutdown f c o =>
    match s.conns c with
    | some k => if s.fib f = .idle ∧ s.Free c then sslShutdown (s.ev (.call f (.sslShutdown c))) f c k .ret o else .disabled
    | none => .disabled
  | .netShutdown f c o =>
    match s.conns c with
    | some k => if s.fib f = .idle ∧ s.Free c ∧ k.fd ≠ none then sslShutdown (s.ev (.call f (.netShutdown c))) f c k .shut o else .disabled
    | none => .disabled
  | .close f c o =>
    match s.conns c with
    | some k => if s.fib f = .idle ∧ s.Free c then sslShutdown (s.ev (.call f (.close c))) f c k .close o else .disabled
    | none => .disabled
  | .fileOpen ok sel => fileOpen s ok sel
  | .fileClose i =>
    match s.files i with
    | some fd => fileClose s i fd
    | none => .disabled
  | .answer f x =>
    if s.fib f = .getaddr ∧ (f ∉ s.queue.map Prod.fst) ∧ (x.all (· ∈ s.cache) = true) then answer s f x else .disabled
  | .deliver f x => if (f, x) ∈ s.queue then deliver s f x else .disabled
  | .cacheNew => .ok { addrNew s with cache := s.nextAddr :: s.cache }
  | .cacheDrop a => if a ∈ s.cache then addrRelease { s with cache := s.cache.erase a } a else .disabled
  | .connected f got =>
    match s.fib f with
    | .connect c => if got = 0 ∨ got = -1 then .ok ((s.ev (.event f got)).ret f (.connect c) got) else .disabled
    | _ => .disabled
  | .acceptEv f got sslOk =>
    match s.fib f with
    | .accept tls => accepted (s.ev (.event f (if got then 0 else -1))) f tls got sslOk
    | _ => .disabled
  | .sslEv f got o =>
    if got = 0 ∨ got = -1 then
      match s.fib f with
      | .handshake c => handshakeEvent s f c got o
      | .shutdown c k => shutdownEvent s f c k got o
      | _ => .disabled
    else .disabled
  | .setErr c =>
    match s.conns c with
    | some k => .ok (s.setConn c (some { k with err := true }))
    | none => .disabled

def init : St := {}

end Kasync.FNet
