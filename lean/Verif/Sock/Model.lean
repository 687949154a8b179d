import Verif.Common

/-!
# Model of opening sockets (src/ksocket.c, src/kudp.c:59-92, src/kconnection.c:43-112, src/kserver.c:172-206, 288-322)

The process' descriptor table and the files at Unix socket paths, and the functions of kasync that open sockets as sequences of system calls.
`Env` is the kernel's answer to each call of one function; every answer is possible.

`Build` says whether SOCK_CLOEXEC and accept4 exist (Linux) or not (macOS), and whether ENABLE_TPROXY is defined.

Simplifications: addresses are numbers with a port, paths are numbers; INADDR structure is that of C40.  During one call no other thread
opens or closes descriptors or files.  Windows branches are left out.  `connect` of a blocking socket that is interrupted by a signal is a
failure.
-/

namespace Kasync.Sock

inductive Fam where
  | inet | inet6 | unix
  deriving Repr, DecidableEq

/-- A socket address; `host` is the path for `unix`. -/
structure Addr where
  fam : Fam
  host : Nat
  port : Nat
  deriving Repr, DecidableEq

inductive Opt where
  | reuseaddr | reuseport | v6only | fastopen | transparent | mark | pktinfo
  deriving Repr, DecidableEq

inductive Peer where
  | none
  | connecting (a : Addr)
  | connected (a : Addr)
  deriving Repr, DecidableEq

/-- A socket of the kernel. -/
structure Sock where
  /-- which socket it is, never reused -/
  id : Nat
  fam : Fam
  dgram : Bool
  cloexec : Bool := false
  nonblock : Bool := false
  /-- options set, with their values -/
  opts : List (Opt × Int) := []
  bound : Option Addr := none
  listening : Bool := false
  peer : Peer := .none
  deriving Repr, DecidableEq

/-- What is at a path. -/
inductive Node where
  | absent
  | file
  | sock (id : Nat)
  deriving Repr, DecidableEq

structure World where
  fds : Nat → Option Sock := fun _ => none
  nodes : Nat → Node := fun _ => .absent
  /-- next socket number -/
  next : Nat := 0

structure Build where
  /-- SOCK_CLOEXEC and accept4 exist -/
  cloexec : Bool
  /-- ENABLE_TPROXY -/
  tproxy : Bool
  deriving Repr, DecidableEq

/-- Answer of `connect`. -/
inductive ConnRes where
  | ok | inprogress | fail
  deriving Repr, DecidableEq

/-- The kernel's answers to the system calls of one function. -/
structure Env where
  /-- `socket` / `accept`: the new descriptor -/
  fd : Option Nat
  /-- `setsockopt` succeeds -/
  opt : Opt → Bool
  /-- `ioctl(FIONBIO)` succeeds -/
  nb : Bool
  stat : Bool
  unlink : Bool
  bind : Bool
  listen : Bool
  conn : ConnRes
  /-- the port the kernel picks when asked for port 0, less one -/
  port : Nat
  /-- `poll` reports the socket writable and without POLLERR before the timeout -/
  poll : Bool
  /-- the peer of an accepted connection -/
  from_ : Addr

/-- The new descriptor: the kernel hands out numbers that are not open (an answer that is open counts as failure). -/
def newFd (e : Env) (w : World) : Option Nat :=
  match e.fd with
  | some n => if (w.fds n).isSome then none else some n
  | none => none

/-! ## Flags (include/ksocket.h:47-58) -/

/-- KBIT_TEST -/
def bit (flag : UInt32) (b : UInt32) : Bool := flag &&& b != 0
def ONLY_IPV6 : UInt32 := 4
def REUSEPORT : UInt32 := 8
def TPROXY : UInt32 := 16
def FASTOPEN : UInt32 := 32
def BLOCK : UInt32 := 64
def IP_PKTINFO : UInt32 := 256

/-! ## System calls -/

/-- Writes a descriptor. -/
def World.put (w : World) (n : Nat) (s : Option Sock) : World := { w with fds := fun m => if m = n then s else w.fds m }
/-- Writes a path. -/
def World.node (w : World) (p : Nat) (x : Node) : World := { w with nodes := fun q => if q = p then x else w.nodes q }

/-- `setsockopt` whose result is ignored. -/
def setopt (e : Env) (o : Opt) (v : Int) (s : Sock) : Sock := if e.opt o then { s with opts := s.opts ++ [(o, v)] } else s
/-- The same under a condition. -/
def setoptIf (c : Bool) (e : Env) (o : Opt) (v : Int) (s : Sock) : Sock := if c then setopt e o v s else s

/-- `ksocket_no_block` (include/ksocket.h:252-259). -/
def noBlock (e : Env) (s : Sock) : Sock := if e.nb then { s with nonblock := true } else s

/-- `kfile_close_on_exec` (include/kfile.h:16-24): outside Windows its only statement is commented out. -/
def closeOnExec (s : Sock) : Sock := s

/-- A new socket: with SOCK_CLOEXEC and perhaps SOCK_NONBLOCK in its type, or, without them, `socket` followed by `kfile_close_on_exec`. -/
def fresh (b : Build) (w : World) (fam : Fam) (dgram nonblock : Bool) : Sock :=
  if b.cloexec then { id := w.next, fam := fam, dgram := dgram, cloexec := true, nonblock := nonblock }
  else closeOnExec { id := w.next, fam := fam, dgram := dgram }

/-- `bind`: the address bound, or failure.  A path that exists cannot be bound. -/
def bindTo (e : Env) (w : World) (a : Addr) : Option Addr :=
  if !e.bind then none
  else match a.fam with
    | .unix => if w.nodes a.host = .absent then some a else none
    | _ => some (if a.port = 0 then { a with port := e.port + 1 } else a)

/-- The files after a successful `bind` of socket `id`. -/
def bindNode (w : World) (a : Addr) (id : Nat) : World := if a.fam = .unix then w.node a.host (.sock id) else w

/-! ## src/ksocket.c -/

/-- `ksocket_new_udp` (src/ksocket.c:122-167). -/
def newUdp (b : Build) (e : Env) (w : World) (fam : Fam) (flag : UInt32) : World × Option Nat :=
  match newFd e w with
  | none => (w, none)
  | some n =>
    let s := fresh b w fam true (!bit flag BLOCK)
    let s := if !b.cloexec && !bit flag BLOCK then noBlock e s else s
    let s := setoptIf (bit flag REUSEPORT) e .reuseport 1 s
    let s := setoptIf (bit flag ONLY_IPV6) e .v6only 1 s
    ({ w.put n (some s) with next := w.next + 1 }, some n)

/-- Removing a socket left at the path (src/ksocket.c:169-177). -/
def clearPath (e : Env) (w : World) (a : Addr) : World :=
  if a.fam = .unix then
    match w.nodes a.host with
    | .sock _ => if e.stat && e.unlink then w.node a.host .absent else w
    | _ => w
  else w

/-- The options of a listening socket (src/ksocket.c:202-228). -/
def listenOpts (b : Build) (e : Env) (flag : UInt32) (s : Sock) : Sock :=
  let s := setopt e .reuseaddr 1 s
  let s := setoptIf (bit flag REUSEPORT) e .reuseport 1 s
  let s := setoptIf (bit flag ONLY_IPV6) e .v6only 1 s
  let s := setoptIf (bit flag FASTOPEN) e .fastopen 1 s
  setoptIf (b.tproxy && bit flag TPROXY) e .transparent 1 s

/-- `ksocket_listen` (src/ksocket.c:168-239). -/
def listen (b : Build) (e : Env) (w0 : World) (a : Addr) (flag : UInt32) : World × Option Nat :=
  let w := clearPath e w0 a
  match newFd e w with
  | none => (w, none)
  | some n =>
    let s := fresh b w a.fam false (!bit flag BLOCK)
    let s := if !b.cloexec && !bit flag BLOCK then noBlock e s else s
    let s := listenOpts b e flag s
    let w1 := { w with next := w.next + 1 }
    match bindTo e w1 a with
    -- ksocket_close
    | none => (w1.put n none, none)
    | some a' =>
      let w2 := bindNode w1 a s.id
      if e.listen then (w2.put n (some { s with bound := some a', listening := true }), some n)
      else (w2.put n none, none)

/-- `ksocket_accept` (src/ksocket.c:248-269). -/
def accept (b : Build) (e : Env) (w : World) (l : Sock) (noblock : Bool) : World × Option Nat :=
  match newFd e w with
  | none => (w, none)
  | some n =>
    let s : Sock := { fresh b w l.fam false noblock with bound := l.bound, peer := .connected e.from_ }
    let s := if !b.cloexec && noblock then noBlock e s else s
    ({ w.put n (some s) with next := w.next + 1 }, some n)

/-- `wait_socket_event` (src/ksocket.c:310-343): `tmo * 1000` overflows for large timeouts. -/
def waitEvent (e : Env) (tmo : Int) : Res Bool :=
  if tmo ≤ 0 then .ok true
  else if 2147483647 < tmo * 1000 then .ub
  else .ok e.poll

/-- The optional `bind` of an outgoing socket: `none` is failure. -/
def bindOpt (e : Env) (w : World) : Option Addr → Option (Option Addr)
  | none => some none
  | some a => (bindTo e w a).map some

/-- The files after the optional `bind`. -/
def bindNodeOpt (w : World) (a : Option Addr) (id : Nat) : World := match a with | none => w | some a => bindNode w a id

/-- `ksocket_connect` (src/ksocket.c:344-371): a blocking socket. -/
def connect (b : Build) (e : Env) (w : World) (a : Addr) (bindA : Option Addr) (tmo : Int) : Res (World × Option Nat) :=
  match newFd e w with
  | none => .ok (w, none)
  | some n =>
    let s := fresh b w a.fam false false
    let w1 := { w with next := w.next + 1 }
    match bindOpt e w1 bindA with
    | none => .ok (w1.put n none, none)
    | some bd =>
      let w2 := bindNodeOpt w1 bindA s.id
      match e.conn with
      | .ok =>
        match waitEvent e tmo with
        | .ok true => .ok (w2.put n (some { s with bound := bd, peer := .connected a }), some n)
        | .ok false => .ok (w2.put n none, none)
        | .disabled => .disabled
        | .ub => .ub
      | _ => .ok (w2.put n none, none)

/-- What `connect` of a non-blocking socket leaves. -/
def peerOf (c : ConnRes) (a : Addr) : Peer := match c with | .ok => .connected a | _ => .connecting a

/-- `ksocket_half_connect` (src/ksocket.c:372-428). -/
def halfConnect (b : Build) (e : Env) (w : World) (a : Addr) (bindA : Option Addr) (mask : Int) : World × Option Nat :=
  match newFd e w with
  | none => (w, none)
  | some n =>
    let s := fresh b w a.fam false true
    let s := setoptIf (bindA.isSome && b.tproxy && decide (mask > 0)) e .transparent 1 s
    let s := setoptIf (bindA.isSome && b.tproxy && decide (mask > 0)) e .mark mask s
    let w1 := { w with next := w.next + 1 }
    match bindOpt e w1 bindA with
    | none => (w1.put n none, none)
    | some bd =>
      let w2 := bindNodeOpt w1 bindA s.id
      let s := if b.cloexec then s else noBlock e s
      match e.conn with
      | .fail => (w2.put n none, none)
      | c => (w2.put n (some { s with bound := bd, peer := peerOf c a }), some n)

/-! ## Connections (src/kconnection.c, src/kudp.c) -/

/-- A `kconnection` as far as opening goes. -/
structure Conn where
  fd : Option Nat
  addr : Addr
  /-- `c->udp` allocated -/
  ext : Bool := false
  deriving Repr, DecidableEq

/-- `kconnection_half_connect` (src/kconnection.c:104-113): the connection after it; the result is whether it has a descriptor. -/
def connHalf (b : Build) (e : Env) (w : World) (c : Conn) (bindA : Option Addr) (mask : Int) : World × Conn :=
  let r := if c.addr.fam = .unix then halfConnect b e w c.addr none 0 else halfConnect b e w c.addr bindA mask
  (r.1, { c with fd := r.2 })

/-- `kudp_new2` (src/kudp.c:59-92): the objects made are a connection and perhaps its extension; `kconnection_destroy` frees the connection
when the socket cannot be made. -/
def udpNew (b : Build) (e : Env) (w : World) (flag : UInt32) : World × Option Conn :=
  let fam : Fam := if bit flag ONLY_IPV6 then .inet6 else .inet
  let r := newUdp b e w fam flag
  match r.2 with
  | none => (r.1, none)
  | some n =>
    let c : Conn := { fd := some n, addr := ⟨.inet, 0, 0⟩, ext := bit flag IP_PKTINFO }
    let w' := match r.1.fds n with
      | some s => r.1.put n (some (setoptIf (bit flag IP_PKTINFO) e .pktinfo 1 s))
      | none => r.1
    (w', some c)

/-- `kconnection_real_destroy` (src/kconnection.c:62-79; src/kselectable.c:128-153): closes the descriptor. -/
def connDestroy (w : World) (c : Conn) : World := match c.fd with | some n => w.put n none | none => w

/-- `kconnection_new(&ss->accept_addr)` (src/kconnection.c:43-61, src/kserver.c:78): `avail` bytes are left in the listener from the address on;
`un` is `sizeof(struct sockaddr_un)`, `sai` is `sizeof(sockaddr_i)`. -/
def connNew (un sai avail : Nat) (a : Addr) (fd : Nat) : Res Conn :=
  if avail < (if a.fam = .unix then un else sai) then .ub else .ok { fd := some fd, addr := a }

/-! ## Listening of a server (src/kserver.c) -/

/-- The retries of `kserver_listen_on_selector` (src/kserver.c:172-192), with the global `kgl_failed_tries`: attempt `k` gets the answers `env k`.  Result: the
world, the descriptor, `kgl_failed_tries` and the number of the next attempt. -/
def listenLoop (b : Build) (env : Nat → Env) (a : Addr) (flag : UInt32) (w : World) (tries k : Nat) : World × Option Nat × Nat × Nat :=
  let r := listen b (env k) w a flag
  match r.2 with
  | some n => (r.1, some n, tries, k + 1)
  | none => if 10 < tries then (r.1, none, tries, k + 1) else listenLoop b env a flag r.1 (tries + 1) (k + 1)
  termination_by 11 - tries

/-- A listener: the selector and the descriptor. -/
structure Lis where
  sel : Nat
  fd : Nat
  deriving Repr, DecidableEq

/-- State of `kserver_open`. -/
structure Open where
  w : World
  addr : Addr
  tries : Nat
  k : Nat
  ls : List Lis := []

/-- `server->addr` after listening (src/kserver.c:193-197): read back if the port is 0 (`ksocket_addr_port`, which is 0 for a path too). -/
def readBack (w : World) (a : Addr) (n : Nat) : Addr :=
  if a.fam = .unix ∨ a.port = 0 then ((w.fds n).bind Sock.bound).getD a else a

/-- One `kserver_listen_on_selector` (src/kserver.c:172-206) for selector `i`. -/
def listenOn (b : Build) (env : Nat → Env) (flag : UInt32) (i : Nat) (o : Open) : Open :=
  let r := listenLoop b env o.addr (flag ||| REUSEPORT) o.w o.tries o.k
  match r.2.1 with
  | none => { o with w := r.1, tries := r.2.2.1, k := r.2.2.2 }
  | some n => { w := r.1, addr := readBack r.1 o.addr n, tries := r.2.2.1, k := r.2.2.2, ls := o.ls ++ [⟨i, n⟩] }

/-- The loop of `kserver_open` (src/kserver.c:306-313) over selectors `i, i+1, ..., i+n-1`. -/
def openLoop (b : Build) (env : Nat → Env) (flag : UInt32) : Nat → Nat → Open → Open
  | 0, _, o => o
  | n + 1, i, o => openLoop b env flag n (i + 1) (listenOn b env flag i o)

/-- `kserver_open` (src/kserver.c:288-322) with `n` selectors; its result is whether there is a listener. -/
def serverOpen (b : Build) (env : Nat → Env) (flag : UInt32) (n : Nat) (w : World) (a : Addr) (tries : Nat) : Open × Bool :=
  let o := openLoop b env (flag ||| REUSEPORT) n 0 { w := w, addr := a, tries := tries, k := 0 }
  (o, !o.ls.isEmpty)

end Kasync.Sock
