import Verif.Common

/-!
# Model of the address and the adopted sockets of a server (src/kserver.c:106-114, 163-287, 352-374; src/kfiber.c:404-412)

`kserver_bind`, `kserver_open_exsit`, `kfiber_net_listen` / one selector of `kserver_open`, the end of a listener and `kserver_close`, as calls of one thread, with
the address of the server as the bytes of the union of `sockaddr_i` (28 bytes) and `sockaddr_un` (110 bytes).

Simplifications: TLS contexts are those of C52, the interleaving of listeners with other threads that of C38, the flags and the retries of a new socket those of C54; byte order
little endian; AF_UNIX = 1, AF_INET = 2, AF_INET6 = 10.
-/

namespace Kasync.Adopt

/-- A socket: the bytes of its address as `getsockname` gives them. -/
structure Sock where
  name : List Nat
  deriving Repr, DecidableEq

/-- A numeric host. -/
inductive Host where
  | v4 (b : List Nat)
  | v6 (b : List Nat)
  deriving Repr, DecidableEq

structure St where
  /-- the union `addr` / `un_addr`, include/kserver.h:93-100 -/
  addr : List Nat := List.replicate 110 0
  /-- KGL_SERVER_UNIX -/
  unix : Bool := false
  /-- KGL_SERVER_START -/
  start : Bool := false
  /-- `server->ss`: the descriptors of the listeners -/
  ls : List Nat := []
  /-- `server->refs` -/
  refs : Nat := 1
  fds : Nat → Option Sock := fun _ => none

def upd {α : Type} (f : Nat → α) (i : Nat) (v : α) : Nat → α := fun j => if j = i then v else f j

/-- The bytes with `bs` written over their beginning. -/
def over (d bs : List Nat) : List Nat := bs ++ d.drop bs.length

/-- `sin_family` -/
def family (d : List Nat) : Nat := (d[0]?).getD 0 + 256 * (d[1]?).getD 0

/-- `htons(port)` in memory -/
def port2 (p : Nat) : List Nat := [p / 256 % 256, p % 256]

/-- The address of a numeric host and a port: `ksocket_getaddr` with AI_NUMERICHOST, src/ksocket.c:257-298 (C67). -/
def hostAddr (h : Host) (p : Nat) : List Nat :=
  match h with
  | .v4 b => [2, 0] ++ port2 p ++ b ++ List.replicate 8 0
  | .v6 b => [10, 0] ++ port2 p ++ [0, 0, 0, 0] ++ b ++ [0, 0, 0, 0]

/-- `ksocket_unix_addr`, src/ksocket.c:242-247 -/
def unixAddr (path : List Nat) : List Nat := [1, 0] ++ path.take 108 ++ List.replicate (108 - path.length) 0

/-- The flag as set at src/kserver.c:236-240, 266-270. -/
def setUnix (s : St) : St := { s with unix := family s.addr == 1 }

/-- What the first argument of `kserver_bind` is: a path (it begins with '/'), a numeric host, or neither. -/
inductive Ip where
  | path (p : List Nat)
  | host (h : Host)
  | bad
  deriving Repr, DecidableEq

/-- `kserver_bind`, src/kserver.c:212-242; `need`: the server is a TLS server and no context is given. -/
def bind (s : St) (ip : Ip) (p : Nat) (need : Bool) : St × Bool :=
  if need then (s, false)
  else match ip with
    | .path q => (setUnix { s with addr := over s.addr (unixAddr q) }, true)
    | .host h => (setUnix { s with addr := over s.addr (hostAddr h p) }, true)
    | .bad => (s, false)

/-- `getsockname(n, &addr, &len)` -/
def getsockname (s : St) (n len : Nat) : Option St :=
  match s.fds n with
  | none => none
  | some k => some { s with addr := over s.addr (k.name.take len) }

/-- `add_server_socket`, src/kserver.c:163-170 -/
def add (s : St) (n : Nat) : St := { s with ls := s.ls ++ [n], refs := s.refs + 1 }

/-- `kserver_selectable_destroy`, src/kserver.c:352-374 -/
def destroy (s : St) (n : Nat) : St := { s with ls := s.ls.erase n, refs := s.refs - 1, fds := upd s.fds n none }

/-- `kserver_selectable_start`, src/kserver.c:244-258; `ok`: the selector takes the request to accept. -/
def startAccept (s : St) (n : Nat) (ok : Bool) : St := if ok then s else destroy s n

/-- `kserver_open_exsit`, src/kserver.c:259-287; `sz` = sizeof(sockaddr_i) = 28; `lis`, `acc`: what the selector answers. -/
def openExist (sz : Nat) (s : St) (n : Nat) (lis acc : Bool) : St × Bool :=
  match getsockname s n sz with
  | none => (s, false)
  | some s =>
    let s := add (setUnix s) n
    if lis then (startAccept { s with start := true } n acc, true)
    else (s, false)

/-- `ksocket_addr_port`, include/ksocket.h:215-224 -/
def addrPort (d : List Nat) : Nat :=
  if family d = 2 ∨ family d = 10 then 256 * (d[2]?).getD 0 + (d[3]?).getD 0 else 0

/-- `ksocket_addr_len`, include/ksocket.h:201-214 -/
def addrLen (d : List Nat) : Nat := if family d = 2 then 16 else if family d = 10 then 28 else if family d = 1 then 110 else 28

/-- `kserver_listen`, src/kserver.c:171-210; `sock`: the descriptor `ksocket_listen` made and the address the kernel gave it, none if it failed (C54). -/
def listenOn (s : St) (sock : Option (Nat × Sock)) : St × Option Nat :=
  match sock with
  | none => (s, none)
  | some (n, k) =>
    let s := { s with fds := upd s.fds n (some k) }
    let s := if addrPort s.addr = 0 then (getsockname s n (addrLen s.addr)).getD s else s
    (add s n, some n)

/-- `kfiber_net_listen`, src/kfiber.c:404-412: the listener and the result. -/
def netListen (s : St) (sock : Option (Nat × Sock)) : St × Option Nat × Int :=
  match listenOn s sock with
  | (s, some n) => ({ s with start := true }, some n, 0)
  | (s, none) => (s, none, 0)

/-- One selector of `kserver_open`, src/kserver.c:306-313. -/
def openOne (s : St) (sock : Option (Nat × Sock)) (acc : Bool) : St × Bool :=
  match listenOn s sock with
  | (s, some n) => (startAccept { s with start := true } n acc, true)
  | (s, none) => (s, false)

/-- A call, or something of the rest of the process. -/
inductive Op where
  | bind (ip : Ip) (p : Nat) (need : Bool)
  | adopt (n : Nat) (lis acc : Bool)
  | netListen (sock : Option (Nat × Sock))
  | openOne (sock : Option (Nat × Sock)) (acc : Bool)
  /-- the listener ends (its accept failed, or the fiber ends it) -/
  | destroy (n : Nat)
  /-- `kserver_close`, src/kserver.c:393-416 (the listeners are only shut down) -/
  | close
  /-- the process opens a socket -/
  | sock (n : Nat) (k : Sock)
  deriving Repr, DecidableEq

/-- The rules of the environment: new descriptors are free ones, the kernel's addresses have a family and fit in a `sockaddr_un`, a new listening socket has the family of the
server's address, a listener is not adopted again, only listeners are ended. -/
def Allowed (s : St) : Op → Prop
  | .bind (.host (.v4 b)) _ _ => b.length = 4
  | .bind (.host (.v6 b)) _ _ => b.length = 16
  | .adopt n _ _ => n ∉ s.ls
  | .netListen (some (n, k)) | .openOne (some (n, k)) _ => s.fds n = none ∧ 2 ≤ k.name.length ∧ k.name.length ≤ 110 ∧ family k.name = family s.addr
  | .sock n k => s.fds n = none ∧ 2 ≤ k.name.length ∧ k.name.length ≤ 110
  | .destroy n => n ∈ s.ls
  | _ => True

/-- The state after a call; `sz` = sizeof(sockaddr_i). -/
def step (sz : Nat) (s : St) : Op → St
  | .bind ip p need => (bind s ip p need).1
  | .adopt n lis acc => (openExist sz s n lis acc).1
  | .netListen k => (netListen s k).1
  | .openOne k acc => (openOne s k acc).1
  | .destroy n => destroy s n
  | .close => { s with start := false }
  | .sock n k => { s with fds := upd s.fds n (some k) }

/-- The states that histories lead to. -/
inductive Reach (sz : Nat) : St → Prop
  | init : Reach sz {}
  | step {s : St} (o : Op) : Reach sz s → Allowed s o → Reach sz (step sz s o)

end Kasync.Adopt
