import Verif.Common

/-!
# Model of datagram sockets (src/kudp.c, src/kselectable.c:163-204, 459-475, the read path of src/kepoll_selector.c and src/kiouring_selector.c)

One UDP connection, the selector it is bound to (epoll, edge-triggered, or io_uring, which polls such sockets because `kudp_new2` sets
STF_USEPOLL) and the part of the kernel it talks to.  Everything runs on the selector's thread, so an operation is atomic; datagrams arrive
between operations.  Addresses, control data and the arguments of `kudp_get_recvaddr` are bytes as they are in memory on x86-64 Linux.

The socket is non-blocking (no KSOCKET_BLOCK).  Not modelled: read timeouts, MSG_TRUNC (the library does not look at `msg_flags`),
multicast groups, Windows and kqueue.
-/

namespace Kasync.Udp

abbrev Bytes := List UInt8

/-- An unsigned number as `n` little-endian bytes. -/
def leBytes : Nat → Nat → Bytes
  | 0, _ => []
  | n + 1, v => UInt8.ofNat (v % 256) :: leBytes n (v / 256)

/-- The number `n` little-endian bytes at offset `i` of a memory block stand for. -/
def leAt (m : Bytes) (i : Nat) : Nat → Nat
  | 0 => 0
  | n + 1 => (m.getD i 0).toNat + 256 * leAt m (i + 1) n

/-- `memcpy(dst + i, src, |src|)`: writes beyond the block are not modelled (`src` is cut). -/
def blit (m : Bytes) (i : Nat) (src : Bytes) : Bytes :=
  m.take i ++ src.take (m.length - i) ++ m.drop (i + src.length)

/-- sizeof(struct sockaddr_in) -/
def sizeV4 : Nat := 16
/-- sizeof(struct sockaddr_in6), also sizeof(sockaddr_i), include/ksocket.h:136-144 -/
def sizeV6 : Nat := 28
/-- sizeof(kudp_extend) = CMSG_SPACE(sizeof(struct in6_pktinfo)) = 16 + 24, include/kudp.h:13-22 -/
def sizeExt : Nat := 40
/-- sizeof(pktinfo) = CMSG_SPACE(sizeof(struct in_pktinfo)) = 16 + 16, include/kudp.h:16 -/
def sizePkt : Nat := 32

/-- `ksocket_addr_len`, include/ksocket.h:201-214 (AF_INET = 2, AF_UNIX = 1, AF_INET6 = 10; sizeof(struct sockaddr_un) = 110) -/
def addrLen (a : Bytes) : Nat :=
  match leAt a 0 2 with
  | 2 => sizeV4
  | 10 => sizeV6
  | 1 => 110
  | _ => sizeV6

/-- The family of a socket. -/
inductive Fam where
  | v4 | v6
  deriving Repr, DecidableEq

/-- A datagram in the kernel's queue: its payload, the socket address it came from (`port` in network order; what follows it in the
structure for the family), the interface, the local address it was routed to and the address it was sent to. -/
structure Dgram where
  data : Bytes
  /-- everything of the sender's socket address after the family -/
  peer : Bytes
  /-- `ipi_ifindex` and `ipi_spec_dst` -/
  route : Bytes
  /-- `ipi_addr`: the destination in the header -/
  dst : Bytes
  deriving Repr, DecidableEq

/-- The sender as the kernel writes it: family, then the rest. -/
def Dgram.from (f : Fam) (d : Dgram) : Bytes :=
  match f with
  | .v4 => leBytes 2 2 ++ d.peer
  | .v6 => leBytes 2 10 ++ d.peer

/-- Kernel: the control message for a datagram that arrived over IPv4 at a socket with IP_PKTINFO: `struct cmsghdr` {len, level = IPPROTO_IP,
type = IP_PKTINFO} and `struct in_pktinfo`.  For a datagram that arrived over IPv6, IP_PKTINFO produces nothing. -/
def cmsg (f : Fam) (pktOn : Bool) (d : Dgram) : Bytes :=
  match f, pktOn with
  | .v4, true => leBytes 8 28 ++ leBytes 4 0 ++ leBytes 4 8 ++ d.route ++ d.dst
  | _, _ => []

/-- The selector the connection is bound to. -/
inductive Poller where
  | epoll | uring
  deriving Repr, DecidableEq

/-- What the callback of a read is told and finds: a datagram of `n` bytes, with the bytes in its buffer; -1 (ST_ERR_RESULT);
ST_ERR_NOMEM; -1 without a system call (no event could be registered). -/
inductive Out where
  | got (n : Nat) (bytes : Bytes)
  | err | nomem | noPoll
  deriving Repr, DecidableEq

/-- A finished read: its number, the size of its buffers together, what it was told, and the sender address in the connection at that time. -/
structure Comp where
  id : Nat
  cap : Nat
  out : Out
  addr : Bytes
  deriving Repr, DecidableEq

structure St where
  poller : Poller
  fam : Fam
  /-- did `setsockopt(IP_PKTINFO)` succeed (its result is not looked at) -/
  pktOn : Bool := false
  -- the kernel: datagrams waiting; epoll: is the socket registered, is it on epoll's ready queue; io_uring: a poll request, its completion
  queue : List Dgram := []
  reg : Bool := false
  edge : Bool := false
  polling : Bool := false
  cqe : Bool := false
  -- st_flags: STF_READ, STF_RREADY, STF_REV (with STF_ET)
  read : Bool := false
  rready : Bool := false
  rev : Bool := false
  /-- linked in KGL_LIST_READY -/
  ready : Bool := false
  /-- number of the request in `e[OP_READ]` and the size of its buffers together -/
  rid : Nat := 0
  cap : Nat := 0
  /-- `c->addr` -/
  addr : Bytes := []
  /-- `c->udp`: the block, if there is one -/
  ext : Option Bytes := none
  -- ghosts: requests made, answers, datagrams that arrived
  next : Nat := 0
  done : List Comp := []
  arrived : List Dgram := []

/-- `kudp_new2`, src/kudp.c:59-92, once the socket is there (opening it is `Verif.Sock.Model`): `kconnection_internal_new` zeroes the
connection (src/kconnection.c:26-33); the block for packet information is allocated if KSOCKET_IP_PKTINFO is asked for and holds whatever the
allocator left there (`junk`). -/
def new (p : Poller) (f : Fam) (pkt : Bool) (setsockopt : Bool) (junk : Bytes) : St :=
  { poller := p, fam := f, pktOn := pkt && setsockopt, addr := List.replicate sizeV6 0, ext := if pkt then some junk else none }

/-- What the kernel does with a `recvmsg` besides its work: nothing, or it is interrupted, out of memory, or fails in another way. -/
inductive Sys where
  | normal | eintr | enomem | other
  deriving Repr, DecidableEq

/-- What `recvmsg` returned. -/
inductive Got where
  | dgram (d : Dgram)
  | eagain | eintr | enomem | other
  deriving Repr, DecidableEq

/-- `selectable_recvmsg`, src/kselectable.c:163-179, with the kernel's part of `recvmsg`: the address has `msg_namelen` bytes of room, the
control data `msg_controllen`; a datagram is taken from the queue as a whole. -/
def recvmsg (s : St) (a : Sys) : St × Got :=
  let namelen := addrLen s.addr
  -- memset(c->udp, 0, sizeof(kudp_extend)); msg_controllen = sizeof(c->udp->pktinfo)
  let s := { s with ext := s.ext.map fun _ => List.replicate sizeExt 0 }
  match a with
  | .eintr => (s, .eintr)
  | .enomem => (s, .enomem)
  | .other => (s, .other)
  | .normal =>
    match s.queue with
    | [] => (s, .eagain)
    | d :: q =>
      ({ s with
          queue := q
          addr := blit s.addr 0 ((d.from s.fam).take namelen)
          ext := s.ext.map fun m => blit m 0 ((cmsg s.fam s.pktOn d).take sizePkt) }, .dgram d)

/-- The callback of the request is called. -/
def St.finish (s : St) (o : Out) : St :=
  { s with done := s.done ++ [⟨s.rid, s.cap, o, s.addr⟩] }

/-- `epoll_selector_read` from line 304 on (src/kepoll_selector.c:304-314), `iouring_selector_read` from line 226 on
(src/kiouring_selector.c:226-256): not ready, wait for the poller.  `ctl`: does `epoll_ctl` work, is there a submission queue entry.
`epoll_ctl(ADD)` and a poll request look at the socket: if a datagram is there already the event is raised at once. -/
def arm (s : St) (ctl : Bool) : St :=
  match s.poller with
  | .epoll =>
    if s.rev then s
    else
      -- epoll_add_event sets STF_REV|STF_ET before epoll_ctl, src/kepoll_selector.c:102-108
      let s := { s with rev := true }
      if ctl then { s with reg := true, edge := !s.queue.isEmpty }
      else { s with read := false }.finish .noPoll
  | .uring =>
    if ctl then { s with polling := s.queue.isEmpty, cqe := !s.queue.isEmpty }
    else { s with read := false }.finish .noPoll

/-- `selectable_udp_read_event`, src/kselectable.c:181-204, called by `selectable_read_event` (459-468), which clears STF_READ first: on
io_uring STF_ET is not defined, on epoll the socket has it since it was registered.  After EAGAIN or EINTR the request is made again (STF_RREADY is off,
so it waits). -/
def readEvent (s : St) (a : Sys) (ctl : Bool) : St :=
  let s := { s with read := false }
  let (s, g) := recvmsg s a
  match g with
  | .dgram d => s.finish (.got (min d.data.length s.cap) (d.data.take s.cap))
  | .eagain | .eintr => arm { s with rready := false, read := true } ctl
  | .enomem => s.finish .nomem
  | .other => s.finish .err

/-- `selectable_read` (src/kselectable.c:518-546) of a connection without TLS: `epoll_selector_read` (src/kepoll_selector.c:291-314) or
`iouring_selector_read` (src/kiouring_selector.c:211-256).  `main`: called on the main fiber (`kselectable_is_read_ready`,
include/kselectable.h:109-116).  Calling it with a read pending fails an assertion: not a step. -/
def readReq (s : St) (cap : Nat) (main : Bool) (a : Sys) (ctl : Bool) : St :=
  let s := { s with rid := s.next, next := s.next + 1, cap := cap, read := true }
  if s.rready then
    if main then { s with ready := true } else readEvent s a ctl
  else arm s ctl

/-- A datagram arrives: it is queued; a registered socket is put on epoll's ready queue, a poll request is completed. -/
def arrive (s : St) (d : Dgram) : St :=
  { s with
    queue := s.queue ++ [d]
    arrived := s.arrived ++ [d]
    edge := s.edge || s.reg
    cqe := s.cqe || s.polling
    polling := false }

/-- The poller hands over its event: `epoll_selector_select` (src/kepoll_selector.c:366-405), `iouring_handle_event`
(src/kiouring_selector.c:375-396). -/
def poll (s : St) : St :=
  match s.poller with
  | .epoll => if s.edge then { s with edge := false, rready := true, ready := s.ready || s.read } else s
  | .uring => if s.cqe then { s with cqe := false, rready := true, ready := true } else s

/-- The ready loop of `kselector_check_timeout` at this connection, src/kselector.c:238-265. -/
def serve (s : St) (a : Sys) (ctl : Bool) : St :=
  if s.ready then
    let s := { s with ready := false }
    if s.rready && s.read then readEvent s a ctl else s
  else s

inductive Step where
  | arrive (d : Dgram)
  | read (cap : Nat) (main : Bool) (a : Sys) (ctl : Bool)
  | poll
  | serve (a : Sys) (ctl : Bool)
  deriving Repr, DecidableEq

/-- One step; `none`: not possible in this state. -/
def step (s : St) : Step → Option St
  | .arrive d => some (arrive s d)
  | .read cap main a ctl => if s.read then none else some (readReq s cap main a ctl)
  | .poll => some (poll s)
  | .serve a ctl => some (serve s a ctl)

def run (s : St) : List Step → Option St
  | [] => some s
  | t :: ts => (step s t).bind (run · ts)

/-- `kudp_get_recvaddr`, src/kudp.c:28-54 (IP_PKTINFO flavour): `none` is the result -1; otherwise the new content of `*addr`.  `in_pktinfo.ipi_addr`
is at offset 8 of the data, the data at offset 16 of the message; `sin_addr` at offset 4, `sin6_addr` at offset 8. -/
def getRecvAddr (s : St) (addr : Bytes) : Option Bytes :=
  match s.ext with
  | none => none
  | some m =>
    if leAt addr 0 2 = 2 then
      if leAt m 8 4 = 0 ∧ leAt m 12 4 = 8 then some (blit addr 4 ((m.drop 24).take 4)) else none
    else
      if leAt m 8 4 = 41 ∧ leAt m 12 4 = 50 then some (blit addr 8 ((m.drop 16).take 16)) else none

/-- `kudp_send_to`, src/kudp.c:93-99, `kudp_send`, 100-103: one `sendto`.  `ok`: does the kernel take the datagram.  Given: the bytes of the address
structure (of `sockaddr_i`), the package and its length.  Result and what the kernel was given. -/
def sendTo (ok : Bool) (dst package : Bytes) (len : Nat) : Bool × List (Bytes × Bytes) :=
  if ok then (true, [(dst.take (addrLen dst), package.take len)]) else (false, [])

end Kasync.Udp
