import Verif.Common

/-!
# Addresses out of look-ups, src/ksocket.c:82-123, 242-247, 268-305, src/kaddr.c:103-119, include/kaddr.h:15-18, src/kconnection.c:40-45,
include/ksocket.h:225-274 (KSOCKET_IPV6 build)

Addresses as the bytes in memory of a little-endian machine: 0-1 the family, 2-3 the port in network order, IPv4: 4-7 the host and 8-15 nothing, IPv6: 4-7 the
flow, 8-23 the host, 24-27 the scope.  `getaddrinfo` and `getnameinfo` are an environment.
-/

namespace Kasync.Lookup

abbrev Byte := Nat

def PF_UNSPEC : Nat := 0
def PF_INET : Nat := 2
def PF_INET6 : Nat := 10
/-- netdb.h -/
def AI_CANONNAME : Nat := 2
def AI_NUMERICHOST : Nat := 4

/-- A 16-bit number in memory, and one in network order (`htons`). -/
def le16 (n : Nat) : List Byte := [n % 256, n / 256 % 256]
def be16 (n : Nat) : List Byte := [n / 256 % 256, n % 256]

/-- A store of `bytes` at `at_` in an object. -/
def put (l : List Byte) (at_ : Nat) (bytes : List Byte) : List Byte := l.take at_ ++ bytes ++ l.drop (at_ + bytes.length)

/-- `struct addrinfo`: `ai_family` and what `ai_addr` points to (`ai_addrlen` bytes). -/
structure Info where
  fam : Nat
  addr : List Byte
  deriving Repr, DecidableEq

/-- `addr->v4.sin_family = ai->ai_family`, src/ksocket.c:271 -/
def setFamily (ai : Info) (to : List Byte) : List Byte := put to 0 (le16 ai.fam)

/-- The port is stored in the look-up result itself, src/ksocket.c:272-277 (`sin_port` and `sin6_port` are both at 2). -/
def setPort (ai : Info) (port : Nat) : Info := { ai with addr := put ai.addr 2 (be16 port) }

/-- 278-279: the result is copied, at most `sz` = `sizeof(sockaddr_i)` bytes. -/
def copyOut (sz : Nat) (ai : Info) (to : List Byte) : List Byte :=
  let n := min ai.addr.length sz
  put to 0 (ai.addr.take n)

/-- `ksocket_addrinfo_sockaddr`, src/ksocket.c:270-280 (`kgl_addr_build`, include/kaddr.h:15-18; `kconnection_new2`, src/kconnection.c:40-45), by one thread
alone: the look-up result afterwards and the address. -/
def build (sz : Nat) (ai : Info) (port : Nat) (to : List Byte) : Info × List Byte :=
  let to := setFamily ai to
  let ai := setPort ai port
  (ai, copyOut sz ai to)

/-! ## Several threads building addresses from one look-up result (a `kgl_addr` out of the cache is shared) -/

inductive Pc where
  | begun | stored | finished
  deriving Repr, DecidableEq

/-- A call of `ksocket_addrinfo_sockaddr` under way. -/
structure Call where
  port : Nat
  to : List Byte
  pc : Pc := .begun
  deriving Repr, DecidableEq

structure St where
  ai : Info
  calls : List Call := []
  deriving Repr, DecidableEq

inductive Op where
  /-- a thread enters (271) with its port and its own object -/
  | enter (port : Nat) (to : List Byte)
  /-- 272-277 -/
  | store (i : Nat)
  /-- 278-279 -/
  | copy (i : Nat)
  deriving Repr

def step (sz : Nat) (s : St) : Op → Res St
  | .enter p to => .ok { s with calls := s.calls ++ [{ port := p, to := setFamily s.ai to }] }
  | .store i =>
    match s.calls[i]? with
    | none => .disabled
    | some c => if c.pc = .begun then .ok { ai := setPort s.ai c.port, calls := s.calls.set i { c with pc := .stored } } else .disabled
  | .copy i =>
    match s.calls[i]? with
    | none => .disabled
    | some c =>
      if c.pc = .stored then .ok { s with calls := s.calls.set i { c with to := copyOut sz s.ai c.to, pc := .finished } } else .disabled

/-! ## Look-ups -/

/-- What `getaddrinfo` is asked. -/
structure Hints where
  fam : Nat
  flags : Nat
  deriving Repr, DecidableEq

/-- `getaddrinfo`: `none` for an error, otherwise the list of results. -/
abbrev Resolver := String → Hints → Option (List Info)

/-- `ksocket_getaddr`, src/ksocket.c:281-299: the answer, the address, and whether results were released (`freeaddrinfo`). -/
def getaddr (v6 : Bool) (r : Resolver) (sz : Nat) (host : String) (port fam flags : Nat) (to : List Byte) : Bool × List Byte × Bool :=
  let fam := if v6 then fam else PF_INET
  match r host ⟨fam, flags⟩ with
  | none => (false, to, false)
  | some [] => (false, to, false)
  | some (ai :: _) => (true, (build sz ai port to).2, true)

/-- `ip_addr`, include/ksocket.h:69-77 -/
structure IpAddr where
  fam : Nat
  data : List Byte
  deriving Repr, DecidableEq

def familyOf (a : List Byte) : Nat := a.getD 0 0 + 256 * a.getD 1 0

/-- `ksocket_ipaddr`, src/ksocket.c:112-123 -/
def ipaddr (a : List Byte) (to : IpAddr) : IpAddr :=
  let to := { to with fam := familyOf a }
  if familyOf a = PF_INET then { to with data := put to.data 0 ((a.drop 4).take 4) }
  else { to with data := (a.drop 8).take 16 }

/-- `ksocket_get_ipaddr`, src/ksocket.c:104-111; `junk` is what the local variable holds before. -/
def getIpaddr (r : Resolver) (sz : Nat) (host : String) (junk : List Byte) (to : IpAddr) : Bool × IpAddr :=
  let x := getaddr true r sz host 0 PF_UNSPEC AI_NUMERICHOST junk
  if x.1 then (true, ipaddr x.2.1 to) else (false, to)

/-- `getnameinfo` with NI_NUMERICHOST into `room` bytes: the text of an address, if there is one and it fits with its NUL. -/
abbrev Namer := Nat → List Byte → Option String

def nameinfo (n : Namer) (a : List Byte) (room : Nat) : Option String :=
  match n (familyOf a) (if familyOf a = PF_INET then (a.drop 4).take 4 else (a.drop 8).take 16) with
  | none => none
  | some s => if s.length < room then some s else none

/-- `ksocket_sockaddr_ip`, src/ksocket.c:300-306: the text written; failing, an empty one, in a buffer of `room` bytes. -/
def sockaddrIp (n : Namer) (a : List Byte) (room : Nat) : Res (Bool × String) :=
  match nameinfo n a room with
  | none => if room = 0 then .ub else .ok (false, "")
  | some s => .ok (true, s)

/-- `ksocket_ipaddr_ip`, src/ksocket.c:87-103 -/
def ipaddrIp (n : Namer) (sz : Nat) (ia : IpAddr) (room : Nat) : Res (Bool × String) :=
  let a := List.replicate sz 0
  let a := put a 0 (le16 ia.fam)
  let a := if ia.fam = PF_INET6 then put a 8 (ia.data.take 16) else put a 4 (ia.data.take 4)
  sockaddrIp n a room

inductive AddrType where
  | ip | cname
  deriving Repr, DecidableEq

/-- The hints of `get_addr`, src/kaddr.c:103-119: the branch of `kgl_addr_cname` runs on into the default one. -/
def addrHints (v6 : Bool) (t : AddrType) : Hints :=
  let f : Hints := match t with
    | .cname => ⟨PF_INET, AI_CANONNAME⟩
    | .ip => ⟨0, 0⟩
  let f : Hints := { f with fam := PF_UNSPEC, flags := 0 }
  if v6 then f else { f with fam := PF_INET }

/-! ## Unix paths and switches of a socket -/

/-- `ksocket_unix_addr`, src/ksocket.c:242-247: `sun_path` of `n` bytes; `strncpy` fills it with the path and zeros. -/
def unixAddr (n : Nat) (path : List Byte) : Int × List Byte := (0, path.take n ++ List.replicate (n - path.length) 0)

/-- What a reader of a C string of at most `n` bytes sees; `none` if no NUL is there. -/
def cstr : List Byte → Option (List Byte)
  | [] => none
  | 0 :: _ => some []
  | b :: l => (cstr l).map (b :: ·)

/-- Options of a socket. -/
structure Opts where
  nonblock : Bool := false
  nodelay : Bool := false
  cork : Bool := false
  deriving Repr, DecidableEq

/-- `ksocket_no_delay`, include/ksocket.h:225-237 -/
def noDelay (linux : Bool) (o : Opts) (forever : Bool) : Opts :=
  if forever then { o with nodelay := true }
  else if linux then { o with cork := false }
  else { o with nodelay := true }

/-- `ksocket_delay`, include/ksocket.h:238-247 -/
def delay (linux : Bool) (o : Opts) : Opts := if linux then { o with cork := true } else { o with nodelay := false }

/-- `ksocket_no_block`, `ksocket_block`, include/ksocket.h:248-263 -/
def noBlock (o : Opts) : Opts := { o with nonblock := true }
def block (o : Opts) : Opts := { o with nonblock := false }

/-- `ksocket_is_block`, include/ksocket.h:264-272: `(flags & O_NONBLOCK) > 0` -/
def isBlock (o : Opts) : Bool := o.nonblock

end Kasync.Lookup
