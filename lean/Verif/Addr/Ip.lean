import Verif.RB.Spec

/-!
# Model of the address helpers, include/ksocket.h:69-200 and src/ksocket.c:112-123 (KSOCKET_IPV6 build)

A 32-bit word of memory is a `BitVec 32`; its bytes in memory are those of a little-endian machine.  `(int)` of an
unsigned word is its two's complement value (implementation-defined; what every supported compiler does); signed
subtraction that overflows is undefined behaviour (`none`).
Not modelled: unix socket addresses inside these functions (findings in DESIGN), the big-endian layout.
-/

namespace Kasync.Ip

/-- PF_INET on Linux -/
def PF_INET : Nat := 2
/-- PF_INET6 on Linux -/
def PF_INET6 : Nat := 10

/-- `ip_addr`, include/ksocket.h:69-77: four words of which an IPv4 address uses the first. -/
structure IpAddr where
  family : Nat
  w0 : BitVec 32
  w1 : BitVec 32
  w2 : BitVec 32
  w3 : BitVec 32
  deriving DecidableEq, Repr

/-- `sockaddr_i`, include/ksocket.h:136-144: family, port as stored (network order), `v4.sin_addr.s_addr`, and the
four words of `v6.sin6_addr`.  (In C the members overlap; the code reads `v4` only if the family is PF_INET and `v6`
only otherwise, so they may be kept apart.) -/
structure SockAddr where
  family : Nat
  port : Nat
  v4 : BitVec 32
  v6 : IpAddr
  deriving DecidableEq, Repr

/-- The four bytes of a word, lowest address first. -/
def wordBytes (w : BitVec 32) : List Nat :=
  [w.toNat % 256, w.toNat / 256 % 256, w.toNat / 65536 % 256, w.toNat / 16777216 % 256]

/-- `addr8`, include/ksocket.h:73 -/
def addr8 (a : IpAddr) : List Nat := wordBytes a.w0 ++ (wordBytes a.w1 ++ (wordBytes a.w2 ++ wordBytes a.w3))

/-- `memcmp` (libc): sign of the first difference. -/
def memcmp : List Nat → List Nat → Int
  | a :: s, b :: t => if a = b then memcmp s t else (a : Int) - (b : Int)
  | _, _ => 0

/-- The range of `int`. -/
def InInt (x : Int) : Prop := -2147483648 ≤ x ∧ x ≤ 2147483647

instance (x : Int) : Decidable (InInt x) := inferInstanceAs (Decidable (_ ∧ _))

/-- `(int)x - (int)y`, undefined on overflow -/
def subInt (x y : BitVec 32) : Option Int :=
  if InInt (x.toInt - y.toInt) then some (x.toInt - y.toInt) else none

/-- `ksocket_ipaddr_compare`, include/ksocket.h:187-201 -/
def ipaddrCompare (a b : IpAddr) : Option Int :=
  let ret : Int := (a.family : Int) - (b.family : Int)
  if ret ≠ 0 then some ret
  else if a.family = PF_INET then subInt a.w0 b.w0
  else some (memcmp (addr8 a) (addr8 b))

/-- `ksocket_addr_compare`, include/ksocket.h:145-158 -/
def addrCompare (a b : SockAddr) : Option Int :=
  let ret : Int := (a.family : Int) - (b.family : Int)
  if ret ≠ 0 then some ret
  else if a.family = PF_INET then subInt a.v4 b.v4
  else some (memcmp (addr8 a.v6) (addr8 b.v6))

/-- `ksocket_ipaddr_and`, include/ksocket.h:159-170; `ret` holds what the result variable contained before. -/
def ipaddrAnd (a mask ret : IpAddr) : IpAddr :=
  let ret := { ret with family := a.family }
  if ret.family = PF_INET then { ret with w0 := a.w0 &&& mask.w0 }
  else { ret with w0 := a.w0 &&& mask.w0, w1 := a.w1 &&& mask.w1, w2 := a.w2 &&& mask.w2, w3 := a.w3 &&& mask.w3 }

/-- `ksocket_addr_hash`, include/ksocket.h:171-186 -/
def addrHash (a : SockAddr) : BitVec 32 :=
  if a.family = PF_INET then a.v4
  else (((0#32 ^^^ a.v6.w0) ^^^ a.v6.w1) ^^^ a.v6.w2) ^^^ a.v6.w3

/-- `ksocket_ipaddr`, src/ksocket.c:112-123; `to` holds what the result variable contained before. -/
def ipaddrOf (a : SockAddr) (to : IpAddr) : IpAddr :=
  let to := { to with family := a.family }
  if a.family = PF_INET then { to with w0 := a.v4 }
  else { to with w0 := a.v6.w0, w1 := a.v6.w1, w2 := a.v6.w2, w3 := a.v6.w3 }

/-- C++ `ip_addr::operator<`, include/ksocket.h:84-94 -/
def cppLt (x a : IpAddr) : Bool :=
  if x.family < a.family then true
  else if x.family > a.family then false
  else if x.family = PF_INET then decide (x.w0.toNat < a.w0.toNat)
  else decide (memcmp (addr8 x) (addr8 a) < 0)

/-- C++ `ip_addr::operator==`, include/ksocket.h:107-115 -/
def cppEq (x a : IpAddr) : Bool :=
  if x.family ≠ a.family then false
  else if x.family = PF_INET then decide (x.w0 = a.w0)
  else decide (memcmp (addr8 x) (addr8 a) = 0)

/-- C++ `ip_addr::get_hash`, include/ksocket.h:116-123: all four words, whatever the family -/
def cppHash (x : IpAddr) : BitVec 32 := (((0#32 ^^^ x.w0) ^^^ x.w1) ^^^ x.w2) ^^^ x.w3

/-- `htons` / `ntohs`: swap the two bytes of a 16-bit number. -/
def swap16 (p : Nat) : Nat := p % 256 * 256 + p / 256 % 256

/-- `ksocket_addr_port`, include/ksocket.h:216-225 -/
def addrPort (a : SockAddr) : Nat :=
  if a.family = PF_INET then swap16 a.port else if a.family = PF_INET6 then swap16 a.port else 0

end Kasync.Ip
