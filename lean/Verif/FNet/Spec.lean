import Verif.FNet.Model

/-!
# Calls of fibers: specification (C63)

Everything here speaks about the history (newest event first), the objects that exist and the descriptors that are open; nothing refers to the functions of the model.
-/

namespace Kasync.FNet

/-! ## One answer per call -/

/-- the call a fiber is in, according to the history -/
def pendingCall (f : Nat) : List Ev → Option Call
  | [] => none
  | .call g k :: l => if g = f then some k else pendingCall f l
  | .ret g _ _ :: l => if g = f then none else pendingCall f l
  | _ :: l => pendingCall f l

/-- every return answers the one call its fiber is in, and no call is begun inside another one -/
def Answered : List Ev → Prop
  | [] => True
  | .call f _ :: l => pendingCall f l = none ∧ Answered l
  | .ret f k _ :: l => pendingCall f l = some k ∧ Answered l
  | _ :: l => Answered l

/-- the call a fiber waits in -/
def Pend.call : Pend → Option Call
  | .idle => none
  | .getaddr => some .getaddr
  | .connect c => some (.connect c)
  | .accept _ => some .accept
  | .handshake c => some (.handshake c)
  | .shutdown c .ret => some (.sslShutdown c)
  | .shutdown c .shut => some (.netShutdown c)
  | .shutdown c .close => some (.close c)

/-! ## What happened during a call -/

/-- the connection of a call -/
def Call.conn : Call → Option Nat
  | .connect c | .handshake c | .sslShutdown c | .netShutdown c | .close c => some c
  | _ => none

/-- events that concern a fiber or the TLS session, socket and object of a connection -/
def relevant (f : Nat) (c : Option Nat) : Ev → Bool
  | .event g _ | .resolved g _ | .setAddr g _ | .setConn g _ => g == f
  | .sslHs d _ | .sslSd d _ | .sockShut d | .destroyed d => c == some d
  | _ => false

/-- the history of the call a fiber is in: the events since the call that concern it -/
def view (f : Nat) (c : Option Nat) : List Ev → List Ev
  | [] => []
  | .call g _ :: l => if g = f then [] else view f c l
  | e :: l => if relevant f c e then e :: view f c l else view f c l

/-- OpenSSL has been called at least once, each time it asked to be called again, and between two calls there was one event -/
inductive Again (f : Nat) (call : Out → Ev) : List Ev → Prop where
  | first : Again f call [call .again]
  | more {l} : Again f call l → Again f call (call .again :: .event f 0 :: l)

/-- the whole history of a handshake with its result: the last answer of OpenSSL, or -1 if the connection failed while waiting -/
inductive HsDone (f c : Nat) : List Ev → Int → Prop where
  | first : HsDone f c [.sslHs c .done] 0
  | firstFail : HsDone f c [.sslHs c .fail] (-1)
  | done {l} : Again f (.sslHs c) l → HsDone f c (.sslHs c .done :: .event f 0 :: l) 0
  | fail {l} : Again f (.sslHs c) l → HsDone f c (.sslHs c .fail :: .event f 0 :: l) (-1)
  | broken {l} : Again f (.sslHs c) l → HsDone f c (.event f (-1) :: l) (-1)

/-- the whole history of a TLS shutdown: nothing at all, or until OpenSSL is done or fails, or the connection failed while waiting -/
inductive SdDone (f c : Nat) : List Ev → Prop where
  | skip : SdDone f c []
  | first {o} : o ≠ .again → SdDone f c [.sslSd c o]
  | done {l o} : o ≠ .again → Again f (.sslSd c) l → SdDone f c (.sslSd c o :: .event f 0 :: l)
  | broken {l} : Again f (.sslSd c) l → SdDone f c (.event f (-1) :: l)

/-- a result is right for what happened during the call -/
inductive Just (f : Nat) : Call → List Ev → Int → Prop where
  /-- an address was found, and it is the one in the variable of the caller -/
  | addr {a} : Just f .getaddr [.setAddr f a, .resolved f (some a)] 0
  /-- there is no address, and the variable of the caller is not touched -/
  | noAddr : Just f .getaddr [.resolved f none] (-1)
  | connected {c} : Just f (.connect c) [.event f 0] 0
  | refused {c} : Just f (.connect c) [.event f (-1)] (-1)
  /-- no socket, or the selector did not take the request -/
  | noSocket {c} : Just f (.connect c) [] (-1)
  | accepted {c} : Just f .accept [.setConn f (some c), .event f 0] 0
  /-- (finding) the connection could not get a TLS session: 0, but no connection -/
  | acceptedNoTls : Just f .accept [.setConn f none, .event f 0] 0
  /-- (finding) nothing was accepted: 0, but no connection -/
  | acceptFailed : Just f .accept [.setConn f none, .event f (-1)] 0
  | acceptRefused : Just f .accept [] (-1)
  | handshake {c l r} : HsDone f c l r → Just f (.handshake c) l r
  | sslShutdown {c l} : SdDone f c l → Just f (.sslShutdown c) l 0
  /-- first the TLS shutdown, then the one of the socket -/
  | netShutdown {c l} : SdDone f c l → Just f (.netShutdown c) (.sockShut c :: l) 0
  /-- first the TLS shutdown, then the object is destroyed -/
  | close {c l} : SdDone f c l → Just f (.close c) (.destroyed c :: l) 0

/-- every result in the history is right -/
def Truthful : List Ev → Prop
  | [] => True
  | .ret f k r :: l => Just f k (view f k.conn l) r ∧ Truthful l
  | _ :: l => Truthful l

/-! ## When the TLS shutdown is done -/

def isHs (c : Nat) : Ev → Bool
  | .call _ (.handshake d) => d == c
  | _ => false

def isSdRet (c : Nat) : Ev → Bool
  | .ret _ (.sslShutdown d) _ | .ret _ (.netShutdown d) _ | .ret _ (.close d) _ => d == c
  | _ => false

/-- a handshake was begun on the connection, and no shutdown or close that returned came after it -/
def MayShutdown (c : Nat) (l : List Ev) : Prop :=
  (∃ e ∈ l, isHs c e = true) ∧ ∀ l2 e l1, l = l2 ++ e :: l1 → isSdRet c e = true → ∀ e' ∈ l1, isHs c e' = false

/-- `SSL_shutdown` is called only when it may be -/
def ShutdownRight : List Ev → Prop
  | [] => True
  | .sslSd c _ :: l => MayShutdown c l ∧ ShutdownRight l
  | _ :: l => ShutdownRight l

/-! ## Who owns what -/

/-- a descriptor belongs to exactly one object, or to none -/
structure Owned (s : St) : Prop where
  conn : ∀ c k fd, s.conns c = some k → k.fd = some fd → s.open? fd = true
  file : ∀ i fd, s.files i = some fd → s.open? fd = true
  owner : ∀ fd, s.open? fd = true → (∃ c k, s.conns c = some k ∧ k.fd = some fd) ∨ ∃ i, s.files i = some fd
  conn1 : ∀ c c' k k' fd, s.conns c = some k → s.conns c' = some k' → k.fd = some fd → k'.fd = some fd → c = c'
  file1 : ∀ i j fd, s.files i = some fd → s.files j = some fd → i = j
  both : ∀ c k i fd, s.conns c = some k → k.fd = some fd → s.files i ≠ some fd

/-- descriptors are opened once and closed once, connections and addresses are freed once -/
structure Once (s : St) : Prop where
  opened : ∀ fd, s.log.count (.opened fd) ≤ 1
  closed : ∀ fd, s.log.count (.closed fd) + (if s.open? fd = true then 1 else 0) = s.log.count (.opened fd)
  destroyed : ∀ c, s.log.count (.destroyed c) = if c < s.nextConn ∧ s.conns c = none then 1 else 0
  addrFreed : ∀ a, s.log.count (.addrFreed a) = if a < s.nextAddr ∧ s.refs a = 0 then 1 else 0

/-- the reference count of an address: one for each reference the cache, the answers on their way and the program have -/
def Counted (s : St) : Prop :=
  ∀ a, s.refs a = s.cache.count a + (s.queue.filterMap Prod.snd).count a + s.held.count a

end Kasync.FNet
