import Verif.FNet.Step

/-!
# C63: the calls of fibers on addresses, connections and files

For every sequence of calls, events and answers that follows the rules of `step` (a fiber makes one call at a time, a connection is used by one fiber at a time and not after it was closed).
-/

namespace Kasync.FNet

variable {s t : St}

/-! ## The calls -/

/-- **C63 (memory).** No operation touches a freed address or connection, closes a closed descriptor or uses a missing TLS session. -/
theorem fnet_no_ub (h : Reachable step init s) (o : Op) : step s o ≠ .ub := by
  rcases step_ok (inv_reachable h) o with e | ⟨t, e, _⟩ <;> rw [e] <;> simp

/-- **C63 (one answer per call).** Every return answers the call its fiber is in; a fiber is in a call according to the history exactly if it waits. -/
theorem fnet_answered (h : Reachable step init s) : Answered s.log ∧ ∀ f, pendingCall f s.log = (s.fib f).call :=
  ⟨(inv_reachable h).log.answered, fun f => (inv_reachable h).log.pend f (by simp)⟩

/-- **C63 (results).** Every result is the right one for what happened during the call. -/
theorem fnet_truthful (h : Reachable step init s) : Truthful s.log := (inv_reachable h).log.truthful

/-- **C63 (what a waiting fiber has seen).** A fiber that waits in a handshake or in a TLS shutdown has called OpenSSL, which asked to be called again, once more than it got events; a fiber that waits
for a connection or for an accepted socket has seen nothing yet. -/
theorem fnet_waiting (h : Reachable step init s) (f : Nat) :
    (∀ c, s.fib f = .handshake c → Again f (.sslHs c) (view f (some c) s.log)) ∧
    (∀ c m, s.fib f = .shutdown c m → Again f (.sslSd c) (view f (some c) s.log)) ∧
    (∀ c, s.fib f = .connect c → view f (some c) s.log = []) ∧
    (∀ b, s.fib f = .accept b → view f none s.log = []) ∧
    (s.fib f = .getaddr → f ∉ s.queue.map Prod.fst → view f none s.log = []) := by
  have := (inv_reachable h).log.waits f (by simp)
  exact ⟨this.hs, this.sd, this.con, this.acc, fun e => (this.get e).1⟩

/-! ## TLS shutdown -/

/-- **C63 (`SSL_shutdown` only when it may be).** It is called only after a handshake was begun on this connection and before a shutdown of it has ended. -/
theorem fnet_shutdown_right (h : Reachable step init s) : ShutdownRight s.log := (inv_reachable h).log.right

/-- the call of each kind -/
def sdOp (f c : Nat) (o : Out) : Then → Op
  | .ret => .sslShutdown f c o
  | .shut => .netShutdown f c o
  | .close => .close f c o

theorem sdOp_step {f c : Nat} {o : Out} {m : Then} {k : Conn} (hk : s.conns c = some k) (hs : step s (sdOp f c o m) = .ok t) :
    sslShutdown (s.ev (.call f (m.call c))) f c k m o = .ok t := by
  cases m <;> simp only [sdOp, step, hk] at hs <;> split at hs <;> first | exact hs | cases hs

theorem realDestroy_mem {e : Ev} {c : Nat} (he : e ∈ s.log) (h : realDestroy s c = .ok t) : e ∈ t.log := by
  unfold realDestroy fdClose at h
  grind [St.setConn, St.ev]

theorem afterShutdown_mem {e : Ev} {f c : Nat} {m : Then} (he : e ∈ s.log) (h : afterShutdown s f c m = .ok t) : e ∈ t.log := by
  cases m with
  | ret => simp only [afterShutdown, Res.ok.injEq] at h; subst h; simp [St.ret, St.ev, St.wait, he]
  | shut => simp only [afterShutdown, Res.ok.injEq] at h; subst h; simp [St.ret, St.ev, St.wait, he]
  | close =>
    simp only [afterShutdown] at h
    split at h
    · next s1 h1 =>
      simp only [Res.ok.injEq] at h; subst h
      simp only [St.ret, St.ev, St.wait, List.mem_cons]
      exact .inr (realDestroy_mem he h1)
    · next r hne => exact (hne _ h).elim

theorem setShutdown_log (s : St) (c : Nat) : (setShutdown s c).log = s.log := by
  unfold setShutdown; split
  · split <;> rfl
  · rfl

/-- **C63 (the TLS shutdown is not forgotten).** A shutdown or a close of a live connection on which a handshake was begun and no shutdown has ended calls `SSL_shutdown`; in particular the peer gets its close_notify
before the socket is shut down or closed. -/
theorem fnet_shutdown_done (h : Reachable step init s) {f c : Nat} {o : Out} {m : Then} {k : Conn} (hk : s.conns c = some k) (he : k.err = false) (hssl : k.ssl ≠ none) (hm : MayShutdown c s.log)
    (hs : step s (sdOp f c o m) = .ok t) : Ev.sslSd c o ∈ t.log := by
  have hl := (inv_reachable h).log
  rw [mayShutdown_iff] at hm
  obtain ⟨l, hkl⟩ : ∃ l, k.ssl = some l := by
    cases e : k.ssl with
    | none => exact absurd e hssl
    | some l => exact ⟨l, rfl⟩
  have e1 := hl.flagH c k l hk hkl
  have e2 := hl.flagS c k l hk hkl
  have e3 := hl.flagB c k l hk hkl (by rw [e1]; exact hm.1)
  have := sdOp_step hk hs
  simp only [sslShutdown, hkl, e1, e2, hm.1, hm.2, e3, he, Bool.not_false, Bool.and_true, if_true, shutdownCall] at this
  cases o with
  | again => simp only [Res.ok.injEq] at this; subst this; simp [St.wait, St.ev]
  | done => exact afterShutdown_mem (by rw [setShutdown_log]; simp [St.ev]) this
  | fail => exact afterShutdown_mem (by rw [setShutdown_log]; simp [St.ev]) this

/-- **C63 (a failed connection).** On a connection that failed, or that never began a handshake, or whose shutdown has ended, shutting down and closing do not wait: the call returns 0 at once. -/
theorem fnet_shutdown_at_once (h : Reachable step init s) {f c : Nat} {o : Out} {m : Then} {k : Conn} (hk : s.conns c = some k) (he : k.err = true ∨ k.ssl = none ∨ ¬ MayShutdown c s.log)
    (hs : step s (sdOp f c o m) = .ok t) : t.log.head? = some (.ret f (m.call c) 0) ∧ t.fib f = .idle := by
  have hl := (inv_reachable h).log
  have key : ∀ {u t : St}, afterShutdown u f c m = .ok t → t.log.head? = some (.ret f (m.call c) 0) ∧ t.fib f = .idle := by
    intro u t ht
    cases m with
    | ret => simp only [afterShutdown, Res.ok.injEq] at ht; subst ht; simp [St.ret, St.ev, St.wait, upd, Then.call]
    | shut => simp only [afterShutdown, Res.ok.injEq] at ht; subst ht; simp [St.ret, St.ev, St.wait, upd, Then.call]
    | close =>
      simp only [afterShutdown] at ht
      split at ht
      · simp only [Res.ok.injEq] at ht; subst ht; simp [St.ret, St.ev, St.wait, upd, Then.call]
      · next r hne => exact (hne _ ht).elim
  have := sdOp_step hk hs
  unfold sslShutdown at this
  split at this
  · exact key this
  · next l hkl =>
    split at this
    · next hc =>
      split at this
      · next hb =>
        exfalso
        rw [mayShutdown_iff, ← hl.flagH c k l hk hkl, ← hl.flagS c k l hk hkl, hkl] at he
        simp only [Bool.and_eq_true, Bool.not_eq_true'] at hc hb
        rcases he with he | he | he
        · rw [he] at hb; simp at hb
        · simp at he
        · exact he hc
      · exact key this
    · exact key this

/-! ## Descriptors, connections, files and addresses -/

/-- **C63 (ownership).** An open descriptor belongs to exactly one connection or file, and the descriptor of a connection or file is open: none is leaked, none is shared. -/
theorem fnet_owned (h : Reachable step init s) : Owned s := by
  have hF := (inv_reachable h).fds
  have hg : ∀ c k fd, s.conns c = some k → k.fd = some fd → fdOf s c = some (some fd) := by
    intro c k fd h1 h2; simp [fdOf, h1, h2]
  constructor
  · exact fun c k fd h1 h2 => FP.conn hF c fd (hg c k fd h1 h2)
  · exact FP.file hF
  · intro fd ho
    rcases FP.owner hF fd ho with ⟨c, hc⟩ | hi
    · left
      simp only [fdOf, Option.map_eq_some_iff] at hc
      obtain ⟨k, h1, h2⟩ := hc
      exact ⟨c, k, h1, h2⟩
    · exact .inr hi
  · exact fun c c' k k' fd h1 h2 h3 h4 => FP.conn1 hF c c' fd (hg c k fd h1 h3) (hg c' k' fd h2 h4)
  · exact FP.file1 hF
  · exact fun c k i fd h1 h2 => FP.both hF c i fd (hg c k fd h1 h2)

/-- **C63 (once).** Every descriptor is opened once and closed at most once, and is open exactly in between; every connection and every address is freed at most once, and exists until then. -/
theorem fnet_once (h : Reachable step init s) : Once s := by
  have hF := (inv_reachable h).fds
  refine ⟨fun fd => ?_, FP.closed hF, fun c => ?_, (inv_reachable h).addr.freed⟩
  · rw [FP.opened hF fd]; split <;> simp
  · rw [FP.destroyed hF c]
    have : fdOf s c = none ↔ s.conns c = none := by simp [fdOf]
    simp only [this]

/-- **C63 (addresses).** The count of an address is the number of references the cache, the answers on their way and the program have: an address the program got and has not released is alive. -/
theorem fnet_counted (h : Reachable step init s) : Counted s ∧ ∀ a, a ∈ s.held → s.refs a ≠ 0 := by
  have hA := (inv_reachable h).addr.counted
  refine ⟨hA, fun a ha => ?_⟩
  have := hA a
  have : 0 < s.held.count a := List.count_pos_iff.mpr ha
  omega

/-- **C63 (the last reference).** When nobody has a reference any more the address has been freed. -/
theorem fnet_addr_freed (h : Reachable step init s) {a : Nat} (ha : a < s.nextAddr) (h1 : a ∉ s.cache) (h2 : ∀ f, (f, some a) ∉ s.queue) (h3 : a ∉ s.held) : Ev.addrFreed a ∈ s.log := by
  have hc := (inv_reachable h).addr.counted a
  have e1 : s.cache.count a = 0 := List.count_eq_zero.mpr h1
  have e3 : s.held.count a = 0 := List.count_eq_zero.mpr h3
  have e2 : (s.queue.filterMap Prod.snd).count a = 0 := by
    refine List.count_eq_zero.mpr (fun hm => ?_)
    obtain ⟨⟨f, x⟩, hx, hy⟩ := List.mem_filterMap.mp hm
    simp only at hy; subst hy
    exact h2 f hx
  have hf := (inv_reachable h).addr.freed a
  rw [if_pos ⟨ha, by omega⟩] at hf
  exact List.count_pos_iff.mp (by omega)

/-- **C63 (when everything is released nothing is left).** If the program has closed its connections and files, all descriptors that were opened are closed. -/
theorem fnet_all_closed (h : Reachable step init s) (hc : ∀ c, s.conns c = none) (hf : ∀ i, s.files i = none) (fd : Nat) : s.log.count (.closed fd) = s.log.count (.opened fd) := by
  have ho : s.open? fd = false := by
    cases e : s.open? fd with
    | false => rfl
    | true =>
      rcases (fnet_owned h).owner fd e with ⟨c, k, h1, _⟩ | ⟨i, h1⟩
      · rw [hc] at h1; cases h1
      · rw [hf] at h1; cases h1
  have := (fnet_once h).closed fd
  simpa [ho] using this

/-! ## What the caller has afterwards -/

/-- the addresses stored in variables of the program, newest first -/
def given (l : List Ev) : List Nat := l.filterMap fun | .setAddr _ a => some a | _ => none

/-- nothing given, nothing taken -/
def Same (s t : St) : Prop := given t.log = given s.log ∧ t.held = s.held

theorem Same.trans {u : St} (h1 : Same s t) (h2 : Same t u) : Same s u := ⟨h2.1.trans h1.1, h2.2.trans h1.2⟩

theorem same_release {a : Nat} (h : addrRelease s a = .ok t) : Same s t := by
  unfold addrRelease at h; unfold Same; split at h
  · cases h
  · split at h <;> simp only [Res.ok.injEq] at h <;> subst h <;> simp [given, St.ev]

theorem same_refs {a : Nat} (h : addrRefs s a = .ok t) : Same s t := by
  unfold addrRefs at h; unfold Same; split at h
  · cases h
  · simp only [Res.ok.injEq] at h; subst h; simp

theorem same_close {fd : Nat} (h : fdClose s fd = .ok t) : Same s t := by
  unfold fdClose at h; unfold Same; split at h
  · simp only [Res.ok.injEq] at h; subst h; simp [given, St.ev]
  · cases h

theorem same_destroy {c : Nat} (h : realDestroy s c = .ok t) : Same s t := by
  unfold realDestroy at h
  split at h
  · cases h
  · split at h
    · simp only [Res.ok.injEq] at h; subst h; simp [Same, given, St.ev, St.setConn]
    · split at h
      · next h1 => simp only [Res.ok.injEq] at h; subst h; exact (same_close h1).trans (by simp [Same, given, St.ev, St.setConn])
      · next hne => exact (hne _ h).elim

theorem same_setShutdown (s : St) (c : Nat) : Same s (setShutdown s c) := by
  unfold setShutdown; split
  · split <;> simp [Same, St.setConn]
  · simp [Same]

theorem same_after {f c : Nat} {m : Then} (h : afterShutdown s f c m = .ok t) : Same s t := by
  cases m with
  | ret => simp only [afterShutdown, Res.ok.injEq] at h; subst h; simp [Same, given, St.ret, St.ev, St.wait]
  | shut => simp only [afterShutdown, Res.ok.injEq] at h; subst h; simp [Same, given, St.ret, St.ev, St.wait]
  | close =>
    simp only [afterShutdown] at h
    split at h
    · next s1 h1 => simp only [Res.ok.injEq] at h; subst h; exact (same_destroy h1).trans (by simp [Same, given, St.ret, St.ev, St.wait])
    · next r hne => exact (hne _ h).elim

theorem same_sdCall {f c : Nat} {m : Then} {o : Out} (h : shutdownCall s f c m o = .ok t) : Same s t := by
  unfold shutdownCall at h
  have h0 : Same s (s.ev (.sslSd c o)) := by simp [Same, given, St.ev]
  split at h
  · simp only [Res.ok.injEq] at h; subst h; exact h0
  · exact (h0.trans (same_setShutdown _ c)).trans (same_after h)

theorem same_sslShutdown {f c : Nat} {m : Then} {o : Out} {k : Conn} (h : sslShutdown s f c k m o = .ok t) : Same s t := by
  unfold sslShutdown at h
  split at h
  · exact same_after h
  · split at h
    · split at h
      · exact same_sdCall h
      · exact (same_setShutdown _ c).trans (same_after h)
    · exact same_after h

theorem same_hsCall {f c : Nat} {o : Out} (h : handshakeCall s f c o = .ok t) : Same s t := by
  unfold handshakeCall at h
  cases o <;> simp only [Res.ok.injEq] at h <;> subst h <;> simp [Same, given, St.ret, St.ev, St.wait]

theorem same_call (s : St) (f : Nat) (k : Call) : Same s (s.ev (.call f k)) := by simp [Same, given, St.ev]
theorem same_event (s : St) (f : Nat) (r : Int) : Same s (s.ev (.event f r)) := by simp [Same, given, St.ev]

/-- one address more in the variables, one reference more in the hands of the program -/
def More (s t : St) (n : List Nat) : Prop := given t.log = n ++ given s.log ∧ t.held = n ++ s.held

theorem Same.more (h : Same s t) : More s t [] := h

theorem more_callback {f : Nat} {x : Option Nat} (h : getaddrCallback s f x = .ok t) : More s t x.toList := by
  cases x with
  | none => simp only [getaddrCallback, Res.ok.injEq] at h; subst h; simp [More, given, St.ret, St.ev, St.wait]
  | some a =>
    simp only [getaddrCallback] at h
    split at h
    · next s1 h1 =>
      simp only [Res.ok.injEq] at h; subst h
      have := same_refs h1
      simp only [Same, More, given, St.ret, St.ev, St.wait] at *
      simp [this.1, this.2]
    · next hne => exact (hne _ h).elim

theorem more_getaddr {f : Nat} {l : Look} (h : getaddr s f l = .ok t) : ∃ n, More s t n := by
  cases l with
  | numeric => simp only [getaddr, Res.ok.injEq] at h; subst h; exact ⟨[s.nextAddr], by simp [More, given, St.ret, St.ev, St.wait, addrNew]⟩
  | cached a =>
    simp only [getaddr] at h
    split at h
    · split at h
      · next s1 h1 =>
        split at h
        · next s2 h2 =>
          have e1 := same_refs h1
          have e2 := more_callback h2
          have e3 := same_release h
          refine ⟨[a], ?_⟩
          simp only [Same, More, given, St.ev] at *
          simp [e1, e2, e3]
        · next hne => exact (hne _ h).elim
      · next hne => exact (hne _ h).elim
    · cases h
  | negative =>
    simp only [getaddr] at h
    have := more_callback h
    exact ⟨[], by simpa [More, given, St.ev] using this⟩
  | queued => simp only [getaddr, Res.ok.injEq] at h; subst h; exact ⟨[], by simp [More, St.wait]⟩

/-- **C63 (`kfiber_net_getaddr` gives a reference with every address).** In every step other than a release the references the program holds grow by exactly the addresses that were stored in its variables: no address
without a reference, no reference without an address. -/
theorem fnet_getaddr_gives {o : Op} (hs : step s o = .ok t) (hr : ∀ a, o ≠ .release a) :
    ∃ n, given t.log = n ++ given s.log ∧ t.held = n ++ s.held := by
  show ∃ n, More s t n
  have keep : Same s t → ∃ n, More s t n := fun h => ⟨[], h⟩
  cases o with
  | release a => exact absurd rfl (hr a)
  | getaddr f l =>
    simp only [step] at hs
    split at hs
    · obtain ⟨n, h⟩ := more_getaddr hs
      exact ⟨n, by simpa [More, given, St.ev] using h⟩
    · cases hs
  | deliver f x =>
    simp only [step] at hs
    split at hs
    · unfold deliver at hs
      split at hs
      · next s1 h1 =>
        have e1 := more_callback h1
        split at hs
        · have e2 := same_release hs
          exact ⟨_, e2.1.trans e1.1, e2.2.trans e1.2⟩
        · simp only [Res.ok.injEq] at hs; subst hs; exact ⟨_, e1⟩
      · next hne => exact (hne _ hs).elim
    · cases hs
  | answer f x =>
    apply keep
    simp only [step] at hs
    split at hs
    · cases x with
      | none => simp only [answer, Res.ok.injEq] at hs; subst hs; simp [Same, given, St.ev]
      | some a =>
        simp only [answer] at hs
        split at hs
        · next s1 h1 => simp only [Res.ok.injEq] at hs; subst hs; exact (same_refs h1).trans (by simp [Same, given, St.ev])
        · next hne => exact (hne _ hs).elim
    · cases hs
  | connNew => apply keep; simp only [step, Res.ok.injEq] at hs; subst hs; simp [Same, connNew]
  | cacheNew => apply keep; simp only [step, Res.ok.injEq] at hs; subst hs; simp [Same, addrNew]
  | cacheDrop a =>
    apply keep
    simp only [step] at hs
    split at hs
    · exact same_release (s := { s with cache := s.cache.erase a }) hs
    · cases hs
  | connect f c half go =>
    apply keep
    simp only [step] at hs
    split at hs
    · split at hs
      · unfold FNet.connect at hs
        cases half <;> cases go <;> simp only [if_true, Bool.false_eq_true, if_false, Res.ok.injEq] at hs <;> subst hs <;>
          simp [Same, given, St.ret, St.ev, St.wait, St.setConn, fdOpen]
      · cases hs
    · cases hs
  | sslConnect c ok =>
    apply keep
    simp only [step] at hs
    split at hs
    · split at hs
      · simp only [Res.ok.injEq] at hs; subst hs; unfold FNet.sslConnect; split <;> simp [Same, St.setConn]
      · cases hs
    · cases hs
  | accept f tls go =>
    apply keep
    simp only [step] at hs
    split at hs
    · cases go <;> simp only [if_true, Bool.false_eq_true, if_false, Res.ok.injEq] at hs <;> subst hs <;> simp [Same, given, St.ret, St.ev, St.wait]
    · cases hs
  | handshake f c o =>
    apply keep
    simp only [step] at hs
    split at hs
    · split at hs
      · unfold FNet.handshake at hs
        split at hs
        · cases hs
        · exact Same.trans (by simp [Same, given, St.ev, St.setConn]) (same_hsCall hs)
      · cases hs
    · cases hs
  | sslShutdown f c o =>
    apply keep
    simp only [step] at hs
    split at hs
    · split at hs
      · exact (same_call s f _).trans (same_sslShutdown hs)
      · cases hs
    · cases hs
  | netShutdown f c o =>
    apply keep
    simp only [step] at hs
    split at hs
    · split at hs
      · exact (same_call s f _).trans (same_sslShutdown hs)
      · cases hs
    · cases hs
  | close f c o =>
    apply keep
    simp only [step] at hs
    split at hs
    · split at hs
      · exact (same_call s f _).trans (same_sslShutdown hs)
      · cases hs
    · cases hs
  | fileOpen ok sel =>
    apply keep
    simp only [step, FNet.fileOpen] at hs
    have h0 : Same s (fdOpen s) := by simp [Same, fdOpen, given, St.ev]
    split at hs
    · split at hs
      · simp only [Res.ok.injEq] at hs; subst hs; exact h0
      · exact h0.trans (same_close hs)
    · simp only [Res.ok.injEq] at hs; subst hs; exact ⟨rfl, rfl⟩
  | fileClose i =>
    apply keep
    simp only [step] at hs
    split at hs
    · unfold FNet.fileClose at hs
      split at hs
      · next h1 => simp only [Res.ok.injEq] at hs; subst hs; exact (same_close h1).trans ⟨rfl, rfl⟩
      · next hne => exact (hne _ hs).elim
    · cases hs
  | connected f got =>
    apply keep
    simp only [step] at hs
    split at hs
    · split at hs
      · simp only [Res.ok.injEq] at hs; subst hs; simp [Same, given, St.ret, St.ev, St.wait]
      · cases hs
    · cases hs
  | acceptEv f got sslOk =>
    apply keep
    simp only [step] at hs
    split at hs
    · unfold accepted at hs
      cases got <;> simp only [if_true, Bool.false_eq_true, if_false] at hs
      · simp only [Res.ok.injEq] at hs; subst hs; simp [Same, given, St.ret, St.ev, St.wait]
      · split at hs
        · split at hs
          · simp only [Res.ok.injEq] at hs; subst hs; simp [Same, given, St.ret, St.ev, St.wait, St.setConn, fdOpen, connNew]
          · split at hs
            · next s2 h2 =>
              simp only [Res.ok.injEq] at hs; subst hs
              have := same_destroy h2
              simp only [Same, given, St.ret, St.ev, St.wait, St.setConn, fdOpen, connNew] at *
              simp [this.1, this.2]
            · next hne => exact (hne _ hs).elim
        · simp only [Res.ok.injEq] at hs; subst hs; simp [Same, given, St.ret, St.ev, St.wait, St.setConn, fdOpen, connNew]
    · cases hs
  | sslEv f got o =>
    apply keep
    simp only [step] at hs
    split at hs
    · split at hs
      · unfold handshakeEvent at hs
        split at hs
        · simp only [Res.ok.injEq] at hs; subst hs; simp [Same, given, St.ret, St.ev, St.wait]
        · exact (same_event s f got).trans (same_hsCall hs)
      · unfold shutdownEvent at hs
        split at hs
        · exact ((same_event s f got).trans (same_setShutdown _ _)).trans (same_after hs)
        · exact (same_event s f got).trans (same_sdCall hs)
      · cases hs
    · cases hs
  | setErr c =>
    apply keep
    simp only [step] at hs
    split at hs
    · simp only [Res.ok.injEq] at hs; subst hs; simp [Same, St.setConn]
    · cases hs

/-- **C63 (`kfiber_net_accept`).** A connection that is given to the caller exists, is bound to the selector, has the accepted descriptor, and a TLS session exactly if the listener has a context. If nothing was
accepted, or the TLS session could not be made, the caller gets none, and no descriptor and no object is left behind. -/
theorem fnet_accept_gives (h : Reachable step init s) {f : Nat} {tls got sslOk : Bool} (hf : s.fib f = .accept tls) (hs : step s (.acceptEv f got sslOk) = .ok t) :
    (got = true ∧ (tls = true → sslOk = true) → (∃ k, t.conns s.nextConn = some k ∧ k.fd = some s.nextFd ∧ k.bound = true ∧ k.err = false ∧ k.ssl.isSome = tls) ∧ t.open? s.nextFd = true ∧
      Ev.setConn f (some s.nextConn) ∈ t.log) ∧
    (¬ (got = true ∧ (tls = true → sslOk = true)) → (∀ c, t.conns c = s.conns c) ∧ (∀ fd, t.open? fd = s.open? fd) ∧ Ev.setConn f none ∈ t.log) := by
  have hfresh : s.conns s.nextConn = none := by
    have := (inv_reachable h).log.connLt s.nextConn
    by_cases e : s.conns s.nextConn = none
    · exact e
    · exact absurd (this e) (by omega)
  have hofresh : s.open? s.nextFd = false := by
    cases e : s.open? s.nextFd with
    | false => rfl
    | true => exact absurd (FP.fdLt (inv_reachable h).fds _ e) (by omega)
  simp only [step, hf, accepted] at hs
  cases got with
  | false =>
    simp only [Bool.false_eq_true, if_false, Res.ok.injEq] at hs; subst hs
    simp [St.ret, St.ev, St.wait]
  | true =>
    simp only [if_true] at hs
    cases tls with
    | false =>
      simp only [Bool.false_eq_true, if_false, Res.ok.injEq] at hs; subst hs
      simp [St.ret, St.ev, St.wait, St.setConn, connNew, fdOpen, upd]
    | true =>
      simp only [if_true] at hs
      cases sslOk with
      | true =>
        simp only [if_true, Res.ok.injEq] at hs; subst hs
        simp [St.ret, St.ev, St.wait, St.setConn, connNew, fdOpen, upd]
      | false =>
        simp only [Bool.false_eq_true, if_false, realDestroy, fdClose, St.ev, St.setConn, connNew, fdOpen, upd, if_true, Res.ok.injEq] at hs
        subst hs
        refine ⟨by simp, fun _ => ⟨fun c => ?_, fun fd => ?_, by simp [St.ret, St.ev, St.wait]⟩⟩
        · simp only [St.ret, St.ev, St.wait, upd_apply]
          by_cases e : c = s.nextConn
          · rw [if_pos e, e, hfresh]
          · simp [e]
        · simp only [St.ret, St.ev, St.wait, upd_apply]
          by_cases e : fd = s.nextFd
          · rw [if_pos e, e, hofresh]
          · simp [e]

/-- **C63 (`kfiber_file_open`).** If the thread has no selector the descriptor that was opened is closed again: nothing is left behind. -/
theorem fnet_file_open {ok sel : Bool} (hs : step s (.fileOpen ok sel) = .ok t) :
    (ok = true ∧ sel = true → t.files s.nextFile = some s.nextFd ∧ t.open? s.nextFd = true) ∧
    (¬ (ok = true ∧ sel = true) → t.files = s.files ∧ ∀ fd, fd ≠ s.nextFd → t.open? fd = s.open? fd) ∧ (ok = true ∧ sel = false → t.open? s.nextFd = false) := by
  simp only [step, fileOpen, fdOpen, fdClose] at hs
  cases ok <;> cases sel <;> simp [St.ev, upd] at hs <;> subst hs <;> simp [upd]
  intro fd h1; simp [h1]

/-! ## Non-vacuity -/

/-- two fibers: one looks up an address (queued, answered, delivered) while the other one connects, shakes hands with one wait and closes with one wait -/
def demo : List Op :=
  [.cacheNew, .getaddr 0 .queued, .connNew, .connect 1 0 true true, .answer 0 (some 0), .connected 1 0, .sslConnect 0 true, .handshake 1 0 .again, .deliver 0 (some 0),
   .sslEv 1 0 .done, .cacheDrop 0, .release 0, .close 1 0 .again, .sslEv 1 0 .done]

example : ((run step init demo).map St.log) = some
  [.ret 1 (.close 0) 0, .destroyed 0, .closed 0, .sslSd 0 .done, .event 1 0, .sslSd 0 .again, .call 1 (.close 0), .addrFreed 0, .ret 1 (.handshake 0) 0, .sslHs 0 .done, .event 1 0,
   .ret 0 .getaddr 0, .setAddr 0 0, .sslHs 0 .again, .call 1 (.handshake 0), .ret 1 (.connect 0) 0, .event 1 0, .resolved 0 (some 0), .opened 0, .call 1 (.connect 0), .call 0 .getaddr] := rfl

/-- a fiber that waits in a shutdown, on a connection whose handshake was done -/
example : ((run step init (demo.take 13)).map fun s => (s.fib 1, (s.conns 0).map (·.ssl))) = some (.shutdown 0 .close, some (some { handshake := true })) := rfl

/-- the hypotheses of `fnet_shutdown_done` are met after the handshake -/
example : ∃ s k, run step init (demo.take 12) = some s ∧ s.conns 0 = some k ∧ k.err = false ∧ k.ssl ≠ none ∧ MayShutdown 0 s.log := by
  refine ⟨_, _, rfl, rfl, rfl, by simp, ?_⟩
  rw [mayShutdown_iff]; exact ⟨rfl, rfl⟩

/-- an accepted TLS connection -/
example : ((run step init [.accept 0 true true, .acceptEv 0 true true]).map fun s => (s.conns 0, s.log.head?)) =
    some (some { fd := some 0, ssl := some {}, bound := true }, some (.ret 0 .accept 0)) := rfl

/-- a file opened without a selector is closed again -/
example : ((run step init [.fileOpen true false, .fileOpen true true, .fileClose 0]).map fun s => s.log) = some [.closed 1, .opened 1, .closed 0, .opened 0] := rfl

/-- the rules: a second fiber cannot use the connection, a closed one cannot be closed again -/
example : ((run step init (demo.take 13)).map fun s => (match step s (.close 0 0 .done) with | .disabled => true | _ => false)) = some true := rfl

/-! ## Findings -/

/-- **Finding (C63).** `kfiber_net_accept` returns 0 although it has no connection for its caller: when the accept failed (the event has -1), and when `SSL_new` failed.  A caller that looks at the result only uses a null
pointer; -1 is returned only if the selector did not take the request. -/
theorem accept_zero_without_connection :
    ((run step init [.accept 0 false true, .acceptEv 0 false true]).map St.log) = some [.ret 0 .accept 0, .setConn 0 none, .event 0 (-1), .call 0 .accept] ∧
    ((run step init [.accept 0 true true, .acceptEv 0 true false]).map St.log) =
      some [.ret 0 .accept 0, .setConn 0 none, .destroyed 0, .closed 0, .opened 0, .event 0 0, .call 0 .accept] := ⟨rfl, rfl⟩

/-- **Finding (C63).** The flag that a handshake was done is set when it begins: after a handshake that *failed* closing the connection calls `SSL_shutdown` on it (OpenSSL forbids this: "It is not possible to call
SSL_shutdown if a previous fatal error has occurred"), and waits if OpenSSL says so. -/
theorem shutdown_after_failed_handshake :
    ((run step init [.connNew, .connect 0 0 true true, .connected 0 0, .sslConnect 0 true, .handshake 0 0 .fail, .close 0 0 .fail]).map (·.log.take 6)) =
      some [.ret 0 (.close 0) 0, .destroyed 0, .closed 0, .sslSd 0 .fail, .call 0 (.close 0), .ret 0 (.handshake 0) (-1)] := rfl

/-- **Finding (C63).** `kfiber_ssl_shutdown` returns 0 whatever happened: also when `SSL_shutdown` failed and when the connection broke while waiting. -/
theorem shutdown_zero_on_failure :
    ((run step init [.connNew, .connect 0 0 true true, .connected 0 0, .sslConnect 0 true, .handshake 0 0 .done, .sslShutdown 0 0 .again, .sslEv 0 (-1) .done]).map (·.log.take 4)) =
      some [.ret 0 (.sslShutdown 0) 0, .event 0 (-1), .sslSd 0 .again, .call 0 (.sslShutdown 0)] := rfl

end Kasync.FNet
