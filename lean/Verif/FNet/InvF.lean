import Verif.FNet.InvA

/-!
# Calls of fibers: descriptors, connection and file objects (C63)
-/

namespace Kasync.FNet

/-- `g c`: the descriptor of connection `c`, if it exists -/
structure FP (g : Nat → Option (Option Nat)) (nc : Nat) (op : Nat → Bool) (nf : Nat) (files : Nat → Option Nat) (ni : Nat) (log : List Ev) : Prop where
  conn : ∀ c fd, g c = some (some fd) → op fd = true
  file : ∀ i fd, files i = some fd → op fd = true
  owner : ∀ fd, op fd = true → (∃ c, g c = some (some fd)) ∨ ∃ i, files i = some fd
  conn1 : ∀ c c' fd, g c = some (some fd) → g c' = some (some fd) → c = c'
  file1 : ∀ i j fd, files i = some fd → files j = some fd → i = j
  both : ∀ c i fd, g c = some (some fd) → files i ≠ some fd
  fdLt : ∀ fd, op fd = true → fd < nf
  connLt : ∀ c, g c ≠ none → c < nc
  fileLt : ∀ i, files i ≠ none → i < ni
  opened : ∀ fd, log.count (.opened fd) = if fd < nf then 1 else 0
  closed : ∀ fd, log.count (.closed fd) + (if op fd = true then 1 else 0) = log.count (.opened fd)
  destroyed : ∀ c, log.count (.destroyed c) = if c < nc ∧ g c = none then 1 else 0

/-- an event that is not about descriptors and objects -/
def Ev.plain : Ev → Bool
  | .opened _ | .closed _ | .destroyed _ => false
  | _ => true

section
variable {g : Nat → Option (Option Nat)} {nc : Nat} {op : Nat → Bool} {nf : Nat} {files : Nat → Option Nat} {ni : Nat} {log : List Ev}

theorem plain_count {e : Ev} (h : e.plain = true) (log : List Ev) :
    (∀ fd, (e :: log).count (.opened fd) = log.count (.opened fd)) ∧ (∀ fd, (e :: log).count (.closed fd) = log.count (.closed fd)) ∧
      ∀ c, (e :: log).count (.destroyed c) = log.count (.destroyed c) := by
  refine ⟨fun fd => ?_, fun fd => ?_, fun c => ?_⟩ <;> refine List.count_cons_of_ne ?_ <;> rintro rfl <;> simp [Ev.plain] at h

theorem FP.ev (h : FP g nc op nf files ni log) {e : Ev} (he : e.plain = true) : FP g nc op nf files ni (e :: log) := by
  obtain ⟨a, b, c⟩ := plain_count he log
  exact { h with opened := fun fd => by rw [a]; exact h.opened fd, closed := fun fd => by rw [a, b]; exact h.closed fd, destroyed := fun x => by rw [c]; exact h.destroyed x }

/-- a new connection without a descriptor -/
theorem FP.new (h : FP g nc op nf files ni log) : FP (upd g nc (some none)) (nc + 1) op nf files ni log := by
  have hz : g nc = none := by
    rcases hg : g nc with _ | _
    · rfl
    · have := h.connLt nc (by simp [hg]); omega
  cases h
  constructor <;> (try simp only [upd_apply]) <;> grind

/-- a connection without a descriptor gets a new one -/
theorem FP.opn (h : FP g nc op nf files ni log) {c : Nat} (hc : g c = some none) :
    FP (upd g c (some (some nf))) nc (upd op nf true) (nf + 1) files ni (.opened nf :: log) := by
  have hz : op nf ≠ true := fun e => by have := h.fdLt nf e; omega
  cases h
  constructor <;> (try simp only [upd_apply, List.count_cons, reduceCtorEq, beq_iff_eq, Ev.opened.injEq]) <;> grind

/-- a connection without a descriptor is destroyed -/
theorem FP.kill0 (h : FP g nc op nf files ni log) {c : Nat} (hc : g c = some none) : FP (upd g c none) nc op nf files ni (.destroyed c :: log) := by
  have hz : c < nc := h.connLt c (by simp [hc])
  cases h
  constructor <;> (try simp only [upd_apply, List.count_cons, reduceCtorEq, beq_iff_eq, Ev.destroyed.injEq]) <;> grind

/-- a connection with a descriptor is destroyed -/
theorem FP.kill1 (h : FP g nc op nf files ni log) {c fd : Nat} (hc : g c = some (some fd)) :
    FP (upd g c none) nc (upd op fd false) nf files ni (.destroyed c :: .closed fd :: log) := by
  have hz : c < nc := h.connLt c (by simp [hc])
  have ho : op fd = true := h.conn c fd hc
  cases h
  constructor <;> (try simp only [upd_apply, List.count_cons, reduceCtorEq, beq_iff_eq, Ev.destroyed.injEq, Ev.closed.injEq]) <;> grind

theorem FP.fopen (h : FP g nc op nf files ni log) : FP g nc (upd op nf true) (nf + 1) (upd files ni (some nf)) (ni + 1) (.opened nf :: log) := by
  have hz : op nf ≠ true := fun e => by have := h.fdLt nf e; omega
  have hf : files ni = none := by
    rcases hg : files ni with _ | _
    · rfl
    · have := h.fileLt ni (by simp [hg]); omega
  cases h
  constructor <;> (try simp only [upd_apply, List.count_cons, reduceCtorEq, beq_iff_eq, Ev.opened.injEq]) <;> grind

theorem FP.fclose (h : FP g nc op nf files ni log) {i fd : Nat} (hi : files i = some fd) :
    FP g nc (upd op fd false) nf (upd files i none) ni (.closed fd :: log) := by
  have ho : op fd = true := h.file i fd hi
  cases h
  constructor <;> (try simp only [upd_apply, List.count_cons, reduceCtorEq, beq_iff_eq, Ev.closed.injEq]) <;> grind

theorem FP.openClose (h : FP g nc op nf files ni log) : FP g nc (upd (upd op nf true) nf false) (nf + 1) files ni (.closed nf :: .opened nf :: log) := by
  have hz : op nf ≠ true := fun e => by have := h.fdLt nf e; omega
  cases h
  constructor <;> (try simp only [upd_apply, List.count_cons, reduceCtorEq, beq_iff_eq, Ev.closed.injEq, Ev.opened.injEq]) <;> grind

end

/-- descriptor of each connection -/
def fdOf (s : St) (c : Nat) : Option (Option Nat) := (s.conns c).map Conn.fd

def InvF (s : St) : Prop := FP (fdOf s) s.nextConn s.open? s.nextFd s.files s.nextFile s.log

theorem invF_init : InvF init := by
  constructor <;> simp [init, fdOf]

/-- nothing about descriptors and objects changed -/
theorem InvF.congr {s t : St} (h : InvF s) (hg : ∀ c, fdOf t c = fdOf s c) (h1 : t.nextConn = s.nextConn) (h2 : t.open? = s.open?) (h3 : t.nextFd = s.nextFd)
    (h4 : t.files = s.files) (h5 : t.nextFile = s.nextFile) (h6 : t.log = s.log) : InvF t := by
  have : fdOf t = fdOf s := funext hg
  unfold InvF; rw [this, h1, h2, h3, h4, h5, h6]; exact h

theorem InvF.ev {s : St} (h : InvF s) {e : Ev} (he : e.plain = true) : InvF (s.ev e) := FP.ev h he

theorem InvF.wait {s : St} (h : InvF s) (f : Nat) (p : Pend) : InvF (s.wait f p) := h

theorem InvF.ret {s : St} (h : InvF s) (f : Nat) (k : Call) (r : Int) : InvF (s.ret f k r) := FP.ev h rfl

theorem fdOf_setConn (s : St) (c : Nat) (v : Option Conn) : fdOf (s.setConn c v) = upd (fdOf s) c (v.map Conn.fd) := by
  funext d
  simp only [fdOf, St.setConn, upd_apply]
  split <;> rfl

/-- the descriptor of the connection is kept -/
theorem InvF.keep {s : St} (h : InvF s) {c : Nat} {k v : Conn} (hc : s.conns c = some k) (hv : v.fd = k.fd) : InvF (s.setConn c (some v)) := by
  refine h.congr (fun d => ?_) rfl rfl rfl rfl rfl rfl
  rw [fdOf_setConn, upd_apply]
  split
  · next e => subst e; simp [fdOf, hc, hv]
  · rfl

theorem setShutdown_invF {s : St} (h : InvF s) (c : Nat) : InvF (setShutdown s c) := by
  unfold setShutdown
  split
  · split
    · next hk _ _ _ => exact h.keep hk rfl
    · exact h
  · exact h

theorem realDestroy_ok {s : St} {c : Nat} (h : InvF s) (hc : s.conns c ≠ none) : ∃ t, realDestroy s c = .ok t ∧ InvF t ∧ fdOf t = upd (fdOf s) c none ∧
    t.conns = upd s.conns c none ∧ t.fib = s.fib ∧ t.nfib = s.nfib ∧ (t.log = .destroyed c :: s.log ∨ ∃ fd, t.log = .destroyed c :: .closed fd :: s.log) ∧
    t.nextConn = s.nextConn ∧ t.queue = s.queue := by
  unfold realDestroy
  cases hk : s.conns c with
  | none => exact absurd hk hc
  | some k =>
    have hg : fdOf s c = some k.fd := by simp [fdOf, hk]
    cases hf : k.fd with
    | none =>
      refine ⟨(s.setConn c none).ev (.destroyed c), by simp only [hf], ?_, ?_, rfl, rfl, rfl, .inl rfl, rfl, rfl⟩
      rotate_left
      · exact fdOf_setConn s c none
      have := FP.kill0 h (by rw [hg, hf])
      unfold InvF
      rw [show fdOf ((s.setConn c none).ev (.destroyed c)) = upd (fdOf s) c none from fdOf_setConn _ _ _]
      exact this
    | some fd =>
      have ho : s.open? fd = true := FP.conn h c fd (by rw [hg, hf])
      simp only [fdClose, ho, if_true]
      refine ⟨(St.setConn (St.ev { s with open? := upd s.open? fd false } (.closed fd)) c none).ev (.destroyed c), by simp only [hf, ho, if_true], ?_, ?_, rfl, rfl, rfl, .inr ⟨fd, rfl⟩, rfl, rfl⟩
      rotate_left
      · exact fdOf_setConn s c none
      have := FP.kill1 h (by rw [hg, hf])
      unfold InvF
      rw [show fdOf ((St.setConn (St.ev { s with open? := upd s.open? fd false } (.closed fd)) c none).ev (.destroyed c)) = upd (fdOf s) c none from fdOf_setConn _ _ _]
      exact this

theorem afterShutdown_invF {s t : St} {f c : Nat} {k : Then} (h : InvF s) (hc : s.conns c ≠ none) (hs : afterShutdown s f c k = .ok t) : InvF t := by
  unfold afterShutdown at hs
  split at hs
  · cases hs; exact h.ret _ _ _
  · cases hs; exact (h.ev rfl).ret _ _ _
  · obtain ⟨u, hu, hi, _⟩ := realDestroy_ok h hc
    rw [hu] at hs
    cases hs; exact hi.ret _ _ _

theorem setShutdown_conns {s : St} {c d : Nat} (hd : s.conns d ≠ none) : (setShutdown s c).conns d ≠ none := by
  unfold setShutdown
  split
  · split
    · simp only [St.setConn, upd_apply]; split <;> simp [hd]
    · exact hd
  · exact hd

theorem shutdownCall_invF {s t : St} {f c : Nat} {k : Then} {o : Out} (h : InvF s) (hc : s.conns c ≠ none) (hs : shutdownCall s f c k o = .ok t) : InvF t := by
  unfold shutdownCall at hs
  simp only at hs
  split at hs
  · cases hs; exact (h.ev rfl).wait _ _
  · exact afterShutdown_invF (setShutdown_invF (h.ev rfl) c) (setShutdown_conns hc) hs

theorem sslShutdown_invF {s t : St} {f c : Nat} {k : Conn} {m : Then} {o : Out} (h : InvF s) (hc : s.conns c = some k) (hs : sslShutdown s f c k m o = .ok t) : InvF t := by
  have hn : s.conns c ≠ none := by simp [hc]
  unfold sslShutdown at hs
  split at hs
  · exact afterShutdown_invF h hn hs
  · split at hs
    · split at hs
      · exact shutdownCall_invF h hn hs
      · exact afterShutdown_invF (setShutdown_invF h c) (setShutdown_conns hn) hs
    · exact afterShutdown_invF h hn hs

theorem handshakeCall_invF {s t : St} {f c : Nat} {o : Out} (h : InvF s) (hs : handshakeCall s f c o = .ok t) : InvF t := by
  unfold handshakeCall at hs
  simp only at hs
  split at hs <;> cases hs
  · exact (h.ev rfl).ret _ _ _
  · exact (h.ev rfl).wait _ _
  · exact (h.ev rfl).ret _ _ _

/-- the new connection of `accept_result_new_connection`, before its TLS session is made -/
theorem accept_invF {s : St} (h : InvF s) : InvF ((connNew (fdOpen s)).setConn s.nextConn (some { fd := some s.nextFd })) := by
  have h1 := FP.opn (FP.new h) (c := s.nextConn) (by simp [upd_apply])
  unfold InvF
  rw [fdOf_setConn]
  have : fdOf (connNew (fdOpen s)) = upd (fdOf s) s.nextConn (some none) := by
    funext d
    simp only [fdOf, connNew, fdOpen, St.ev, upd_apply]
    split <;> rfl
  rw [this]
  exact h1

theorem addr_invF {s t : St} (h : InvF s) (h0 : t.conns = s.conns) (h1 : t.nextConn = s.nextConn) (h2 : t.open? = s.open?) (h3 : t.nextFd = s.nextFd)
    (h4 : t.files = s.files) (h5 : t.nextFile = s.nextFile) (h6 : ∃ l, t.log = l ++ s.log ∧ ∀ e ∈ l, e.plain = true) : InvF t := by
  obtain ⟨l, hl, hp⟩ := h6
  have hg : fdOf t = fdOf s := by funext c; simp [fdOf, h0]
  unfold InvF; rw [hg, h1, h2, h3, h4, h5, hl]
  clear hl
  induction l with
  | nil => exact h
  | cons e l ih => exact FP.ev (ih (fun x hx => hp x (by simp [hx]))) (hp e (by simp))

/-- only addresses, waiting fibers and the history changed; the new events satisfy `P` -/
structure AddrOnly (P : Ev → Prop) (s t : St) : Prop where
  conns : t.conns = s.conns
  nextConn : t.nextConn = s.nextConn
  open? : t.open? = s.open?
  nextFd : t.nextFd = s.nextFd
  files : t.files = s.files
  nextFile : t.nextFile = s.nextFile
  log : ∃ l, t.log = l ++ s.log ∧ ∀ e ∈ l, P e

theorem AddrOnly.trans {P : Ev → Prop} {s t u : St} (a : AddrOnly P s t) (b : AddrOnly P t u) : AddrOnly P s u := by
  obtain ⟨l1, h1, p1⟩ := a.log
  obtain ⟨l2, h2, p2⟩ := b.log
  refine ⟨b.conns.trans a.conns, b.nextConn.trans a.nextConn, b.open?.trans a.open?, b.nextFd.trans a.nextFd, b.files.trans a.files, b.nextFile.trans a.nextFile,
    l2 ++ l1, by rw [h2, h1, List.append_assoc], ?_⟩
  intro e he
  rcases List.mem_append.mp he with he | he
  · exact p2 e he
  · exact p1 e he

abbrev Plain (e : Ev) : Prop := e.plain = true

theorem AddrOnly.inv {s t : St} (a : AddrOnly Plain s t) (h : InvF s) : InvF t :=
  addr_invF h a.conns a.nextConn a.open? a.nextFd a.files a.nextFile a.log

theorem AddrOnly.ev (s : St) {e : Ev} (h : e.plain = true) : AddrOnly Plain s (s.ev e) :=
  ⟨rfl, rfl, rfl, rfl, rfl, rfl, [e], rfl, by simpa using h⟩

theorem AddrOnly.nil {P : Ev → Prop} {s t : St} (h1 : t.conns = s.conns) (h2 : t.nextConn = s.nextConn) (h3 : t.open? = s.open?) (h4 : t.nextFd = s.nextFd)
    (h5 : t.files = s.files) (h6 : t.nextFile = s.nextFile) (h7 : t.log = s.log) : AddrOnly P s t :=
  ⟨h1, h2, h3, h4, h5, h6, [], by simpa using h7, by simp⟩

theorem addrRefs_only {s t : St} {a : Nat} (h : addrRefs s a = .ok t) : AddrOnly Plain s t := by
  unfold addrRefs at h
  split at h
  · cases h
  · cases h; exact .nil rfl rfl rfl rfl rfl rfl rfl

theorem addrRelease_only {s t : St} {a : Nat} (h : addrRelease s a = .ok t) : AddrOnly Plain s t := by
  unfold addrRelease at h
  split at h
  · cases h
  · split at h
    · cases h; exact ⟨rfl, rfl, rfl, rfl, rfl, rfl, [_], rfl, by simp [Plain, Ev.plain]⟩
    · cases h; exact .nil rfl rfl rfl rfl rfl rfl rfl

theorem getaddrCallback_only {s t : St} {f : Nat} {x : Option Nat} (h : getaddrCallback s f x = .ok t) : AddrOnly Plain s t := by
  unfold getaddrCallback at h
  split at h
  · cases h; exact ⟨rfl, rfl, rfl, rfl, rfl, rfl, [_], rfl, by simp [Plain, Ev.plain]⟩
  · split at h
    · next s1 h1 =>
      cases h
      refine (addrRefs_only h1).trans ?_
      refine ⟨rfl, rfl, rfl, rfl, rfl, rfl, [_, _], rfl, ?_⟩
      simp [Plain, Ev.plain]
    · next hne => exact (hne _ h).elim

theorem getaddr_only {s t : St} {f : Nat} {x : Look} (h : getaddr s f x = .ok t) : AddrOnly Plain s t := by
  cases x <;> simp only [getaddr] at h
  · cases h
    refine ⟨rfl, rfl, rfl, rfl, rfl, rfl, [_, _, _], rfl, ?_⟩
    simp [Plain, Ev.plain]
  · split at h
    · split at h
      · next s1 h1 =>
        split at h
        · next s2 h2 => exact (((AddrOnly.ev s rfl).trans (addrRefs_only h1)).trans (getaddrCallback_only h2)).trans (addrRelease_only h)
        · next hne => exact (hne _ h).elim
      · next hne => exact (hne _ h).elim
    · cases h
  · exact (AddrOnly.ev s rfl).trans (getaddrCallback_only h)
  · cases h; exact .nil rfl rfl rfl rfl rfl rfl rfl

theorem answer_only {s t : St} {f : Nat} {x : Option Nat} (h : answer s f x = .ok t) : AddrOnly Plain s t := by
  unfold answer at h
  split at h
  · cases h; exact ⟨rfl, rfl, rfl, rfl, rfl, rfl, [_], rfl, by simp [Plain, Ev.plain]⟩
  · split at h
    · next s1 h1 => cases h; exact (addrRefs_only h1).trans ⟨rfl, rfl, rfl, rfl, rfl, rfl, [_], rfl, by simp [Plain, Ev.plain]⟩
    · next hne => exact (hne _ h).elim

theorem deliver_only {s t : St} {f : Nat} {x : Option Nat} (h : deliver s f x = .ok t) : AddrOnly Plain s t := by
  unfold deliver at h
  split at h
  · next s1 h1 =>
    have h0 : AddrOnly Plain s s1 := AddrOnly.trans (t := { s with queue := s.queue.erase (f, x) }) (AddrOnly.nil rfl rfl rfl rfl rfl rfl rfl) (getaddrCallback_only h1)
    split at h
    · exact h0.trans (addrRelease_only h)
    · cases h; exact h0
  · next hne => exact (hne _ h).elim

theorem step_addrOnly {s t : St} {o : Op} (ho : o.other = false) (h : step s o = .ok t) : AddrOnly Plain s t := by
  cases o <;> simp only [Op.other, reduceCtorEq, Bool.true_eq_false] at ho <;> simp only [step] at h
  case getaddr =>
    split at h
    · exact (AddrOnly.ev s rfl).trans (getaddr_only h)
    · cases h
  case release =>
    split at h
    · refine AddrOnly.trans ?_ (addrRelease_only h)
      exact AddrOnly.nil rfl rfl rfl rfl rfl rfl rfl
    · cases h
  case answer =>
    split at h
    · exact answer_only h
    · cases h
  case deliver =>
    split at h
    · exact deliver_only h
    · cases h
  case cacheNew => cases h; exact .nil rfl rfl rfl rfl rfl rfl rfl
  case cacheDrop =>
    split at h
    · refine AddrOnly.trans ?_ (addrRelease_only h)
      exact AddrOnly.nil rfl rfl rfl rfl rfl rfl rfl
    · cases h

theorem accepted_invF {s t : St} {f : Nat} {tls got sslOk : Bool} (h : InvF s) (hs : accepted s f tls got sslOk = .ok t) : InvF t := by
  unfold accepted at hs
  simp only at hs
  have h1 := accept_invF h
  have hk : ((connNew (fdOpen s)).setConn s.nextConn (some { fd := some s.nextFd })).conns s.nextConn = some { fd := some s.nextFd } := by
    simp [St.setConn, upd_apply]
  split at hs
  · split at hs
    · split at hs
      · cases hs
        refine InvF.ret (InvF.ev ?_ rfl) _ _ _
        exact InvF.keep (k := { fd := some s.nextFd }) h1 hk rfl
      · obtain ⟨u, hu, hi, _⟩ := realDestroy_ok h1 (c := s.nextConn) (by rw [hk]; simp)
        rw [hu] at hs
        cases hs; exact (hi.ev rfl).ret _ _ _
    · cases hs
      refine InvF.ret (InvF.ev ?_ rfl) _ _ _
      exact InvF.keep (k := { fd := some s.nextFd }) h1 hk rfl
  · cases hs; exact (h.ev rfl).ret _ _ _

theorem step_invF {s t : St} {o : Op} (h : InvF s) (hb : ∀ f c, (s.fib f).conn = some c → s.conns c ≠ none) (hs : step s o = .ok t) : InvF t := by
  by_cases ho : o.other = false
  · exact (step_addrOnly ho hs).inv h
  cases o <;> simp only [Op.other, not_true_eq_false] at ho <;> simp only [step] at hs
  case connNew =>
    cases hs
    have := FP.new h
    unfold InvF
    rw [show fdOf (FNet.connNew s) = upd (fdOf s) s.nextConn (some none) from by
      funext d; simp only [fdOf, FNet.connNew, upd_apply]; split <;> rfl]
    exact this
  case connect f c half go =>
    split at hs
    · next k hk =>
      split at hs
      · next hc =>
        have hg : fdOf s c = some none := by simp [fdOf, hk, hc.2.2]
        unfold FNet.connect at hs
        simp only at hs
        have h1 : InvF ((fdOpen (s.ev (.call f (.connect c)))).setConn c (some { k with fd := some s.nextFd, bound := true })) := by
          have := FP.opn (FP.ev h (e := .call f (.connect c)) rfl) hg
          unfold InvF
          rw [fdOf_setConn]
          exact this
        split at hs
        · split at hs
          · cases hs; exact h1.wait _ _
          · cases hs; exact h1.ret _ _ _
        · cases hs
          refine InvF.ret ?_ _ _ _
          exact (InvF.ev h rfl).keep (k := k) hk hc.2.2.symm
      · cases hs
    · cases hs
  case sslConnect c ok =>
    split at hs
    · next k hk =>
      split at hs
      · cases hs
        unfold FNet.sslConnect
        split
        · exact h.keep hk rfl
        · exact h
      · cases hs
    · cases hs
  case accept f tls go =>
    split at hs
    · split at hs
      · cases hs; exact (h.ev rfl).wait _ _
      · cases hs; exact (h.ev rfl).ret _ _ _
    · cases hs
  case handshake f c o =>
    split at hs
    · next k hk =>
      split at hs
      · unfold FNet.handshake at hs
        split at hs
        · cases hs
        · refine handshakeCall_invF ?_ hs
          exact InvF.keep (k := k) (InvF.ev h rfl) hk rfl
      · cases hs
    · cases hs
  case sslShutdown f c o =>
    split at hs
    · next k hk =>
      split at hs
      · exact sslShutdown_invF (InvF.ev h rfl) (s := s.ev _) hk hs
      · cases hs
    · cases hs
  case netShutdown f c o =>
    split at hs
    · next k hk =>
      split at hs
      · exact sslShutdown_invF (InvF.ev h rfl) (s := s.ev _) hk hs
      · cases hs
    · cases hs
  case close f c o =>
    split at hs
    · next k hk =>
      split at hs
      · exact sslShutdown_invF (InvF.ev h rfl) (s := s.ev _) hk hs
      · cases hs
    · cases hs
  case fileOpen ok sel =>
    unfold FNet.fileOpen at hs
    simp only at hs
    split at hs
    · split at hs
      · cases hs; exact FP.fopen h
      · simp only [fdClose, fdOpen, St.ev, upd_apply, if_true] at hs
        cases hs; exact FP.openClose h
    · cases hs; exact h
  case fileClose i =>
    split at hs
    · next fd hi =>
      have ho := FP.file h i fd hi
      simp only [FNet.fileClose, fdClose, ho, if_true] at hs
      cases hs; exact FP.fclose h hi
    · cases hs
  case connected f got =>
    split at hs
    · split at hs
      · cases hs; exact (h.ev rfl).ret _ _ _
      · cases hs
    · cases hs
  case acceptEv f got sslOk =>
    split at hs
    · exact accepted_invF (h.ev rfl) hs
    · cases hs
  case sslEv f got o =>
    split at hs
    · split at hs
      · unfold handshakeEvent at hs
        simp only at hs
        split at hs
        · cases hs; exact (h.ev rfl).ret _ _ _
        · exact handshakeCall_invF (h.ev rfl) hs
      · next c k hf =>
        have hc := hb f c (by rw [hf]; rfl)
        unfold shutdownEvent at hs
        simp only at hs
        split at hs
        · exact afterShutdown_invF (setShutdown_invF (h.ev rfl) c) (setShutdown_conns hc) hs
        · exact shutdownCall_invF (h.ev rfl) hc hs
      · cases hs
    · cases hs
  case setErr c =>
    split at hs
    · next k hk => cases hs; exact h.keep hk rfl
    · cases hs

end Kasync.FNet
