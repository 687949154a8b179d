import Verif.Tls.HandshakeLemmas

/-!
# C45: the TLS handshake is answered exactly once, truthfully; a TLS connection is destroyed exactly once
-/

namespace Kasync.Tls

variable {c : Cfg} {s s' : St}

theorem inv {te : Bool} (hc : c.rtmo = false) (h : Reachable (step c) (init te) s) : Inv c s := by
  induction h with
  | refl => exact inv_init te
  | tail o _ he ih =>
    rcases step_good hc ih o with e | ⟨s1, e, g⟩
    · rw [e] at he; cases he
    · rw [e] at he; cases he; exact g.inv

theorem good {te : Bool} (hc : c.rtmo = false) (h : Reachable (step c) (init te) s) {o : Op} (he : step c s o = .ok s') : Good c s o s' := by
  rcases step_good hc (inv hc h) o with e | ⟨s1, e, g⟩
  · rw [e] at he; cases he
  · rw [e] at he; cases he; exact g

/-- **Nothing undefined**: whatever OpenSSL and the selector do, no assertion fails and the parameter block is never used after it was freed. -/
theorem tls_handshake_no_ub {te : Bool} (hc : c.rtmo = false) (h : Reachable (step c) (init te) s) (o : Op) : step c s o ≠ .ub := by
  rcases step_good hc (inv hc h) o with e | ⟨s1, e, _⟩ <;> rw [e] <;> simp

/-- **Exactly one answer or exactly one request**: after `kconnection_ssl_handshake`, either the callback has been called exactly once, the
parameter block has been freed exactly once and nothing is requested of the selector, or it has not been called and exactly one direction is waited for. -/
theorem tls_handshake_answered_once {te : Bool} (hc : c.rtmo = false) (h : Reachable (step c) (init te) s) (hs : s.started = true) :
    (s.answers.length = 1 ∧ s.frees = 1 ∧ s.rd = false ∧ s.wr = false) ∨ (s.answers = [] ∧ s.frees = 0 ∧ (s.rd ^^ s.wr) = true) := by
  have hi := inv hc h
  have := hi.fr
  rcases hi.one hs with ⟨h1, h2⟩ | ⟨h1, h2⟩
  · right
    refine ⟨h1, by rw [this, h1]; rfl, ?_⟩
    rcases h2 with ⟨a, b⟩ | ⟨a, b⟩ <;> rw [a, b] <;> rfl
  · left
    have : s.answers.length = 1 := by rcases h1 with e | e <;> rw [e] <;> rfl
    exact ⟨this, by rw [hi.fr]; exact this, h2⟩

/-- **The answer is final**: once it is given, nothing happens any more. -/
theorem tls_handshake_final {te : Bool} (hc : c.rtmo = false) (h : Reachable (step c) (init te) s) (ha : s.answers ≠ []) (o : Op) :
    step c s o = .disabled := by
  rcases step_good hc (inv hc h) o with e | ⟨s1, e, g⟩
  · exact e
  · exact absurd g.fresh ha

/-- **Success is truthful**: it is reported only in the very step in which OpenSSL said that the handshake is complete or gave a byte of early data. -/
theorem tls_handshake_ok_truthful {te : Bool} (hc : c.rtmo = false) (h : Reachable (step c) (init te) s) {o : Op} (he : step c s o = .ok s')
    (ha : s'.answers = [.ok]) : ∃ i, o.input c s = some i ∧ i.done s.tryEarly := (good hc h he).ok ha

/-- **Failure is truthful**: it is reported only if the request failed or OpenSSL gave an error that is not a request to be called again. -/
theorem tls_handshake_failed_truthful {te : Bool} (hc : c.rtmo = false) (h : Reachable (step c) (init te) s) {o : Op} (he : step c s o = .ok s')
    (ha : s'.answers = [.failed]) :
    o = .writeFail ∨ (c.bio = false ∧ ∃ i, o = .readFail i) ∨ ∃ i, o.input c s = some i ∧ i.fatal s.tryEarly := (good hc h he).failed ha

/-- **Nothing is held back**: if no bytes of OpenSSL are left to be sent, completion is reported at once as success and a fatal error at once as failure. -/
theorem tls_handshake_complete {te : Bool} (hc : c.rtmo = false) (h : Reachable (step c) (init te) s) {o : Op} (he : step c s o = .ok s')
    {i : In} (hi : o.input c s = some i) (hb : c.bio = true → s'.out = []) :
    (i.done s.tryEarly → s'.answers = [.ok]) ∧ (i.fatal s.tryEarly → s'.answers = [.failed]) :=
  ⟨((good hc h he).called i hi hb).1, ((good hc h he).called i hi hb).2.1⟩

/-- **The right direction is waited for**: for input only after OpenSSL asked for input and when none of its bytes is left to be sent; for output only while bytes
are left to be sent or after OpenSSL asked for output. -/
theorem tls_handshake_waits {te : Bool} (hc : c.rtmo = false) (h : Reachable (step c) (init te) s) {o : Op} (he : step c s o = .ok s') :
    (s'.rd = true → (∃ i, o.input c s = some i ∧ i.wantsRead s.tryEarly) ∧ (c.bio = true → s'.out = [])) ∧
    (s'.wr = true → (c.bio = true ∧ s'.out ≠ []) ∨ ∃ i, o.input c s = some i ∧ i.wantsWrite s.tryEarly) :=
  have g := good hc h he
  ⟨fun e => ⟨g.rd e, (g.inv.rdS e).2⟩, g.wr⟩

/-- **No handshake byte is lost, repeated or reordered**: what was handed to the socket is a prefix of what OpenSSL produced and the rest is still in the BIO; when
success is reported without early data everything has been handed to the socket. -/
theorem tls_handshake_bytes {te : Bool} (hc : c.rtmo = false) (h : Reachable (step c) (init te) s) :
    s.sent ++ s.out = s.made ∧ (c.bio = true → s.answers = [.ok] → s.inEarly = false → s.sent = s.made) := by
  have hi := inv hc h
  refine ⟨hi.made.symm, fun hb ha he => ?_⟩
  rcases hi.okS ha with e | e
  · rw [he] at e; cases e
  · have := hi.made; rw [e hb, List.append_nil] at this; exact this.symm

/-- **The early byte is kept**: early data is announced only together with success, the byte OpenSSL gave is stored, and (C35) the first read returns it. -/
theorem tls_handshake_early_byte {te : Bool} (hc : c.rtmo = false) (h : Reachable (step c) (init te) s) {o : Op} (he : step c s o = .ok s')
    (hs : s'.inEarly = true) : s'.preread = true ∧ s'.answers = [.ok] ∧ ∃ i, o.input c s = some i ∧ i.early = .success s'.earlyBuf :=
  have g := good hc h he
  ⟨(g.inv.early hs).1, (g.inv.early hs).2, g.early hs⟩

/-- **Early data is asked for until OpenSSL delivers some or says that there is none**, and never afterwards. -/
theorem tls_handshake_early_mode {te : Bool} (hc : c.rtmo = false) (h : Reachable (step c) (init te) s) {o : Op} (he : step c s o = .ok s') :
    s'.tryEarly = true ↔ s.tryEarly = true ∧ ∀ i, o.input c s = some i → ∃ e, i.early = .fail e := by
  rw [(good hc h he).mode, Bool.and_eq_true]
  refine and_congr_right fun _ => ?_
  cases hi : o.input c s with
  | none => simp
  | some i =>
    simp only [Option.some.injEq]
    constructor
    · rintro e _ rfl
      unfold In.stillEarly at e
      split at e
      · exact ⟨_, by assumption⟩
      · cases e
    · intro e
      obtain ⟨x, hx⟩ := e i rfl
      simp [In.stillEarly, hx]

/-- the shutdown code compares a `kssl_status` with OpenSSL's error numbers (src/kconnection.c:132-145); this is right only because the numbers happen to be the same -/
theorem tls_status_numbers_coincide : retWantRead = SSL_ERROR_WANT_READ ∧ retWantWrite = SSL_ERROR_WANT_WRITE := ⟨rfl, rfl⟩

/-! ## Non-vacuity -/

/-- a handshake without BIOs: wait for input, wait for output, done -/
example : (run (step ⟨false, false⟩) (init false)
    [.start ⟨.finish, .fail .wantRead, []⟩, .readable ⟨.finish, .fail .wantWrite, []⟩, .writable 0 ⟨.finish, .one, []⟩]).map (fun s => (s.answers, s.frees))
    = some ([.ok], 1) := by decide

/-- with BIOs: a flight of three bytes leaves in two writes, then input, then the last flight, then success -/
example : (run (step ⟨true, false⟩) (init false)
    [.start ⟨.finish, .fail .wantRead, [1, 2, 3]⟩, .writable 2 ⟨.finish, .one, []⟩, .writable 1 ⟨.finish, .fail .wantRead, []⟩,
     .readable ⟨.finish, .one, [4]⟩, .writable 1 ⟨.finish, .one, []⟩]).map (fun s => (s.answers, s.sent, s.out))
    = some ([.ok], [1, 2, 3, 4], []) := by decide

/-- early data -/
example : (run (step ⟨false, false⟩) (init true)
    [.start ⟨.fail .wantRead, .one, []⟩, .readable ⟨.success 7, .one, []⟩]).map (fun s => (s.answers, s.inEarly, s.preread, s.earlyBuf))
    = some ([.ok], true, true, 7) := by decide

/-- failures -/
example : (run (step ⟨false, false⟩) (init false) [.start ⟨.finish, .fail .wantRead, []⟩, .readFail ⟨.finish, .one, []⟩]).map (fun s => s.answers)
    = some [.failed] := by decide
example : (run (step ⟨true, false⟩) (init false) [.start ⟨.finish, .fail .ssl, [9]⟩]).map (fun s => (s.answers, s.sent)) = some ([.failed], []) := by decide

/-! ## Findings -/

/-- A connection flagged STF_RTIME_OUT: a read timeout during the handshake (-2) is taken for readiness; the driver runs again while its read request is still pending,
and asks for another one: assertion failure (src/kconnection.c:202-213 with src/kselector.c:188-195). -/
theorem tls_handshake_timeout_asserts : ∃ s i, Reachable (step ⟨false, true⟩) (init false) s ∧ step ⟨false, true⟩ s (.readTimeout i) = .ub :=
  ⟨{ started := true, rd := true, status := 2 }, ⟨.finish, .fail .wantRead, []⟩,
    .tail (.start ⟨.finish, .fail .wantRead, []⟩) .refl (by decide), by decide⟩

/-- Or the handshake completes in that call, the parameter block is freed while the read request that points to it is still pending, and the next event uses it. -/
theorem tls_handshake_timeout_use_after_free :
    ∃ s i i', Reachable (step ⟨false, true⟩) (init false) s ∧
      (∃ s', step ⟨false, true⟩ s (.readTimeout i) = .ok s' ∧ s'.frees = 1 ∧ s'.rd = true ∧ step ⟨false, true⟩ s' (.readable i') = .ub) :=
  ⟨{ started := true, rd := true, status := 2 }, ⟨.finish, .one, []⟩, ⟨.finish, .one, []⟩,
    .tail (.start ⟨.finish, .fail .wantRead, []⟩) .refl (by decide), _, rfl, by decide, by decide, by decide⟩

/-- The alert OpenSSL writes when a handshake fails stays in the outgoing BIO (src/kconnection.c:171-175 flushes only if there is no error): whenever the first
call fails with an error other than a certificate look-up, the bytes of that call are not sent. -/
theorem tls_handshake_alert_not_sent {te : Bool} (i : In)
    (hf : i.fatal te) (h0 : i.early ≠ .fail .x509Lookup) (h1 : i.hs ≠ .fail .x509Lookup) :
    ∃ s', step c (init te) (.start i) = .ok s' ∧ s'.answers = [.failed] ∧ s'.sent = [] ∧ s'.out = i.out := by
  have hz : ∀ e : SslErr, e.retry = false → e ≠ .x509Lookup → handshakeStatus e = 0 := by
    intro e; cases e <;> simp [SslErr.retry, handshakeStatus, retError]
  obtain ⟨i1, i2, i3⟩ := i
  rcases hf with ⟨rfl, e, rfl, he⟩ | ⟨h2, e, rfl, he⟩
  · have := hz e he (fun e' => h0 (by rw [e']))
    simp [step, init, handshake, handshakeCheck, this, answer, retError, retOk, retWantRead, retWantWrite]
  · have := hz e he (fun e' => h1 (by rw [e']))
    cases te
    · simp [step, init, handshake, handshakeCheck, sslHandshake, this, answer, retError, retOk, retWantRead, retWantWrite]
    · dsimp only at h2
      simp [step, init, handshake, handshakeCheck, sslHandshake, this, answer, retError, retOk, retWantRead, retWantWrite, h2]

end Kasync.Tls
