import Verif.Tls.Handshake

/-!
# C45, second half: a TLS connection is shut down and destroyed exactly once
-/

namespace Kasync.Tls

variable {c : Cfg} {s s' : Sd}

structure SdInv (c : Cfg) (s : Sd) : Prop where
  idle : s.started = false → s.rd = false ∧ s.wr = false ∧ s.destroyed = 0 ∧ s.out = [] ∧ s.sent = [] ∧ s.made = []
  one : s.started = true → (s.destroyed = 0 ∧ (s.rd = true ∧ s.wr = false ∨ s.rd = false ∧ s.wr = true)) ∨
    (s.destroyed = 1 ∧ s.rd = false ∧ s.wr = false)
  made : s.made = s.sent ++ s.out
  rdS : s.rd = true → c.bio = true → s.out = []

theorem sdInv_init : SdInv c sdInit := by constructor <;> simp [sdInit]

/-- What OpenSSL did in this step, if it was called. -/
def SdOp.input (c : Cfg) (s : Sd) : SdOp → Option In
  | .start tls err i => if tls = true ∧ err = false then some i else none
  | .readable i => some i
  | .readFail i => if c.bio then some i else none
  | .writable k i => if c.bio = true ∧ s.out ≠ [] ∧ k < s.out.length then none else some i
  | .writeFail => none

/-- What one step may do. -/
structure SdGood (c : Cfg) (s : Sd) (o : SdOp) (s' : Sd) : Prop where
  inv : SdInv c s'
  started : s'.started = true
  fresh : s.destroyed = 0
  calls : s'.calls = s.calls + (if (o.input c s).isSome then 1 else 0)
  rd : s'.rd = true → ∃ i, o.input c s = some i ∧ i.hs = .fail .wantRead ∧ (c.bio = true → s'.out = [])
  wr : s'.wr = true → (c.bio = true ∧ s'.out ≠ []) ∨ ∃ i, o.input c s = some i ∧ i.hs = .fail .wantWrite
  ok : ∀ i, o.input c s = some i → i.hs = .one → c.bio = true → s'.destroyed = 1 → s'.out = []
  gone : s'.destroyed = 1 → o.input c s = none ∨ ∃ i, o.input c s = some i ∧ i.hs ≠ .fail .wantRead ∧ i.hs ≠ .fail .wantWrite

structure SdPre (s : Sd) : Prop where
  st : s.started = true
  rd : s.rd = false
  wr : s.wr = false
  de : s.destroyed = 0
  made : s.made = s.sent ++ s.out

theorem shutdown_total (h : SdPre s) (i : In) : ∃ s', shutdown c s i = .ok s' := by
  obtain ⟨h0, h1, h2, h3, h4⟩ := h
  unfold shutdown
  simp only [destroy, h3, ne_eq, not_true_eq_false, if_false, h1, h2, if_true, Bool.false_eq_true]
  repeat' split
  all_goals exact ⟨_, rfl⟩

theorem sslShutdown_cases (r : SslRet) :
    (sslShutdown r = retOk ∧ r = .one) ∨ (sslShutdown r = retWantRead ∧ r = .fail .wantRead) ∨ (sslShutdown r = retWantWrite ∧ r = .fail .wantWrite) ∨
    (sslShutdown r = retError ∧ r ≠ .one ∧ r ≠ .fail .wantRead ∧ r ≠ .fail .wantWrite) := by
  cases r with
  | one => simp [sslShutdown]
  | fail e => cases e <;> simp [sslShutdown]

theorem shutdown_good {o : SdOp} {s1 : Sd} (h : SdPre s1) (h1 : s.destroyed = 0) (hc : s1.calls = s.calls) (i : In) (hi : o.input c s = some i)
    (he : shutdown c s1 i = .ok s') : SdGood c s o s' := by
  obtain ⟨p0, p1, p2, p3, p4⟩ := h
  unfold shutdown at he
  simp only [destroy, p3, ne_eq, not_true_eq_false, if_false, p1, p2, if_true, Bool.false_eq_true] at he
  have hz := sslShutdown_cases i.hs
  repeat' split at he
  all_goals first | cases he | skip
  all_goals (constructor <;> (try constructor) <;> (try dsimp only at *) <;> first | assumption | grind [retError, retOk, retWantRead, retWantWrite, SSL_ERROR_WANT_READ, SSL_ERROR_WANT_WRITE])

theorem destroy_good {o : SdOp} {s1 : Sd} (h : SdPre s1) (h1 : s.destroyed = 0) (hc : s1.calls = s.calls) (hi : o.input c s = none) :
    ∃ s', destroy s1 = .ok s' ∧ SdGood c s o s' := by
  obtain ⟨p0, p1, p2, p3, p4⟩ := h
  refine ⟨{ s1 with destroyed := 1 }, by unfold destroy; rw [if_pos p3], ?_⟩
  constructor
  · constructor <;> simp_all
  all_goals simp_all

theorem SdInv.rdPre (h : SdInv c s) (hr : s.rd = true) : SdPre { s with rd := false } := by
  have h1 : s.started = true := by
    cases e : s.started
    · have := (h.idle e).1; rw [hr] at this; cases this
    · rfl
  have h2 := h.one h1
  have h3 : s.destroyed = 0 ∧ s.wr = false := by grind
  exact ⟨h1, rfl, h3.2, h3.1, h.made⟩

theorem SdInv.wrPre (h : SdInv c s) (hr : s.wr = true) : SdPre { s with wr := false } := by
  have h1 : s.started = true := by
    cases e : s.started
    · have := (h.idle e).2.1; rw [hr] at this; cases this
    · rfl
  have h2 := h.one h1
  have h3 : s.destroyed = 0 ∧ s.rd = false := by grind
  exact ⟨h1, h3.2, rfl, h3.1, h.made⟩

theorem sdStep_good (h : SdInv c s) (o : SdOp) : sdStep c s o = .disabled ∨ ∃ s', sdStep c s o = .ok s' ∧ SdGood c s o s' := by
  cases o with
  | start tls err i =>
    unfold sdStep
    cases e : s.started
    · simp only [Bool.false_eq_true, if_false]
      obtain ⟨h1, h2, h3, h4, h5, h6⟩ := h.idle e
      have hp : SdPre { s with started := true } := ⟨rfl, h1, h2, h3, h.made⟩
      by_cases ht : tls = true ∧ ¬ err = true
      · rw [if_pos ht]
        obtain ⟨s', he⟩ := shutdown_total (c := c) hp i
        exact Or.inr ⟨s', he, shutdown_good hp h3 rfl i (by simp only [SdOp.input]; rw [if_pos ⟨ht.1, by simpa using ht.2⟩]) he⟩
      · rw [if_neg ht]
        exact Or.inr (destroy_good hp h3 rfl (by simp only [SdOp.input]; rw [if_neg (fun e => ht ⟨e.1, by simp [e.2]⟩)]))
    · exact Or.inl rfl
  | readable i =>
    unfold sdStep
    cases e : s.rd
    · exact Or.inl rfl
    · simp only [if_true]
      have hp := h.rdPre e
      obtain ⟨s', he⟩ := shutdown_total (c := c) hp i
      exact Or.inr ⟨s', he, shutdown_good hp hp.de rfl i rfl he⟩
  | writeFail =>
    unfold sdStep
    cases e : s.wr
    · exact Or.inl rfl
    · simp only [if_true]
      have hp := h.wrPre e
      exact Or.inr (destroy_good hp hp.de rfl rfl)
  | readFail i =>
    unfold sdStep
    cases e : s.rd
    · exact Or.inl rfl
    · simp only [if_true]
      have hp := h.rdPre e
      cases hb : c.bio
      · exact Or.inr (destroy_good hp hp.de rfl (by simp [SdOp.input, hb]))
      · obtain ⟨s', he⟩ := shutdown_total (c := c) hp i
        exact Or.inr ⟨s', he, shutdown_good hp hp.de rfl i (by simp [SdOp.input, hb]) he⟩
  | writable k i =>
    unfold sdStep
    cases e : s.wr
    · exact Or.inl rfl
    · simp only [if_true]
      have hp := h.wrPre e
      by_cases hb : c.bio = true ∧ s.out ≠ []
      · rw [if_pos hb]
        by_cases hk : 0 < k ∧ k ≤ s.out.length
        · rw [if_pos hk]
          by_cases hd : s.out.drop k ≠ []
          · have hin : SdOp.input c s (.writable k i) = none := by
              simp only [SdOp.input]
              rw [if_pos]
              refine ⟨hb.1, hb.2, ?_⟩
              have := List.length_pos_iff.2 hd
              rw [List.length_drop] at this; omega
            rw [if_pos hd]
            refine Or.inr ⟨_, rfl, ?_⟩
            obtain ⟨p0, p1, p2, p3, p4⟩ := hp
            dsimp only at p0 p1 p2 p3 p4
            constructor
            · constructor
              · simp [p0]
              · exact fun _ => Or.inl ⟨p3, Or.inr ⟨p1, rfl⟩⟩
              · simp [h.made]
              · simp [p1]
            · exact p0
            · exact p3
            · simp [hin]
            · simp [p1]
            · exact fun _ => Or.inl ⟨hb.1, hd⟩
            · simp [hin]
            · simp [p3]
          · rw [if_neg hd]
            have hp' : SdPre { s with sent := s.sent ++ s.out.take k, out := s.out.drop k, wr := false } :=
              ⟨hp.st, hp.rd, rfl, hp.de, by simp [h.made]⟩
            obtain ⟨s', he⟩ := shutdown_total (c := c) hp' i
            refine Or.inr ⟨s', he, shutdown_good hp' hp.de rfl i ?_ he⟩
            simp only [SdOp.input]
            rw [if_neg]
            rintro ⟨_, _, e1⟩
            exact hd (fun e2 => by have := congrArg List.length e2; rw [List.length_drop, List.length_nil] at this; omega)
        · rw [if_neg hk]; exact Or.inl rfl
      · rw [if_neg hb]
        obtain ⟨s', he⟩ := shutdown_total (c := c) hp i
        refine Or.inr ⟨s', he, shutdown_good hp hp.de rfl i ?_ he⟩
        simp only [SdOp.input]
        rw [if_neg]
        rintro ⟨e1, e2, _⟩
        exact hb ⟨e1, e2⟩

theorem sdInv (h : Reachable (sdStep c) sdInit s) : SdInv c s := by
  induction h with
  | refl => exact sdInv_init
  | tail o _ he ih =>
    rcases sdStep_good ih o with e | ⟨s1, e, g⟩
    · rw [e] at he; cases he
    · rw [e] at he; cases he; exact g.inv

theorem sdGood (h : Reachable (sdStep c) sdInit s) {o : SdOp} (he : sdStep c s o = .ok s') : SdGood c s o s' := by
  rcases sdStep_good (sdInv h) o with e | ⟨s1, e, g⟩
  · rw [e] at he; cases he
  · rw [e] at he; cases he; exact g

/-- **Nothing undefined**: the connection is not destroyed twice, not used afterwards, and no direction is requested twice. -/
theorem tls_shutdown_no_ub (h : Reachable (sdStep c) sdInit s) (o : SdOp) : sdStep c s o ≠ .ub := by
  rcases sdStep_good (sdInv h) o with e | ⟨s1, e, _⟩ <;> rw [e] <;> simp

/-- **Destroyed exactly once or waiting for exactly one event**, once `kconnection_destroy` has been called. -/
theorem tls_destroyed_once (h : Reachable (sdStep c) sdInit s) (hs : s.started = true) :
    (s.destroyed = 1 ∧ s.rd = false ∧ s.wr = false) ∨ (s.destroyed = 0 ∧ (s.rd ^^ s.wr) = true) := by
  rcases (sdInv h).one hs with ⟨h1, h2⟩ | ⟨h1, h2⟩
  · exact Or.inr ⟨h1, by rcases h2 with ⟨a, b⟩ | ⟨a, b⟩ <;> rw [a, b] <;> rfl⟩
  · exact Or.inl ⟨h1, h2⟩

/-- **After the destruction nothing happens.** -/
theorem tls_destroyed_final (h : Reachable (sdStep c) sdInit s) (hd : s.destroyed ≠ 0) (o : SdOp) : sdStep c s o = .disabled := by
  rcases sdStep_good (sdInv h) o with e | ⟨s1, e, g⟩
  · exact e
  · exact absurd g.fresh hd

/-- **It waits only when OpenSSL wants it, or to send what OpenSSL produced**, and destroys only when a request failed or OpenSSL wants no more. -/
theorem tls_shutdown_waits (h : Reachable (sdStep c) sdInit s) {o : SdOp} (he : sdStep c s o = .ok s') :
    (s'.rd = true → ∃ i, o.input c s = some i ∧ i.hs = .fail .wantRead ∧ (c.bio = true → s'.out = [])) ∧
    (s'.wr = true → (c.bio = true ∧ s'.out ≠ []) ∨ ∃ i, o.input c s = some i ∧ i.hs = .fail .wantWrite) ∧
    (s'.destroyed = 1 → o.input c s = none ∨ ∃ i, o.input c s = some i ∧ i.hs ≠ .fail .wantRead ∧ i.hs ≠ .fail .wantWrite) :=
  have g := sdGood h he
  ⟨g.rd, g.wr, g.gone⟩

/-- **The bytes of the shutdown** are sent in order, none lost or repeated; if the connection is destroyed because OpenSSL says that both sides have shut down, all of them have been sent. -/
theorem tls_shutdown_bytes (h : Reachable (sdStep c) sdInit s) {o : SdOp} (he : sdStep c s o = .ok s') :
    s'.sent ++ s'.out = s'.made ∧
    (∀ i, o.input c s = some i → i.hs = .one → c.bio = true → s'.destroyed = 1 → s'.sent = s'.made) := by
  have g := sdGood h he
  refine ⟨g.inv.made.symm, fun i h1 h2 h3 h4 => ?_⟩
  have := g.inv.made
  rw [g.ok i h1 h2 h3 h4, List.append_nil] at this
  exact this.symm

/-! ## Non-vacuity -/

/-- a full shutdown through BIOs: close_notify leaves in two writes, the peer's is read, the connection is destroyed -/
example : (run (sdStep ⟨true, false⟩) sdInit
    [.start true false ⟨.finish, .fail .wantRead, [1, 2]⟩, .writable 1 ⟨.finish, .one, []⟩, .writable 1 ⟨.finish, .fail .wantRead, []⟩,
     .readable ⟨.finish, .one, []⟩]).map (fun s => (s.destroyed, s.calls, s.sent)) = some (1, 3, [1, 2]) := by decide

/-- a connection in error is destroyed without asking OpenSSL -/
example : (run (sdStep ⟨false, false⟩) sdInit [.start true true ⟨.finish, .one, []⟩]).map (fun s => (s.destroyed, s.calls)) = some (1, 0) := by decide

/-! ## Finding -/

/-- With BIOs, the usual first `SSL_shutdown` puts close_notify into the outgoing BIO and returns 0, for which `SSL_get_error` gives SSL_ERROR_SYSCALL; the driver takes it for an
error and destroys the connection: close_notify is never sent (src/kgl_ssl.c:820-834, src/kconnection.c:127-131). -/
theorem tls_close_notify_not_sent (bs : List Byte) :
    ∃ s', sdStep ⟨true, false⟩ sdInit (.start true false ⟨.finish, .fail .syscall, bs⟩) = .ok s' ∧ s'.destroyed = 1 ∧ s'.sent = [] ∧ s'.out = bs := by
  simp [sdStep, sdInit, shutdown, sslShutdown, destroy, retError, SSL_ERROR_WANT_READ, SSL_ERROR_WANT_WRITE]

end Kasync.Tls
