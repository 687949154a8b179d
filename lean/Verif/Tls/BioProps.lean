import Verif.Tls.BioInv

/-!
# C48: TLS through the memory BIOs

For every chunk size, every behaviour of OpenSSL, every order of events and every outcome of the socket calls.
-/

namespace Kasync.Tls.Bio

open KBuf (Byte stream)

variable {junk : Nat → Byte} {dbg : Bool} {n : Nat}

/-- **C48.** What the socket has accepted is a prefix of what OpenSSL produced, in order; the rest is in the outgoing buffer. -/
theorem bio_wire (hn : 0 < n) {s : St} (h : Reachable junk dbg n s) : s.wire ++ stream s.wb = s.produced :=
  (reachable_inv hn h).core.hwire

/-- **C48.** What OpenSSL got is a prefix of what was received, in order; the rest is in the incoming buffer. -/
theorem bio_fed (hn : 0 < n) {s : St} (h : Reachable junk dbg n s) : s.fed ++ stream s.rb = s.recv :=
  (reachable_inv hn h).core.hfed

/-- **C48.** Every request made is pending or answered, and answered once. -/
theorem bio_answered_once (hn : 0 < n) {s : St} (h : Reachable junk dbg n s) :
    ((s.rans ++ s.wans).map (·.1)).Nodup ∧
    ∀ i, (i < s.next ↔ i ∈ (s.rans ++ s.wans).map (·.1) ∨ s.rd.id? = some i ∨ s.wr.id? = some i) ∧
      (i ∈ (s.rans ++ s.wans).map (·.1) → s.rd.id? ≠ some i ∧ s.wr.id? ≠ some i) ∧
      (s.rd.id? = some i → s.wr.id? ≠ some i) := by
  have hi := (reachable_inv hn h).ids
  have hc : ∀ i, ((s.rans ++ s.wans).map (·.1)).count i = (s.rans.map (·.1)).count i + (s.wans.map (·.1)).count i := by
    intro i; rw [List.map_append, List.count_append]
  constructor
  · rw [List.nodup_iff_count]
    intro i
    have := hi i
    rw [hc]
    unfold tally at this
    generalize (if s.rd.id? = some i then 1 else 0) = a at this
    generalize (if s.wr.id? = some i then 1 else 0) = b at this
    split at this <;> omega
  · intro i
    have := hi i
    unfold tally at this
    rw [← hc] at this
    have hm : i ∈ (s.rans ++ s.wans).map (·.1) ↔ 0 < ((s.rans ++ s.wans).map (·.1)).count i := List.count_pos_iff.symm
    rw [hm]
    clear * - this
    generalize ((s.rans ++ s.wans).map (·.1)).count i = k at *
    by_cases h1 : i < s.next <;> by_cases h2 : s.rd.id? = some i <;> by_cases h3 : s.wr.id? = some i <;>
      simp only [h1, h2, h3, if_true, if_false] at this <;> simp [h1, h2, h3] <;> omega

/-- **C48.** A write answered with a positive number got the result of its own (only) `SSL_write`, and everything OpenSSL had
produced when that call returned has been accepted by the socket. -/
theorem bio_write_answer (hn : 0 < n) {s : St} (h : Reachable junk dbg n s) {id : Nat} {v : Int} (ha : (id, v) ∈ s.wans)
    (hv : 0 < v) : ∃ r ∈ s.reqs, r.id = id ∧ r.got = v ∧ (∀ r' ∈ s.reqs, r'.id = id → r' = r) ∧
      r.mark ≤ s.produced.length ∧ s.produced.take r.mark <+: s.wire := by
  have hi := reachable_inv hn h
  obtain ⟨r, hr, h1, h2, h3⟩ := hi.ans (id, v) ha hv
  refine ⟨r, hr, h1, h2, ?_, (hi.marks r hr).1, ?_⟩
  · intro r' hr' he
    have hnd := hi.reqN
    have key : ∀ l : List Req, (l.map (·.id)).Nodup → r ∈ l → r' ∈ l → r' = r := by
      intro l
      induction l with
      | nil => intro _ h; cases h
      | cons a l ih =>
        intro hn h1' h2'
        simp only [List.map_cons, List.nodup_cons] at hn
        rcases List.mem_cons.1 h1' with rfl | h1m
        · rcases List.mem_cons.1 h2' with e | h2'
          · exact e
          · exact absurd (List.mem_map.2 ⟨r', h2', he.trans h1.symm⟩) hn.1
        · rcases List.mem_cons.1 h2' with rfl | h2'
          · exact absurd (List.mem_map.2 ⟨r, h1m, h1.trans he.symm⟩) hn.1
          · exact ih hn.2 h1m h2'
    exact key _ hnd hr hr'
  · rw [← hi.core.hwire, List.take_append_of_le_length h3]
    exact List.take_prefix _ _

/-- what a write request records: the result of the `SSL_write` made for it and the bytes produced so far -/
theorem bio_write_records (hn : 0 < n) {s s' : St} (hr : Reachable junk dbg n s) {buf : Bool} {call : Call}
    (hs : step junk dbg s (.write buf call) = some s') :
    s'.next = s.next + 1 ∧ s'.reqs = s.reqs ++ [⟨s.next, if buf then call.got else 0, s'.produced.length⟩] := by
  have hi := reachable_inv hn hr
  have hc : Core { s with next := s.next + 1 } := ⟨hi.core.rwf, hi.core.rcs, hi.core.rsh, hi.core.wwf, hi.core.wcs, hi.core.wti,
    hi.core.hwire, hi.core.hfed, hi.core.hshut, hi.core.heofs, hi.core.heofs'⟩
  simp only [step, startWrite] at hs
  split at hs
  · cases hs
  · split at hs
    · cases hs
    · rename_i s1 e1
      have hnx : s1.next = s.next + 1 ∧ s1.reqs = s.reqs := by
        cases buf with
        | true =>
          obtain ⟨s2, e2, -, f⟩ := runActs_spec junk call.acts hc
          simp only [if_true] at e1
          rw [e2] at e1
          cases e1
          exact ⟨f.next, f.reqs⟩
        | false => simp at e1; rw [← e1]; simp
      split at hs <;> cases hs <;> simp [hnx]

/-- **C48.** OpenSSL is told the end of the stream only after the socket reported its end (or an error), and only when it has
been given every byte received. -/
theorem bio_eof (hn : 0 < n) {s : St} (h : Reachable junk dbg n s) :
    (∀ p ∈ s.eofs, p.1 = p.2) ∧ (s.eofs ≠ [] → s.ended = true) :=
  ⟨(reachable_inv hn h).core.heofs, (reachable_inv hn h).core.heofs'⟩

/-- **C48.** Once the socket has reported its end, OpenSSL is told so as soon as it has consumed everything (`bio_read_next`): the end
is not forgotten. -/
theorem bio_end_remembered (hn : 0 < n) {s : St} (h : Reachable junk dbg n s) : s.shut = s.ended :=
  (reachable_inv hn h).core.hshut

/-- a BIO read gives the next bytes if there are any; with none it says "end" or "later" -/
theorem bio_read_next (hn : 0 < n) {s : St} (h : Reachable junk dbg n s) (k : Nat) :
    ∃ b r, bioRead s.shut s.rb (k + 1) = some (b, r) ∧
      (stream s.rb = [] → b = s.rb ∧ r = if s.shut then .eof else .retry) ∧
      (stream s.rb ≠ [] → ∃ bs, r = .data bs ∧ bs ≠ [] ∧ bs ++ stream b = stream s.rb) := by
  have c := (reachable_inv hn h).core
  obtain ⟨b, out, e, w, sh, st, z, o1, o2⟩ := read_rb c.rwf c.rsh k
  by_cases ho : out = []
  · refine ⟨b, if s.shut then .eof else .retry, by simp [bioRead, e, ho], fun hs => ⟨(o2 hs).1, rfl⟩, fun hs => absurd (o1 ho) hs⟩
  · exact ⟨b, .data out, by simp [bioRead, e, ho], fun hs => absurd (o2 hs).2 ho, fun _ => ⟨out, rfl, ho, st⟩⟩

/-- **C48.** A read waits for the socket only when no received byte is left for OpenSSL, and it offers the socket a
non-empty room that lies inside the incoming buffer's last chunk. -/
theorem bio_wait_empty (hn : 0 < n) {s : St} (h : Reachable junk dbg n s) {id : Nat} {buf : Bool} {len : Nat}
    (hr : s.rd = .sock id buf len) : stream s.rb = [] ∧ s.fed = s.recv ∧ 0 < len ∧
      ∃ c, s.rb.chunks.getLast? = some c ∧ ∃ o, s.rb.writeOff = some o ∧ o + len ≤ c.mem.length := by
  have hi := reachable_inv hn h
  obtain ⟨h1, h2, c, h3, h4, h5⟩ := hi.rsock id buf len hr
  have := hi.core.hfed
  rw [h2, List.append_nil] at this
  have hl := hi.core.rwf.last 0 h5 c (by simp [h3])
  exact ⟨h2, this, by rw [h1]; exact hi.core.rcs, c, by simp [h3], 0, h5, by omega⟩

/-- **C48.** A read that finds received bytes left for OpenSSL does not wait for the socket; one that finds none does. -/
theorem bio_read_start (hn : 0 < n) {s s' : St} (h : Reachable junk dbg n s) {buf : Bool} (hs : step junk dbg s (.read buf false) = some s') :
    (stream s.rb ≠ [] → s'.rd = .ready s.next buf) ∧ (stream s.rb = [] → ∃ len, s'.rd = .sock s.next buf len) := by
  have c := (reachable_inv hn h).core
  simp only [step, Bool.false_eq_true, if_false, sslRead] at hs
  have hp := pending_pos c.rwf
  split at hs
  · rename_i h1
    cases hs
    exact ⟨fun _ => rfl, fun h2 => absurd h2 (hp.1 h1)⟩
  · rename_i h1
    split at hs
    · cases hs
    · cases hs
      exact ⟨fun h2 => absurd (hp.2 h2) h1, fun _ => ⟨_, rfl⟩⟩

/-- **C48.** When the socket takes nothing for now (EAGAIN) the write keeps waiting, unchanged. -/
theorem bio_again (hn : 0 < n) {s : St} (h : Reachable junk dbg n s) {id : Nat} {lens : List Nat} (hw : s.wr = .sock id lens)
    (he : s.err = false) : step junk dbg s (.wEvent .again) = some s := by
  have h2 : s.wready2 = false := by
    cases h2 : s.wready2 with
    | false => rfl
    | true => have := (reachable_inv hn h).stale h2; rw [hw, he] at this; simp at this
  simp [step, writeEvent, hw, he, h2]

/-- **C48.** One buffer descriptor is allocated for each wait for the socket, none otherwise. -/
theorem bio_alloc (hn : 0 < n) {s : St} (h : Reachable junk dbg n s) : s.alloc =
    (match s.rd with | .sock _ _ _ => 1 | _ => 0) + (match s.wr with | .sock _ _ => 1 | _ => 0) := by
  have := (reachable_inv hn h).alloc
  rw [this]
  cases s.rd <;> cases s.wr <;> rfl

/-- **C48.** The iovecs of a waiting write are never empty, are at most 63, and at all times until they are written
designate the next bytes to send, whatever OpenSSL appends meanwhile. -/
theorem bio_iov (hn : 0 < n) {s : St} (h : Reachable junk dbg n s) {id : Nat} {lens : List Nat} (hw : s.wr = .sock id lens) :
    lens ≠ [] ∧ (∀ l ∈ lens, 0 < l) ∧ lens.length ≤ 63 ∧ (iovBytes s.wb.chunks s.wb.readOff lens).length = lens.sum ∧
      iovBytes s.wb.chunks s.wb.readOff lens <+: stream s.wb := by
  have hi := reachable_inv hn h
  obtain ⟨i1, i2, i3, i4⟩ := hi.wsock id lens hw
  obtain ⟨rest, hr, hl⟩ := iovBytes_prefix s.wb.chunks s.wb.readOff lens hi.core.wwf.fits i4
  exact ⟨i1, i2, i3, hl, rest, hr.symm⟩

theorem resultBioWrite_effect {s : St} {id : Nat} {k : Nat} (hw : KBuf.WF s.wb) (ht : KBuf.Tight s.wb) (hne : s.wb.chunks ≠ [])
    (hk : 0 < k) {s' : St} (he : resultBioWrite s id k = some s') :
    stream s'.wb = (stream s.wb).drop k ∧ s'.wire = s.wire ∧
      (stream s'.wb = [] → s'.wr = .idle ∧ s'.wans = s.wans ++ [(id, s.wgot)]) ∧
      (stream s'.wb ≠ [] → (∃ lens, s'.wr = .sock id lens) ∧ s'.wans = s.wans) := by
  obtain ⟨wb, flag, e, w, st, z, fl, t⟩ := KBuf.readSuccess_tight hw ht hne k
  simp only [resultBioWrite] at he
  rw [if_neg (by omega)] at he
  simp only [Int.toNat_natCast, e] at he
  have hnil := KBuf.tight_stream_nil w t
  cases flag with
  | true =>
    simp only [Option.some.injEq] at he
    subst he
    exact ⟨st, rfl, fun h => absurd (hnil.1 h) (fl.1 rfl), fun _ => ⟨⟨_, rfl⟩, rfl⟩⟩
  | false =>
    simp only [Option.some.injEq] at he
    subst he
    refine ⟨st, rfl, fun _ => ⟨rfl, rfl⟩, fun h => ?_⟩
    have hc : wb.chunks ≠ [] := mt hnil.2 h
    exact absurd (fl.2 hc) (by simp)

/-- **C48.** Progress: when the socket accepts `k` bytes of a waiting write they are the next `k` bytes to send; if bytes are left
the write waits again, otherwise it is answered, with the result of its `SSL_write`. -/
theorem bio_write_progress (hn : 0 < n) {s s' : St} (h : Reachable junk dbg n s) {id : Nat} {lens : List Nat} (hw : s.wr = .sock id lens)
    (he : s.err = false) {k : Nat} (hk : 0 < k) (hl : k ≤ lens.sum) (hs : step junk dbg s (.wEvent (.bytes k)) = some s') :
    s'.wire = s.wire ++ (stream s.wb).take k ∧ stream s'.wb = (stream s.wb).drop k ∧
      (stream s'.wb).length < (stream s.wb).length ∧
      (stream s'.wb = [] → s'.wr = .idle ∧ s'.wans = s.wans ++ [(id, s.wgot)]) ∧
      (stream s'.wb ≠ [] → (∃ lens, s'.wr = .sock id lens) ∧ s'.wans = s.wans) := by
  have hi := reachable_inv hn h
  obtain ⟨i1, i2, i3, i4, rest, hr⟩ := bio_iov hn h hw
  have h2 : s.wready2 = false := by
    cases h2 : s.wready2 with
    | false => rfl
    | true => have := hi.stale h2; rw [hw, he] at this; simp at this
  have hlen : k ≤ (stream s.wb).length := by rw [← hr, List.length_append]; omega
  have hne : s.wb.chunks ≠ [] := by
    intro hc
    have := (KBuf.tight_stream_nil hi.core.wwf hi.core.wti).2 hc
    rw [this] at hlen
    simp at hlen
    omega
  have hst : resultBioWrite { s with wire := s.wire ++ (iovBytes s.wb.chunks s.wb.readOff lens).take k } id k = some s' := by
    simp only [step, writeEvent, hw, he, h2, Bool.false_eq_true, if_false] at hs
    simpa only [hw, he, h2] using hs
  obtain ⟨a, b, c, d⟩ := resultBioWrite_effect (s := { s with wire := s.wire ++ (iovBytes s.wb.chunks s.wb.readOff lens).take k })
    hi.core.wwf hi.core.wti hne hk hst
  refine ⟨?_, a, ?_, c, d⟩
  · rw [b, ← hr, List.take_append_of_le_length (by omega)]
  · have : (stream s'.wb).length = (stream s.wb).length - k := by rw [a]; exact List.length_drop ..
    omega

/-- **C48.** Without assertions nothing the user, the selector, the socket or OpenSSL does leads to undefined behaviour. -/
theorem bio_release_safe (hn : 0 < n) {s : St} (h : Reachable junk false n s) {o : Op} (ha : Allowed s o) :
    step junk false s o ≠ none := by
  rcases step_inv junk (dbg := false) (reachable_inv hn h) o ha with ⟨h, _⟩ | ⟨s', e, _⟩
  · cases h
  · rw [e]; simp

/-- **C48.** With assertions on, a step aborts exactly in three cases (`Trips`): a write after a failed write found the connection in error
before it was sent; an answer is due while OpenSSL has put more bytes into the outgoing buffer; a read found bytes
buffered but another call consumed them. -/
theorem bio_debug_aborts (hn : 0 < n) {s : St} (h : Reachable junk true n s) {o : Op} (ha : Allowed s o) :
    step junk true s o = none ↔ Trips s o := by
  have hi := reachable_inv hn h
  constructor
  · intro hs
    rcases step_inv junk (dbg := true) hi o ha with ⟨_, h, _⟩ | ⟨s', e, _⟩
    · exact h
    · rw [e] at hs; cases hs
  · intro ht
    cases o with
    | write buf call => simp only [Trips] at ht; simp [step, startWrite, ht.1]
    | wEvent io =>
      obtain ⟨he, ⟨id, hw⟩, hst⟩ := ht
      have hp := (pending_pos hi.core.wwf).2 hst
      have h2 := (hi.wready id true hw).1
      simp [step, writeEvent, hw, he, h2, hp]
    | rReady pend call =>
      obtain ⟨⟨id, hr⟩, hp, hst, hsh⟩ := ht
      have hpe : bioPending s.rb ≤ 0 := (KBuf.total_nonpos hi.core.rwf).2 hst
      simp [step, hr, hp, hpe, hsh]
    | hup => exact ht.elim
    | read _ _ => exact ht.elim
    | rSock _ _ => exact ht.elim
    | rTimeout => exact ht.elim

/-- after a read timeout the read is still registered -/
theorem bio_timeout_keeps (s s' : St) (hs : step junk dbg s .rTimeout = some s') : s'.rd = s.rd ∧ s'.rans = s.rans ∧ s'.alloc = s.alloc := by
  simp only [step] at hs
  split at hs
  · cases hs; simp [*]
  · cases hs

/-! ## Concrete runs (chunks of 4 bytes) -/

def j0 : Nat → Byte := fun _ => 0

/-- run operations -/
def runOps (dbg : Bool) : St → List Op → Option St
  | s, [] => some s
  | s, o :: os => (step j0 dbg s o).bind fun s => runOps dbg s os

/-- decidable form of `Allowed` -/
def allowedB (s : St) : Op → Bool
  | .write _ _ => s.wr = .idle
  | .wEvent io => s.wr != .idle && (match io, s.wr with | .bytes k, .sock _ lens => decide (0 < k ∧ k ≤ lens.sum) | _, _ => true)
  | .hup => true
  | .read _ _ => s.rd = .idle
  | .rSock bs _ => match s.rd with | .sock _ _ len => bs.length ≤ len | _ => false
  | .rTimeout => match s.rd with | .sock _ _ _ => true | _ => false
  | .rReady _ _ => match s.rd with | .ready _ _ => true | _ => false

theorem allowedB_sound {s : St} {o : Op} (h : allowedB s o = true) : Allowed s o := by
  cases o with
  | write _ _ => simpa [allowedB, Allowed] using h
  | wEvent io =>
    simp only [allowedB, Bool.and_eq_true, bne_iff_ne, ne_eq] at h
    refine ⟨h.1, ?_⟩
    intro k hk id lens hw
    have := h.2
    rw [hk, hw] at this
    simpa using this
  | hup => trivial
  | read _ _ => simpa [allowedB, Allowed] using h
  | rSock bs _ =>
    simp only [allowedB] at h
    simp only [Allowed]
    split at h
    · rename_i id buf len hr; exact ⟨id, buf, len, hr, by simpa using h⟩
    · cases h
  | rTimeout =>
    simp only [allowedB] at h
    simp only [Allowed]
    split at h
    · rename_i id buf len hr; exact ⟨id, buf, len, hr⟩
    · cases h
  | rReady _ _ =>
    simp only [allowedB] at h
    simp only [Allowed]
    split at h
    · rename_i id buf hr; exact ⟨id, buf, hr⟩
    · cases h

def allAllowed (dbg : Bool) : St → List Op → Bool
  | _, [] => true
  | s, o :: os => allowedB s o && (match step j0 dbg s o with | some s => allAllowed dbg s os | none => false)

theorem reach_run {dbg : Bool} : ∀ (os : List Op) (s : St), Reachable j0 dbg 4 s → allAllowed dbg s os = true →
    ∃ s', runOps dbg s os = some s' ∧ Reachable j0 dbg 4 s'
  | [], s, h, _ => ⟨s, rfl, h⟩
  | o :: os, s, h, ha => by
    simp only [allAllowed, Bool.and_eq_true] at ha
    obtain ⟨h1, h2⟩ := ha
    split at h2
    · rename_i s1 e
      obtain ⟨s', e', r⟩ := reach_run os s1 (.tail o h (allowedB_sound h1) e) h2
      exact ⟨s', by simp [runOps, e, e'], r⟩
    · cases h2

/-- what a run shows -/
structure Obs where
  wire : List Byte
  produced : List Byte
  fed : List Byte
  recv : List Byte
  rans : List (Nat × Int)
  wans : List (Nat × Int)
  alloc : Nat
  wr : Wr
  rd : Rd
  eofs : List (Nat × Nat)
  deriving DecidableEq, Repr

def obs (s : St) : Obs := ⟨s.wire, s.produced, s.fed, s.recv, s.rans, s.wans, s.alloc, s.wr, s.rd, s.eofs⟩

/-- a record of six bytes sent in two pieces while a read is answered and makes OpenSSL add a byte; then the peer's end -/
def demo : List Op :=
  [.write true { acts := [.w [1, 2, 3], .w [4, 5, 6]], got := 5 }, .read true false, .wEvent (.bytes 5),
   .rSock [7, 8, 9] { acts := [.r 1, .r 4, .w [10]], got := 2 }, .wEvent (.bytes 1), .wEvent .again, .wEvent (.bytes 1),
   .read true true, .rReady true { acts := [.r 0], got := -1, again := true }, .rSock [] { acts := [.r 0], got := 0 }]

example : allAllowed false (start 4) demo = true := by decide +kernel
example : (runOps false (start 4) demo).map obs = some
    { wire := [1, 2, 3, 4, 5, 6, 10], produced := [1, 2, 3, 4, 5, 6, 10], fed := [7, 8, 9], recv := [7, 8, 9],
      rans := [(1, 2), (2, 0)], wans := [(0, 5)], alloc := 0, wr := .idle, rd := .idle, eofs := [(3, 3)] } := by decide +kernel
/-- in the middle of the run the write waits with one iovec while a byte was added behind it -/
example : (runOps false (start 4) (demo.take 4)).map obs = some
    { wire := [1, 2, 3, 4, 5], produced := [1, 2, 3, 4, 5, 6, 10], fed := [7, 8, 9], recv := [7, 8, 9],
      rans := [(1, 2)], wans := [], alloc := 1, wr := .sock 0 [1], rd := .idle, eofs := [] } := by decide +kernel

/-! ## Findings -/

/-- **Finding (C48).** Bytes that `SSL_read` puts into the outgoing buffer (alerts, key updates) are not sent: no write is registered for
them and they stay until the user writes. -/
example : (runOps false (start 4) [.read true false, .rSock [1, 2] { acts := [.r 4, .w [9, 9]], got := -1 }]).map obs = some
    { wire := [], produced := [9, 9], fed := [1, 2], recv := [1, 2], rans := [(0, -1)], wans := [], alloc := 0, wr := .idle, rd := .idle, eofs := [] } := by
  decide +kernel

/-- **Finding (C48).** A write whose `SSL_write` produced nothing waits in the ready list; if a read makes OpenSSL produce bytes before it is
answered, `kassert(BIO_pending <= 0)` fails in a debug build. -/
example : allAllowed true (start 4) [.write true { got := -1 }, .read true false, .rSock [1] { acts := [.r 4, .w [9]], got := -1 }] = true ∧
    runOps true (start 4) [.write true { got := -1 }, .read true false, .rSock [1] { acts := [.r 4, .w [9]], got := -1 }, .wEvent .again] = none := by
  decide +kernel

/-- **Finding (C48).** When the peer has closed its side (STF_ERR) a write in the ready list is answered -1 and STF_WREADY2 stays set: the next
write fails an assertion in a debug build. -/
example : allAllowed true (start 4) [.write true { got := -1 }, .hup, .wEvent .again] = true ∧
    runOps true (start 4) [.write true { got := -1 }, .hup, .wEvent .again, .write false { got := 0 }] = none := by
  decide +kernel

/-- **Finding (C48).** A write answered -1 because of STF_ERR (the peer closed its sending side) leaves its ciphertext unsent although the socket could
still take it, and the next write would send it first. -/
example : (runOps false (start 4) [.write true { acts := [.w [1, 2]], got := 2 }, .hup, .wEvent (.bytes 2)]).map obs = some
    { wire := [], produced := [1, 2], fed := [], recv := [], rans := [], wans := [(0, -1)], alloc := 0, wr := .idle, rd := .idle, eofs := [] } := by
  decide +kernel

end Kasync.Tls.Bio
