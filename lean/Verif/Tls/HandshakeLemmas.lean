import Verif.Tls.Handshake

/-!
# Vocabulary and invariant of the TLS handshake driver (C45)
-/

namespace Kasync.Tls

variable {c : Cfg} {s s' : St}

/-! ## Vocabulary -/

/-- errors after which OpenSSL wants the call repeated -/
def SslErr.retry : SslErr → Bool
  | .wantRead | .wantWrite | .wantConnect | .wantAccept => true
  | _ => false

/-- OpenSSL says that the handshake is complete, or that early data can be read. -/
def In.done (te : Bool) (i : In) : Prop :=
  (te = true ∧ ∃ b, i.early = .success b) ∨ ((te = true → i.early = .finish) ∧ i.hs = .one)

/-- OpenSSL says that the handshake has failed. -/
def In.fatal (te : Bool) (i : In) : Prop :=
  (te = true ∧ ∃ e, i.early = .fail e ∧ e.retry = false) ∨ ((te = true → i.early = .finish) ∧ ∃ e, i.hs = .fail e ∧ e.retry = false)

/-- OpenSSL asks to be called again when the socket can be read. -/
def In.wantsRead (te : Bool) (i : In) : Prop :=
  (te = true ∧ i.early = .fail .wantRead) ∨ ((te = true → i.early = .finish) ∧ i.hs = .fail .wantRead)

/-- OpenSSL asks to be called again when the socket can be written. -/
def In.wantsWrite (te : Bool) (i : In) : Prop :=
  (te = true ∧ ∃ e, i.early = .fail e ∧ e.retry = true ∧ e ≠ .wantRead) ∨ ((te = true → i.early = .finish) ∧ ∃ e, i.hs = .fail e ∧ e.retry = true ∧ e ≠ .wantRead)

/-- What OpenSSL did in this step, if it was called. -/
def Op.input (c : Cfg) (s : St) : Op → Option In
  | .start i | .readable i | .readTimeout i => some i
  | .readFail i => if c.bio then some i else none
  | .writable k i => if c.bio = true ∧ s.out ≠ [] ∧ k < s.out.length then none else some i
  | .writeFail => none

/-! ## Invariant -/

structure Inv (c : Cfg) (s : St) : Prop where
  idle : s.started = false → s.rd = false ∧ s.wr = false ∧ s.answers = [] ∧ s.out = [] ∧ s.sent = [] ∧ s.made = []
  fr : s.frees = s.answers.length
  one : s.started = true → (s.answers = [] ∧ (s.rd = true ∧ s.wr = false ∨ s.rd = false ∧ s.wr = true)) ∨
    ((s.answers = [.ok] ∨ s.answers = [.failed]) ∧ s.rd = false ∧ s.wr = false)
  made : s.made = s.sent ++ s.out
  rdS : s.rd = true → s.status = retWantRead ∧ (c.bio = true → s.out = [])
  wrS : s.wr = true → s.status = retWantWrite ∨ (c.bio = true ∧ s.status ≠ retError ∧ s.out ≠ [])
  okS : s.answers = [.ok] → s.inEarly = true ∨ (c.bio = true → s.out = [])
  early : s.inEarly = true → s.preread = true ∧ s.answers = [.ok]

theorem inv_init (te : Bool) : Inv c (init te) := by
  constructor <;> simp [init]

/-- The driver, called while nothing is pending and nothing answered. -/
structure Pre (s : St) : Prop where
  st : s.started = true
  rd : s.rd = false
  wr : s.wr = false
  an : s.answers = []
  fr : s.frees = 0
  made : s.made = s.sent ++ s.out
  ne : s.inEarly = false

theorem status_cases (e : SslErr) :
    (e.retry = false → handshakeStatus e = retError ∨ handshakeStatus e = retSni) ∧ (e.retry = true → handshakeStatus e = retWantRead ∨ handshakeStatus e = retWantWrite) ∧
    (handshakeStatus e = retWantRead ↔ e = .wantRead) ∧ handshakeStatus e ≠ retOk := by
  cases e <;> simp [SslErr.retry, handshakeStatus, retError, retSni, retWantRead, retWantWrite, retOk]

/-- The driver always succeeds. -/
theorem handshake_total (h : Pre s) (i : In) : ∃ s', handshake c s i = .ok s' := by
  obtain ⟨h0, h1, h2, h3, h4, h5, h6⟩ := h
  unfold handshake
  simp only [handshakeCheck, answer, reqRead, reqWrite, h4, ne_eq, not_true_eq_false, if_false, h1, h2, if_true, Bool.false_eq_true]
  repeat' split
  all_goals exact ⟨_, rfl⟩

/-- It keeps the invariant, and answers what OpenSSL said. -/
theorem handshake_good (h : Pre s) (i : In) (he : handshake c s i = .ok s') :
    Inv c s' ∧
      (s'.answers = [.ok] → i.done s.tryEarly) ∧ (s'.answers = [.failed] → i.fatal s.tryEarly) ∧
      (i.done s.tryEarly → (c.bio = true → s.out = [] ∧ i.out = []) → s'.answers = [.ok]) ∧
      (i.fatal s.tryEarly → (c.bio = true → s.out = [] ∧ i.out = []) → s'.answers = [.failed]) ∧
      (i.wantsRead s.tryEarly → (c.bio = true → s.out = [] ∧ i.out = []) → s'.rd = true) ∧
      (s'.rd = true → i.wantsRead s.tryEarly) ∧
      (s'.wr = true → i.wantsWrite s.tryEarly ∨ (c.bio = true ∧ s'.out ≠ [])) ∧
      s'.sent = s.sent ∧ s'.out = s.out ++ i.out ∧ s'.started = true ∧
      (s'.inEarly = true ↔ s.tryEarly = true ∧ ∃ b, i.early = .success b) ∧ (s'.inEarly = true → i.early = .success s'.earlyBuf) := by
  obtain ⟨h0, h1, h2, h3, h4, h5, h6⟩ := h
  unfold handshake at he
  have hs : ∀ e, sslHandshake (.fail e) = handshakeStatus e := fun _ => rfl
  have ho : sslHandshake .one = retOk := rfl
  have hz := status_cases
  obtain ⟨i1, i2, i3⟩ := i
  dsimp only at he
  cases i2 <;> simp only [handshakeCheck, answer, reqRead, reqWrite, h4, ne_eq, not_true_eq_false, if_false, h1, h2, if_true, Bool.false_eq_true, hs, ho, h3, List.nil_append] at he <;>
    repeat' split at he
  all_goals first | cases he | skip
  all_goals (refine ⟨?_, ?_, ?_, ?_, ?_, ?_, ?_, ?_, ?_, ?_, ?_, ?_, ?_⟩ <;> (try constructor) <;> dsimp only [In.done, In.fatal, In.wantsRead, In.wantsWrite] at * <;> first | assumption | grind [retError, retOk, retWantRead, retWantWrite, retSni])

theorem Inv.pre (h : Inv c s) (h1 : s.started = true) (h2 : s.answers = []) : s.frees = 0 ∧ s.inEarly = false := by
  refine ⟨by rw [h.fr, h2]; rfl, ?_⟩
  cases e : s.inEarly
  · rfl
  · have := (h.early e).2
    rw [h2] at this; cases this

theorem Inv.rdPre (h : Inv c s) (hr : s.rd = true) : Pre { s with rd := false } := by
  have h1 : s.started = true := by
    cases e : s.started
    · have := (h.idle e).1; rw [hr] at this; cases this
    · rfl
  have h2 := h.one h1
  have h3 : s.answers = [] ∧ s.wr = false := by grind
  have h4 := h.pre h1 h3.1
  exact ⟨h1, rfl, h3.2, h3.1, h4.1, h.made, h4.2⟩

theorem Inv.wrPre (h : Inv c s) (hr : s.wr = true) : Pre { s with wr := false } := by
  have h1 : s.started = true := by
    cases e : s.started
    · have := (h.idle e).2.1; rw [hr] at this; cases this
    · rfl
  have h2 := h.one h1
  have h3 : s.answers = [] ∧ s.rd = false := by grind
  have h4 := h.pre h1 h3.1
  exact ⟨h1, h3.2, rfl, h3.1, h4.1, h.made, h4.2⟩

/-- OpenSSL is still to be asked for early data: it has neither delivered any nor said that there is none. -/
def In.stillEarly (i : In) : Bool := match i.early with
  | .fail _ => true
  | _ => false

theorem handshake_mode (i : In) (he : handshake c s i = .ok s') : s'.tryEarly = (s.tryEarly && i.stillEarly) := by
  unfold handshake at he
  obtain ⟨i1, i2, i3⟩ := i
  have hm : ∀ (s1 : St) (k : Nat), handshakeCheck c s1 k = .ok s' → s'.tryEarly = s1.tryEarly := by
    intro s1 k h
    simp only [handshakeCheck, answer, reqRead, reqWrite] at h
    repeat' split at h
    all_goals first | cases h | skip
    all_goals rfl
  by_cases h0 : s.frees ≠ 0
  · rw [if_pos h0] at he; cases he
  · rw [if_neg h0] at he
    dsimp only at he
    cases ht : s.tryEarly
    · rw [ht] at he
      exact (hm _ _ he).trans (by rfl)
    · rw [ht, if_pos rfl] at he
      cases i1 with
      | finish => exact (hm _ _ he).trans (by rfl)
      | fail e => exact (hm _ _ he).trans (by rfl)
      | success b =>
        dsimp only [answer] at he
        split at he
        · injection he with he; rw [← he]; rfl
        · exact absurd he (by simp)

/-- What one step may do. -/
structure Good (c : Cfg) (s : St) (o : Op) (s' : St) : Prop where
  inv : Inv c s'
  started : s'.started = true
  fresh : s.answers = []
  ok : s'.answers = [.ok] → ∃ i, o.input c s = some i ∧ i.done s.tryEarly
  failed : s'.answers = [.failed] → o = .writeFail ∨ (c.bio = false ∧ ∃ i, o = .readFail i) ∨ ∃ i, o.input c s = some i ∧ i.fatal s.tryEarly
  called : ∀ i, o.input c s = some i → (c.bio = true → s'.out = []) →
    (i.done s.tryEarly → s'.answers = [.ok]) ∧ (i.fatal s.tryEarly → s'.answers = [.failed]) ∧ (i.wantsRead s.tryEarly → s'.rd = true)
  rd : s'.rd = true → ∃ i, o.input c s = some i ∧ i.wantsRead s.tryEarly
  wr : s'.wr = true → (c.bio = true ∧ s'.out ≠ []) ∨ ∃ i, o.input c s = some i ∧ i.wantsWrite s.tryEarly
  early : s'.inEarly = true → ∃ i, o.input c s = some i ∧ i.early = .success s'.earlyBuf
  mode : s'.tryEarly = (s.tryEarly && match o.input c s with | some i => i.stillEarly | none => true)

theorem called_good {o : Op} {s1 : St} (h : Pre s1) (h0 : s1.tryEarly = s.tryEarly) (h1 : s.answers = []) (i : In) (hi : o.input c s = some i)
    (he : handshake c s1 i = .ok s') : Good c s o s' := by
  obtain ⟨g1, g2, g3, g4, g5, g6, g7, g8, g9, g10, g11, g12, g13⟩ := handshake_good h i he
  rw [h0] at g2 g3 g4 g5 g6 g7 g8 g12
  refine ⟨g1, g11, h1, fun e => ⟨i, hi, g2 e⟩, fun e => Or.inr (Or.inr ⟨i, hi, g3 e⟩), ?_, fun e => ⟨i, hi, g7 e⟩, ?_, fun e => ⟨i, hi, g13 e⟩, by rw [hi, handshake_mode i he, h0]⟩
  · intro i' hi' hb
    have : i' = i := by rw [hi] at hi'; exact (Option.some.inj hi').symm
    subst this
    have hb' : c.bio = true → s1.out = [] ∧ i'.out = [] := fun e => by have := hb e; rw [g10] at this; exact List.append_eq_nil_iff.1 this
    exact ⟨fun e => g4 e hb', fun e => g5 e hb', fun e => g6 e hb'⟩
  · intro e
    rcases g8 e with e | e
    · exact Or.inr ⟨i, hi, e⟩
    · exact Or.inl e

theorem answer_failed_good {o : Op} {s1 : St} (h : Pre s1) (h0 : s1.tryEarly = s.tryEarly) (h1 : s.answers = []) (ho : o = .writeFail ∨ (c.bio = false ∧ ∃ i, o = .readFail i)) :
    ∃ s', answer s1 .failed = .ok s' ∧ Good c s o s' := by
  obtain ⟨p0, p1, p2, p3, p4, p5, p6⟩ := h
  have hin : o.input c s = none := by
    rcases ho with rfl | ⟨hb, i, rfl⟩
    · rfl
    · simp [Op.input, hb]
  refine ⟨{ s1 with answers := s1.answers ++ [.failed], frees := s1.frees + 1 }, by unfold answer; rw [if_pos p4], ?_⟩
  constructor
  · constructor <;> simp_all
  · exact p0
  · exact h1
  · simp [p3]
  · intro _; rcases ho with h | h
    · exact Or.inl h
    · exact Or.inr (Or.inl h)
  · simp [hin]
  · simp [p1]
  · simp [p2]
  · simp [p6]
  · simp [hin, h0]

theorem step_good (hc : c.rtmo = false) (h : Inv c s) (o : Op) :
    step c s o = .disabled ∨ ∃ s', step c s o = .ok s' ∧ Good c s o s' := by
  cases o with
  | start i =>
    unfold step
    cases e : s.started
    · simp only [Bool.false_eq_true, if_false]
      obtain ⟨h1, h2, h3, h4, h5, h6⟩ := h.idle e
      have hp : Pre { s with started := true } := ⟨rfl, h1, h2, h3, by rw [h.fr, h3]; rfl, h.made, by
        cases e' : s.inEarly
        · rfl
        · have := (h.early e').2; rw [h3] at this; cases this⟩
      obtain ⟨s', he⟩ := handshake_total (c := c) hp i
      exact Or.inr ⟨s', he, called_good hp rfl h3 i rfl he⟩
    · exact Or.inl rfl
  | readable i =>
    unfold step
    cases e : s.rd
    · exact Or.inl rfl
    · simp only [if_true]
      have hp := h.rdPre e
      obtain ⟨s', he⟩ := handshake_total (c := c) hp i
      exact Or.inr ⟨s', he, called_good hp rfl hp.an i rfl he⟩
  | readTimeout i =>
    unfold step; simp [hc]
  | writeFail =>
    unfold step
    cases e : s.wr
    · exact Or.inl rfl
    · simp only [if_true]
      have hp := h.wrPre e
      exact Or.inr (answer_failed_good hp rfl hp.an (Or.inl rfl))
  | readFail i =>
    unfold step
    cases e : s.rd
    · exact Or.inl rfl
    · simp only [if_true]
      have hp := h.rdPre e
      cases hb : c.bio
      · exact Or.inr (answer_failed_good hp rfl hp.an (Or.inr ⟨hb, i, rfl⟩))
      · obtain ⟨s', he⟩ := handshake_total (c := c) hp i
        exact Or.inr ⟨s', he, called_good hp rfl hp.an i (by simp [Op.input, hb]) he⟩
  | writable k i =>
    unfold step
    cases e : s.wr
    · exact Or.inl rfl
    · simp only [if_true]
      have hp := h.wrPre e
      by_cases hb : c.bio = true ∧ s.out ≠ []
      · rw [if_pos hb]
        by_cases hk : 0 < k ∧ k ≤ s.out.length
        · rw [if_pos hk]
          by_cases hd : s.out.drop k ≠ []
          · have hin : Op.input c s (.writable k i) = none := by
              simp only [Op.input]
              rw [if_pos]
              refine ⟨hb.1, hb.2, ?_⟩
              have := List.length_pos_iff.2 hd
              rw [List.length_drop] at this; omega
            rw [if_pos hd]
            refine Or.inr ⟨_, rfl, ?_⟩
            obtain ⟨p0, p1, p2, p3, p4, p5, p6⟩ := hp
            dsimp only at p0 p1 p2 p3 p4 p5 p6
            constructor
            · constructor
              · simp [p0]
              · exact h.fr
              · exact fun _ => Or.inl ⟨p3, Or.inr ⟨p1, rfl⟩⟩
              · simp [h.made]
              · simp [p1]
              · intro _
                rcases h.wrS e with e1 | e1
                · exact Or.inl e1
                · exact Or.inr ⟨e1.1, e1.2.1, hd⟩
              · simp [p3]
              · simp [p6]
            · exact p0
            · exact p3
            · simp [p3]
            · simp [p3]
            · simp [hin]
            · simp [p1]
            · exact fun _ => Or.inl ⟨hb.1, hd⟩
            · simp [p6]
            · simp [hin]
          · rw [if_neg hd]
            have hp' : Pre { s with sent := s.sent ++ s.out.take k, out := s.out.drop k, wr := false } :=
              ⟨hp.st, hp.rd, rfl, hp.an, hp.fr, by simp [h.made], hp.ne⟩
            obtain ⟨s', he⟩ := handshake_total (c := c) hp' i
            refine Or.inr ⟨s', he, called_good hp' rfl hp.an i ?_ he⟩
            simp only [Op.input]
            rw [if_neg]
            rintro ⟨_, _, e1⟩
            exact hd (fun e2 => by have := congrArg List.length e2; rw [List.length_drop, List.length_nil] at this; omega)
        · rw [if_neg hk]; exact Or.inl rfl
      · rw [if_neg hb]
        obtain ⟨s', he⟩ := handshake_total (c := c) hp i
        refine Or.inr ⟨s', he, called_good hp rfl hp.an i ?_ he⟩
        simp only [Op.input]
        rw [if_neg]
        rintro ⟨e1, e2, _⟩
        exact hb ⟨e1, e2⟩

end Kasync.Tls
