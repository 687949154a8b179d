import Verif.Fiber.RTime

/-!
# C56: reads with a time limit
-/

namespace Kasync.RTime

/-! ## Specification -/

/-- The bytes a result carries. -/
def bytes : Val → List UInt8
  | .got _ bs => bs
  | _ => []

/-- What a program must do after ST_ERR_TIME_OUT: until the read ends, wait for nothing else, and repeat the call from the same place (its variables are
where those of the call that started the read were). -/
def Polite (s : St) : Step → Prop
  | .call addr _ => s.read = true → addr = s.buf
  | .waitOther => s.read = false
  | _ => True

/-- Executions in which every step satisfies `ok`. -/
inductive Reach (ok : St → Step → Prop) : St → Prop where
  | init : Reach ok {}
  | step {s s'} (t : Step) : Reach ok s → ok s t → RTime.step s t = .ok s' → Reach ok s'

/-- What call number `c` with a buffer of `l` bytes may return: bytes only if they are in its own buffer, at least one and not more than fit. -/
def ValOk (c l : Nat) : Val → Prop
  | .got into bs => into = c ∧ bs ≠ [] ∧ bs.length ≤ l
  | _ => True

/-- The results of the calls so far: the calls in order, each one once; bytes only in the call's own buffer, at least one and not more than fit. -/
def RetsOk (rets : List (Nat × Nat × Val)) (pending : Bool) (calls : Nat) : Prop :=
  rets.map (·.1) = List.range (if pending then calls - 1 else calls) ∧
  ∀ r ∈ rets, ValOk r.1 r.2.1 r.2.2

/-! ## The invariant -/

structure Inv (s : St) : Prop where
  all : s.sent = (s.rets.map fun r => bytes r.2.2).flatten ++ s.inq
  ids : s.rets.map (·.1) ++ (if s.fiber = .read then [s.cur] else []) = List.range s.calls
  own : ∀ r ∈ s.rets, ValOk r.1 r.2.1 r.2.2
  mem : s.fiber = .read → s.read = true ∧ s.mem s.buf = some ⟨s.cur, s.curLen⟩ ∧ 0 < s.curLen
  oth : s.fiber = .other → s.read = false
  clean : s.stray = []
  run : s.fiber = .read → s.calls = s.cur + 1

theorem inv_init : Inv {} := ⟨rfl, rfl, by simp, by simp, by simp, rfl, by simp⟩

/-- The call in progress returns. -/
theorem Inv.ret {s : St} (h : Inv s) (hf : s.fiber = .read) (v : Val) (r : Bool) (q : List UInt8) (hq : s.inq = bytes v ++ q)
    (hv : ValOk s.cur s.curLen v) :
    Inv (wakeup { s with read := r, inq := q } v) := by
  obtain ⟨h1, h2, h3, h4, h5, h6, h7⟩ := h
  simp only [wakeup, hf]
  refine ⟨?_, ?_, ?_, by simp, by simp, h6, by simp⟩
  · simp only [List.map_append, List.flatten_append, List.map_cons, List.map_nil, List.flatten_cons, List.flatten_nil, List.append_nil]
    rw [h1, hq, List.append_assoc]
  · simp only [hf, if_true] at h2
    simpa using h2
  · intro x hx
    rcases List.mem_append.1 hx with hx | hx
    · exact h3 x hx
    · simp only [List.mem_singleton] at hx; subst hx; exact hv

theorem Inv.readEvent {s s' : St} (h : Inv s) (hf : s.fiber = .read) (he : readEvent s = .ok s') : Inv s' := by
  obtain ⟨h1, h2, h3⟩ := h.mem hf
  unfold RTime.readEvent at he
  rw [h2] at he
  dsimp only at he
  split at he
  · rename_i hq
    split at he
    · simp only [Res.ok.injEq] at he; subst he
      exact h.ret hf .eof false s.inq rfl trivial
    · simp only [Res.ok.injEq] at he; subst he
      exact ⟨h.all, h.ids, h.own, h.mem, h.oth, h.clean, h.run⟩
  · rename_i hq
    simp only [Res.ok.injEq] at he; subst he
    refine h.ret hf _ false _ (List.take_append_drop _ _).symm ⟨rfl, ?_, by simp; omega⟩
    intro hx
    rw [List.take_eq_nil_iff] at hx
    rcases hx with hx | hx
    · omega
    · exact hq hx

theorem Inv.step {s s' : St} (h : Inv s) (t : Step) (hp : Polite s t) (he : RTime.step s t = .ok s') : Inv s' := by
  cases t with
  | recv bs =>
    simp only [RTime.step] at he
    split at he
    · cases he
    · simp only [Res.ok.injEq] at he; subst he
      exact ⟨by rw [h.all, List.append_assoc], h.ids, h.own, h.mem, h.oth, h.clean, h.run⟩
  | hangup =>
    simp only [RTime.step, Res.ok.injEq] at he; subst he
    exact ⟨h.all, h.ids, h.own, h.mem, h.oth, h.clean, h.run⟩
  | call addr len =>
    simp only [RTime.step, call] at he
    split at he
    · rename_i hr
      obtain ⟨hr, hlen⟩ := hr
      have hids : s.rets.map (·.1) ++ [s.calls] = List.range (s.calls + 1) := by
        have := h.ids
        simp only [hr, reduceCtorEq, if_false, List.append_nil] at this
        rw [this, List.range_succ]
      split at he
      · rename_i hrd
        simp only [Res.ok.injEq] at he; subst he
        have := hp hrd
        subst this
        exact ⟨h.all, by simpa using hids, h.own, fun _ => ⟨hrd, by simp, hlen⟩, by simp, h.clean, fun _ => rfl⟩
      · have h' : Inv { s with
            mem := fun a => if a = addr then some ⟨s.calls, len⟩ else s.mem a
            cur := s.calls
            curLen := len
            calls := s.calls + 1
            fiber := .read
            read := true
            buf := addr } :=
          ⟨h.all, by simpa using hids, h.own, fun _ => ⟨rfl, by simp, hlen⟩, by simp, h.clean, fun _ => rfl⟩
        split at he
        · exact h'.readEvent rfl he
        · simp only [Res.ok.injEq] at he; subst he; exact h'
    · cases he
  | serve =>
    simp only [RTime.step] at he
    split at he
    · rename_i hr
      have hf : s.fiber = .read := by
        cases hf : s.fiber with
        | read => rfl
        | run => exact absurd hf hr.2
        | other => exact absurd (h.oth hf) (by simp [hr.1])
      have h' : Inv { s with rready := true } := ⟨h.all, h.ids, h.own, h.mem, h.oth, h.clean, h.run⟩
      exact h'.readEvent hf he
    · cases he
  | timeout =>
    simp only [RTime.step] at he
    split at he
    · rename_i hr
      have hf : s.fiber = .read := by
        cases hf : s.fiber with
        | read => rfl
        | run => exact absurd hf hr.2
        | other => exact absurd (h.oth hf) (by simp [hr.1])
      simp only [Res.ok.injEq] at he; subst he
      exact h.ret hf .timeout s.read s.inq rfl trivial
    · cases he
  | clobber a =>
    simp only [RTime.step] at he
    split at he
    · rename_i hr
      simp only [Res.ok.injEq] at he; subst he
      exact ⟨h.all, h.ids, h.own, by simp [hr], h.oth, h.clean, by simp [hr]⟩
    · cases he
  | waitOther =>
    simp only [RTime.step] at he
    split at he
    · rename_i hr
      simp only [Res.ok.injEq] at he; subst he
      refine ⟨h.all, ?_, h.own, by simp, fun _ => hp, h.clean, by simp⟩
      have := h.ids; simp [hr] at this ⊢; exact this
    · cases he
  | wakeOther =>
    simp only [RTime.step] at he
    split at he
    · rename_i hr
      simp only [Res.ok.injEq] at he; subst he
      refine ⟨h.all, ?_, h.own, by simp, by simp, h.clean, by simp⟩
      have := h.ids; simp [hr] at this ⊢; exact this
    · cases he

theorem inv_reach {s : St} (h : Reach Polite s) : Inv s := by
  induction h with
  | init => exact inv_init
  | step t _ hp he ih => exact ih.step t hp he

/-! ## C56 -/

/-- **C56.** Time limits lose nothing: the bytes the calls have returned, one after another, followed by those not read yet, are exactly the bytes the peer
has sent. -/
theorem rtime_stream {s : St} (h : Reach Polite s) : s.sent = (s.rets.map fun r => bytes r.2.2).flatten ++ s.inq := (inv_reach h).all

/-- **C56.** Every call returns exactly once and in order; a call that returns bytes has them in its own buffer, at least one, at most as many as fit, also
if the read was started by an earlier call. -/
theorem rtime_calls {s : St} (h : Reach Polite s) : RetsOk s.rets (s.fiber = .read) s.calls := by
  have hi := inv_reach h
  refine ⟨?_, hi.own⟩
  have := hi.ids
  by_cases hf : s.fiber = .read
  · simp only [hf, if_true, decide_true] at this ⊢
    have hc := hi.run hf
    rw [hc, List.range_succ] at this
    have := (List.append_inj' this (by simp)).1
    rw [hc]; exact this
  · simp only [hf, if_false, List.append_nil, decide_false, Bool.false_eq_true] at this ⊢
    exact this

/-- **C56.** No other wait of the fiber is ever ended by the connection. -/
theorem rtime_no_stray {s : St} (h : Reach Polite s) : s.stray = [] := (inv_reach h).clean

/-- **C56.** The memory the read goes through is there whenever it is used: no step is undefined. -/
theorem rtime_no_ub {s : St} (h : Reach Polite s) (t : Step) (hp : Polite s t) : RTime.step s t ≠ .ub := by
  have hi := inv_reach h
  have key : ∀ {s : St}, s.mem s.buf ≠ none → readEvent s ≠ .ub := by
    intro s hm
    unfold RTime.readEvent
    cases hx : s.mem s.buf with
    | none => exact absurd hx hm
    | some v => dsimp only; split <;> (try split) <;> simp
  cases t with
  | recv bs => simp only [RTime.step]; split <;> simp
  | hangup => simp [RTime.step]
  | call addr len =>
    simp only [RTime.step, call]
    split
    · split
      · simp
      · split
        · exact key (by simp)
        · simp
    · simp
  | serve =>
    simp only [RTime.step]
    split
    · rename_i hr
      have hf : s.fiber = .read := by
        cases hf : s.fiber with
        | read => rfl
        | run => exact absurd hf hr.2
        | other => exact absurd (hi.oth hf) (by simp [hr.1])
      exact key (by simp [(hi.mem hf).2.1])
    · simp
  | timeout => simp only [RTime.step]; split <;> simp
  | clobber a => simp only [RTime.step]; split <;> simp
  | waitOther => simp only [RTime.step]; split <;> simp
  | wakeOther => simp only [RTime.step]; split <;> simp

/-- **C56.** A waiting call gets what is there: served while bytes are there it returns with as many as fit. -/
theorem rtime_served {s : St} (h : Reach Polite s) (hf : s.fiber = .read) (hq : s.inq ≠ []) :
    ∃ s', RTime.step s .serve = .ok s' ∧ s'.fiber = .run ∧ s'.read = false ∧ s'.inq = s.inq.drop s.curLen ∧
      s'.rets = s.rets ++ [(s.cur, s.curLen, .got s.cur (s.inq.take s.curLen))] := by
  obtain ⟨h1, h2, _⟩ := (inv_reach h).mem hf
  refine ⟨wakeup { s with rready := true, read := false, inq := s.inq.drop s.curLen } (.got s.cur (s.inq.take s.curLen)), ?_, ?_⟩
  · simp only [RTime.step, h1, hf]
    simp only [ne_eq, reduceCtorEq, not_false_eq_true, and_self, if_true, readEvent, h2, hq, if_false]
  · simp [wakeup, hf]

/-- **C56.** End of stream is the truth: a call (of any program) returned it only if the peer has closed and every byte has been read. -/
theorem rtime_eof {ok : St → Step → Prop} {s : St} (h : Reach ok s) : (∃ r ∈ s.rets, r.2.2 = .eof) → s.fin = true ∧ s.inq = [] := by
  have key : ∀ {s s' : St}, ((∃ r ∈ s.rets, r.2.2 = .eof) → s.fin = true ∧ s.inq = []) → readEvent s = .ok s' → (∃ r ∈ s'.rets, r.2.2 = .eof) → s'.fin = true ∧ s'.inq = [] := by
    intro s s' ih he
    unfold RTime.readEvent wakeup at he
    cases hf : s.fiber <;> simp only [hf] at he <;> grind
  induction h with
  | init => simp
  | @step s s' t hr _ he ih =>
    cases t with
    | call addr len =>
      simp only [RTime.step, call] at he
      split at he
      · split at he
        · simp only [Res.ok.injEq] at he; subst he; exact ih
        · split at he
          · exact key (s := { s with mem := fun a => if a = addr then some ⟨s.calls, len⟩ else s.mem a, cur := s.calls, curLen := len, calls := s.calls + 1, fiber := .read, read := true, buf := addr }) ih he
          · simp only [Res.ok.injEq] at he; subst he; exact ih
      · cases he
    | serve =>
      simp only [RTime.step] at he
      split at he
      · exact key (s := { s with rready := true }) ih he
      · cases he
    | timeout =>
      simp only [RTime.step, wakeup] at he
      split at he
      · cases hf : s.fiber <;> simp only [hf, Res.ok.injEq] at he <;> subst he <;> grind
      · cases he
    | recv bs => simp only [RTime.step] at he; grind
    | hangup => simp only [RTime.step] at he; grind
    | clobber a => simp only [RTime.step] at he; grind
    | waitOther => simp only [RTime.step] at he; grind
    | wakeOther => simp only [RTime.step] at he; grind

/-- **C56.** A waiting call learns of the end: when the peer closes and everything was read, the call served next returns 0. -/
theorem rtime_eof_served {s : St} (h : Reach Polite s) (hf : s.fiber = .read) (hq : s.inq = []) :
    ∃ s', run RTime.step s [.hangup, .serve] = some s' ∧ s'.fiber = .run ∧ s'.read = false ∧ s'.inq = [] ∧ s'.rets = s.rets ++ [(s.cur, s.curLen, .eof)] := by
  obtain ⟨h1, h2, _⟩ := (inv_reach h).mem hf
  refine ⟨wakeup { s with fin := true, rready := true, read := false } .eof, ?_, ?_⟩
  · simp [run, RTime.step, h1, hf, readEvent, h2, hq]
  · simp [wakeup, hf, hq]

/-- **C56.** A call that is served too early goes on waiting: nothing is returned, and the connection is taken as not ready until the poller reports it again. -/
theorem rtime_again {s : St} (h : Reach Polite s) (hf : s.fiber = .read) (hq : s.inq = []) (hn : s.fin = false) : RTime.step s .serve = .ok { s with rready := false } := by
  obtain ⟨h1, h2, _⟩ := (inv_reach h).mem hf
  simp [RTime.step, h1, hf, readEvent, h2, hq, hn]

/-- **C56.** A limit that passes is reported at once, and the read stays pending: the call returns ST_ERR_TIME_OUT and nothing else changes. -/
theorem rtime_limit {s : St} (h : Reach Polite s) (hf : s.fiber = .read) :
    RTime.step s .timeout = .ok { s with fiber := .run, rets := s.rets ++ [(s.cur, s.curLen, .timeout)] } := by
  obtain ⟨h1, h2, _⟩ := (inv_reach h).mem hf
  simp [RTime.step, h1, hf, wakeup]

/-- **C56.** A call of a fiber begins at once, whatever happened before: it waits, or (if the connection is known to be ready) is served as `serve` does. -/
theorem rtime_call {s : St} (h : Reach Polite s) (hr : s.fiber = .run) {addr len : Nat} (hl : 0 < len) (hp : s.read = true → addr = s.buf) :
    ∃ s', RTime.step s (.call addr len) = .ok s' ∧ s'.calls = s.calls + 1 ∧
      (s.read = true ∨ s.rready = false → s'.fiber = .read ∧ s'.rets = s.rets ∧ s'.cur = s.calls ∧ s'.curLen = len ∧ s'.inq = s.inq) ∧
      (s.read = false ∧ s.rready = true ∧ s.inq ≠ [] → s'.fiber = .run ∧ s'.rets = s.rets ++ [(s.calls, len, .got s.calls (s.inq.take len))] ∧ s'.inq = s.inq.drop len) := by
  have := h
  cases hrd : s.read with
  | true => exact ⟨_, by simp [RTime.step, call, hr, hl, hrd]; rfl, by simp, by simp, by simp⟩
  | false =>
    cases hy : s.rready with
    | false => exact ⟨_, by simp [RTime.step, call, hr, hl, hrd, hy]; rfl, by simp, by simp, by simp⟩
    | true =>
      by_cases hq : s.inq = []
      · cases hn : s.fin with
        | true => exact ⟨_, by simp [RTime.step, call, hr, hl, hrd, hy, readEvent, hq, hn]; rfl, by simp [wakeup], by simp, by simp [hq]⟩
        | false => exact ⟨_, by simp [RTime.step, call, hr, hl, hrd, hy, readEvent, hq, hn]; rfl, by simp, by simp, by simp [hq]⟩
      · exact ⟨_, by simp [RTime.step, call, hr, hl, hrd, hy, readEvent, hq]; rfl, by simp [wakeup], by simp, by simp [wakeup]⟩

/-- **C56.** Programs that never exceed a limit need no care at all: if no limit passes, any program is polite. -/
theorem rtime_without_timeouts {s : St} (h : Reach (fun _ t => t ≠ .timeout) s) : Reach Polite s ∧ (s.fiber = .run → s.read = false) := by
  induction h with
  | init => exact ⟨.init, fun _ => rfl⟩
  | @step s s' t hr ht he ih =>
    obtain ⟨ih1, ih2⟩ := ih
    have hi := inv_reach ih1
    have hp : Polite s t := by
      cases t with
      | call addr len =>
        intro hrd
        simp only [RTime.step, call] at he
        split at he
        · rename_i hc; rw [ih2 hc.1] at hrd; cases hrd
        · cases he
      | waitOther =>
        simp only [RTime.step] at he
        split at he
        · rename_i hc; exact ih2 hc
        · cases he
      | _ => trivial
    refine ⟨.step t ih1 hp he, ?_⟩
    have key : ∀ {s s' : St}, s.fiber = .read → readEvent s = .ok s' → s'.fiber = .run → s'.read = false := by
      intro s s' hf he hx
      unfold RTime.readEvent at he
      split at he
      · cases he
      · split at he
        · split at he
          · simp only [Res.ok.injEq] at he; subst he; simp [wakeup, hf]
          · simp only [Res.ok.injEq] at he; subst he; rw [hf] at hx; cases hx
        · simp only [Res.ok.injEq] at he; subst he; simp [wakeup, hf]
    cases t with
    | recv bs =>
      simp only [RTime.step] at he
      split at he
      · cases he
      · simp only [Res.ok.injEq] at he; subst he; exact ih2
    | hangup => simp only [RTime.step, Res.ok.injEq] at he; subst he; exact ih2
    | call addr len =>
      simp only [RTime.step, call] at he
      split at he
      · split at he
        · simp only [Res.ok.injEq] at he; subst he; simp
        · split at he
          · exact key rfl he
          · simp only [Res.ok.injEq] at he; subst he; simp
      · cases he
    | serve =>
      simp only [RTime.step] at he
      split at he
      · rename_i hr
        have hf : s.fiber = .read := by
          cases hf : s.fiber with
          | read => rfl
          | run => exact absurd hf hr.2
          | other => exact absurd (hi.oth hf) (by simp [hr.1])
        exact key (s := { s with rready := true }) hf he
      · cases he
    | timeout => exact absurd rfl ht
    | clobber a =>
      simp only [RTime.step] at he
      split at he
      · simp only [Res.ok.injEq] at he; subst he; exact ih2
      · cases he
    | waitOther =>
      simp only [RTime.step] at he
      split at he
      · simp only [Res.ok.injEq] at he; subst he; simp
      · cases he
    | wakeOther =>
      simp only [RTime.step] at he
      split at he
      · rename_i hf
        simp only [Res.ok.injEq] at he; subst he
        intro _; exact hi.oth hf
      · cases he

/-! ## Non-vacuity -/

/-- A call times out, the variable is overwritten, the call is repeated from the same place with a buffer of two bytes, three bytes arrive. -/
def demo : List Step := [.call 100 5, .timeout, .clobber 100, .call 100 2, .recv [1, 2, 3], .serve, .call 100 9]

example : (run RTime.step {} demo).map (fun s => (s.rets, s.inq)) = some ([(0, 5, .timeout), (1, 2, .got 1 [1, 2]), (2, 9, .got 2 [3])], []) := by
  decide

example : ∃ s, Reach Polite s ∧ s.fiber = .read ∧ s.inq = [1, 2, 3] ∧ s.rets = [(0, 5, .timeout)] := by
  refine ⟨_, .step (.recv [1, 2, 3]) (.step (.call 100 2) (.step (.clobber 100) (.step .timeout (.step (.call 100 5) .init ?_ rfl) ?_ rfl) ?_ rfl) ?_ rfl) ?_ rfl, rfl, rfl, rfl⟩
  · simp [Polite]
  · trivial
  · trivial
  · intro _; rfl
  · trivial

/-! ## Findings -/

/-- **Finding (C56).** The call repeated from another place of the program (its variables elsewhere) returns bytes that were not put into its buffer: they are
in the buffer of the call that timed out, which may not exist any more; nothing in the API or its comments asks for the same place. -/
theorem repeated_elsewhere_wrong_buffer : (run RTime.step {} [.call 100 5, .timeout, .call 200 5, .recv [1, 2, 3], .serve]).map (fun s => s.rets) =
    some [(0, 5, .timeout), (1, 5, .got 0 [1, 2, 3])] := by decide

/-- **Finding (C56).** If the place was overwritten in the meantime the read goes through whatever is there: undefined. -/
theorem repeated_elsewhere_undefined : ∃ s, run RTime.step {} [.call 100 5, .timeout, .clobber 100, .call 200 5, .recv [1, 2, 3]] = some s ∧
    RTime.step s .serve = .ub := ⟨_, rfl, rfl⟩

/-- **Finding (C56).** After ST_ERR_TIME_OUT the read is still pending: a fiber that then waits for something else (a pause before it tries again, say) is woken
from that wait by the connection's data, and by the next limit that passes. -/
theorem other_wait_woken : (run RTime.step {} [.call 100 5, .timeout, .waitOther, .recv [1, 2, 3], .serve]).map (fun s => (s.fiber, s.stray, s.rets)) =
    some (.run, [.got 0 [1, 2, 3]], [(0, 5, .timeout)]) ∧
    (run RTime.step {} [.call 100 5, .timeout, .waitOther, .timeout]).map (fun s => (s.fiber, s.stray)) = some (.run, [.timeout]) := by
  constructor <;> decide

end Kasync.RTime
