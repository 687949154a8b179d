import Verif.Common

/-!
# Model of the cross-thread notices of the epoll selector, include/kepoll_selector.h:18-50

Any number of threads (the selector thread included: callbacks may post) run `kepoll_notice`; the selector thread runs
`kepoll_notice_event` when the eventfd is readable.  A post is two atomic steps, the push under the lock and the eventfd write;
the selector reads the counter in one step (eventfd semantics: the read returns the counter and resets it, and is only reached when it is
not 0) and pops one notice per step.  A failing `write` (only reported with `perror`) is the step `writeFail`.
-/

namespace Kasync.Notice

/-- `struct kselector_notice_s` without the link, include/kselector.h -/
structure Msg where
  data : Nat
  fn : Nat
  arg : Nat
  got : Int
  deriving Repr, DecidableEq

structure St where
  /-- `ast->head`, head first -/
  queue : List Msg := []
  /-- posters between push and write -/
  unwritten : Nat := 0
  /-- the eventfd counter -/
  counter : Nat := 0
  /-- the local variable `value` of the selector -/
  value : Nat := 0
  /-- ghost: all posted notices, the callbacks called, in order -/
  posted : List Msg := []
  delivered : List Msg := []
  deriving Repr, DecidableEq

inductive Op where
  /-- include/kepoll_selector.h:36-45 -/
  | push (m : Msg)
  /-- include/kepoll_selector.h:46-47 -/
  | write
  /-- include/kepoll_selector.h:47-49: the write fails -/
  | writeFail
  /-- include/kepoll_selector.h:19-23 -/
  | read
  /-- one round of include/kepoll_selector.h:24-33 -/
  | pop
  deriving Repr, DecidableEq

def step (s : St) : Op → Res St
  | .push m => .ok { s with queue := m :: s.queue, unwritten := s.unwritten + 1, posted := s.posted ++ [m] }
  | .write => if s.unwritten = 0 then .disabled else .ok { s with unwritten := s.unwritten - 1, counter := s.counter + 1 }
  | .writeFail => if s.unwritten = 0 then .disabled else .ok { s with unwritten := s.unwritten - 1 }
  | .read => if s.value = 0 ∧ s.counter ≠ 0 then .ok { s with value := s.counter, counter := 0 } else .disabled
  | .pop =>
    if s.value = 0 then .disabled else
    match s.queue with
    | [] => .ub
    | m :: q => .ok { s with queue := q, value := s.value - 1, delivered := s.delivered ++ [m] }

/-- the steps when every eventfd write succeeds -/
def stepOk (s : St) : Op → Res St
  | .writeFail => .disabled
  | o => step s o

def ninit : St := {}

/-! # C30 -/

structure Inv (s : St) : Prop where
  len : s.queue.length = s.unwritten + s.counter + s.value
  perm : s.posted.Perm (s.queue ++ s.delivered)

theorem Inv.step {s s' : St} {o : Op} (h : Inv s) (he : stepOk s o = .ok s') : Inv s' := by
  obtain ⟨hl, hp⟩ := h
  cases o with
  | push m =>
    cases he
    refine ⟨by simp only [List.length_cons, hl]; omega, ?_⟩
    exact (List.perm_append_comm).trans (List.Perm.cons m hp)
  | write =>
    simp only [stepOk, Notice.step] at he
    split at he
    · cases he
    · cases he; exact ⟨by dsimp only; omega, hp⟩
  | writeFail => cases he
  | read =>
    simp only [stepOk, Notice.step] at he
    split at he
    · cases he; exact ⟨by dsimp only; omega, hp⟩
    · cases he
  | pop =>
    simp only [stepOk, Notice.step] at he
    split at he
    · cases he
    · split at he
      · cases he
      · rename_i m q hq
        cases he
        rw [hq] at hl hp
        refine ⟨by simp at hl; dsimp only; omega, ?_⟩
        refine hp.trans ?_
        rw [← List.append_assoc]
        exact (List.perm_append_comm (l₁ := [m]) (l₂ := q ++ s.delivered))

theorem inv_of_reachable {s : St} (h : Reachable stepOk ninit s) : Inv s :=
  h.invariant ⟨rfl, .refl _⟩ (fun _ _ _ hi he => hi.step he)

/-- **C30.** At every point every posted notice is either still queued or was delivered, exactly once and with its own arguments. -/
theorem notice_exactly_once (s : St) (h : Reachable stepOk ninit s) : s.posted.Perm (s.queue ++ s.delivered) :=
  (inv_of_reachable h).perm

/-- **C30.** The selector never finds the queue empty when the counter promised a notice. -/
theorem notice_never_empty (s : St) (h : Reachable stepOk ninit s) (o : Op) : stepOk s o ≠ .ub := by
  intro hu
  have hi := inv_of_reachable h
  cases o with
  | push m => cases hu
  | write => simp only [stepOk, step] at hu; split at hu <;> cases hu
  | writeFail => cases hu
  | read => simp only [stepOk, step] at hu; split at hu <;> cases hu
  | pop =>
    simp only [stepOk, step] at hu
    split at hu
    · cases hu
    · split at hu
      · rename_i hq; have := hi.len; rw [hq] at this; simp at this; omega
      · cases hu

/-- **C30.** When no post is under way and the selector has drained the counter, everything posted was delivered. -/
theorem notice_drained (s : St) (h : Reachable stepOk ninit s) (h1 : s.unwritten = 0) (h2 : s.counter = 0) (h3 : s.value = 0) :
    s.delivered.Perm s.posted := by
  have hi := inv_of_reachable h
  have := hi.len
  have hq : s.queue = [] := List.length_eq_zero_iff.1 (by omega)
  have hp := hi.perm
  rw [hq] at hp
  exact hp.symm

/-- **C30.** As long as a notice is undelivered, a poster can finish its post or the selector can go on (it is readable). -/
theorem notice_progress (s : St) (h : Reachable stepOk ninit s) (hq : s.queue ≠ []) :
    ∃ o s', (∀ m, o ≠ .push m) ∧ stepOk s o = .ok s' := by
  have hi := inv_of_reachable h
  have hl := hi.len
  rcases hqq : s.queue with _ | ⟨m, q⟩
  · exact absurd hqq hq
  · by_cases h3 : s.value = 0
    · by_cases h2 : s.counter = 0
      · refine ⟨.write, _, fun m h => (by cases h), if_neg ?_⟩
        rw [hqq] at hl; simp at hl; omega
      · exact ⟨.read, _, fun m h => (by cases h), if_pos ⟨h3, h2⟩⟩
    · refine ⟨.pop, { s with queue := q, value := s.value - 1, delivered := s.delivered ++ [m] }, fun m h => (by cases h), ?_⟩
      simp only [stepOk, step]
      rw [if_neg h3, hqq]

/-- what is left to do for the notices posted so far -/
def todo (s : St) : Nat := 3 * s.unwritten + 2 * s.counter + s.value

/-- **C30.** Without new posts the posters and the selector take only finitely many steps: with `notice_progress`, every notice is delivered. -/
theorem notice_steps_terminate (s s' : St) (o : Op) (ho : ∀ m, o ≠ .push m) (he : stepOk s o = .ok s') : todo s' < todo s := by
  unfold todo
  cases o with
  | push m => exact absurd rfl (ho m)
  | write =>
    simp only [stepOk, step] at he
    split at he
    · cases he
    · cases he; dsimp only; omega
  | writeFail => cases he
  | read =>
    simp only [stepOk, step] at he
    split at he
    · cases he; dsimp only; omega
    · cases he
  | pop =>
    simp only [stepOk, step] at he
    split at he
    · cases he
    · split at he
      · cases he
      · cases he; dsimp only; omega

/-- **C30.** Even when writes fail, nothing is delivered twice or invented and the selector does not find the queue empty. -/
theorem notice_at_most_once (s : St) (h : Reachable step ninit s) :
    s.posted.Perm (s.queue ++ s.delivered) ∧ s.unwritten + s.counter + s.value ≤ s.queue.length := by
  refine h.invariant (P := fun s => s.posted.Perm (s.queue ++ s.delivered) ∧ s.unwritten + s.counter + s.value ≤ s.queue.length)
    ⟨.refl _, Nat.le_refl _⟩ ?_
  rintro s o s' ⟨hp, hl⟩ he
  cases o with
  | push m =>
    cases he
    exact ⟨(List.perm_append_comm).trans (List.Perm.cons m hp), by simp only [List.length_cons]; omega⟩
  | write =>
    simp only [step] at he
    split at he
    · cases he
    · cases he; exact ⟨hp, by dsimp only; omega⟩
  | writeFail =>
    simp only [step] at he
    split at he
    · cases he
    · cases he; exact ⟨hp, by dsimp only; omega⟩
  | read =>
    simp only [step] at he
    split at he
    · cases he; exact ⟨hp, by dsimp only; omega⟩
    · cases he
  | pop =>
    simp only [step] at he
    split at he
    · cases he
    · split at he
      · cases he
      · rename_i m q hq
        cases he
        rw [hq] at hl hp
        refine ⟨hp.trans ?_, by simp at hl; dsimp only; omega⟩
        rw [← List.append_assoc]
        exact (List.perm_append_comm (l₁ := [m]) (l₂ := q ++ s.delivered))

/-! ## Non-vacuity and findings -/

def m1 : Msg := ⟨1, 1, 1, 0⟩
def m2 : Msg := ⟨2, 1, 1, 0⟩

/-- a notice is delivered before its own poster has written: the other poster's count pays for it -/
example : (run stepOk ninit [.push m1, .push m2, .write, .read, .pop, .write, .read, .pop]).map (fun s => (s.delivered, s.queue)) =
    some ([m2, m1], []) := by rfl

/-- **Finding (C30).** Notices are delivered newest first: two notices posted one after the other by the same thread arrive in the
opposite order. -/
theorem notice_order_reversed :
    (run stepOk ninit [.push m1, .write, .push m2, .write, .read, .pop, .pop]).map (·.delivered) = some [m2, m1] := by rfl

/-- **Finding (C30).** After a failed eventfd write a notice stays behind although the selector is idle; a later notice does not flush it. -/
theorem notice_lost_on_write_failure :
    (run step ninit [.push m1, .writeFail, .push m2, .write, .read, .pop]).map (fun s => (s.queue, s.counter, s.value, s.unwritten)) =
      some ([m1], 0, 0, 0) := by rfl

end Kasync.Notice
