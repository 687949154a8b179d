import Verif.Common

/-!
# Model of `kcond` (pthread build), include/ksync.h:22-105

Each region under `cond->mutex` is one atomic step; `pthread_cond_wait` splits `kcond_wait` in two steps.  pthread semantics assumed:
`pthread_cond_signal` wakes one waiting thread if there is one (which one is chosen by the scheduler, the argument of `notice`),
`pthread_cond_broadcast` wakes all.  A wake-up without a signal (allowed by POSIX, also covers a signal waking more than one) is the
step `spurious`.  `returned`, `notices` are ghost logs: the threads whose wait returned, the number of notices.
-/

namespace Kasync.KCond

structure St where
  auto : Bool
  ev : Bool := false
  /-- threads inside `pthread_cond_wait` -/
  waiting : List Nat := []
  /-- threads woken that still have to get the mutex -/
  woken : List Nat := []
  returned : List Nat := []
  notices : Nat := 0
  deriving Repr, DecidableEq

inductive Op where
  | wait (t : Nat)
  | tryWait (t : Nat)
  | notice (pick : Nat)
  | reset
  /-- a woken thread finishes `kcond_wait` -/
  | resume (t : Nat)
  | spurious (t : Nat)
  deriving Repr, DecidableEq

def step (s : St) : Op → Res St
  | .wait t =>                     -- include/ksync.h:57-63
    if t ∈ s.waiting ∨ t ∈ s.woken then .disabled else
    if s.ev then .ok { s with ev := false, returned := s.returned ++ [t] } else .ok { s with waiting := s.waiting ++ [t] }
  | .tryWait t =>                  -- include/ksync.h:74-81 (only the successful call is logged)
    if t ∈ s.waiting ∨ t ∈ s.woken then .disabled else
    if s.ev then .ok { s with ev := false, returned := s.returned ++ [t] } else .ok s
  | .notice pick =>                -- include/ksync.h:96-103
    if s.auto then
      if s.waiting = [] then .ok { s with ev := true, notices := s.notices + 1 } else
      if pick ∈ s.waiting then
        .ok { s with ev := true, notices := s.notices + 1, waiting := s.waiting.erase pick, woken := s.woken ++ [pick] }
      else .disabled
    else .ok { s with ev := true, notices := s.notices + 1, waiting := [], woken := s.woken ++ s.waiting }
  | .reset => .ok { s with ev := false }      -- include/ksync.h:47-49
  | .resume t =>                   -- include/ksync.h:63-67
    if t ∈ s.woken then
      .ok { s with ev := if s.auto then false else s.ev, woken := s.woken.erase t, returned := s.returned ++ [t] }
    else .disabled
  | .spurious t =>
    if t ∈ s.waiting then .ok { s with waiting := s.waiting.erase t, woken := s.woken ++ [t] } else .disabled

/-- `kcond_init`, include/ksync.h:29-41 -/
def kinit (auto : Bool) : St := { auto := auto }

/-- steps without spurious wake-ups -/
def stepN (s : St) : Op → Res St
  | .spurious _ => .disabled
  | o => step s o

/-- steps without spurious wake-ups when only thread `w` waits -/
def step1 (w : Nat) (s : St) (o : Op) : Res St :=
  match o with
  | .spurious _ => .disabled
  | .wait t => if t = w then step s (.wait t) else .disabled
  | .tryWait t => if t = w then step s (.tryWait t) else .disabled
  | o => step s o

/-! # C32 -/

/-- **C32.** No notice is lost: while the event is set, no thread is left waiting unless another one is being woken (and will
consume the event); with a manual event no thread is left waiting at all. -/
theorem kcond_no_lost_notice (auto : Bool) (s : St) (h : Reachable step (kinit auto) s) (he : s.ev = true) :
    s.auto = auto ∧ (s.waiting = [] ∨ s.woken ≠ []) ∧ (auto = false → s.waiting = []) := by
  have key := h.invariant (P := fun s => s.auto = auto ∧ (s.ev = true → (s.waiting = [] ∨ s.woken ≠ []) ∧ (auto = false → s.waiting = [])))
    ⟨rfl, fun h => by cases h⟩ ?_
  · exact ⟨key.1, key.2 he⟩
  · rintro s o s' ⟨ha, hi⟩ hs
    cases o with
    | wait t =>
      simp only [step] at hs
      split at hs
      · cases hs
      · split at hs
        · cases hs; exact ⟨ha, fun h => by cases h⟩
        · rename_i h; cases hs; exact ⟨ha, fun h' => absurd h' h⟩
    | tryWait t =>
      simp only [step] at hs
      split at hs
      · cases hs
      · split at hs
        · cases hs; exact ⟨ha, fun h => by cases h⟩
        · cases hs; exact ⟨ha, hi⟩
    | notice p =>
      simp only [step] at hs
      split at hs
      · rename_i hauto
        have hf : auto ≠ false := by rw [← ha]; simp [hauto]
        split at hs
        · rename_i hw; cases hs; exact ⟨ha, fun _ => ⟨.inl hw, fun h => absurd h hf⟩⟩
        · split at hs
          · cases hs; exact ⟨ha, fun _ => ⟨.inr (by simp), fun h => absurd h hf⟩⟩
          · cases hs
      · cases hs; exact ⟨ha, fun _ => ⟨.inl rfl, fun _ => rfl⟩⟩
    | reset => cases hs; exact ⟨ha, fun h => by cases h⟩
    | resume t =>
      simp only [step] at hs
      split at hs
      · cases hs
        refine ⟨ha, fun h => ?_⟩
        dsimp only at h ⊢
        split at h
        · cases h
        · rename_i hn
          have hf : auto = false := by rw [← ha]; simpa using hn
          have := (hi h).2 hf
          exact ⟨.inl this, fun _ => this⟩
      · cases hs
    | spurious t =>
      simp only [step] at hs
      split at hs
      · rename_i ht
        cases hs
        refine ⟨ha, fun h => ⟨.inr (by simp), fun hf => ?_⟩⟩
        rw [(hi h).2 hf] at ht; cases ht
      · cases hs

/-- **C32.** A notice wakes: afterwards the event is set and, if threads were waiting, one of them (all of them, for a manual event) is on
its way out of the wait; every woken thread can finish its wait, and a wait that starts while the event is set returns at once. -/
theorem kcond_notice_wakes (s s' : St) (p : Nat) (h : step s (.notice p) = .ok s') :
    s'.ev = true ∧ s'.returned = s.returned ∧ s'.notices = s.notices + 1 ∧
    (s.auto = true → s.waiting ≠ [] → p ∈ s.waiting ∧ s'.woken = s.woken ++ [p] ∧ s'.waiting = s.waiting.erase p) ∧
    (s.auto = true → s.waiting = [] → s'.woken = s.woken ∧ s'.waiting = []) ∧
    (s.auto = false → s'.woken = s.woken ++ s.waiting ∧ s'.waiting = []) := by
  simp only [step] at h
  split at h
  · rename_i ha
    split at h
    · rename_i hw; cases h; simp [ha, hw]
    · rename_i hw
      split at h
      · rename_i hp; cases h; simp [ha, hw, hp]
      · cases h
  · rename_i ha; cases h; simp [ha]

theorem kcond_woken_returns (s : St) (t : Nat) (h : t ∈ s.woken) :
    ∃ s', step s (.resume t) = .ok s' ∧ s'.returned = s.returned ++ [t] ∧ (s.auto = true → s'.ev = false) ∧ (s.auto = false → s'.ev = s.ev) ∧
      s'.woken = s.woken.erase t ∧ s'.waiting = s.waiting :=
  ⟨_, if_pos h, rfl, fun h => by simp [h], fun h => by simp [h], rfl, rfl⟩

theorem kcond_wait_when_set (s : St) (t : Nat) (h : s.ev = true) (ht : t ∉ s.waiting ∧ t ∉ s.woken) :
    ∃ s', step s (.wait t) = .ok s' ∧ s'.returned = s.returned ++ [t] ∧ s'.ev = false := by
  refine ⟨{ s with ev := false, returned := s.returned ++ [t] }, ?_, rfl, rfl⟩
  simp only [step]
  rw [if_neg (fun hc => hc.elim ht.1 ht.2), if_pos h]

/-- **C32.** A wait that starts while the event is not set blocks: the thread waits, nothing else changes. -/
theorem kcond_wait_when_clear (s : St) (t : Nat) (h : s.ev = false) (ht : t ∉ s.waiting ∧ t ∉ s.woken) :
    step s (.wait t) = .ok { s with waiting := s.waiting ++ [t] } := by
  simp only [step]
  rw [if_neg (fun hc => hc.elim ht.1 ht.2), if_neg (by simp [h])]

/-- **C32.** `kcond_try_wait` never blocks: it succeeds and consumes the event exactly if it is set, and otherwise changes nothing. -/
theorem kcond_try_wait (s : St) (t : Nat) (ht : t ∉ s.waiting ∧ t ∉ s.woken) :
    ∃ s', step s (.tryWait t) = .ok s' ∧ (s.ev = false → s' = s) ∧
      (s.ev = true → s'.returned = s.returned ++ [t] ∧ s'.ev = false ∧ s'.waiting = s.waiting ∧ s'.woken = s.woken ∧ s'.notices = s.notices) := by
  simp only [step]
  rw [if_neg (fun hc => hc.elim ht.1 ht.2)]
  cases h : s.ev <;> simp

/-- **C32.** Without spurious wake-ups waits only return because of notices: for an auto-reset event at most two waits return per notice
(one that was waiting, one that came by before it resumed). -/
theorem kcond_returns_bounded (s : St) (h : Reachable stepN (kinit true) s) :
    s.returned.length + s.woken.length + (if s.ev then 1 else 0) ≤ 2 * s.notices := by
  have key := h.invariant (P := fun s => s.auto = true ∧ s.returned.length + s.woken.length + (if s.ev then 1 else 0) ≤ 2 * s.notices)
    ⟨rfl, Nat.le_refl _⟩ ?_
  · exact key.2
  · rintro s o s' ⟨ha, hi⟩ hs
    cases o with
    | wait t =>
      simp only [stepN, step] at hs
      split at hs
      · cases hs
      · split at hs
        · rename_i he; cases hs; refine ⟨ha, ?_⟩; simp [he] at hi ⊢; omega
        · rename_i he; cases hs; exact ⟨ha, hi⟩
    | tryWait t =>
      simp only [stepN, step] at hs
      split at hs
      · cases hs
      · split at hs
        · rename_i he; cases hs; refine ⟨ha, ?_⟩; simp [he] at hi ⊢; omega
        · rename_i he; cases hs; exact ⟨ha, hi⟩
    | notice p =>
      simp only [stepN, step, ha] at hs
      simp only [if_true] at hs
      split at hs
      · cases hs; refine ⟨rfl, ?_⟩; simp only [if_true]; split at hi <;> omega
      · split at hs
        · cases hs; refine ⟨rfl, ?_⟩; simp only [if_true, List.length_append, List.length_singleton]; split at hi <;> omega
        · cases hs
    | reset => cases hs; refine ⟨ha, ?_⟩; simp only [Bool.false_eq_true, if_false]; split at hi <;> omega
    | resume t =>
      simp only [stepN, step, ha] at hs
      split at hs
      · rename_i ht
        cases hs
        refine ⟨rfl, ?_⟩
        have := List.length_pos_of_mem ht
        simp only [if_true, Bool.false_eq_true, if_false, List.length_append, List.length_singleton, List.length_erase_of_mem ht]
        split at hi <;> omega
      · cases hs
    | spurious t => cases hs

/-- **C32.** With a single waiting thread (how `kasync_worker_start` uses it) an auto-reset event is exact: every return is paid for by
its own notice. -/
theorem kcond_single_waiter_exact (w : Nat) (s : St) (h : Reachable (step1 w) (kinit true) s) :
    s.returned.length + (if s.ev ∨ s.woken ≠ [] then 1 else 0) ≤ s.notices ∧ (s.waiting = [] ∨ s.ev = false) := by
  have key := h.invariant (P := fun s => s.auto = true ∧ s.returned.length + (if s.ev ∨ s.woken ≠ [] then 1 else 0) ≤ s.notices ∧
    (s.waiting = [] ∨ s.waiting = [w]) ∧ (s.woken = [] ∨ s.woken = [w]) ∧ (s.waiting = [] ∨ (s.woken = [] ∧ s.ev = false)))
    ⟨rfl, by simp [kinit], .inl rfl, .inl rfl, .inl rfl⟩ ?_
  · exact ⟨key.2.1, key.2.2.2.2.imp id (fun h => h.2)⟩
  · rintro s o s' ⟨ha, hi, hw, hk, hx⟩ hs
    cases o with
    | wait t =>
      simp only [step1] at hs
      split at hs
      · rename_i htw
        subst htw
        simp only [step] at hs
        split at hs
        · cases hs
        · rename_i hn
          have hw0 : s.waiting = [] := hw.resolve_right (fun h => hn (.inl (by simp [h])))
          have hk0 : s.woken = [] := hk.resolve_right (fun h => hn (.inr (by simp [h])))
          split at hs
          · rename_i he; cases hs
            simp [he, hk0] at hi
            exact ⟨ha, by simp [hk0]; omega, .inl hw0, .inl hk0, .inl hw0⟩
          · rename_i he; cases hs
            exact ⟨ha, hi, .inr (by simp [hw0]), .inl hk0, .inr ⟨hk0, by simpa using he⟩⟩
      · cases hs
    | tryWait t =>
      simp only [step1] at hs
      split at hs
      · rename_i htw
        subst htw
        simp only [step] at hs
        split at hs
        · cases hs
        · rename_i hn
          have hw0 : s.waiting = [] := hw.resolve_right (fun h => hn (.inl (by simp [h])))
          have hk0 : s.woken = [] := hk.resolve_right (fun h => hn (.inr (by simp [h])))
          split at hs
          · rename_i he; cases hs
            simp [he, hk0] at hi
            exact ⟨ha, by simp [hk0]; omega, .inl hw0, .inl hk0, .inl hw0⟩
          · rename_i he; cases hs
            exact ⟨ha, hi, hw, hk, hx⟩
      · cases hs
    | notice p =>
      simp only [step1, step, ha, if_true] at hs
      split at hs
      · rename_i hw0
        cases hs; refine ⟨rfl, ?_, hw, hk, .inl hw0⟩; simp only [true_or, if_true]; split at hi <;> omega
      · rename_i hw0
        have hw1 := hw.resolve_left hw0
        have hk0 := (hx.resolve_left hw0).1
        have he0 := (hx.resolve_left hw0).2
        split at hs
        · rename_i hp
          cases hs
          rw [hw1] at hp
          have hpw : p = w := by simpa using hp
          subst hpw
          refine ⟨rfl, ?_, .inl (by simp [hw1]), .inr (by simp [hk0]), .inl (by simp [hw1])⟩
          simp [he0, hk0] at hi ⊢; omega
        · cases hs
    | reset =>
      cases hs
      refine ⟨ha, ?_, hw, hk, hx.imp id (fun h => ⟨h.1, rfl⟩)⟩
      simp only [Bool.false_eq_true, false_or]
      split at hi <;> split <;> rename_i h1 h2
      · omega
      · omega
      · exact absurd (.inr h2) h1
      · omega
    | resume t =>
      simp only [step1, step, ha, if_true] at hs
      split at hs
      · rename_i ht
        cases hs
        have hk1 : s.woken = [w] := hk.resolve_left (fun h => by rw [h] at ht; cases ht)
        have htw : t = w := by rw [hk1] at ht; simpa using ht
        subst htw
        have hw0 : s.waiting = [] := by
          rcases hx with h | h
          · exact h
          · rw [hk1] at h; exact absurd h.1 (by simp)
        refine ⟨rfl, ?_, .inl hw0, .inl (by simp [hk1]), .inl hw0⟩
        simp [hk1] at hi ⊢; omega
      · cases hs
    | spurious t => cases hs

/-! ## Non-vacuity and findings -/

example : (run (step1 1) (kinit true) [.wait 1, .notice 1, .resume 1, .notice 1, .wait 1]).map (fun s => (s.returned, s.notices, s.ev)) =
    some ([1, 1], 2, false) := by rfl

/-- `kcond_try_wait`: refused, then after a notice it succeeds once -/
example : (run step (kinit true) [.tryWait 1, .notice 0, .tryWait 1, .tryWait 2]).map (fun s => (s.returned, s.ev)) = some ([1], false) := by rfl

/-- a manual event releases all waiters -/
example : (run step (kinit false) [.wait 1, .wait 2, .notice 0, .resume 2, .resume 1]).map (fun s => (s.returned, s.ev)) =
    some ([2, 1], true) := by rfl

/-- **Finding (C32).** One notice of an auto-reset event can release two waits: one waiter is woken, another thread takes the event before
it resumes. -/
theorem kcond_one_notice_two_returns :
    (run stepN (kinit true) [.wait 1, .notice 1, .wait 2, .resume 1]).map (fun s => (s.returned, s.notices)) = some ([2, 1], 1) := by rfl

/-- **Finding (C32).** A resuming waiter clears an event that a second notice has set for another waiter: two notices, two later waits, one stays
blocked (auto-reset: the second notice is merged although the first was already taken). -/
theorem kcond_second_notice_swallowed :
    (run stepN (kinit true) [.wait 1, .notice 1, .notice 0, .resume 1, .wait 2]).map (fun s => (s.returned, s.notices, s.waiting)) =
      some ([1], 2, [2]) := by rfl

/-- **Finding (C32).** A manual-reset event is not kept: a wait that finds it set clears it, so of two later waits one blocks. -/
theorem kcond_manual_event_consumed :
    (run stepN (kinit false) [.notice 0, .wait 1, .wait 2]).map (fun s => (s.returned, s.waiting)) = some ([1], [2]) := by rfl

/-- **Finding (C32).** There is no predicate loop: a spurious wake-up makes a wait return although no notice was ever given. -/
theorem kcond_spurious_return :
    (run step (kinit true) [.wait 1, .spurious 1, .resume 1]).map (fun s => (s.returned, s.notices)) = some ([1], 0) := by rfl

end Kasync.KCond
