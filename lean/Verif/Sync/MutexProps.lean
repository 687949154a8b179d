import Verif.Sync.Mutex

/-! # Property theorems for the fiber mutex: C15, C16, C17 -/

namespace Kasync.Mutex

/-- number of fibers that own the mutex: lock returned, or ownership handed over and about to run -/
def State.owners (s : State) : Nat := s.holding.length + s.granted.length

/-- bookkeeping invariant -/
structure Inv (s : State) : Prop where
  worker_eq : s.worker = (s.owners : Int)
  count_eq : s.count = (s.owners : Int) + s.waiter.length
  nodup : (s.waiter ++ s.granted ++ s.holding).Nodup
  limit_pos : 1 ≤ s.limit
  waiter_owner : s.waiter ≠ [] → 1 ≤ s.worker

theorem Inv.init (num : Int) (h : 1 ≤ num) : Inv (init num) := by
  constructor <;> simp [Mutex.init, State.owners, h]

theorem not_idle {s : State} {f : Nat} : s.idle f = true ↔ f ∉ s.waiter ∧ f ∉ s.granted ∧ f ∉ s.holding := by
  simp [State.idle, and_assoc]

theorem Inv.step {s s' : State} {o : Op} (h : Inv s) (hs : stepNoCb s o = .ok s') : Inv s' := by
  obtain ⟨h1, h2, h3, h4, h5⟩ := h
  rw [List.nodup_append, List.nodup_append] at h3
  simp only [State.owners] at *
  cases o with
  | lock f max =>
    simp only [stepNoCb, Mutex.step] at hs
    split at hs
    · rename_i hi
      rw [not_idle] at hi
      obtain ⟨i1, i2, i3⟩ := hi
      cases hs
      unfold lock
      split
      · exact ⟨h1, h2, by rw [List.nodup_append, List.nodup_append]; exact h3, h4, h5⟩
      · dsimp only
        split
        · refine ⟨by simp only [State.owners, List.length_cons]; omega, by simp only [State.owners, List.length_cons]; omega, ?_, h4, by simp only; omega⟩
          rw [List.nodup_append, List.nodup_append]
          grind
        · refine ⟨h1, by simp only [State.owners, List.length_cons]; omega, ?_, h4, by simp only; intro _; omega⟩
          rw [List.nodup_append, List.nodup_append]
          grind
    · cases hs
  | unlock f =>
    simp only [stepNoCb, Mutex.step] at hs
    split at hs
    · rename_i hf
      have hlen := List.length_erase_of_mem hf
      have hpos := List.length_pos_of_mem hf
      unfold unlock at hs
      split at hs
      · rename_i s1 hu
        cases hs
        split at hu
        · try dsimp only at hu
          split at hu
          · rename_i hw
            split at hu
            · cases hu
              simp only [hw, List.length_nil] at *
              refine ⟨by simp only [State.owners]; omega, by simp only [State.owners, hw, List.length_nil]; omega, ?_, h4, by simp [hw]⟩
              simp only [hw]
              rw [List.nodup_append, List.nodup_append]
              refine ⟨h3.1, h3.2.1.erase f, ?_⟩
              intro a ha b hb
              exact h3.2.2 a ha b (List.mem_of_mem_erase hb)
            · cases hu
          · rename_i w ws hw
            cases hu
            simp only [hw, List.length_cons] at *
            refine ⟨by simp only [State.owners, List.length_cons]; omega, by simp only [State.owners, List.length_cons]; omega, ?_, h4, by simp only; intro _; omega⟩
            rw [List.nodup_append, List.nodup_append]
            have := h3.2.1.erase f
            have hm : ∀ b, b ∈ s.holding.erase f → b ∈ s.holding := fun b => List.mem_of_mem_erase
            grind
        · cases hu
      · cases hs
    · cases hs
  | resume f =>
    simp only [stepNoCb, Mutex.step] at hs
    split at hs
    · rename_i hf
      cases hs
      have hlen := List.length_erase_of_mem hf
      have hpos := List.length_pos_of_mem hf
      refine ⟨by simp only [State.owners, List.length_cons]; omega, by simp only [State.owners, List.length_cons]; omega, ?_, h4, h5⟩
      rw [List.nodup_append, List.nodup_append]
      have := h3.1.2.1.erase f
      have hm : ∀ b, b ∈ s.granted.erase f → b ∈ s.granted := fun b => List.mem_of_mem_erase
      have hnf : f ∉ s.granted.erase f := by
        rw [h3.1.2.1.mem_erase_iff]; simp
      grind
    · cases hs
  | setLimit n =>
    simp only [stepNoCb, Mutex.step] at hs
    cases hs
    refine ⟨h1, h2, by rw [List.nodup_append, List.nodup_append]; exact h3, ?_, h5⟩
    simp only [setLimit]; split <;> omega
  | lock2 f => simp [stepNoCb] at hs

theorem Inv.reachable {num : Int} (h : 1 ≤ num) {s : State} (hr : Reachable stepNoCb (Mutex.init num) s) : Inv s :=
  hr.invariant (Inv.init num h) (fun _ _ _ hi he => hi.step he)

theorem stepFixed_noCb {s s' : State} {o : Op} (h : stepFixed s o = .ok s') :
    stepNoCb s o = .ok s' ∧ s'.limit = s.limit := by
  cases o with
  | lock f max =>
    refine ⟨h, ?_⟩
    simp only [stepFixed, step] at h
    split at h
    · cases h; unfold lock; split
      · rfl
      · dsimp only; split <;> rfl
    · cases h
  | unlock f =>
    refine ⟨h, ?_⟩
    simp only [stepFixed, step, unlock] at h
    split at h
    · split at h
      · rename_i s1 hu
        cases h
        split at hu
        · try dsimp only at hu
          split at hu
          · split at hu
            · cases hu; rfl
            · cases hu
          · cases hu; rfl
        · cases hu
      · cases h
    · cases h
  | resume f =>
    refine ⟨h, ?_⟩
    simp only [stepFixed, step] at h
    split at h
    · cases h; rfl
    · cases h
  | setLimit n => simp [stepFixed] at h
  | lock2 f => simp [stepFixed] at h

theorem fixed_reachable {num : Int} {s : State} (hr : Reachable stepFixed (Mutex.init num) s) :
    Reachable stepNoCb (Mutex.init num) s ∧ s.limit = num := by
  induction hr with
  | refl => exact ⟨.refl, rfl⟩
  | tail o _ he ih =>
    obtain ⟨h1, h2⟩ := stepFixed_noCb he
    exact ⟨.tail o ih.1 h1, h2.trans ih.2⟩

theorem fixed_bound {num : Int} (h : 1 ≤ num) {s : State} (hr : Reachable stepFixed (Mutex.init num) s) :
    s.worker ≤ num ∧ (s.waiter ≠ [] → s.worker = num) := by
  induction hr with
  | refl => exact ⟨by simp [Mutex.init]; omega, by simp [Mutex.init]⟩
  | @tail s s' o hr' he ih =>
    have hl := (fixed_reachable hr').2
    have hi := Inv.reachable h (fixed_reachable hr').1
    cases o with
    | lock f max =>
      simp only [stepFixed, step] at he
      split at he
      · cases he; unfold lock; split
        · exact ih
        · dsimp only; split
          · refine ⟨by simp only; omega, ?_⟩
            intro hw; have := ih.2 hw; simp only; omega
          · refine ⟨ih.1, ?_⟩
            intro _; simp only; omega
      · cases he
    | unlock f =>
      simp only [stepFixed, step, unlock] at he
      split at he
      · split at he
        · rename_i s1 hu
          cases he
          split at hu
          · try dsimp only at hu
            split at hu
            · rename_i hw
              split at hu
              · cases hu; exact ⟨by simp only; omega, by simp [hw]⟩
              · cases hu
            · rename_i w ws hw
              cases hu
              exact ⟨ih.1, fun _ => ih.2 (by simp [hw])⟩
          · cases hu
        · cases he
      · cases he
    | resume f =>
      simp only [stepFixed, step] at he
      split at he
      · cases he; exact ih
      · cases he
    | setLimit n => simp [stepFixed] at he
    | lock2 f => simp [stepFixed] at he

/-- **C15**, with the callback flavour: whatever mixture of `lock`, `try_lock`, `lock2` and `unlock` is used, the number of fibers and
callbacks inside never exceeds the limit and nobody waits while there is room (as long as no assertion fails, see
`mutex_lock2_unlock_asserts`). -/
theorem mutex_holders_le_limit_callbacks (num : Int) (h : 1 ≤ num) (s : State) (hr : Reachable stepCb (init num) s) :
    (s.holding.length : Int) + s.granted.length ≤ num ∧
      (s.waiter ≠ [] → (s.holding.length : Int) + s.granted.length = num) := by
  have key : s.worker = (s.holding.length : Int) + s.granted.length ∧ s.limit = num ∧ s.worker ≤ num ∧ (s.waiter ≠ [] → s.worker = num) := by
    refine hr.invariant (P := fun s => s.worker = (s.holding.length : Int) + s.granted.length ∧ s.limit = num ∧ s.worker ≤ num ∧
      (s.waiter ≠ [] → s.worker = num)) (by simp [Mutex.init]; omega) ?_
    rintro s o s' ⟨h1, h2, h3, h4⟩ he
    cases o with
    | lock f max =>
      simp only [stepCb, step] at he
      split at he
      · cases he; unfold lock; split
        · exact ⟨h1, h2, h3, h4⟩
        · dsimp only; split
          · refine ⟨by simp only [List.length_cons]; omega, h2, by simp only; omega, fun hw => ?_⟩
            have := h4 hw; simp only; omega
          · exact ⟨h1, h2, h3, fun _ => by simp only; omega⟩
      · cases he
    | unlock f =>
      simp only [stepCb, step, unlock] at he
      split at he
      · rename_i hf
        have hlen := List.length_erase_of_mem hf
        have hpos := List.length_pos_of_mem hf
        split at he
        · rename_i s1 hu
          cases he
          split at hu
          · try dsimp only at hu
            split at hu
            · rename_i hw
              split at hu
              · cases hu; exact ⟨by simp only; omega, h2, by simp only; omega, fun hn => absurd hw hn⟩
              · cases hu
            · rename_i w ws hw
              cases hu
              have := h4 (by rw [hw]; simp)
              exact ⟨by simp only [List.length_cons]; omega, h2, h3, fun _ => this⟩
          · cases hu
        · cases he
      · cases he
    | resume f =>
      simp only [stepCb, step] at he
      split at he
      · rename_i hf
        have hlen := List.length_erase_of_mem hf
        have hpos := List.length_pos_of_mem hf
        cases he; exact ⟨by simp only [List.length_cons]; omega, h2, h3, h4⟩
      · cases he
    | setLimit n => simp [stepCb] at he
    | lock2 f =>
      simp only [stepCb, step] at he
      split at he
      · cases he; unfold lock2; split
        · refine ⟨by simp only [List.length_cons]; omega, h2, by simp only; omega, fun hw => ?_⟩
          have := h4 hw; simp only; omega
        · exact ⟨h1, h2, h3, fun _ => by simp only; omega⟩
      · cases he
  obtain ⟨h1, _, h3, h4⟩ := key
  exact ⟨by omega, fun hw => by have := h4 hw; omega⟩

/-- **C15.** However many fibers lock, try-lock and unlock in whatever order: the number of fibers inside
(lock returned, unlock not yet called) never exceeds the limit. -/
theorem mutex_holders_le_limit (num : Int) (h : 1 ≤ num) (s : State)
    (hr : Reachable stepFixed (init num) s) : (s.holding.length : Int) ≤ num := by
  have h1 := (Inv.reachable h (fixed_reachable hr).1).worker_eq
  have h2 := (fixed_bound h hr).1
  simp only [State.owners] at h1
  omega

/-- **C15.** Mutual exclusion of `kfiber_mutex_init()`: two holders are the same fiber. -/
theorem mutex_mutual_exclusion (s : State) (hr : Reachable stepFixed (init 1) s) (f g : Nat)
    (hf : f ∈ s.holding) (hg : g ∈ s.holding) : f = g := by
  have h := mutex_holders_le_limit 1 (by omega) s hr
  match hs : s.holding with
  | [] => rw [hs] at hf; cases hf
  | [a] => rw [hs] at hf hg; simp at hf hg; omega
  | a :: b :: l => rw [hs] at h; simp at h; omega

/-- **C15.** With `set_limit` in the history as well: a lock call that does not wait is admitted only when
fewer than `limit` fibers are inside, and no assertion of `unlock` ever fails. -/
theorem mutex_admits_below_limit (num : Int) (h : 1 ≤ num) (s : State)
    (hr : Reachable stepNoCb (init num) s) (f : Nat) (max : Int)
    (ha : (lock s f max).2 = .acquired) : (s.owners : Int) < s.limit := by
  have h1 := (Inv.reachable h hr).worker_eq
  unfold lock at ha
  split at ha
  · cases ha
  · dsimp only at ha
    split at ha
    · dsimp only at *; omega
    · cases ha

/-- **C15/C16.** Programs that do not use the callback flavour never fail an assertion of the mutex. -/
theorem mutex_no_assert_failure (num : Int) (h : 1 ≤ num) (s : State)
    (hr : Reachable stepNoCb (init num) s) (o : Op) : stepNoCb s o ≠ .ub := by
  have hi := Inv.reachable h hr
  cases o with
  | unlock f =>
    simp only [stepNoCb, step]
    split
    · rename_i hf
      have hpos := List.length_pos_of_mem hf
      have h1 := hi.worker_eq
      have h2 := hi.count_eq
      simp only [State.owners] at h1 h2
      unfold unlock
      rw [if_pos (by omega)]
      dsimp only
      split
      · rename_i s' hs; simp
      · rename_i hs
        split at hs
        · rw [if_pos (by omega)] at hs; cases hs
        · cases hs
    · simp
  | lock f max => simp only [stepNoCb, step]; split <;> simp
  | resume f => simp only [stepNoCb, step]; split <;> simp
  | setLimit n => simp [stepNoCb, step]
  | lock2 f => simp [stepNoCb]

/-- **C16.** A fiber waits only while all `limit` places are taken. -/
theorem mutex_waits_only_when_full (num : Int) (h : 1 ≤ num) (s : State)
    (hr : Reachable stepFixed (init num) s) (hw : s.waiter ≠ []) : (s.owners : Int) = num := by
  have h1 := (Inv.reachable h (fixed_reachable hr).1).worker_eq
  have h2 := (fixed_bound h hr).2 hw
  omega

/-- **C16.** No lost wake-up: when nobody is inside (and no granted fiber is about to run), nobody waits —
even if the limit was changed on the way. -/
theorem mutex_no_lost_wakeup (num : Int) (h : 1 ≤ num) (s : State)
    (hr : Reachable stepNoCb (init num) s) (h1 : s.holding = []) (h2 : s.granted = []) : s.waiter = [] := by
  have hi := Inv.reachable h hr
  have e := hi.worker_eq
  simp only [State.owners, h1, h2, List.length_nil] at e
  by_cases hw : s.waiter = []
  · exact hw
  · have := hi.waiter_owner hw; omega

/-- **C16.** Each unlock with waiters hands the place to exactly one of them: the waiter list loses exactly
its head, which becomes granted, and the number of owners stays the same; without waiters the number of
owners decreases by one. -/
theorem mutex_unlock_hands_over (num : Int) (h : 1 ≤ num) (s s' : State)
    (hr : Reachable stepNoCb (init num) s) (f : Nat) (hs : stepNoCb s (.unlock f) = .ok s') :
    match s.waiter with
    | [] => s'.waiter = [] ∧ s'.granted = s.granted ∧ s'.owners + 1 = s.owners
    | w :: ws => s'.waiter = ws ∧ s'.granted = w :: s.granted ∧ s'.owners = s.owners := by
  simp only [stepNoCb, step, unlock] at hs
  split at hs
  · rename_i hf
    have hlen := List.length_erase_of_mem hf
    have hpos := List.length_pos_of_mem hf
    split at hs
    · rename_i s1 hu
      cases hs
      split at hu
      · try dsimp only at hu
        split at hu
        · rename_i hw
          split at hu
          · cases hu; simp only [hw, State.owners]; exact ⟨trivial, trivial, by omega⟩
          · cases hu
        · rename_i w ws hw
          cases hu
          simp only [hw, State.owners, List.length_cons]; exact ⟨trivial, trivial, by omega⟩
      · cases hu
    · cases hs
  · cases hs

/-- **C17.** `kfiber_mutex_try_lock(m, max)`, `max > 0`, refuses exactly when at least `max` fibers own or wait
for the mutex; a refused call changes nothing.  (`kfiber_mutex_lock`, `max = 0`, never refuses.) -/
theorem mutex_try_lock_refuses_iff (num : Int) (h : 1 ≤ num) (s : State)
    (hr : Reachable stepNoCb (init num) s) (f : Nat) (max : Int) :
    ((lock s f max).2 = .refused ↔ 0 < max ∧ max ≤ (s.owners : Int) + s.waiter.length) ∧
    ((lock s f max).2 = .refused → (lock s f max).1 = s) := by
  have h2 := (Inv.reachable h hr).count_eq
  unfold lock
  split
  · rename_i hc
    exact ⟨⟨fun _ => by omega, fun _ => rfl⟩, fun _ => rfl⟩
  · rename_i hc
    dsimp only
    split
    · exact ⟨⟨fun h => (by cases h), fun h => (by omega)⟩, fun h => (by cases h)⟩
    · exact ⟨⟨fun h => (by cases h), fun h => (by omega)⟩, fun h => (by cases h)⟩

/-- **C16.** Draining: if `n` fibers wait and no new lock calls come, then after `n` rounds in which some
owner runs and unlocks, nobody waits.  Each round strictly shortens the waiter list. -/
theorem mutex_drains (num : Int) (h : 1 ≤ num) (n : Nat) (s : State)
    (hr : Reachable stepNoCb (init num) s) (hn : s.waiter.length = n) :
    ∃ os s', run stepNoCb s os = some s' ∧ s'.waiter = [] ∧
      (∀ o ∈ os, ∃ f, o = .unlock f ∨ o = .resume f) ∧
      ∀ f ∈ s.waiter, f ∈ s'.granted ∨ f ∈ s'.holding ∨ Op.resume f ∈ os := by
  induction n generalizing s with
  | zero =>
    have : s.waiter = [] := List.length_eq_zero_iff.1 hn
    exact ⟨[], s, rfl, this, by simp, by simp [this]⟩
  | succ n ih =>
    have hi := Inv.reachable h hr
    have hw : s.waiter ≠ [] := by intro h0; rw [h0] at hn; simp at hn
    have hown := hi.waiter_owner hw
    rw [hi.worker_eq] at hown
    -- first make sure somebody holds
    have hold : ∃ os1 s1 f, run stepNoCb s os1 = some s1 ∧ Reachable stepNoCb (Mutex.init num) s1 ∧
        s1.waiter = s.waiter ∧ f ∈ s1.holding ∧ (∀ o ∈ os1, ∃ f, o = .unlock f ∨ o = .resume f) := by
      by_cases hh : s.holding = []
      · have hg : s.granted ≠ [] := by
          intro h0; simp [State.owners, hh, h0] at hown
        obtain ⟨f, l, hfl⟩ := List.exists_cons_of_ne_nil hg
        have hstep : stepNoCb s (.resume f) = .ok { s with granted := s.granted.erase f, holding := f :: s.holding } := by
          simp [stepNoCb, step, hfl]
        refine ⟨[.resume f], _, f, by simp only [run, hstep], .tail _ hr hstep, rfl, by simp, by simp⟩
      · obtain ⟨f, l, hfl⟩ := List.exists_cons_of_ne_nil hh
        exact ⟨[], s, f, rfl, hr, rfl, by simp [hfl], by simp⟩
    obtain ⟨os1, s1, f, r1, hr1, hw1, hf1, ho1⟩ := hold
    obtain ⟨w, ws, hws⟩ := List.exists_cons_of_ne_nil hw
    have hnub := mutex_no_assert_failure num h s1 hr1 (.unlock f)
    cases hst : stepNoCb s1 (.unlock f) with
    | ub => exact absurd hst hnub
    | disabled =>
      exfalso
      simp only [stepNoCb, step, hf1, if_true] at hst
      split at hst <;> cases hst
    | ok s2 =>
      have hh := mutex_unlock_hands_over num h s1 s2 hr1 f hst
      rw [hw1, hws] at hh
      simp only at hh
      have hr2 : Reachable stepNoCb (Mutex.init num) s2 := .tail _ hr1 hst
      -- run w so that it is recorded as having obtained the lock
      have hwg : w ∈ s2.granted := by rw [hh.2.1]; simp
      have hst3 : stepNoCb s2 (.resume w) =
          .ok { s2 with granted := s2.granted.erase w, holding := w :: s2.holding } := by
        simp [stepNoCb, step, hwg]
      obtain ⟨os2, s4, q1, q2, q3, q4⟩ := ih _ (.tail _ hr2 hst3) (by
        have : s2.waiter.length = n := by rw [hh.1]; rw [hws] at hn; simpa using hn
        exact this)
      refine ⟨os1 ++ (.unlock f :: .resume w :: os2), s4, ?_, q2, ?_, ?_⟩
      · rw [run_append, r1]
        simp only [Option.bind_some, run, hst, hst3]; exact q1
      · intro o ho
        simp only [List.mem_append, List.mem_cons] at ho
        rcases ho with ho | rfl | rfl | ho
        · exact ho1 o ho
        · exact ⟨_, .inl rfl⟩
        · exact ⟨_, .inr rfl⟩
        · exact q3 o ho
      · intro g hg
        rw [hws] at hg
        rcases List.mem_cons.1 hg with rfl | hg
        · right; right; simp
        · rcases q4 g (by simp only; rw [hh.1]; exact hg) with h' | h' | h'
          · exact .inl h'
          · exact .inr (.inl h')
          · right; right; simp [h']

/-! ### What does not hold (findings) -/

/-- **Finding (C16).** Waiters are served last-in first-out, so a waiter can be overtaken without bound:
for every `n` there is an execution in which `n` lock calls issued after fiber 1 started to wait are all
granted while fiber 1 keeps waiting. -/
theorem mutex_starvation (n : Nat) :
    ∃ os s, run stepFixed (init 1) os = some s ∧ 1 ∈ s.waiter ∧
      (∃ os', os = [.lock 0 0, .lock 1 0] ++ os') ∧
      n ≤ (os.filter (fun o => match o with | .resume f => f ≥ 2 | _ => false)).length := by
  -- owner 0 / newcomer 2 alternate
  have key : ∀ (n : Nat), ∃ os s a b, run stepFixed (init 1) ([.lock 0 0, .lock 1 0] ++ os) = some s ∧
      s = { waiter := [1], count := 2, worker := 1, limit := 1, holding := [a], granted := [] } ∧
      n ≤ (([.lock 0 0, .lock 1 0] ++ os).filter (fun o => match o with | .resume f => f ≥ 2 | _ => false)).length ∧
      (a = 0 ∨ a ≥ 2) ∧ b = a := by
    intro n
    induction n with
    | zero => exact ⟨[], _, 0, 0, rfl, rfl, by simp, .inl rfl, rfl⟩
    | succ n ih =>
      obtain ⟨os, s, a, b, h1, h2, h3, h4, -⟩ := ih
      have hstep : run stepFixed s [.lock (a+2) 0, .unlock a, .resume (a+2)] =
          some { waiter := [1], count := 2, worker := 1, limit := 1, holding := [a+2], granted := [] } := by
        subst h2
        have e1 : (1 : Nat) ≠ a := by omega
        simp [run, stepFixed, step, State.idle, lock, unlock]
      refine ⟨os ++ [.lock (a+2) 0, .unlock a, .resume (a+2)], _, a+2, a+2, ?_, rfl, ?_, .inr (by omega), rfl⟩
      · rw [← List.append_assoc, run_append, h1]; exact hstep
      · rw [← List.append_assoc, List.filter_append, List.length_append]
        have : (List.filter (fun o => match o with | .resume f => decide (f ≥ 2) | _ => false)
            [Op.lock (a+2) 0, .unlock a, .resume (a+2)]).length = 1 := by simp
        omega
  obtain ⟨os, s, a, b, h1, h2, h3, h4, -⟩ := key n
  exact ⟨_, s, h1, by simp [h2], ⟨os, rfl⟩, h3⟩

/-- **Finding (C15).** After lowering the limit, hand-over keeps the old number of holders as long as there
are waiters: limit 1, two holders, and each unlock hands its place over. -/
theorem mutex_lowered_limit_not_enforced :
    ∃ os s, run stepNoCb (init 2) os = some s ∧ s.limit = 1 ∧ s.holding.length = 2 ∧
      Op.unlock 0 ∈ os.drop 4 ∧ Op.unlock 1 ∈ os.drop 4 :=
  ⟨[.lock 0 0, .lock 1 0, .lock 2 0, .lock 3 0, .setLimit 1, .unlock 0, .resume 3, .unlock 1, .resume 2],
    _, rfl, rfl, rfl, by simp, by simp⟩

/-- **Finding (C16).** Raising the limit does not wake waiters: a fiber keeps waiting although a place is free. -/
theorem mutex_raised_limit_does_not_wake :
    ∃ os s, run stepNoCb (init 1) os = some s ∧ s.waiter ≠ [] ∧ (s.owners : Int) < s.limit :=
  ⟨[.lock 0 0, .lock 1 0, .setLimit 5], _, rfl, by decide, by decide⟩

/-- **Finding.** The callback flavour `kfiber_mutex_lock2` does not increment `count`, so the matching unlock
fails the assertion `count > 0` (include/kfiber_sync.h:110). -/
theorem mutex_lock2_unlock_asserts :
    ∃ os s f, run step (init 1) os = some s ∧ f ∈ s.holding ∧ step s (.unlock f) = .ub :=
  ⟨[.lock2 0, .resume 0], _, 0, rfl, by decide, by decide⟩

/-- **Finding.** `kfiber_mutex_init2(num)` with `num < 1` accepts no one: the first lock waits though nobody
holds the mutex (set_limit clamps, init2 does not). -/
theorem mutex_init2_zero_deadlocks :
    ∃ os s, run stepNoCb (init 0) os = some s ∧ s.waiter = [0] ∧ s.owners = 0 :=
  ⟨[.lock 0 0], _, rfl, rfl, rfl⟩

/-! ### Non-vacuity -/

/-- a busy state: two holders, one granted, two waiters, limit 3 -/
example : ∃ s, Reachable stepFixed (init 3) s ∧ s.holding.length = 2 ∧ s.granted.length = 1 ∧ s.waiter.length = 1 :=
  ⟨_, reachable_of_run (os := [.lock 0 0, .lock 1 0, .lock 2 0, .lock 3 0, .lock 4 0, .unlock 1]) rfl, by decide, by decide, by decide⟩
example : ∃ s, Reachable stepFixed (init 1) s ∧ (lock s 7 2).2 = .refused :=
  ⟨_, reachable_of_run (os := [.lock 0 0, .lock 1 0]) rfl, by decide⟩

example : ∃ s, Reachable stepCb (init 2) s ∧ s.holding = [0] ∧ s.granted = [1] ∧ s.waiter = [3, 2] :=
  ⟨_, reachable_of_run (os := [.lock 0 0, .lock2 1, .lock2 2, .lock 3 0]) rfl, rfl, rfl, rfl⟩

end Kasync.Mutex
