import Verif.Sync.Cond

/-! # Property theorems for kfiber_cond: C20 (auto-reset), C21 (manual-reset) -/

namespace Kasync.Cond

@[simp] theorem wakeup_ev (s : State) (w : Waiter) (g : Int) : (wakeup s w g).ev = s.ev := by cases w <;> rfl
@[simp] theorem wakeup_waiter (s : State) (w : Waiter) (g : Int) : (wakeup s w g).waiter = s.waiter := by cases w <;> rfl
@[simp] theorem wakeup_notices (s : State) (w : Waiter) (g : Int) : (wakeup s w g).notices = s.notices := by cases w <;> rfl
@[simp] theorem wakeup_done (s : State) (w : Waiter) (g : Int) : (wakeup s w g).done = (w, g) :: s.done := by
  cases w <;> simp [wakeup]
@[simp] theorem wakeup_asked (s : State) (w : Waiter) (g : Int) : (wakeup s w g).asked = s.asked := by cases w <;> rfl

theorem wakeupAll_fields (s : State) (g : Int) (ws : List Waiter) :
    (wakeupAll s g ws).ev = s.ev ∧ (wakeupAll s g ws).waiter = s.waiter ∧ (wakeupAll s g ws).notices = s.notices ∧
    (wakeupAll s g ws).done = (ws.map (·, g)).reverse ++ s.done := by
  induction ws generalizing s with
  | nil => simp [wakeupAll]
  | cons w ws ih =>
    simp only [wakeupAll]
    obtain ⟨a, b, c, d⟩ := ih (wakeup s w g)
    refine ⟨by simp [a], by simp [b], by simp [c], by simp [d]⟩

theorem wakeupAll_asked (s : State) (g : Int) (ws : List Waiter) : (wakeupAll s g ws).asked = s.asked := by
  induction ws generalizing s with
  | nil => rfl
  | cons w ws ih => simp only [wakeupAll, ih, wakeup_asked]

/-- **C20, C21.** No wait is lost or completed twice, for both flavours and both kinds of waiter: at every moment the waits begun are
exactly those that completed and those still waiting. -/
theorem cond_no_waiter_lost (auto : Bool) (r : Nat → Int) (s : State) (h : Reachable (step auto) (init r) s) :
    s.asked.Perm (s.done.map Prod.fst ++ s.waiter) := by
  refine h.invariant (P := fun s => s.asked.Perm (s.done.map Prod.fst ++ s.waiter)) (.refl _) ?_
  intro s o s' ih hs
  cases o with
  | wait f =>
    simp only [step] at hs
    split at hs
    · cases hs
    · cases hs
      unfold wait
      split
      · exact .cons _ ih
      · exact (List.Perm.cons _ ih).trans List.perm_middle.symm
  | tryWait f =>
    simp only [step] at hs
    split at hs
    · cases hs
    · cases hs
      unfold tryWait
      split
      · exact .cons _ ih
      · exact ih
  | waitCallback c =>
    simp only [step] at hs
    cases hs
    unfold waitCallback
    split
    · exact .cons _ ih
    · exact (List.Perm.cons _ ih).trans List.perm_middle.symm
  | notice g =>
    simp only [step] at hs
    cases hs
    unfold notice
    split
    · dsimp only
      split
      · exact ih
      · rename_i w ws hw
        simp only [wakeup_asked, wakeup_done, wakeup_waiter, List.map_cons]
        rw [hw] at ih
        exact ih.trans List.perm_middle
    · dsimp only
      rw [wakeupAll_asked, (wakeupAll_fields _ _ _).2.2.2, (wakeupAll_fields _ _ _).2.1]
      dsimp only
      refine ih.trans ?_
      have e : (s.waiter.map (fun x => (x, g))).map Prod.fst = s.waiter := by
        rw [List.map_map]; exact List.map_id _
      rw [List.append_nil, List.map_append, List.map_reverse, e]
      exact List.perm_append_comm.trans (List.Perm.append_right _ (List.reverse_perm _).symm)

/-- **C20.** Auto-reset: in every reachable state the number of completed waits plus the number of stored
notices is the number of notices given, and nobody waits while a notice is stored. -/
theorem cond_auto_counts (r : Nat → Int) (s : State) (h : Reachable (step true) (init r) s) :
    s.done.length + s.ev = s.notices.length ∧ (s.ev > 0 → s.waiter = []) := by
  refine h.invariant (P := fun s => s.done.length + s.ev = s.notices.length ∧ (s.ev > 0 → s.waiter = []))
    (by simp [init]) ?_
  rintro s o s' ⟨h1, h2⟩ hs
  cases o with
  | wait f =>
    simp only [step] at hs
    split at hs
    · cases hs
    · cases hs
      unfold wait
      split
      · rename_i hev
        refine ⟨by simp; omega, fun _ => h2 hev⟩
      · rename_i hev
        exact ⟨h1, fun h => absurd h hev⟩
  | tryWait f =>
    simp only [step] at hs
    split at hs
    · cases hs
    · cases hs
      unfold tryWait
      split
      · rename_i hev
        refine ⟨by simp; omega, fun _ => h2 hev⟩
      · exact ⟨h1, h2⟩
  | waitCallback c =>
    simp only [step] at hs
    cases hs
    unfold waitCallback
    split
    · rename_i hev
      refine ⟨by simp; omega, fun _ => h2 hev⟩
    · rename_i hev
      exact ⟨h1, fun h => absurd h hev⟩
  | notice g =>
    simp only [step] at hs
    cases hs
    simp only [notice, if_true]
    split
    · rename_i hw
      exact ⟨by simp; omega, fun _ => hw⟩
    · rename_i w ws hw
      have : s.ev = 0 := by
        by_cases h : s.ev > 0
        · rw [h2 h] at hw; cases hw
        · omega
      exact ⟨by simp [this]; omega, by simp [this]⟩

/-- **C20.** Auto-reset: a notice given while somebody waits releases exactly one waiter, which gets the
notified value, and stores nothing; given while nobody waits it is stored and releases exactly one later wait. -/
theorem cond_auto_notice (r : Nat → Int) (s : State) (h : Reachable (step true) (init r) s) (got : Int) :
    (s.waiter = [] → (notice true s got).ev = s.ev + 1 ∧ (notice true s got).done = s.done) ∧
    (∀ w ws, s.waiter = w :: ws → (notice true s got).waiter = ws ∧ (notice true s got).ev = 0 ∧
        (notice true s got).done = (w, got) :: s.done) := by
  have hc := cond_auto_counts r s h
  constructor
  · intro hw; simp [notice, hw]
  · intro w ws hw
    have : s.ev = 0 := by
      by_cases h : s.ev > 0
      · rw [hc.2 h] at hw; cases hw
      · omega
    simp [notice, hw, this]

/-- **C20.** A wait (fiber, try or callback) with a stored notice completes at once and consumes exactly one. -/
theorem cond_auto_wait_stored (s : State) (f c : Nat) (hev : s.ev > 0) :
    (wait true s f).ev + 1 = s.ev ∧ (wait true s f).waiter = s.waiter ∧ (wait true s f).done.length = s.done.length + 1 ∧
    (tryWait true s f).2 = true ∧ (tryWait true s f).1.ev + 1 = s.ev ∧
    (waitCallback true s c).ev + 1 = s.ev ∧ (waitCallback true s c).waiter = s.waiter := by
  have hg : 0 < s.ev := hev
  simp only [wait, tryWait, waitCallback, gt_iff_lt, hg, if_true, List.length_cons]
  refine ⟨by omega, trivial, trivial, trivial, by omega, by omega, trivial⟩

/-- **C20.** `try_wait` without a stored notice fails and changes nothing (both flavours). -/
theorem cond_try_wait_empty (auto : Bool) (s : State) (f : Nat) (hev : s.ev = 0) :
    tryWait auto s f = (s, false) := by
  simp [tryWait, hev]

/-- **C21.** Manual-reset: a notice releases every waiter with the notified value and leaves nobody waiting. -/
theorem cond_manual_notice_releases_all (s : State) (got : Int) :
    (notice false s got).waiter = [] ∧ (notice false s got).ev = 1 ∧
    (∀ w ∈ s.waiter, (w, got) ∈ (notice false s got).done) ∧
    (notice false s got).done.length = s.done.length + s.waiter.length := by
  obtain ⟨a, b, c, d⟩ := wakeupAll_fields { s with ev := 1, waiter := [], notices := got :: s.notices } got s.waiter
  simp only [notice]
  refine ⟨b, a, ?_, ?_⟩
  · intro w hw
    have : (w, got) ∈ (s.waiter.map (·, got)).reverse ++ s.done := by
      simp only [List.mem_append, List.mem_reverse, List.mem_map]
      exact .inl ⟨w, hw, rfl⟩
    rw [← d] at this; exact this
  · have := congrArg List.length d
    simp only [List.length_append, List.length_reverse, List.length_map] at this
    simp only [Bool.false_eq_true, if_false]
    omega

/-- **C21.** Manual-reset: once a notice was given the condition stays set for good — in every later state
nobody waits and every wait completes immediately. -/
theorem cond_manual_stays_set (r : Nat → Int) (s : State) (h : Reachable (step false) (init r) s)
    (hn : s.notices ≠ []) :
    s.ev = 1 ∧ s.waiter = [] ∧ ∀ f, (wait false s f).waiter = [] ∧ (wait false s f).done.length = s.done.length + 1 ∧
      (tryWait false s f).2 = true := by
  have key : s.notices ≠ [] → s.ev = 1 ∧ s.waiter = [] := by
    refine h.invariant (P := fun s => s.notices ≠ [] → s.ev = 1 ∧ s.waiter = []) (by simp [init]) ?_
    intro s o s' ih hs
    cases o with
    | wait f =>
      simp only [step] at hs
      split at hs
      · cases hs
      · cases hs
        unfold wait
        split
        · exact ih
        · rename_i hev
          intro hn; have := (ih hn).1; omega
    | tryWait f =>
      simp only [step] at hs
      split at hs
      · cases hs
      · cases hs
        unfold tryWait
        split
        · exact ih
        · exact ih
    | waitCallback c =>
      simp only [step] at hs
      cases hs
      unfold waitCallback
      split
      · exact ih
      · rename_i hev
        intro hn; have := (ih hn).1; omega
    | notice g =>
      simp only [step] at hs
      cases hs
      intro _
      have := cond_manual_notice_releases_all s g
      exact ⟨this.2.1, this.1⟩
  obtain ⟨h1, h2⟩ := key hn
  refine ⟨h1, h2, ?_⟩
  intro f
  simp [wait, tryWait, h1, h2]

/-- **C21.** Manual-reset: a wait completes only if a notice was given (no spurious completion). -/
theorem cond_no_spurious_completion (auto : Bool) (r : Nat → Int) (s : State)
    (h : Reachable (step auto) (init r) s) (hd : s.done ≠ []) : s.notices ≠ [] := by
  have key : (s.done ≠ [] ∨ s.ev > 0) → s.notices ≠ [] := by
    refine h.invariant (P := fun s => (s.done ≠ [] ∨ s.ev > 0) → s.notices ≠ []) (by simp [init]) ?_
    intro s o s' ih hs
    cases o with
    | wait f =>
      simp only [step] at hs
      split at hs
      · cases hs
      · cases hs
        unfold wait
        split
        · rename_i hev; intro _; exact ih (.inr hev)
        · exact ih
    | tryWait f =>
      simp only [step] at hs
      split at hs
      · cases hs
      · cases hs
        unfold tryWait
        split
        · rename_i hev; intro _; exact ih (.inr hev)
        · exact ih
    | waitCallback c =>
      simp only [step] at hs
      cases hs
      unfold waitCallback
      split
      · rename_i hev; intro _; exact ih (.inr hev)
      · exact ih
    | notice g =>
      simp only [step] at hs
      cases hs
      intro _
      unfold notice
      split
      · dsimp only
        split <;> simp
      · rw [(wakeupAll_fields _ _ _).2.2.1]; simp
  exact key (.inl hd)

/-! ### Findings -/

/-- **Finding (C20/C21).** The value given to `notice` reaches a fiber only if the fiber was already waiting:
a notice that precedes the wait is delivered with the waiter's own stale `retval` (src/kfiber_sync.c:141,188,270),
a callback gets 0 (41, 51). -/
theorem cond_value_lost_when_notice_first (auto : Bool) :
    ∃ s, run (step auto) (init (fun _ => 7)) [.notice 42, .wait 0] = some s ∧ s.done = [(.fiber 0, 7)] := by
  cases auto <;> exact ⟨_, rfl, rfl⟩

theorem cond_value_lost_callback (auto : Bool) :
    ∃ s, run (step auto) (init (fun _ => 7)) [.notice 42, .waitCallback 0] = some s ∧ s.done = [(.cb 0, 0)] := by
  cases auto <;> exact ⟨_, rfl, rfl⟩

/-- **Finding (C20).** Auto-reset waiters are released last-in first-out. -/
theorem cond_auto_lifo :
    ∃ s, run (step true) (init (fun _ => 0)) [.wait 1, .wait 2, .notice 5] = some s ∧
      s.done = [(.fiber 2, 5)] ∧ s.waiter = [.fiber 1] := ⟨_, rfl, rfl, rfl⟩

/-! ### Non-vacuity -/

example : ∃ s, Reachable (step true) (init (fun _ => 0)) s ∧ s.waiter.length = 2 ∧ s.done.length = 2 :=
  ⟨_, reachable_of_run (os := [.notice 1, .wait 0, .wait 1, .waitCallback 3, .wait 4, .notice 9]) rfl, rfl, rfl⟩
example : ∃ s, Reachable (step true) (init (fun _ => 0)) s ∧ s.ev = 2 :=
  ⟨_, reachable_of_run (os := [.notice 1, .notice 2, .notice 3, .wait 0]) rfl, rfl⟩
example : ∃ s, Reachable (step false) (init (fun _ => 0)) s ∧ s.notices ≠ [] ∧ s.done.length = 3 :=
  ⟨_, reachable_of_run (os := [.wait 0, .waitCallback 1, .notice 4, .wait 2]) rfl, by decide, rfl⟩

end Kasync.Cond
