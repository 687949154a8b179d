import Verif.Mgr.LifeEnd

/-!
# C59: the life of the selector manager

Whatever the calls and their interleaving, every callback given to the manager is called at most once, on a selector thread of the manager, after it was asked for,
and never if it was refused; every selector thread calls each hook once with 0 before anything else and once with 1 after everything else.
While the manager is not shut down, and the clock is not set back while a timer is on its way, no timer is called before its time and none is lost, and once the threads
have nothing left to do everything that is due has been called; they always get there.
-/

namespace Kasync.Mlife

/-- **Every callback at most once, after its request, on a thread of the manager.** -/
theorem life_once {md : Bool} {s : St} (h : Reachable (step md) start s) :
    (runs s.hist).Nodup ∧
    (∀ h1 x i h2, s.hist = h1 ++ .ran x i :: h2 → Ev.onReady i ∈ h1 ∨ ∃ m, Ev.timer i m ∈ h1) ∧
    (∀ i, Ev.refused i ∈ s.hist → i ∉ runs s.hist) ∧
    (∀ x i, Ev.ran x i ∈ s.hist → ∃ n, s.n = some n ∧ x < n) := by
  obtain ⟨⟨⟨loc, hl⟩, ho⟩, hb⟩ := before_reach h
  refine ⟨hl.ranN, hb, ?_, ?_⟩
  · intro i hi hr
    have h1 := (hl.ref i).1 hi
    rw [(hl.ran i).1 hr] at h1; cases h1
  · intro x i hi
    cases hx : s.inRange x with
    | false => exact absurd hi ((ho x hx).2 i)
    | true =>
      unfold St.inRange at hx
      split at hx
      · cases hx
      · rename_i n hn; exact ⟨n, hn, by simpa using hx⟩

/-- **Every thread: hooks, callbacks, hooks.** -/
theorem life_thread {md : Bool} {s : St} (h : Reachable (step md) start s) (x : Nat) : LifeOk x (hooks s.hist) (life x s.hist) := by
  have := tl_reach h
  rw [this.hk]; exact phOk_life (this.ph x)

/-- **No timer is called before its time**, by the clock with its steps back taken out. -/
theorem life_on_time {md : Bool} {s : St} (h : Reachable (stepC md) start s) {h1 h2 : List Ev} {x i : Nat} {m : Int} (hh : s.hist = h1 ++ .ran x i :: h2)
    (ht : Ev.timer i m ∈ s.hist) : OnTime i h1 := by
  obtain ⟨⟨⟨loc, hl⟩, _⟩, due, hi, _⟩ := tinv_reach h
  rcases hi.rnt h1 x i h2 hh with hr | hr
  · exact absurd ht ((hl.rq1 i (by rw [hh]; exact List.mem_append_left _ hr)).2 m)
  · exact hr

/-- **Nothing is lost**: with nothing left to do, every callback was called, and every timer too, unless its time is still to come. -/
theorem life_rest {md : Bool} {s : St} (h : Reachable (stepC md) start s) (hr : AtRest s) :
    (∀ i, Ev.onReady i ∈ s.hist → i ∈ runs s.hist) ∧
    (∀ h1 i m h2, s.hist = h1 ++ .timer i m :: h2 → i ∈ runs s.hist ∨ cont s.hist < cont h1 + m) := by
  obtain ⟨⟨⟨loc, hl⟩, _⟩, due, hh, hp⟩ := tinv_reach h
  obtain ⟨hrd, hmd⟩ := hp.rdn hr.init
  have hib : ∀ x, (s.sel x).inbox = [] := by
    intro x; cases hx : s.inRange x with
    | true => exact hr.inbox x hx
    | false => exact (hp.oof x hx).1
  have hfi : ∀ x, (s.sel x).firing = [] := by
    intro x; cases hx : s.inRange x with
    | true => exact hr.firing x hx
    | false => exact (hp.oof x hx).2.2
  have key : ∀ i, loc i ≠ .none → i ∈ runs s.hist ∨ ∃ x, loc i = .timers x := by
    intro i hne
    cases hc : loc i with
    | none => exact absurd hc hne
    | mid => have := (hl.mid i).2 hc; rw [hmd] at this; cases this
    | ready => have := (hl.rdy i).2 hc; rw [hrd] at this; cases this
    | inbox x => have := (hl.ibx x i).2 hc; rw [hib x] at this; cases this
    | timers x => exact .inr ⟨x, rfl⟩
    | firing x => have := (hl.frg x i).2 hc; rw [hfi x] at this; cases this
    | ran => exact .inl ((hl.ran i).2 hc)
    | refused => exact absurd ((hl.ref i).2 hc) (hp.nor i)
  have hmem : ∀ x i, loc i = .timers x → ∃ a, (i, a) ∈ (s.sel x).timers := by
    intro x i hc
    have := (hl.tms x i).2 hc
    simp only [tids, List.mem_map] at this
    obtain ⟨⟨j, a⟩, hj, rfl⟩ := this
    exact ⟨a, hj⟩
  constructor
  · intro i hi
    have hlt := hl.rq1 i hi
    rcases key i (fun hn => by have := (hl.new i).1 hn; omega) with hk | ⟨x, hx⟩
    · exact hk
    · obtain ⟨a, ha⟩ := hmem x i hx
      obtain ⟨m, hm⟩ := hp.kt x i a ha
      exact absurd hm (hlt.2 m)
  · intro h1 i m h2 he
    have hlt := hl.rq2 i m (by rw [he]; simp)
    rcases key i (fun hn => by have := (hl.new i).1 hn; omega) with hk | ⟨x, hx⟩
    · exact .inl hk
    · right
      obtain ⟨a, ha⟩ := hmem x i hx
      have e1 := hh.df h1 i m h2 he
      have e2 := hp.tin x i a ha
      have e3 := hib x
      rw [e3] at e2
      simp only [pend] at e2
      have e4 := hh.ck
      have e5 : s.clock < a := by
        cases hx : s.inRange x with
        | true => exact hr.timers x hx _ ha
        | false => rw [(hp.oof x hx).2.1] at ha; cases ha
      simp only [cont] at e1 ⊢
      omega

theorem not_exit {md : Bool} {s : St} (h : Reachable (stepC md) start s) (x : Nat) : (∀ r, (s.sel x).phase ≠ .exit r) ∧ (s.sel x).phase ≠ .gone := by
  have he := exit_reach (reach_of_C h)
  obtain ⟨_, due, _, hp⟩ := tinv_reach h
  constructor
  · intro r hr; have := (he x (.inl ⟨r, hr⟩)).1; rw [(hp.noc x).1] at this; cases this
  · intro hr; have := (he x (.inr hr)).1; rw [(hp.noc x).1] at this; cases this

/-- **The threads never get stuck**: as long as something is left to do, some thread can take a step. -/
theorem life_progress {md : Bool} {s : St} (h : Reachable (stepC md) start s) (hst : Started s) (hr : ¬ AtRest s) :
    ∃ o t, isLib s o = true ∧ stepC md s o = .ok t := by
  obtain ⟨⟨⟨loc, hl⟩, ho⟩, htl⟩ := tinv_reach h
  obtain ⟨due, _, hp⟩ := id htl
  have fin : ∀ o, isLib s o = true → step md s o ≠ .disabled → ∃ o t, isLib s o = true ∧ stepC md s o = .ok t := by
    intro o hl hd
    have hc := lib_calm hl
    have hu : step md s o ≠ .ub := noub_C htl hc
    cases he : step md s o with
    | ok t => exact ⟨o, t, hl, by simp only [stepC, hc, if_true, he]⟩
    | disabled => exact absurd he hd
    | ub => exact absurd he hu
  by_cases hph : ∀ x, s.inRange x = true → (s.sel x).phase = .loop
  · by_cases hfi : ∀ x, s.inRange x = true → (s.sel x).firing = []
    · by_cases hib : ∀ x, s.inRange x = true → (s.sel x).inbox = []
      · by_cases htm : ∀ x, s.inRange x = true → ∀ p ∈ (s.sel x).timers, s.clock < p.2
        · exact absurd ⟨hst.1, hph, hib, hfi, htm⟩ hr
        · simp only [Classical.not_forall] at htm
          obtain ⟨x, hx, p, hpm, hlt⟩ := htm
          refine fin (.check x) ?_ ?_
          · simp only [isLib, List.any_eq_true, decide_eq_true_eq]; exact ⟨p, hpm, by omega⟩
          · simp [step, hph x hx, hfi x hx, (hp.noc x).2.2]
      · simp only [Classical.not_forall] at hib
        obtain ⟨x, hx, hne⟩ := hib
        refine fin (.handle x x) rfl ?_
        cases hb : (s.sel x).inbox with
        | nil => exact absurd hb hne
        | cons m r =>
          simp only [step, hph x hx, hfi x hx, hb, (hp.noc x).2.2]
          cases m <;> simp [hx, post, St.upd, (hp.noc x).2.2]
    · simp only [Classical.not_forall] at hfi
      obtain ⟨x, hx, hne⟩ := hfi
      refine fin (.fire x) rfl ?_
      cases hb : (s.sel x).firing with
      | nil => exact absurd hb hne
      | cons m r => simp [step, hb]
  · simp only [Classical.not_forall] at hph
    obtain ⟨x, hx, hne⟩ := hph
    cases hc : (s.sel x).phase with
    | none => exact absurd hc (hst.2 x hx)
    | posted => exact fin (.born x) rfl (by simp [step, hc, (hp.noc x).2.2])
    | init r => exact fin (.hook x) rfl (by cases r <;> simp [step, hc])
    | loop => exact absurd hc hne
    | exit r => exact absurd hc ((not_exit h x).1 r)
    | gone => exact absurd hc (not_exit h x).2

theorem started_lib {md : Bool} {s t : St} {o : Op} (h : Started s) (hl : isLib s o = true) (hs : step md s o = .ok t) (hn : t.n = s.n) : Started t := by
  refine ⟨by rw [hn]; exact h.1, ?_⟩
  intro x hx
  have hx' : s.inRange x = true := by simpa [St.inRange, hn] using hx
  have h0 := h.2 x hx'
  have key : (t.sel x).phase = (s.sel x).phase ∨ (t.sel x).phase ≠ .none := by
    cases o <;> simp only [isLib, Bool.false_eq_true] at hl <;> simp only [step] at hs <;> repeat' split at hs
    all_goals first
      | (cases hs; done)
      | skip
    all_goals first
      | (cases hs; simp only [doRan, St.log, St.upd]; split <;> first | (exact .inl rfl) | (right; simp; done))
      | (rw [post_ok hs]; left; simp only [St.upd]; repeat' split
         all_goals rfl)
  rcases key with hk | hk
  · rw [hk]; exact h0
  · exact hk

/-- **They always get there**: from any state the threads' own steps lead to a state with nothing left to do ... -/
theorem life_settles {md : Bool} {s : St} (h : Reachable (stepC md) start s) (hst : Started s) :
    ∃ os t, LibRun md s os t ∧ Reachable (stepC md) start t ∧ AtRest t := by
  generalize hk : total s = k
  induction k using Nat.strongRecOn generalizing s with
  | _ k ih =>
    by_cases hr : AtRest s
    · exact ⟨[], s, .nil s, h, hr⟩
    · obtain ⟨o, t, hl, hs⟩ := life_progress h hst hr
      obtain ⟨hinv, due, _, hp⟩ := tinv_reach h
      have hl2 := lib_less hinv (fun x => (not_exit h x).1) (fun x => (hp.noc x).2.1) hl (stepC_step hs)
      obtain ⟨os, u, h1, h2⟩ := ih (total t) (by omega) (.tail o h hs) (started_lib hst hl (stepC_step hs) hl2.2.1) rfl
      exact ⟨o :: os, u, .cons hl (stepC_step hs) h1, h2⟩

/-- ... after a bounded number of steps, whatever their order. -/
theorem life_bounded {md : Bool} {s : St} (h : Reachable (stepC md) start s) : ∃ B, ∀ os t, LibRun md s os t → os.length ≤ B := by
  refine ⟨total s, ?_⟩
  intro os t hr
  induction hr with
  | nil s => exact Nat.zero_le _
  | cons hl hs _ ih =>
    obtain ⟨hinv, due, _, hp⟩ := tinv_reach h
    have hl2 := lib_less hinv (fun x => (not_exit h x).1) (fun x => (hp.noc x).2.1) hl hs
    have := ih (.tail _ h (show stepC _ _ _ = _ by rw [stepC, if_pos (lib_calm hl)]; exact hs))
    simp only [List.length_cons]; omega

/-- **Nothing is used after it is destroyed**, in normal operation, and when shutting down politely. -/
theorem life_no_ub {md : Bool} {s : St} (h : Reachable (stepC md) start s) (o : Op) : stepC md s o ≠ .ub := by
  unfold stepC; split
  · rename_i hc; exact noub_C (tinv_reach h).2 hc
  · simp

theorem shutdown_no_ub {md : Bool} {s : St} (h : Reachable (stepP md) start s) (o : Op) : stepP md s o ≠ .ub := by
  unfold stepP; split
  · rename_i hc; exact noub_P (invJ_reach h).2 hc
  · simp

/-- a thread in its loop for good has begun and not ended -/
theorem release_never_ends {s : St} (h : Reachable (step false) start s) (x : Nat) :
    Ev.died x ∉ s.hist ∧ (Ev.born x ∈ s.hist → step false s (.destroy x) = .disabled) := by
  have he := exit_reach h x
  have hph := (tl_reach h).ph x
  have hng : (s.sel x).phase ≠ .gone := fun hc => by have := (he (.inr hc)).2; cases this
  have hlife : ∀ e, e.on = some x → e ∈ s.hist → e ∈ life x s.hist := by
    intro e hx hm; simp only [life, List.mem_filter, hm, true_and, hx]; simp
  constructor
  · intro hd
    have hm := hlife _ rfl hd
    cases hc : (s.sel x).phase with
    | none => rw [hc] at hph; rw [show life x s.hist = [] from hph] at hm; cases hm
    | posted => rw [hc] at hph; rw [show life x s.hist = [] from hph] at hm; cases hm
    | init r => rw [hc] at hph; obtain ⟨d, _, h2⟩ := hph; rw [h2] at hm; simp at hm
    | loop =>
      rw [hc] at hph; obtain ⟨rs, h1, h2⟩ := hph; rw [h2] at hm; simp at hm
      obtain ⟨i, hi⟩ := h1 _ hm; cases hi
    | exit r => have := (he (.inl ⟨r, hc⟩)).2; cases this
    | gone => exact hng hc
  · intro hb
    have hm := hlife _ rfl hb
    simp only [step]
    cases hc : (s.sel x).phase with
    | none => rw [hc] at hph; rw [show life x s.hist = [] from hph] at hm; cases hm
    | posted => rw [hc] at hph; rw [show life x s.hist = [] from hph] at hm; cases hm
    | gone => exact absurd hc hng
    | _ => simp [Phase.noThread]

/-! ## Non-vacuity -/

/-- what can be seen after a run -/
def seen (r : Option St) : Option (List Ev) := r.map (·.hist)

/-- a callback and a timer asked for before initialisation, one hook, two selectors; the clock is set back by two seconds and the timer still takes its time -/
def calmOps : List Op :=
  [.update none 5000, .threadInit 7, .onReady 0, .addTimer 1500 0, .init 2 [0, 1], .start 0, .start 1, .born 0, .hook 0, .hook 0, .born 1, .hook 1, .hook 1,
   .handle 1 0, .handle 0 1, .handle 1 0, .update (some 0) 3000, .handle 1 0, .update (some 1) 4499, .check 1, .update (some 0) 4500, .check 1, .fire 1]

example : seen (run (stepC false) start calmOps) = some
    [.clock 5000, .threadInit 7 true, .onReady 0, .timer 1 1500, .born 0, .hook 0 7 0, .born 1, .hook 1 7 0, .ran 1 0, .clock 3000, .clock 4499, .clock 4500, .ran 1 1] := by
  decide +kernel

/-- without the last steps everything is at rest, and the timer is still to come -/
example : ∃ s, Reachable (stepC false) start s ∧ AtRest s ∧ runs s.hist = [0] ∧ cont s.hist = 6499 := by
  refine ⟨(run (stepC false) start (calmOps.take 19)).getD start, reachable_of_run (os := calmOps.take 19) ?_, ⟨?_, ?_, ?_, ?_, ?_⟩, ?_, ?_⟩
  · have : ((run (stepC false) start (calmOps.take 19)).isSome = true) := by decide +kernel
    rw [Option.isSome_iff_exists] at this
    obtain ⟨t, ht⟩ := this
    rw [ht]; rfl
  · decide +kernel
  · intro x hx; match x with
    | 0 => decide +kernel
    | 1 => decide +kernel
    | x + 2 => exact absurd hx (by rw [show St.inRange _ (x + 2) = decide (x + 2 < 2) from rfl]; simp)
  · intro x hx; match x with
    | 0 => decide +kernel
    | 1 => decide +kernel
    | x + 2 => exact absurd hx (by rw [show St.inRange _ (x + 2) = decide (x + 2 < 2) from rfl]; simp)
  · intro x hx; match x with
    | 0 => decide +kernel
    | 1 => decide +kernel
    | x + 2 => exact absurd hx (by rw [show St.inRange _ (x + 2) = decide (x + 2 < 2) from rfl]; simp)
  · intro x hx; match x with
    | 0 => decide +kernel
    | 1 => decide +kernel
    | x + 2 => exact absurd hx (by rw [show St.inRange _ (x + 2) = decide (x + 2 < 2) from rfl]; simp)
  · decide +kernel
  · decide +kernel

/-- all threads handed to the pool, none has begun -/
example : ∃ s, Reachable (stepC false) start s ∧ Started s ∧ ¬ AtRest s := by
  refine ⟨(run (stepC false) start (calmOps.take 7)).getD start, reachable_of_run (os := calmOps.take 7) ?_, ⟨?_, ?_⟩, fun h => ?_⟩
  · have : ((run (stepC false) start (calmOps.take 7)).isSome = true) := by decide +kernel
    rw [Option.isSome_iff_exists] at this
    obtain ⟨t, ht⟩ := this
    rw [ht]; rfl
  · decide +kernel
  · intro x hx; match x with
    | 0 => decide +kernel
    | 1 => decide +kernel
    | x + 2 => exact absurd hx (by rw [show St.inRange _ (x + 2) = decide (x + 2 < 2) from rfl]; simp)
  · have := h.phase 0 (by decide +kernel)
    exact absurd this (by decide +kernel)

/-- a polite shutdown: every hook is called with 1 and the selectors are destroyed -/
example : (run (stepP true) start [.threadInit 7, .init 2 [], .start 0, .start 1, .born 0, .born 1, .hook 0, .hook 0, .hook 1, .hook 1, .addTimerHere 0 1000,
    .shutdown, .addTimerHere 1 5, .close, .check 0, .fire 0, .leave 0, .hook 0, .hook 0, .leave 1, .hook 1, .hook 1, .destroy 0, .destroy 1]).map
      (fun s => (s.hist.drop 8, s.someDestroyed)) = some
    ([.refused 1, .ran 0 0, .hook 0 7 1, .died 0, .hook 1 7 1, .died 1], true) := by decide +kernel

/-! ## Findings -/

/-- **Finding (C59).** After the clock was set back, a timer asked for before a selector has handled its notice is called too early, by as much as the clock was set back:
it gets its time from the new clock, is put on the list, and then loses the difference again with everything else on the list (notices are handled last-in-first-out, so
even a timer posted after the notice comes first).  Here a timer of 4 seconds fires at once. -/
theorem timer_after_setback_early :
    seen (run (step false) start [.update none 10000, .init 2 [], .start 0, .start 1, .born 0, .hook 0, .born 1, .hook 1,
      .update (some 0) 5000, .addTimerTs none 1 4000, .handle 1 0, .handle 1 0, .check 1, .fire 1]) =
    some [.clock 10000, .born 0, .born 1, .clock 5000, .timer 0 4000, .ran 1 0] := by decide +kernel

/-- the same for kselector_add_timer on the selector's own thread -/
theorem timer_after_setback_early_here :
    seen (run (step false) start [.update none 10000, .init 2 [], .start 0, .start 1, .born 0, .hook 0, .born 1, .hook 1,
      .update (some 0) 5000, .addTimerHere 1 4000, .handle 1 0, .check 1, .fire 1]) =
    some [.clock 10000, .born 0, .born 1, .clock 5000, .timer 0 4000, .ran 1 0] := by decide +kernel

/-- **Finding (C59).** A timer that is on its way to its selector while the clock is set back is late by as much: the notice to adjust the timers overtakes it.
Here a timer of 1 second has not been called after 5. -/
theorem timer_across_setback_late :
    (run (step false) start [.update none 10000, .init 2 [], .start 0, .start 1, .born 0, .hook 0, .born 1, .hook 1,
      .addTimerTs none 1 1000, .update (some 0) 5000, .handle 1 0, .handle 1 0, .update (some 0) 10000, .check 1, .check 0]).map
      (fun s => (s.hist, (s.sel 1).firing, (s.sel 1).timers)) =
    some ([.clock 10000, .born 0, .born 1, .timer 0 1000, .clock 5000, .clock 10000], [], [(0, 11000)]) := by decide +kernel

/-- **Finding (C59).** A timer asked for before the clock was first read (kasync_init) starts from time 0 and fires at once. -/
theorem timer_before_clock :
    seen (run (step false) start [.addTimer 3600000 0, .update none 1700000000000, .init 1 [0], .start 0, .born 0, .hook 0, .handle 0 0, .handle 0 0, .check 0, .fire 0]) =
    some [.timer 0 3600000, .clock 1700000000000, .born 0, .ran 0 0] := by decide +kernel

/-- **Finding (C59).** A selector_manager_on_ready that overlaps with selector_manager_init loses its callback: it finds the manager not initialised,
and puts the callback on the list after the list was emptied for good. -/
theorem on_ready_lost :
    (run (step false) start [.onReadyTest, .init 1 [], .onReadyAdd 0, .start 0, .born 0, .hook 0]).map (fun s => (s.hist, s.ready)) =
      some ([.onReady 0, .born 0], [.call 0]) ∧
    ∀ md (s t : St) (o : Op), s.n ≠ none → step md s o = .ok t → t.n ≠ none ∧ ∀ m ∈ s.ready, m ∈ t.ready := by
  refine ⟨by decide +kernel, ?_⟩
  intro md s t o hn hs
  have hpost : ∀ {a : St} {x m}, post a x m = .ok t → t.n = a.n ∧ t.ready = a.ready := by intro a x m h; rw [post_ok h]; exact ⟨rfl, rfl⟩
  have fin : t.n = s.n ∧ t.ready = s.ready → t.n ≠ none ∧ ∀ m ∈ s.ready, m ∈ t.ready := by
    rintro ⟨h1, h2⟩; rw [h1, h2]; exact ⟨hn, fun _ h => h⟩
  cases o <;> simp only [step] at hs <;> repeat' split at hs
  all_goals first
    | (rename_i h1; exact absurd h1 hn)
    | (rename_i h1 _; exact absurd (Option.not_isSome_iff_eq_none.1 h1) hn)
    | (cases hs; done)
    | (cases hs; exact fin ⟨rfl, rfl⟩)
    | (cases hs; exact ⟨hn, fun m hm => List.mem_cons_of_mem _ hm⟩)
    | (cases hs; exact ⟨by simp, fun m hm => hm⟩)
    | (refine fin ?_; obtain ⟨h1, h2⟩ := hpost hs; rw [h1, h2]; exact ⟨rfl, rfl⟩)

/-- **Finding (C59).** selector_manager_close (MALLOCDEBUG build) does not wait for posted callbacks: they are never called. -/
theorem close_loses_callbacks :
    (run (step true) start [.init 1 [], .start 0, .born 0, .hook 0, .onReady 0, .shutdown, .close, .leave 0, .hook 0, .destroy 0]).map
      (fun s => (s.hist, (s.sel 0).inbox)) = some ([.born 0, .onReady 0, .shutdown, .died 0], [.call 0]) := by decide +kernel

/-- **Finding (C59).** selector_manager_close may destroy a selector whose thread has been handed to the thread pool but not begun: `thread_id` is still 0.  The thread then uses it. -/
theorem close_before_born :
    (run (step true) start [.init 1 [], .start 0, .shutdown, .close, .destroy 0]).map (fun s => step true s (.born 0) matches .ub) = some true := by decide +kernel

/-- **Finding (C59).** It destroys the selectors one by one as their threads end; a thread that still has a timer asked for before initialisation to place may choose a destroyed one. -/
theorem close_forward_destroyed :
    (run (step true) start [.addTimer 1000 0, .init 2 [1], .start 0, .start 1, .born 0, .hook 0, .born 1, .hook 1, .shutdown, .close, .leave 0, .hook 0, .destroy 0]).map
      (fun s => step true s (.handle 1 0) matches .ub) = some true := by decide +kernel

/-- **Finding (C59).** In a build without MALLOCDEBUG the loops never end, so selector_manager_close, which waits for them, never returns once a thread has begun
(`release_never_ends`). -/
theorem close_hangs :
    (run (step false) start [.init 1 [], .start 0, .born 0, .hook 0, .shutdown, .close]).map
      (fun s => (step false s (.leave 0) matches .disabled) && (step false s (.destroy 0) matches .disabled)) = some true := by decide +kernel

end Kasync.Mlife
