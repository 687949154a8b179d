import Verif.Mgr.LifeTime2

/-! # Timers are called on time (C59) -/

namespace Kasync.Mlife

theorem all_of {s : St} {due : Nat → Int} {sh : Int} (h : PInv s due sh) {p : Note → Bool} (ha : s.all (fun l => ! l.inbox.any p) = true) :
    ∀ y, ∀ m ∈ (s.sel y).inbox, p m = false := by
  intro y m hm
  cases hy : s.inRange y with
  | false => rw [(h.oof y hy).1] at hm; cases hm
  | true =>
    have hyn : y < s.n.getD 0 := by
      unfold St.inRange at hy
      split at hy
      · cases hy
      · rename_i n hn; rw [hn]; simpa using hy
    simp only [St.all, List.all_eq_true, List.mem_range] at ha
    have := ha y hyn
    simp only [Bool.not_eq_true', List.any_eq_false] at this
    simpa using this m hm

theorem noAdj_of {s : St} {due : Nat → Int} {sh : Int} (h : PInv s due sh) (ha : s.all (fun l => ! l.inbox.any Note.isAdjust) = true) :
    ∀ y, noAdj (s.sel y).inbox := fun y d hd => by have := all_of h ha y _ hd; cases this

theorem p_grow {s : St} {due : Nat → Int} {sh : Int} (h : PInv s due sh) {k m : Nat} (hk : s.n = some k) (hm : k < m) : PInv { s with n := some m } due sh := by
  pinv h

/-- nothing but the history changes -/
theorem t_log {s : St} (h : TInv s) (e : Ev) (h1 : ∀ i m, e ≠ .timer i m) (h2 : ∀ t, e ≠ .clock t) (h3 : ∀ x i, e ≠ .ran x i) (h4 : ∀ i, e ≠ .refused i) : TInv (s.log [e]) := by
  obtain ⟨due, hh, hp⟩ := h
  obtain ⟨a, b⟩ := hinv_log hh e h1 h2 (fun x i he => absurd he (h3 x i))
  refine ⟨due, a, ?_⟩
  show PInv _ _ (clk (s.hist ++ [e])).2
  rw [b]; exact p_log hp e h4

theorem t_upd {s : St} (h : TInv s) (x : Nat) (f : Sel → Sel)
    (hf : ∀ l, (f l).inbox = l.inbox ∧ (f l).timers = l.timers ∧ (f l).firing = l.firing ∧ (f l).closed = l.closed ∧ (f l).shutdown = l.shutdown ∧ (f l).destroyed = l.destroyed) :
    TInv (s.upd x f) := by
  obtain ⟨due, hh, hp⟩ := h
  exact ⟨due, hh, p_upd hp x f hf⟩

theorem p_tinit {s : St} {due : Nat → Int} {sh : Int} (h : PInv s due sh) (l : List Nat) : PInv { s with tinit := l } due sh := by
  obtain ⟨h1, h2, h3, h4, h5, h6, h7, h8, h9, h10, h11, h12, h13, h14, h15, h16, h17, h18, h19, h20⟩ := h
  exact ⟨h1, h2, h3, h4, h5, h6, h7, h8, h9, h10, h11, h12, h13, h14, h15, h16, h17, h18, h19, h20⟩

theorem p_clock {s : St} {due : Nat → Int} {sh : Int} (h : PInv s due sh) (t : Int) : PInv { s with clock := t } due sh := by
  obtain ⟨h1, h2, h3, h4, h5, h6, h7, h8, h9, h10, h11, h12, h13, h14, h15, h16, h17, h18, h19, h20⟩ := h
  exact ⟨h1, h2, h3, h4, h5, h6, h7, h8, h9, h10, h11, h12, h13, h14, h15, h16, h17, h18, h19, h20⟩

/-- a timer that is found to be due has come -/
theorem due_onTime {s : St} {due : Nat → Int} (hh : HInv s.hist s.clock due) (hp : PInv s due (clk s.hist).2) {x i : Nat} {a : Int} (hi : (i, a) ∈ (s.sel x).timers)
    (ha : a ≤ s.clock) : OnTime i s.hist := by
  obtain ⟨m, hm⟩ := hp.kt x i a hi
  obtain ⟨h1, h2, he⟩ := List.append_of_mem hm
  refine ⟨h1, m, h2, [], by simpa using he, ?_⟩
  rw [← he]
  have e1 := hh.df h1 i m h2 he
  have e2 := hp.tin x i a hi
  have e3 := pend_le (hp.neg x)
  have e4 := hh.ck
  simp only [cont] at *
  omega

theorem p_init {s : St} {due : Nat → Int} {sh : Int} (h : PInv s due sh) (hn : s.n = none) (hm : s.mid = []) {picks : List Nat} {k : Nat}
    (hl : picks.length = s.ready.length) (hp : ∀ p ∈ picks, p < k) : PInv { drain s s.ready picks with n := some k, ready := [] } due sh := by
  have hoo : ∀ y, (s.sel y).inbox = [] ∧ (s.sel y).timers = [] ∧ (s.sel y).firing = [] := fun y => h.oof y (by simp [St.inRange, hn])
  have hb : PInv { s with n := some k, ready := [], mid := [] } due sh := by
    pinv h
  have key := p_drain s.ready picks s due sh k rfl hl.symm hp hb (fun y d hd => by rw [(hoo y).1] at hd; cases hd)
    (fun i a hi => ⟨h.rfw i a hi, h.krt i a hi⟩) h.rtm h.rad h.kr
  have hmid : (drain s s.ready picks).mid = [] := by rw [← hm]; exact (drain_other _ _ _).2.1
  have : ({ drain s s.ready picks with n := some k, ready := [] } : St) = { drain s s.ready picks with n := some k, ready := [], mid := [] } := by rw [← hmid]
  rw [this]; exact key

theorem tinv_step {md : Bool} {s t : St} {o : Op} (hi : Inv s) (h : TInv s) (hs : stepC md s o = .ok t) : TInv t := by
  obtain ⟨⟨loc, hl⟩, ho⟩ := hi
  have h0 := h
  obtain ⟨due, hh, hp⟩ := h
  have fr : ∀ m, Ev.timer s.next m ∉ s.hist := fun m hm => Nat.lt_irrefl _ (hl.rq2 _ _ hm)
  unfold stepC at hs
  split at hs
  · rename_i hcalm
    cases o with
    | onReady pick =>
      obtain ⟨a, b⟩ := hinv_log hh (.onReady s.next) (by simp) (by simp) (by simp)
      simp only [step] at hs
      split at hs
      · rename_i hn
        cases hs
        refine ⟨due, a, ?_⟩
        show PInv _ _ (clk (s.hist ++ [_])).2
        rw [b]; exact p_ready hp hn _ _
      · split at hs
        · rename_i hr
          have := post_ok hs; subst this
          refine ⟨due, a, ?_⟩
          show PInv _ _ (clk (s.hist ++ [_])).2
          rw [b]; exact p_post hp hr _ _
        · cases hs
    | onReadyTest =>
      obtain ⟨a, b⟩ := hinv_log hh (.onReady s.next) (by simp) (by simp) (by simp)
      simp only [step] at hs
      split at hs
      · rename_i hn
        cases hs
        refine ⟨due, a, ?_⟩
        show PInv _ _ (clk (s.hist ++ [_])).2
        rw [b]; exact p_mid hp hn _ _
      · cases hs
    | onReadyAdd id =>
      simp only [step] at hs
      split at hs
      · rename_i hm; cases hs
        exact ⟨due, hh, p_add hp hm⟩
      · cases hs
    | addTimer msec pick =>
      obtain ⟨a, b⟩ := hinv_timer hh s.next msec fr
      simp only [step] at hs
      split at hs
      · rename_i hn
        cases hs
        refine ⟨_, a, ?_⟩
        show PInv _ _ (clk (s.hist ++ [_])).2
        rw [b]; exact p_tready hp hn fr msec
      · split at hs
        · rename_i hr
          have := post_ok hs; subst this
          refine ⟨_, a, ?_⟩
          show PInv _ _ (clk (s.hist ++ [_])).2
          rw [b]; exact p_tpost hp fr msec hr (noAdj_of hp hcalm)
        · cases hs
    | addTimerTs here x msec =>
      obtain ⟨a, b⟩ := hinv_timer hh s.next msec fr
      simp only [step] at hs
      split at hs
      · cases hs
      · rename_i hc
        have hr : s.inRange x = true := by
          cases hr : s.inRange x with
          | true => rfl
          | false => exact absurd (.inl hr) hc
        split at hs
        · cases hs
          refine ⟨_, a, ?_⟩
          show PInv _ _ (clk (s.hist ++ [_])).2
          rw [b]; exact p_tnew hp fr msec hr (noAdj_of hp hcalm)
        · have := post_ok hs; subst this
          refine ⟨_, a, ?_⟩
          show PInv _ _ (clk (s.hist ++ [_])).2
          rw [b]; exact p_tpost hp fr msec hr (noAdj_of hp hcalm)
    | addTimerHere x msec =>
      obtain ⟨a, b⟩ := hinv_timer hh s.next msec fr
      simp only [step] at hs
      split at hs
      · cases hs
      · rename_i hc
        have hr : s.inRange x = true := phase_in ho (by intro e; rw [e] at hc; exact hc rfl)
        split at hs
        · rename_i hsd; rw [(hp.noc x).2.1] at hsd; simp at hsd
        · cases hs
          refine ⟨_, a, ?_⟩
          show PInv _ _ (clk (s.hist ++ [_])).2
          rw [b]; exact p_tnew hp fr msec hr (noAdj_of hp hcalm)
    | threadInit id =>
      simp only [step] at hs
      split at hs
      · cases hs
        obtain ⟨due', a, b⟩ := t_log h0 (.threadInit id true) (by simp) (by simp) (by simp) (by simp)
        exact ⟨due', a, p_tinit b _⟩
      · cases hs
        exact t_log h0 _ (by simp) (by simp) (by simp) (by simp)
    | init size picks =>
      simp only [step] at hs
      split at hs
      · cases hs
      · rename_i hn
        have hn : s.n = none := by simpa using hn
        split at hs
        · rename_i hq
          cases hs
          have hm : s.mid = [] := by simpa [calm] using hcalm
          have e1 : (drain s s.ready picks).hist = s.hist := (drain_other _ _ _).1
          have e2 : (drain s s.ready picks).clock = s.clock := (drain_other _ _ _).2.2.2.1
          refine ⟨due, ?_, ?_⟩
          · show HInv (drain s s.ready picks).hist (drain s s.ready picks).clock due
            rw [e1, e2]; exact hh
          · show PInv _ _ (clk (drain s s.ready picks).hist).2
            rw [show (clk (drain s s.ready picks).hist).2 = (clk s.hist).2 by rw [e1]]
            exact p_init hp hn hm hq.1 hq.2
        · cases hs
    | grow here size =>
      simp only [step] at hs
      split at hs
      · cases hs
      · rename_i k hk
        split at hs
        · cases hs; exact h0
        · split at hs
          · cases hs; exact h0
          · rename_i hlt _
            cases hs
            exact ⟨due, hh, p_grow hp hk (by omega)⟩
    | start x =>
      simp only [step] at hs
      split at hs
      · cases hs; exact t_upd h0 _ _ (fun l => ⟨rfl, rfl, rfl, rfl, rfl, rfl⟩)
      · cases hs
    | born x =>
      simp only [step] at hs
      split at hs
      · split at hs
        · cases hs
        · cases hs
          exact t_upd (t_log h0 _ (by simp) (by simp) (by simp) (by simp)) _ _ (fun l => ⟨rfl, rfl, rfl, rfl, rfl, rfl⟩)
      · cases hs
    | hook x =>
      simp only [step] at hs
      split at hs
      · cases hs; exact t_upd h0 _ _ (fun l => ⟨rfl, rfl, rfl, rfl, rfl, rfl⟩)
      · cases hs; exact t_upd (t_log h0 _ (by simp) (by simp) (by simp) (by simp)) _ _ (fun l => ⟨rfl, rfl, rfl, rfl, rfl, rfl⟩)
      · cases hs; exact t_upd (t_log h0 _ (by simp) (by simp) (by simp) (by simp)) _ _ (fun l => ⟨rfl, rfl, rfl, rfl, rfl, rfl⟩)
      · cases hs; exact t_upd (t_log h0 _ (by simp) (by simp) (by simp) (by simp)) _ _ (fun l => ⟨rfl, rfl, rfl, rfl, rfl, rfl⟩)
      · cases hs
    | handle x pick =>
      simp only [step] at hs
      split at hs
      · cases hs
      · split at hs
        · cases hs
        · rename_i m r hb
          split at hs
          · cases hs
          · split at hs
            · rename_i i
              cases hs
              obtain ⟨a, b⟩ := hinv_log hh (.ran x i) (by simp) (by simp)
                (fun y j he => by cases he; exact .inl (hp.kc x i (by rw [hb]; exact List.mem_cons_self)))
              refine ⟨due, a, ?_⟩
              show PInv _ _ (clk (s.hist ++ [_])).2
              rw [b]; exact p_handle_call hp hb
            · cases hs
              exact ⟨due, hh, p_handle_timer hp hb⟩
            · split at hs
              · rename_i hq
                have := post_ok hs; subst this
                exact ⟨due, hh, p_handle_fwd hp hb hq⟩
              · cases hs
            · cases hs
              exact ⟨due, hh, p_handle_adjust hp hb⟩
    | check x =>
      simp only [step] at hs
      split at hs
      · cases hs
      · rename_i hc
        have hr : s.inRange x = true := phase_in ho (by intro e; rw [e] at hc; simp at hc)
        split at hs
        · cases hs
        · cases hs
          have hsd := (hp.noc x).2.1
          have hS : ∀ (f : Nat × Int → Bool), (s.upd x (fun l => { l with timers := l.timers.filter (fun p => ! f p), firing := (l.timers.filter f).map Prod.fst })) =
              s.upd x (fun l => { l with timers := (s.sel x).timers.filter (fun p => ! f p), firing := ((s.sel x).timers.filter f).map Prod.fst }) := by
            intro f; unfold St.upd; congr 1; funext y; split
            · rename_i e; subst e; rfl
            · rfl
          rw [hS]
          refine ⟨due, hh, p_check hp _ _ (fun p hpp => (List.mem_filter.1 hpp).1) hr ?_⟩
          intro i hii
          simp only [List.mem_map, List.mem_filter] at hii
          obtain ⟨⟨j, a⟩, ⟨hj, hd⟩, rfl⟩ := hii
          rw [hsd] at hd
          simp only [Bool.and_false, Bool.or_false, decide_eq_true_eq] at hd
          exact due_onTime hh hp hj hd
    | fire x =>
      simp only [step] at hs
      split at hs
      · cases hs
      · rename_i i r hf
        cases hs
        obtain ⟨a, b⟩ := hinv_log hh (.ran x i) (by simp) (by simp)
          (fun y j he => by cases he; exact .inr (hp.fir x i (by rw [hf]; exact List.mem_cons_self)))
        refine ⟨due, a, ?_⟩
        show PInv _ _ (clk (s.hist ++ [_])).2
        rw [b]; exact p_fire hp hf
    | setCount x k =>
      simp only [step] at hs
      cases hs; exact t_upd h0 _ _ (fun l => ⟨rfl, rfl, rfl, rfl, rfl, rfl⟩)
    | update here t' =>
      obtain ⟨a, b⟩ := hinv_clock hh t'
      simp only [step] at hs
      split at hs
      · cases hs
      · split at hs
        · rename_i hlt
          split at hs
          · cases hs
          · cases hs
            simp only [hlt, if_true] at b
            refine ⟨due, a, ?_⟩
            show PInv _ _ (clk (s.hist ++ [_])).2
            rw [b]
            have hcl : (s.all (fun l => ! l.inbox.any Note.isTimer) && ! s.ready.any Note.isTimer) = true := by
              simp only [calm, Bool.or_eq_true, decide_eq_true_eq] at hcalm
              rcases hcalm with hcalm | hcalm
              · omega
              · exact hcalm
            simp only [Bool.and_eq_true, Bool.not_eq_true'] at hcl
            refine p_adjust hp here (t' - s.clock) t' (by omega) ?_ ?_ ?_
            · intro x i a hm; have := all_of hp hcl.1 x _ hm; cases this
            · intro x i a hm; have := all_of hp hcl.1 x _ hm; cases this
            · intro i a hm; have := List.any_eq_false.1 hcl.2 _ hm; simp [Note.isTimer] at this
        · rename_i hlt
          cases hs
          simp only [hlt, if_false] at b
          refine ⟨due, a, ?_⟩
          show PInv _ _ (clk (s.hist ++ [_])).2
          rw [b]
          exact p_clock (p_log hp _ (by simp)) _
    | shutdown => cases hcalm
    | close => cases hcalm
    | leave x =>
      simp only [step] at hs
      split at hs
      · cases hs
      · split at hs
        · rename_i hc; rw [(hp.noc x).1] at hc; simp at hc
        · cases hs
    | destroy x =>
      simp only [step] at hs
      split at hs
      · rename_i hc; rw [(hp.noc x).1] at hc; simp at hc
      · cases hs
  · cases hs

theorem stepC_step {md : Bool} {s t : St} {o : Op} (h : stepC md s o = .ok t) : step md s o = .ok t := by
  unfold stepC at h; split at h
  · exact h
  · cases h

theorem stepP_step {md : Bool} {s t : St} {o : Op} (h : stepP md s o = .ok t) : step md s o = .ok t := by
  unfold stepP at h; split at h
  · exact h
  · cases h

theorem tinv_reach {md : Bool} {s : St} (h : Reachable (stepC md) start s) : Inv s ∧ TInv s :=
  h.invariant (P := fun s => Inv s ∧ TInv s) ⟨inv_start, tinv_start⟩ (fun _ _ _ hi hs => ⟨inv_step hi.1 (stepC_step hs), tinv_step hi.1 hi.2 hs⟩)

end Kasync.Mlife
