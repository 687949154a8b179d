import Verif.Fiber.RemoteStep4

/-! # C58 — calls executed on another thread -/

namespace Kasync.Remote

theorem St.ext' {a b : St} (h1 : ∀ j, a.fib j = b.fib j) (h2 : ∀ j, a.stack j = b.stack j) (h3 : a.inbox = b.inbox) (h4 : a.jobs = b.jobs)
    (h5 : a.workers = b.workers) (h6 : ∀ j, a.ready j = b.ready j) (h7 : ∀ j, a.reaping j = b.reaping j) (h8 : ∀ j, a.thr j = b.thr j)
    (h9 : a.next = b.next) (h10 : a.hist = b.hist) : a = b := by
  cases a; cases b
  simp only [St.mk.injEq]
  exact ⟨funext h1, funext h2, h3, h4, h5, funext h6, funext h7, funext h8, h9, h10⟩

macro "st_ext" : tactic => `(tactic|(
  apply St.ext'
  all_goals (try intro j)
  all_goals (try simp only [St.upd, St.setStack, St.push, St.log])
  all_goals (first | rfl | (split <;> simp_all) | simp_all)))

theorem of_eq {a b : St} (h : Inv a) (e : b = a) : Inv b := e ▸ h

/-- what has to be shown of a step -/
def Good (r : Res St) : Prop := r ≠ .ub ∧ ∀ s', r = .ok s' → Inv s'

theorem good_disabled : Good .disabled := ⟨by simp, by simp⟩
theorem good_ok {s : St} (h : Inv s) : Good (.ok s) := ⟨by simp, by intro s' e; cases e; exact h⟩

/-- a fiber that exists and was not joined to its end, or has not ended, is not freed -/
theorem not_freed {s : St} (hi : Inv s) {g : Nat} (h : (s.fib g).st ≠ .gone ∨ (s.fib g).owner.isSome) : (s.fib g).freed = false := by
  cases hfr : (s.fib g).freed with
  | false => rfl
  | true =>
    have h1 := (hi.jn.frd g).1 hfr
    have h2 := hi.jn.ref g h1.1
    rw [h1.2] at h2
    rcases h with h | h
    · rw [if_neg h] at h2; omega
    · rw [if_pos h] at h2; omega

theorem good_spawn {s : St} (dbg : Bool) (hi : Inv s) (x c : Nat) : Good (stepN dbg s (.spawn x c)) := by
  simp only [stepN, step]
  split
  · rename_i h; exact good_ok (inv_spawn hi h.1)
  · exact good_disabled

theorem good_suspend {s : St} (dbg : Bool) (hi : Inv s) (x : Nat) : Good (stepN dbg s (.suspend x)) := by
  simp only [stepN, step]
  split
  · exact good_disabled
  · rename_i c h
    obtain ⟨h1, h2⟩ := top_some h
    exact good_ok (inv_suspend hi h1 h2)

theorem good_resume {s : St} (dbg : Bool) (hi : Inv s) (x c : Nat) (v : Int) : Good (stepN dbg s (.resume x c v)) := by
  simp only [stepN, step]
  split
  · rename_i h
    rw [if_neg (by rw [not_freed hi (.inl (by rw [h.1]; simp))]; simp)]
    exact good_ok (inv_resume hi h.1 h.2.1)
  · exact good_disabled

theorem good_threadCall {s : St} (dbg : Bool) (hi : Inv s) (x fn arg : Nat) (n : Int) (ok : Bool) :
    Good (stepN dbg s (.threadCall x fn arg n ok)) := by
  simp only [stepN, step]
  split
  · exact good_disabled
  · rename_i c h
    obtain ⟨h1, h2⟩ := top_some h
    split
    · exact good_ok (of_eq (inv_call hi h1 fn arg n) (by st_ext))
    · exact good_ok (of_eq (inv_callNo hi h1 fn arg n) (by st_ext))

theorem good_threadWait {s : St} (dbg : Bool) (hi : Inv s) (x : Nat) : Good (stepN dbg s (.threadWait x)) := by
  simp only [stepN, step]
  split
  · exact good_disabled
  · rename_i c l h
    split
    · rename_i h1; exact good_ok (inv_callWait hi h1 h)
    · exact good_disabled

theorem good_enter {s : St} (dbg : Bool) (hi : Inv s) (c : Nat) : Good (stepN dbg s (.enter c)) := by
  simp only [stepN, step]
  split
  · rename_i h
    have hc := hi.loc.job c h
    rw [if_neg (by rw [not_freed hi (.inl (by intro e; rw [e] at hc; exact hc))]; simp)]
    exact good_ok (inv_enter hi h)
  · exact good_disabled

theorem good_leave {s : St} (dbg : Bool) (hi : Inv s) (c k : Nat) (v : Int) : Good (stepN dbg s (.leave c k v)) := by
  simp only [stepN, step]
  split
  · rename_i h
    have hc := (hi.loc.wrk _ h).1
    rw [if_neg (by rw [not_freed hi (.inl (by intro e; rw [e] at hc; exact hc))]; simp)]
    simp only [wakeup2]
    exact good_ok (inv_leave hi h)
  · exact good_disabled

theorem good_deliver {s : St} (dbg : Bool) (hi : Inv s) (m : Msg) : Good (stepN dbg s (.deliver m)) := by
  simp only [stepN, step]
  split
  · rename_i h
    obtain ⟨h, hid⟩ := h
    have hm := hi.loc.inb m h
    have hng : (s.fib m.fib).st ≠ .gone := by
      intro e; rw [e] at hm; simp [calling] at hm
    simp only [wakeup]
    rw [if_neg (by rw [not_freed hi (.inl hng)]; simp [hm.1])]
    have hcode : (s.fib m.fib).st ≠ .fresh → (s.fib m.fib).st ≠ .armed → (s.fib m.fib).code = m.obj := by
      intro e1 e2
      rcases hm.2 with h1 | ⟨h1, h2⟩ | ⟨⟨h', h1⟩, h2⟩
      · exact absurd h1 e1
      · rw [h2]; apply hi.loc.cdc; revert h1 e2; cases (s.fib m.fib).st <;> simp [calling]
      · rw [h2]; exact hi.loc.cdj _ _ h1
    split
    · rename_i hst
      cases ho : (s.fib m.fib).own with
      | none =>
        refine good_ok (of_eq (inv_deliverStart hi h hst ho) ?_)
        simp only [enterFiber, St.upd, St.push, St.setStack, if_pos, ho, hm.1]
      | some k =>
        refine good_ok (of_eq (inv_deliverStartK hi h hst ho) ?_)
        simp only [enterFiber, St.upd, St.push, St.setStack, if_pos, ho, hm.1, St.log]
    · rename_i hst
      rw [if_neg (by rw [hcode (by simp [hst]) (by simp [hst])]; simp)]
      exact good_ok (inv_deliverCall hi h hst)
    · rename_i g hst
      rw [if_neg (by rw [hcode (by simp [hst]) (by simp [hst])]; simp)]
      exact good_ok (inv_deliverJoin hi h hst)
    · rename_i n1 n2 n3
      exfalso
      -- an armed fiber is on the stack, so the loop is not idle
      rcases hm.2 with h1 | ⟨h1, _⟩ | ⟨⟨h', h1⟩, _⟩
      · exact n1 h1
      · have ha : (s.fib m.fib).st = .armed := by revert h1 n2; cases (s.fib m.fib).st <;> simp [calling]
        have := hi.loc.cpu m.fib (by rw [ha]; trivial)
        rw [← hm.1, hid.1] at this; cases this
      · exact n3 _ h1
  · exact good_disabled

theorem good_create {s : St} (dbg : Bool) (hi : Inv s) (x t fn arg : Nat) (n : Int) (g : Nat) (hd ok : Bool) :
    Good (stepN dbg s (.create x t fn arg n g hd ok)) := by
  simp only [stepN, step]
  split
  · exact good_disabled
  · rename_i c h
    split
    · exact good_disabled
    · rename_i hg
      simp only [ne_eq, Decidable.not_not] at hg
      split
      · simp only [wakeup2]
        split
        · rename_i e
          cases e
          simp only [wakeup, St.upd, St.log, if_pos, mkFib]
          rw [if_neg (by simp)]
          refine good_ok (of_eq (inv_nested hi hg c x fn arg n hd) ?_)
          simp only [enterFiber, St.upd, St.push, St.setStack, if_pos, St.log, mkFib]
          st_ext
        · refine good_ok (of_eq (inv_post hi hg (.fib c) t fn arg n (if hd then some .ts else none) ?_) (by st_ext))
          intro y hy; cases hd <;> simp at hy; exact .inl ⟨c, rfl, hy.symm⟩
      · exact good_ok (of_eq (inv_refused hi (.fib c) (.sel t) fn arg n) (by st_ext))

theorem good_tCreate {s : St} (dbg : Bool) (hi : Inv s) (p t fn arg : Nat) (n : Int) (g : Nat) (hd ok : Bool) :
    Good (stepN dbg s (.tCreate p t fn arg n g hd ok)) := by
  simp only [stepN, step]
  split
  · exact good_disabled
  · rename_i hg
    have hg : (s.fib g).st = .none := by
      cases e : decide ((s.fib g).st = .none) with
      | true => simpa using e
      | false => simp at e; exact absurd (.inr e) hg
    split
    · simp only [wakeup2]
      rw [if_neg (by simp)]
      refine good_ok (of_eq (inv_post hi hg (.thr p) t fn arg n (if hd then some .sync else none) ?_) (by st_ext))
      intro y hy; cases hd <;> simp at hy; exact .inr ⟨p, rfl, hy.symm⟩
    · exact good_ok (of_eq (inv_refused hi (.thr p) (.sel t) fn arg n) (by st_ext))

theorem good_join {s : St} (dbg : Bool) (hi : Inv s) (x g : Nat) : Good (stepN dbg s (.join x g)) := by
  simp only [stepN, step]
  split
  · exact good_disabled
  · rename_i c h
    obtain ⟨h1, h2⟩ := top_some h
    split
    · exact good_disabled
    · rename_i ho
      simp only [ne_eq, Decidable.not_not] at ho
      rw [if_neg (by rw [not_freed hi (.inr (by rw [ho]; rfl)), hi.jn.cnf g c _ ho]; simp)]
      cases he : (s.fib g).ev with
      | true => exact good_ok (inv_joinEv hi h1 ho he)
      | false =>
        rw [if_neg (by simp)]
        exact good_ok (of_eq (inv_joinWait hi h1 h2 ho he) (by st_ext))

theorem good_tJoin {s : St} (dbg : Bool) (hi : Inv s) (p g : Nat) : Good (stepN dbg s (.tJoin p g)) := by
  simp only [stepN, step]
  split
  · exact good_disabled
  · rename_i h
    simp only [ne_eq, not_or, Decidable.not_not] at h
    obtain ⟨hp, ho⟩ := h
    rw [if_neg (by rw [not_freed hi (.inr (by rw [ho]; rfl)), hi.jn.cnt g p _ ho]; simp)]
    cases he : (s.fib g).ev with
    | true => exact good_ok (of_eq (inv_tJoinEv hi hp ho he) (by st_ext))
    | false =>
      rw [if_neg (by simp)]
      exact good_ok (of_eq (inv_tJoinWait hi hp ho he) (by st_ext))

theorem wtr_done {s : St} (hi : Inv s) {g : Nat} (h : done (s.fib g).st) : (s.fib g).waiter = [] := by
  rcases hi.jn.wtr g with h1 | ⟨w, _, _, h3⟩
  · exact h1
  · exact absurd h h3

theorem ref_pos {s : St} (hi : Inv s) {g : Nat} (h : (s.fib g).owner.isSome ∨ (s.fib g).st = .notified) (hn : (s.fib g).st ≠ .none) :
    (s.fib g).ref ≠ 0 := by
  rw [hi.jn.ref g hn]
  rcases h with h | h
  · rw [if_pos h]; omega
  · rw [h]; simp

theorem good_joinEnd {s : St} (dbg : Bool) (hi : Inv s) (x : Nat) : Good (stepN dbg s (.joinEnd x)) := by
  simp only [stepN, step]
  split
  · exact good_disabled
  · rename_i c l h
    split
    · rename_i g hst
      have hd := hi.jn.jnd g c hst
      have ho := (hi.jn.ofj g c).2 (.inr hst)
      have hne : g ≠ c := by rintro rfl; rw [hst] at hd; exact hd
      have hfr := not_freed hi (.inr (by rw [ho]; rfl) : (s.fib g).st ≠ .gone ∨ (s.fib g).owner.isSome)
      have hrf := ref_pos hi (.inl (by rw [ho]; rfl)) (by intro e; rw [e] at hd; exact hd : (s.fib g).st ≠ .none)
      have hw := wtr_done hi hd
      simp only [finishJoin]
      rw [if_neg (by simp [St.upd, hne, hfr])]
      cases hown : (s.fib g).own with
      | none =>
        simp only [St.upd, if_neg hne, hown]
        rw [release_ok (by simp [hne, hfr]) (by simp [hne, hrf]) (by simp [hne, hw])]
        refine good_ok (of_eq (inv_joinEnd hi hst hown) ?_)
        st_ext
      | some k =>
        simp only [St.upd, if_neg hne, hown]
        rw [release_ok (by simp [hne, hfr, St.log]) (by simp [hne, hrf, St.log]) (by simp [hne, hw, St.log])]
        refine good_ok (of_eq (inv_joinEndK hi hst hown) ?_)
        st_ext
    · exact good_disabled

theorem good_tJoinEnd {s : St} (dbg : Bool) (hi : Inv s) (p : Nat) : Good (stepN dbg s (.tJoinEnd p)) := by
  simp only [stepN, step]
  split
  · rename_i g hst
    have hd := hi.jn.twk g p hst
    have ho := (hi.jn.oft g p).2 (.inr hst)
    have hfr := not_freed hi (.inr (by rw [ho]; rfl) : (s.fib g).st ≠ .gone ∨ (s.fib g).owner.isSome)
    have hrf := ref_pos hi (.inl (by rw [ho]; rfl)) (by intro e; rw [e] at hd; exact hd : (s.fib g).st ≠ .none)
    have hw := wtr_done hi hd
    simp only [finishJoin]
    rw [if_neg (by simp [hfr])]
    cases hown : (s.fib g).own with
    | none =>
      simp only [St.upd, hown]
      rw [release_ok (by simp [hfr]) (by simp [hrf]) (by simp [hw])]
      refine good_ok (of_eq (inv_tJoinEnd hi hst hown) ?_)
      st_ext
    | some k =>
      simp only [St.upd, hown]
      rw [release_ok (by simp [hfr, St.log]) (by simp [hrf, St.log]) (by simp [hw, St.log])]
      refine good_ok (of_eq (inv_tJoinEndK hi hst hown) ?_)
      st_ext
  · exact good_disabled

theorem good_exit {s : St} (dbg : Bool) (hi : Inv s) (x : Nat) (v : Int) : Good (stepN dbg s (.exit x v)) := by
  simp only [stepN, step]
  split
  · exact good_disabled
  · rename_i c h
    obtain ⟨h1, h2⟩ := top_some h
    split
    · rename_i ho; exact good_ok (of_eq (inv_exit hi h1 h2 ho) (by st_ext))
    · rename_i k ho; exact good_ok (of_eq (inv_exitK hi h1 h2 ho) (by st_ext))

theorem good_reapEnd {s : St} (dbg : Bool) (hi : Inv s) (x : Nat) : Good (stepN dbg s (.reapEnd x)) := by
  simp only [stepN, step]
  split
  · exact good_disabled
  · rename_i g h
    split
    · exact good_disabled
    · have hst := (hi.loc.rpg x g).1 h
      have hfr := not_freed hi (.inl (by rw [hst.1]; simp) : (s.fib g).st ≠ .gone ∨ (s.fib g).owner.isSome)
      have hrf := ref_pos hi (.inr hst.1) (by rw [hst.1]; simp : (s.fib g).st ≠ .none)
      have hw := wtr_done hi (g := g) (by rw [hst.1]; trivial)
      rw [release_ok (by simp [hfr, St.upd]) (by simp [hrf, St.upd]) (by simp [hw, St.upd])]
      exact good_ok (of_eq (inv_reapEnd hi h) (by st_ext))

theorem good_reap {s : St} (dbg : Bool) (hi : Inv s) (x : Nat) : Good (stepN dbg s (.reap x)) := by
  simp only [stepN, step]
  split
  · exact good_disabled
  · rename_i g rest h
    split
    · exact good_disabled
    · rename_i hid
      simp only [Decidable.not_not] at hid
      have hst := (hi.loc.rdy x g).1 (by rw [h]; exact List.mem_cons_self)
      rw [if_neg (by rw [not_freed hi (.inl (by rw [hst.1]; simp))]; simp)]
      show Good (wakeAll dbg (reapSt s x g rest) x (s.fib g).retval (s.fib g).waiter)
      rcases hi.jn.wtr g with hw | ⟨w, hw, ho, hnd⟩
      · rw [hw]; exact good_ok (inv_reapNone hi h hid.2 hw)
      · cases w with
        | thr p =>
          have hp : s.thr p = .waiting g := by
            rcases (hi.jn.oft g p).1 ho with h' | h'
            · exact h'
            · exact absurd (hi.jn.twk g p h') hnd
          rw [hw]
          simp only [wakeAll]
          refine good_ok (of_eq (inv_reapThr hi h hid.2 hw) ?_)
          apply St.ext' <;> intros <;> simp only [reapSt, St.upd]
          split
          · rename_i e; rw [e, hp]
          · rfl
        | fib c =>
          have hp : (s.fib c).st = .waitJoin g := by
            rcases (hi.jn.ofj g c).1 ho with h' | h'
            · exact h'
            · exact absurd (hi.jn.jnd g c h') hnd
          have hne : c ≠ g := by rintro rfl; rw [hst.1] at hp; cases hp
          have hcc := hi.loc.cdj c g hp
          have hfr := not_freed hi (.inl (by rw [hp]; simp) : (s.fib c).st ≠ .gone ∨ (s.fib c).owner.isSome)
          have hfc : (reapSt s x g rest).fib c = s.fib c := by simp [reapSt, St.upd, hne]
          rw [hw]
          simp only [wakeAll, wakeup2, hfc]
          by_cases hx : (s.fib c).sel = x
          · rw [if_pos (by rw [hx]), hx]
            simp only [wakeup, hfc, hfr, hx, hp]
            rw [if_neg (by simp), hcc]
            rw [if_neg (by simp)]
            exact good_ok (inv_reapHere hi h hid.2 hw hx)
          · rw [if_neg (by intro e; cases e; exact hx rfl)]
            exact good_ok (inv_reapPost hi h hid.2 hw)

theorem good_step {s : St} (dbg : Bool) (hi : Inv s) (o : Op) : Good (stepN dbg s o) := by
  cases o with
  | spawn x c => exact good_spawn dbg hi x c
  | suspend x => exact good_suspend dbg hi x
  | resume x c v => exact good_resume dbg hi x c v
  | threadCall x fn arg n ok => exact good_threadCall dbg hi x fn arg n ok
  | threadWait x => exact good_threadWait dbg hi x
  | enter c => exact good_enter dbg hi c
  | leave c k v => exact good_leave dbg hi c k v
  | deliver m => exact good_deliver dbg hi m
  | create x t fn arg n g hd ok => exact good_create dbg hi x t fn arg n g hd ok
  | join x g => exact good_join dbg hi x g
  | joinEnd x => exact good_joinEnd dbg hi x
  | exit x v => exact good_exit dbg hi x v
  | reap x => exact good_reap dbg hi x
  | reapEnd x => exact good_reapEnd dbg hi x
  | tCreate p t fn arg n g hd ok => exact good_tCreate dbg hi p t fn arg n g hd ok
  | tJoin p g => exact good_tJoin dbg hi p g
  | tJoinEnd p => exact good_tJoinEnd dbg hi p
  | spurious p => exact good_disabled

theorem inv_reach {dbg : Bool} {s : St} (h : Reachable (stepN dbg) init s) : Inv s :=
  h.invariant inv_init (fun _ o _ hi hs => (good_step dbg hi o).2 _ hs)

/-! ## C58 -/

/-- **C58.** No assertion fails and no freed object is touched, in either build, whatever the threads do and in whatever order. -/
theorem remote_safe {dbg : Bool} {s : St} (h : Reachable (stepN dbg) init s) (o : Op) : stepN dbg s o ≠ .ub :=
  (good_step dbg (inv_reach h) o).1

/-- **C58.** Every call, of any of the three kinds, looks as it must: the function is entered at most once, on the pool or the selector asked for,
with the function, argument and number of that very call; a refused call enters nothing; the caller gets a result only after the function
returned, once, and it is the value the function returned. -/
theorem remote_call_ok {dbg : Bool} {s : St} (h : Reachable (stepN dbg) init s) (k : Nat) : proj k s.hist = [] ∨ CallOk k (proj k s.hist) := by
  by_cases hk : k < s.next
  · exact .inr ((inv_reach h).hs.okk k hk)
  · exact .inl ((inv_reach h).hs.fut k (by omega))

theorem mem_proj {k : Nat} {l : List Ev} {e : Ev} : e ∈ proj k l ↔ e ∈ l ∧ e.no = k := by simp [proj]

/-- **C58.** The result: two calls are never mixed up. -/
theorem remote_result {dbg : Bool} {s : St} (h : Reachable (stepN dbg) init s) {k : Nat} {v : Int} (hv : Ev.returned k v ∈ s.hist) :
    ∃ pre w p f a n mid mid' post, s.hist = pre ++ .called k w p f a n :: mid ++ .left k v :: mid' ++ .returned k v :: post ∧
      Ev.entered k p f a n ∈ mid ∧ (∀ v', Ev.returned k v' ∈ s.hist → v' = v) ∧ (∀ v', Ev.left k v' ∈ s.hist → v' = v) := by
  have hm : Ev.returned k v ∈ proj k s.hist := mem_proj.2 ⟨hv, rfl⟩
  have hc : CallOk k (proj k s.hist) := by
    rcases remote_call_ok h k with e | e
    · rw [e] at hm; cases hm
    · exact e
  generalize hl : proj k s.hist = l at hm hc
  obtain ⟨w, p, f, a, n, rfl⟩ : ∃ w p f a n, l = [Ev.called k w p f a n, .entered k p f a n, .left k v, .returned k v] := by
    cases hc with
    | returned w p f a n v' =>
      have : v = v' := by simpa using hm
      subst this; exact ⟨w, p, f, a, n, rfl⟩
    | _ => simp at hm
  have hu : ∀ e, e ∈ s.hist → e.no = k → e ∈ [Ev.called k w p f a n, .entered k p f a n, .left k v, .returned k v] := by
    intro e h1 h2; rw [← hl]; exact mem_proj.2 ⟨h1, h2⟩
  have key : ∀ (L : List Ev) (e : Ev) (r : List Ev), proj k L = e :: r → ∃ a b, L = a ++ e :: b ∧ proj k b = r := by
    intro L
    induction L with
    | nil => intro e r h; cases h
    | cons x L ih =>
      intro e r h
      rw [proj_cons] at h
      split at h
      · injection h with h1 h2; exact ⟨[], L, by simp [h1], h2⟩
      · obtain ⟨a, b, h1, h2⟩ := ih e r h; exact ⟨x :: a, b, by simp [h1], h2⟩
  obtain ⟨a1, b1, h1, h1'⟩ := key _ _ _ hl
  obtain ⟨a2, b2, h2, h2'⟩ := key _ _ _ h1'
  obtain ⟨a3, b3, h3, h3'⟩ := key _ _ _ h2'
  obtain ⟨a4, b4, h4, h4'⟩ := key _ _ _ h3'
  refine ⟨a1, w, p, f, a, n, a2 ++ .entered k p f a n :: a3, a4, b4, ?_, by simp, ?_, ?_⟩
  · rw [h1, h2, h3, h4]; simp
  · intro v' hv'; have := hu _ hv' rfl; simpa using this
  · intro v' hv'; have := hu _ hv' rfl; simpa using this

/-- **C58.** From the moment kfiber_thread_call handed the function to the pool until its result is there, the calling fiber runs nothing. -/
theorem remote_thread_call_waits {dbg : Bool} {s : St} (h : Reachable (stepN dbg) init s) {k c f a : Nat} {n : Int}
    (hc : Ev.called k (.fib c) .pool f a n ∈ s.hist) (hr : Ev.refused k ∉ s.hist) (hn : ∀ v, Ev.returned k v ∉ s.hist) :
    (s.fib c).st = .armed ∨ (s.fib c).st = .waitCall := by
  rcases (inv_reach h).hs.hcp k c f a n hc with h1 | ⟨v, h1⟩ | ⟨h1, _⟩
  · exact absurd h1 hr
  · exact absurd h1 (hn v)
  · revert h1; cases (s.fib c).st <;> simp [calling]

/-- **C58.** No result is lost: when nothing is left to do, every function handed to the pool has run and its caller has the result. -/
theorem remote_rest_pool {dbg : Bool} {s : St} (h : Reachable (stepN dbg) init s) (hr : AtRest s) {k c f a : Nat} {n : Int}
    (hc : Ev.called k (.fib c) .pool f a n ∈ s.hist) : Ev.refused k ∈ s.hist ∨ ∃ v, Ev.returned k v ∈ s.hist := by
  have hi := inv_reach h
  rcases hi.hs.hcp k c f a n hc with h1 | h1 | ⟨h1, _⟩
  · exact .inl h1
  · exact .inr h1
  · have := hi.loc.fly c (.inr h1)
    simp [flight, hr.inbox, hr.jobs, hr.workers] at this

/-- a caller blocked in kfiber_join for the result of call `k` -/
def Blocked (s : St) (k : Nat) : Prop :=
  ∃ g, (s.fib g).own = some k ∧ ((∃ c, (s.fib c).st = .waitJoin g) ∨ ∃ p, s.thr p = .waiting g)

/-- **C58.** ... and a caller is still blocked in kfiber_join only if the function itself has started and not returned. -/
theorem remote_rest_join {dbg : Bool} {s : St} (h : Reachable (stepN dbg) init s) (hr : AtRest s) {k : Nat} (hb : Blocked s k) :
    (∃ p f a n, Ev.entered k p f a n ∈ s.hist) ∧ ∀ v, Ev.left k v ∉ s.hist := by
  have hi := inv_reach h
  obtain ⟨g, hk, hw⟩ := hb
  have hnd : (s.fib g).waiter ≠ [] := by
    rcases hw with ⟨c, hc⟩ | ⟨p, hp⟩
    · rcases hi.jn.wjn g c hc with h1 | h1
      · rw [h1.1]; simp
      · have := h1.2; simp [flight, hr.inbox, hr.jobs, hr.workers] at this
    · rw [hi.jn.twt g p hp]; simp
  obtain ⟨w, hw1, ho, hd⟩ : ∃ w, (s.fib g).waiter = [w] ∧ (s.fib g).owner = some (w, true) ∧ ¬ done (s.fib g).st := by
    rcases hi.jn.wtr g with h1 | h1
    · exact absurd h1 hnd
    · exact h1
  have hact : active (s.fib g).st := by
    cases hst : (s.fib g).st with
    | none => have := hi.loc.new g hst; rw [this] at hk; cases hk
    | fresh => have := hi.loc.fly g (.inl hst); simp [flight, hr.inbox, hr.jobs, hr.workers] at this
    | exiting => have := (hi.loc.rdy _ g).2 ⟨hst, rfl⟩; rw [hr.ready] at this; cases this
    | notified => rw [hst] at hd; exact absurd trivial hd
    | gone => rw [hst] at hd; exact absurd trivial hd
    | _ => trivial
  obtain ⟨w', f, a, n, hp⟩ := hi.hs.hac g k hk hact
  have hm : Ev.entered k (.sel (s.fib g).sel) f a n ∈ proj k s.hist := by rw [hp]; simp
  refine ⟨⟨_, f, a, n, (mem_proj.1 hm).1⟩, fun v hv => ?_⟩
  have : Ev.left k v ∈ proj k s.hist := mem_proj.2 ⟨hv, rfl⟩
  rw [hp] at this; simp at this

/-- **C58.** The object of the fiber made for a call is freed only after the function returned and, if a handle was given out, after kfiber_join
handed out the result; when nothing is left to do, every one for which this holds has been freed. -/
theorem remote_freed {dbg : Bool} {s : St} (h : Reachable (stepN dbg) init s) {g k : Nat} (hk : (s.fib g).own = some k) :
    ((s.fib g).freed = true → ∃ v, Ev.left k v ∈ s.hist ∧ ((s.fib g).cond ≠ none → Ev.returned k v ∈ s.hist)) ∧
    (AtRest s → (∃ v, Ev.left k v ∈ s.hist) → ((s.fib g).cond ≠ none → ∃ v, Ev.returned k v ∈ s.hist) → (s.fib g).freed = true) := by
  have hi := inv_reach h
  have hnn : (s.fib g).st ≠ .none := by intro e; rw [hi.loc.new g e] at hk; cases hk
  constructor
  · intro hf
    have h1 := (hi.jn.frd g).1 hf
    have h2 := hi.jn.ref g hnn
    rw [h1.2] at h2
    have hg : (s.fib g).st = .gone := by
      cases e : decide ((s.fib g).st = .gone) with
      | true => simpa using e
      | false => simp at e; rw [if_neg e] at h2; omega
    have ho : (s.fib g).owner = none := by
      cases e : (s.fib g).owner with
      | none => rfl
      | some w => rw [e] at h2; simp at h2
    have h3 := hi.hs.hov g k hk (by rw [hg]; trivial)
    by_cases hc : (s.fib g).cond = none
    · obtain ⟨w, f, a, n, hp⟩ := h3.2 (by simp [hc])
      have hm : Ev.left k (s.fib g).retval ∈ proj k s.hist := by rw [hp]; simp
      exact ⟨_, (mem_proj.1 hm).1, fun h => absurd hc h⟩
    · obtain ⟨w, f, a, n, hp⟩ := h3.1 ⟨ho, hc⟩
      have hm : Ev.left k (s.fib g).retval ∈ proj k s.hist := by rw [hp]; simp
      have hm' : Ev.returned k (s.fib g).retval ∈ proj k s.hist := by rw [hp]; simp
      exact ⟨_, (mem_proj.1 hm).1, fun _ => (mem_proj.1 hm').1⟩
  · rintro hr ⟨v, hv⟩ hj
    have hlv : Ev.left k v ∈ proj k s.hist := mem_proj.2 ⟨hv, rfl⟩
    have hg : (s.fib g).st = .gone := by
      have hov : ¬ active (s.fib g).st := by
        intro ha
        obtain ⟨w, f, a, n, hp⟩ := hi.hs.hac g k hk ha
        rw [hp] at hlv; simp at hlv
      cases hst : (s.fib g).st with
      | none => exact absurd hst hnn
      | fresh => have := hi.loc.fly g (.inl hst); simp [flight, hr.inbox, hr.jobs, hr.workers] at this
      | exiting => have := (hi.loc.rdy _ g).2 ⟨hst, rfl⟩; rw [hr.ready] at this; cases this
      | notified => have := (hi.loc.rpg _ g).2 ⟨hst, rfl⟩; rw [hr.reaping] at this; cases this
      | gone => rfl
      | _ => rw [hst] at hov; exact absurd trivial hov
    have h3 := hi.hs.hov g k hk (by rw [hg]; trivial)
    have ho : (s.fib g).owner = none := by
      by_cases hc : (s.fib g).cond = none
      · cases e : (s.fib g).owner with
        | none => rfl
        | some w =>
          obtain ⟨w, b⟩ := w
          cases w with
          | fib c => have := hi.jn.cnf g c b e; rw [hc] at this; cases this
          | thr p => have := hi.jn.cnt g p b e; rw [hc] at this; cases this
      · obtain ⟨v', hv'⟩ := hj hc
        cases e : (s.fib g).owner with
        | none => rfl
        | some w =>
          obtain ⟨w', f, a, n, hp⟩ := h3.2 (by simp [e])
          have : Ev.returned k v' ∈ proj k s.hist := mem_proj.2 ⟨hv', rfl⟩
          rw [hp] at this; simp at this
    refine (hi.jn.frd g).2 ⟨hnn, ?_⟩
    rw [hi.jn.ref g hnn, hg, ho]; rfl

/-- the steps the library takes by itself: everything but the user's code starting, suspending, resuming, calling and returning -/
def Op.auto : Op → Bool
  | .threadWait _ | .enter _ | .deliver _ | .joinEnd _ | .reap _ | .reapEnd _ | .tJoinEnd _ => true
  | _ => false

theorem ok_of_not {r : Res St} (h1 : r ≠ .ub) (h2 : r ≠ .disabled) : ∃ s', r = .ok s' := by
  cases r with
  | ok s => exact ⟨s, rfl⟩
  | disabled => exact absurd rfl h2
  | ub => exact absurd rfl h1

theorem release_nd (s : St) (g : Nat) : release s g ≠ .disabled := by
  unfold release
  split
  · simp
  · split
    · split <;> simp
    · simp

theorem finishJoin_nd (s : St) (g : Nat) : finishJoin s g ≠ .disabled := by
  unfold finishJoin
  split
  · simp
  · exact release_nd _ _

/-- **C58.** Nothing gets stuck: as long as no user code is running — no fiber runs its own code, no function runs on the pool — and
something is left to do, the library has a step to take. -/
theorem remote_progress {dbg : Bool} {s : St} (h : Reachable (stepN dbg) init s) (hu : ∀ x, top s x = none) (hw : s.workers = [])
    (hn : ¬ AtRest s) : ∃ o s', o.auto = true ∧ stepN dbg s o = .ok s' := by
  have hi := inv_reach h
  have fin : ∀ o : Op, o.auto = true → stepN dbg s o ≠ .disabled → ∃ o s', o.auto = true ∧ stepN dbg s o = .ok s' := by
    intro o h1 h2
    obtain ⟨s', hs'⟩ := ok_of_not (remote_safe h o) h2
    exact ⟨o, s', h1, hs'⟩
  by_cases hst : ∀ x, s.stack x = []
  · by_cases hrp : ∀ x, s.reaping x = none
    · by_cases hib : s.inbox = []
      · by_cases hjb : s.jobs = []
        · by_cases hrd : ∀ x, s.ready x = []
          · by_cases hth : ∀ p g, s.thr p ≠ .woken g
            · exact absurd ⟨hib, hjb, hw, hst, hrd, hrp, hth⟩ hn
            · simp only [Classical.not_forall, Classical.not_not] at hth
              obtain ⟨p, g, hp⟩ := hth
              refine fin (.tJoinEnd p) rfl ?_
              simp only [stepN, step, hp]
              exact finishJoin_nd _ _
          · simp only [Classical.not_forall] at hrd
            obtain ⟨x, hx⟩ := hrd
            refine fin (.reap x) rfl ?_
            cases hr : s.ready x with
            | nil => exact absurd hr hx
            | cons g rest =>
              simp only [stepN, step, hr]
              rw [if_neg (by simp [idle, hst, hrp])]
              split
              · simp
              · have : ∀ l (s : St) v, wakeAll dbg s x v l ≠ .disabled := by
                  intro l
                  induction l with
                  | nil => intro s v; simp [wakeAll]
                  | cons w l ih =>
                    intro s v
                    cases w with
                    | thr p => simp only [wakeAll]; exact ih _ _
                    | fib c =>
                      simp only [wakeAll]
                      split
                      · exact ih _ _
                      · rename_i r hr1
                        intro hr2
                        have hr3 : wakeup2 dbg s (some x) (s.fib c).sel c (Obj.self c) v = .disabled := hr2
                        simp only [wakeup2, wakeup] at hr3
                        repeat' split at hr3
                        all_goals cases hr3
                exact this _ _ _
        · obtain ⟨c, hc⟩ := List.exists_mem_of_ne_nil _ hjb
          refine fin (.enter c) rfl ?_
          simp only [stepN, step]
          rw [if_pos hc]
          split <;> simp
      · obtain ⟨m, hm⟩ := List.exists_mem_of_ne_nil _ hib
        refine fin (.deliver m) rfl ?_
        simp only [stepN, step]
        rw [if_pos ⟨hm, hst _, hrp _⟩]
        intro hr3
        simp only [wakeup] at hr3
        repeat' split at hr3
        all_goals cases hr3
    · simp only [Classical.not_forall] at hrp
      obtain ⟨x, hx⟩ := hrp
      refine fin (.reapEnd x) rfl ?_
      cases hr : s.reaping x with
      | none => exact absurd hr hx
      | some g =>
        simp only [stepN, step, hr]
        rw [if_neg (by simp [hst])]
        exact release_nd _ _
  · simp only [Classical.not_forall] at hst
    obtain ⟨x, hx⟩ := hst
    cases hs : s.stack x with
    | nil => exact absurd hs hx
    | cons c l =>
      have h1 := (hi.loc.stk x c (by rw [hs]; exact List.mem_cons_self)).2
      have h2 := hu x
      simp only [top, hs, List.head?_cons] at h2
      cases hst : (s.fib c).st with
      | run => simp [Option.filter, hst] at h2
      | armed =>
        refine fin (.threadWait x) rfl ?_
        simp [stepN, step, hs, hst]
      | joined g =>
        refine fin (.joinEnd x) rfl ?_
        simp only [stepN, step, hs, hst]
        exact finishJoin_nd _ _
      | _ => rw [hst] at h1; exact absurd h1 (by simp [onCpu])

/-! ### Non-vacuity -/

/-- A fiber (1 on selector 0) calls function 7 on the pool; the pool finishes before the caller has even suspended itself. -/
def exPool : List Op :=
  [.spawn 0 1, .threadCall 0 7 70 5 true, .enter 1, .leave 1 0 42, .threadWait 0, .deliver ⟨0, 1, .arg 70, 42⟩]

/-- It then runs function 8 as fiber 2 of selector 1 and joins it before it has started. -/
def exJoin : List Op :=
  [.create 0 1 8 80 6 2 true true, .join 0 2, .deliver ⟨1, 2, .null, 6⟩, .exit 1 43, .reap 1, .deliver ⟨0, 1, .self 1, 43⟩, .reapEnd 1, .joinEnd 0]

/-- Thread 9 runs function 3 as fiber 4 of selector 1, which makes a pool call of its own. -/
def exSync : List Op :=
  [.tCreate 9 1 3 30 2 4 true true, .tJoin 9 4, .deliver ⟨1, 4, .null, 2⟩, .threadCall 1 5 50 1 true, .threadWait 1, .enter 4, .leave 4 4 11,
   .deliver ⟨1, 4, .arg 50, 11⟩, .exit 1 44, .reap 1, .reapEnd 1, .tJoinEnd 9]

def exAll : List Op := exPool ++ exJoin ++ [.threadCall 0 1 1 1 false] ++ exSync ++ [.exit 0 0, .reap 0, .reapEnd 0]

example : (run (stepN true) init exAll).map (fun s => s.hist) = some
    [.called 0 (.fib 1) .pool 7 70 5, .entered 0 .pool 7 70 5, .left 0 42, .returned 0 42,
     .called 1 (.fib 1) (.sel 1) 8 80 6, .entered 1 (.sel 1) 8 80 6, .left 1 43, .returned 1 43,
     .called 2 (.fib 1) .pool 1 1 1, .refused 2,
     .called 3 (.thr 9) (.sel 1) 3 30 2, .entered 3 (.sel 1) 3 30 2,
     .called 4 (.fib 4) .pool 5 50 1, .entered 4 .pool 5 50 1, .left 4 11, .returned 4 11, .left 3 44, .returned 3 44] := by
  decide +kernel

/-- the state after `exAll` (`remote_rest_pool`, `remote_freed`): nothing is left to do, and both fibers made for calls are freed -/
def exRest : St := (run (stepN true) init exAll).getD init

theorem run_getD {dbg : Bool} {l : List Op} (h : (run (stepN dbg) init l).isSome = true) : Reachable (stepN dbg) init ((run (stepN dbg) init l).getD init) := by
  cases hr : run (stepN dbg) init l with
  | none => rw [hr] at h; cases h
  | some s => exact reachable_of_run hr

theorem exRest_reach : Reachable (stepN true) init exRest := run_getD (by decide +kernel)

theorem exRest_rest : AtRest exRest where
  inbox := by decide +kernel
  jobs := by decide +kernel
  workers := by decide +kernel
  stack := fun x => match x with
    | 0 => by decide +kernel
    | 1 => by decide +kernel
    | _ + 2 => by rfl
  ready := fun x => match x with
    | 0 => by decide +kernel
    | 1 => by decide +kernel
    | _ + 2 => by rfl
  reaping := fun x => match x with
    | 0 => by decide +kernel
    | 1 => by decide +kernel
    | _ + 2 => by rfl
  thr := fun p g => by
    have : exRest.thr p = .idle := match p with
      | 0 | 1 | 2 | 3 | 4 | 5 | 6 | 7 | 8 => by rfl
      | 9 => by decide +kernel
      | _ + 10 => by rfl
    rw [this]; simp

example : (exRest.fib 2).own = some 1 ∧ (exRest.fib 2).freed = true ∧ (exRest.fib 4).own = some 3 ∧ (exRest.fib 4).freed = true := by decide +kernel

/-- `remote_rest_join`: the function of call 0 has suspended itself in something else; the caller of kfiber_join, thread 9, is still blocked -/
def exWait : St := (run (stepN true) init [.tCreate 9 1 3 30 2 4 true true, .tJoin 9 4, .deliver ⟨1, 4, .null, 2⟩, .suspend 1]).getD init

example : Reachable (stepN true) init exWait := run_getD (by decide +kernel)

example : Blocked exWait 0 := ⟨4, by decide +kernel, .inr ⟨9, by decide +kernel⟩⟩

example : AtRest exWait where
  inbox := by decide +kernel
  jobs := by decide +kernel
  workers := by decide +kernel
  stack := fun x => match x with
    | 0 | 1 => by decide +kernel
    | _ + 2 => by rfl
  ready := fun x => by rfl
  reaping := fun x => by rfl
  thr := fun p g => match p with
    | 0 | 1 | 2 | 3 | 4 | 5 | 6 | 7 | 8 => by intro h; have h' : TSt.idle = .woken g := h; cases h'
    | 9 => by rw [show exWait.thr 9 = .waiting 4 by decide +kernel]; simp
    | n + 10 => by rw [show exWait.thr (n + 10) = .idle from rfl]; simp

/-- `remote_thread_call_waits`, `remote_progress`: the pool is done, the caller suspended, the result posted, no user code running -/
def exPosted : St := (run (stepN true) init (exPool.take 5)).getD init

example : Reachable (stepN true) init exPosted := run_getD (by decide +kernel)

example : Ev.called 0 (.fib 1) .pool 7 70 5 ∈ exPosted.hist ∧ Ev.refused 0 ∉ exPosted.hist ∧ (exPosted.fib 1).st = .waitCall ∧
    exPosted.workers = [] ∧ exPosted.inbox ≠ [] := by decide +kernel

example : ∀ x, top exPosted x = none := fun x => match x with
  | 0 => by decide +kernel
  | _ + 1 => by rfl

/-! ## Findings -/

/-- **Finding (C58).** kcond_wait (include/ksync.h:57-63) calls pthread_cond_wait once, without testing its condition again; POSIX lets that call
return without a notice.  Then kfiber_join on a thread answers 0 with a value nobody computed: here the function has not even been entered, and the result handed
out is the 0 of a fresh fiber. -/
theorem finding_spurious : (run (step true) init [.tCreate 9 1 3 30 2 4 true true, .tJoin 9 4, .spurious 9, .tJoinEnd 9]).map (fun s => s.hist) =
    some [.called 0 (.thr 9) (.sel 1) 3 30 2, .returned 0 0] := by
  decide +kernel

/-- `remote_call_ok` is false of the code with such wake-ups -/
theorem finding_spurious_not_ok : ¬ CallOk 0 [.called 0 (.thr 9) (.sel 1) 3 30 2, .returned 0 0] := by
  intro h; cases h

end Kasync.Remote
