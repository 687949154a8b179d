import Verif.Sel.EpollSound

/-!
# Epoll selector: the properties (C36)

Vocabulary of the statements: `Hist Client s` -- `s` is the state of one connection after any interleaving of operations of a
caller who keeps the rules `Client`, of the kernel, and of the selector's loop, `epoll_ctl` failing whenever it likes;
`Hist Good s` -- the same with `epoll_ctl` never failing for lack of memory; `Outstanding s id d` -- request `id` of side `d` has
been neither answered nor withdrawn; `s.done` -- the callbacks made so far, in order, with what they were told.
-/

namespace Kasync.Epoll

/-- Runs of the selector's loop and the kernel (the caller does nothing) with their number of ready-loop moves. -/
inductive Run (s : St) : Nat → St → Prop where
  | refl : Run s 0 s
  | step {n : Nat} {s1 s2 : St} (op : Op) : Run s n s1 → Selector op ∨ Kernel op → CtlOk op → step s1 op = .ok s2 →
      Run s (n + if Pop op then 1 else 0) s2

/-! ## Memory and assertions -/

/-- No operation of a caller who keeps the rules, no kernel event and no move of the selector uses a released connection or fails
an assertion, even if `epoll_ctl` fails. -/
theorem epoll_no_ub {s : St} {op : Op} (h : Hist Client s) (hc : Client s op) : step s op ≠ .ub := by
  have hA := h.invA
  have hD := h.invD
  have hdead : s.alive = false → s.pr = false ∧ s.read = false ∧ s.write = false ∧ s.rdhup = false ∧ s.loc = .none := hA.dead
  have wE : ∀ t a again ctl, t.alive = true → writeEvent t a again ctl ≠ .ub := by
    intro t a again ctl ha e
    unfold writeEvent at e
    rw [if_neg (by rw [ha]; simp)] at e
    dsimp only at e
    split at e
    · cases e
    · split at e
      · cases e
      · split at e
        · cases e
        · split at e <;> cases e
  have rE : ∀ t a ctl, t.alive = true → (t.rk = .io → t.et = true) → readEvent t a ctl ≠ .ub := by
    intro t a ctl ha het e
    unfold readEvent at e
    rw [if_neg (by rw [ha]; simp)] at e
    dsimp only at e
    split at e
    · cases e
    · rename_i hk
      split at e
      · split at e <;> cases e
      · rw [if_neg (by rw [het hk]; simp)] at e; cases e
    · split at e
      · split at e <;> cases e
      · split at e <;> cases e
  intro e
  cases op <;> unfold step at e <;> dsimp only at e
  case read main a ctl =>
    obtain ⟨ha, hl, ho⟩ := hc
    have hp := hA.noR ho
    rw [if_neg (by rw [ha, hA.noRead hl hp]; simp)] at e
    split at e
    · rename_i hrr
      split at e
      · cases e
      · refine rE _ _ _ ?_ ?_ e
        · exact ha
        · exact fun _ => hA.rr_et hl hrr
    · cases e
  case accept ctl =>
    rw [if_neg (by rw [hc.1]; simp)] at e
    cases e
  case write main a again ctl =>
    obtain ⟨ha, hl, ho, hw⟩ := hc
    have hp := hA.noW ho
    rw [if_neg (by rw [ha, hp, hA.noW2 hp hw]; simp)] at e
    split at e
    · split at e
      · cases e
      · refine wE _ _ _ _ ?_ e
        exact ha
    · cases e
  case sendfile main a again ctl =>
    obtain ⟨ha, hl, ho, hw⟩ := hc
    have hp := hA.noW ho
    have hsf : s.sendfile = false := by
      cases e : s.sendfile
      · rfl
      · have := (hA.sf_write e).1; rw [hp] at this; cases this
    rw [if_neg (by rw [ha, hp, hsf]; simp)] at e
    split at e
    · split at e
      · cases e
      · refine wE _ _ _ _ ?_ e
        exact ha
    · cases e
  case nextRead =>
    obtain ⟨ha, hl, ho, hreg⟩ := hc
    have hp := hA.noR ho
    have hr2 : s.rready2 = false := by have := hA.rr2; cases e : s.rready2 <;> grind
    rw [if_neg (by rw [ha, hA.noRead hl hp, hr2]; simp)] at e
    cases e
  case nextWrite =>
    obtain ⟨ha, hl, ho, hw⟩ := hc
    have hp := hA.noW ho
    rw [if_neg (by rw [ha, hp, hA.noW2 hp hw]; simp)] at e
    cases e
  case connect ctl =>
    obtain ⟨ha, hl, hn⟩ := hc
    obtain ⟨f1, f2, f3, f4, f5⟩ := hA.fresh hn
    rw [if_neg (by rw [ha, f1, f2, f3, f4, f5]; simp)] at e
    cases e
  case readhup ctl =>
    rw [if_neg (by rw [hc.1]; simp)] at e
    split at e <;> cases e
  case removeReadhup =>
    rw [if_neg (by rw [hc.1]; simp)] at e
    split at e
    · cases e
    · rename_i hh
      obtain ⟨x1, x2, x3⟩ := hA.hup_excl (by simpa using hh)
      rw [if_neg (by rw [x1, x2]; simp)] at e
      unfold remove at e
      split at e
      · cases e
      · dsimp only at e
        rw [if_neg (by simp only [St.dropHup, x1, x2]; simp)] at e
        cases e
  case listen =>
    rw [if_neg (by rw [hc.1]; simp)] at e
    cases e
  case nextShutdown =>
    rw [if_neg (by rw [hc.1]; simp)] at e
    cases e
  case remove =>
    obtain ⟨ha, hl, ho⟩ := hc
    have hp := hA.noR (fun id => ho id _)
    rw [if_neg (by rw [ha]; simp)] at e
    unfold remove at e
    split at e
    · cases e
    · dsimp only at e
      rw [if_neg (by rw [hA.noRead hl hp, hA.noW (fun id => ho id _), hA.noH (fun id => ho id _)]; simp)] at e
      cases e
  case destroy =>
    obtain ⟨ha, hl, ho, hst⟩ := hc
    have hp := hA.noR (fun id => ho id _)
    have hr := hA.noRead hl hp
    have hw := hA.noW (fun id => ho id _)
    have hh := hA.noH (fun id => ho id _)
    have hlo : s.loc = .none := by
      cases e : s.loc
      · rfl
      all_goals
        have := hA.listed hl (by rw [e]; decide)
        simp [hr, hw, hh, hst] at this
    rw [if_neg (by rw [ha, hr, hw, hlo]; simp)] at e
    split at e
    · cases e
    · rename_i r hno
      unfold remove at e
      split at e
      · cases e
      · dsimp only at e
        rw [if_neg (by rw [hr, hw, hh]; simp)] at e
        cases e
  case expire =>
    split at e
    · rename_i hlo
      split at e
      · rename_i ha
        have := (hdead ha).2.2.2.2
        rw [this] at hlo; simp at hlo
      · cases e
    · cases e
  case select =>
    split at e
    · rename_i hq
      split at e
      · rename_i ha
        have := (hD ha).2.2
        rw [hq.2] at this; cases this
      · cases e
    · cases e
  case popWrite a again ctl =>
    split at e
    · rename_i hq
      split at e
      · rename_i ha
        have := (hdead ha).2.2.2.2
        rw [hq.2] at this; cases this
      · rename_i ha
        split at e
        · refine wE _ _ _ _ ?_ e
          show s.alive = true
          simpa using ha
        · cases e
    · cases e
  case popRead a ctl =>
    split at e
    · rename_i k hk
      split at e
      · rename_i ht
        have hp := hA.cur_rd k hk (hA.cur_todo k hk ht)
        have hr := hA.pr_read hp
        refine rE _ _ _ ?_ ?_ e
        · show s.alive = true
          cases ha : s.alive
          · have := (hdead ha).1; rw [hp] at this; cases this
          · rfl
        · intro hio
          cases hl : s.listener
          · exact (hA.read_pr hl hr).2.1
          · have := hA.lst_rk hl hr; rw [show s.rk = .io from hio] at this; cases this
      · cases e
    · cases e
  case popEnd =>
    split at e
    · rename_i k hk
      split at e
      · cases e
      · split at e
        · rename_i hrw
          simp only [Bool.and_eq_true, Bool.or_eq_true] at hrw
          split at e
          · rename_i ha
            obtain ⟨d1, d2, d3, d4, d5⟩ := hdead ha
            rcases hrw.1 with x | x
            · have := hA.cur_rd k hk x; rw [d1] at this; cases this
            · have := hA.cur_wr k hk x; rw [d3] at this; cases this
          · cases e
        · cases e
    · cases e
  all_goals cases e

/-! ## Every request is answered at most once, and none is forgotten -/

/-- No request is answered twice; every request made is either answered, or a readhup request that was withdrawn, or still
outstanding, and never two of these; there is at most one outstanding request per side. -/
theorem epoll_exactly_once {s : St} (h : Hist Client s) :
    (s.done.map Prod.fst).Nodup ∧
    (∀ id, id < s.next → (id ∈ s.done.map Prod.fst ∧ id ∉ s.withdrawn) ∨ (id ∈ s.withdrawn ∧ s.side id = .hup ∧ id ∉ s.done.map Prod.fst) ∨
      Outstanding s id (s.side id)) ∧
    (∀ id ∈ s.done.map Prod.fst, id < s.next) ∧
    (∀ d id id', Outstanding s id d → Outstanding s id' d → id = id') := by
  have hA := h.invA
  have hE := h.invE
  refine ⟨hA.done_nodup, fun id hi => ?_, hA.done_lt, fun d id id' h1 h2 => ?_⟩
  · by_cases hd : id ∈ s.done.map Prod.fst
    · exact Or.inl ⟨hd, fun hw => (hA.wd_lt id hw).2 hd⟩
    · by_cases hw : id ∈ s.withdrawn
      · exact Or.inr (Or.inl ⟨hw, hE.wd id hw, hd⟩)
      · exact Or.inr (Or.inr ⟨hi, rfl, hd, hw⟩)
  · cases d
    · rw [((out_rd_iff hA id).1 h1).2, ((out_rd_iff hA id').1 h2).2]
    · rw [((out_wr_iff hA id).1 h1).2, ((out_wr_iff hA id').1 h2).2]
    · rw [((out_hup_iff hA id).1 h1).2, ((out_hup_iff hA id').1 h2).2]

/-- An answer given is never taken back or changed: the list of answers only grows at its end, and so does the list of
withdrawn requests. -/
theorem epoll_answers_final {s s' : St} {op : Op} (h : Hist Client s) (he : step s op = .ok s') :
    s.done <+: s'.done ∧ s.withdrawn <+: s'.withdrawn ∧ ∀ id, id < s.next → s'.side id = s.side id := by
  have := (step_sound h.invA h.invE he).1
  exact ⟨this.done, this.withdrawn, this.side⟩

/-- A connection taken from its selector while registered is as if it had never been with one: the kernel does not watch it, it is in no list, and nothing of
what was known about its readiness is kept, so that the next request asks the kernel anew; no callback is called. -/
theorem epoll_remove_forgets {s s' : St} (hs : step s .remove = .ok s') (hr : s.rev = true ∨ s.wev = true) :
    s'.regI = false ∧ s'.regO = false ∧ s'.queued = false ∧ s'.loc = .none ∧ s'.rev = false ∧ s'.wev = false ∧ s'.et = false ∧
    s'.rready = false ∧ s'.wready = false ∧ s'.stale = false ∧ s'.done = s.done ∧ s'.alive = s.alive ∧ s'.err = s.err := by
  simp only [step] at hs
  split at hs
  · cases hs
  · unfold remove at hs
    rw [if_neg (by rcases hr with h | h <;> simp [h])] at hs
    dsimp only at hs
    split at hs
    · cases hs
    · injection hs with hs; subst hs
      simp [addList]

/-- Only readhup requests are withdrawn, and only by the caller: by a new request or by `selectable_remove_readhup`. -/
theorem epoll_withdrawn_by_caller {s s' : St} {op : Op} (h : Hist Client s) (he : step s op = .ok s')
    (hop : Selector op ∨ Kernel op ∨ op = .expire ∨ op = .remove ∨ op = .destroy ∨ op = .nextShutdown ∨ op = .listen) :
    s'.withdrawn = s.withdrawn := by
  have hA := h.invA
  have rC : ∀ t, remove s = .ok t → t.withdrawn = s.withdrawn := fun t e => (remove_core e).2.2.2.1
  have wW : ∀ t a again ctl, writeEvent t a again ctl = .ok s' → s'.withdrawn = t.withdrawn := by
    intro t a again ctl e
    have ww : ∀ u c, (waitWrite u c).withdrawn = u.withdrawn := by
      intro u c
      unfold waitWrite
      rcases addEventRW_cases u c with ⟨n, q, e⟩ | e <;> rw [e] <;> simp only [addList, St.finishW] <;> (repeat' split) <;> rfl
    unfold writeEvent at e
    split at e
    · cases e
    · dsimp only at e
      split at e
      · simp only [Res.ok.injEq] at e; subst e; rfl
      · split at e
        · simp only [Res.ok.injEq] at e; subst e; rfl
        · split at e
          · simp only [Res.ok.injEq] at e; subst e; rw [ww]
          · split at e <;> simp only [Res.ok.injEq] at e <;> subst e <;> rfl
  have rW : ∀ t a ctl, t.rdhup = false → readEvent t a ctl = .ok s' → s'.withdrawn = t.withdrawn := by
    intro t a ctl hh e
    have ww : ∀ u c, (waitRead u c).withdrawn = u.withdrawn := by
      intro u c
      unfold waitRead
      rcases epollCtl_cases { u with rev := true, et := true, wready := true } u.wev u.wev c with ⟨n, q, e⟩ | e <;>
        simp only [addEventR, e, addList, St.finishR] <;> (repeat' split) <;> rfl
    have wa : ∀ u c, (waitAccept u c).1.withdrawn = u.withdrawn := by
      intro u c
      unfold waitAccept
      rcases epollCtl_cases { u with rev := true, et := true } false false c with ⟨n, q, e⟩ | e <;> rw [e] <;>
        simp only [addList] <;> (repeat' split) <;> rfl
    unfold readEvent at e
    split at e
    · cases e
    · dsimp only at e
      split at e
      · simp only [Res.ok.injEq] at e; subst e; rfl
      · split at e
        · split at e <;> simp only [Res.ok.injEq] at e <;> subst e <;> rfl
        · split at e
          · cases e
          · simp only [Res.ok.injEq] at e; subst e; rw [ww]; simp only [St.dropHup, hh, cond_false]
      · split at e
        · split at e <;> simp only [Res.ok.injEq] at e <;> subst e <;> rfl
        · split at e
          · simp only [Res.ok.injEq] at e; subst e; rfl
          · simp only [Res.ok.injEq] at e
            split at e <;> subst e
            · rw [wa]
            · show ((waitAccept _ _).1).withdrawn = _; rw [wa]
  cases op <;> (try simp [Selector, Kernel] at hop) <;> unfold step at he <;> dsimp only at he
  case listen =>
    split at he
    · cases he
    · simp only [Res.ok.injEq] at he; subst he; rfl
  case nextShutdown =>
    split at he
    · cases he
    · simp only [Res.ok.injEq] at he; subst he; rfl
  case remove =>
    split at he
    · cases he
    · exact rC _ he
  case destroy =>
    split at he
    · cases he
    · split at he
      · rename_i hr
        have := rC _ hr; simp only [Res.ok.injEq] at he; subst he; exact this
      · rename_i hno; exact absurd he (hno _)
  case expire =>
    split at he
    · split at he
      · cases he
      · simp only [Res.ok.injEq] at he; subst he; rfl
    · cases he
  case select =>
    split at he
    · split at he
      · cases he
      · simp only [Res.ok.injEq, select] at he; subst he; split <;> rfl
    · cases he
  case popWrite =>
    split at he
    · split at he
      · cases he
      · split at he
        · have := wW _ _ _ _ he; exact this
        · simp only [Res.ok.injEq] at he; subst he; rfl
    · cases he
  case popRead =>
    split at he
    · rename_i k hk
      split at he
      · rename_i ht
        have hr := hA.pr_read (hA.cur_rd k hk (hA.cur_todo k hk ht))
        have hh : s.rdhup = false := by have := hA.hup_excl; grind
        exact rW { s with cur := some { k with todoR := false, rd := false } } _ _ hh he
      · cases he
    · cases he
  case popEnd =>
    split at he
    · split at he
      · cases he
      · split at he
        · split at he
          · cases he
          · simp only [Res.ok.injEq] at he; subst he; split <;> rfl
        · simp only [Res.ok.injEq] at he; subst he; rfl
    · cases he
  all_goals
    simp only [Res.ok.injEq] at he; subst he; rfl

/-- A caller is told that the peer hung up only if it did, and never about a read (a read of a hung-up connection gets what the
system call returns). -/
theorem epoll_hangup_sound {s : St} (h : Hist Client s) {id : Nat} (hd : (id, Out.hungUp) ∈ s.done) :
    s.khup = true ∧ s.side id ≠ .rd := h.invE.hung id hd

/-- As long as `epoll_ctl` works nobody is told that it does not: no registration is made twice or changed before it is made. -/
theorem epoll_registration_consistent {s : St} (h : Hist Good s) :
    (∀ id, (id, Out.noPoll) ∉ s.done) ∧ s.rev = s.regI ∧ s.wev = s.regO :=
  ⟨fun _ hm => h.invB.nopoll _ hm rfl, h.invB.rev_reg, h.invB.wev_reg⟩

/-! ## No readiness is lost -/

theorem selector_enabled {s : St} (h : Hist Good s) (hs : s.cur ≠ none ∨ s.loc = .ready) :
    ∃ op s', Pop op ∧ CtlOk op ∧ step s op = .ok s' := by
  have go : ∀ op, Pop op → CtlOk op → step s op ≠ .disabled → ∃ op s', Pop op ∧ CtlOk op ∧ step s op = .ok s' := by
    intro op h1 h2 h3
    have hc : Client s op := by cases op <;> (first | exact trivial | exact False.elim h1)
    have := epoll_no_ub h.client hc
    cases e : step s op with
    | ub => exact absurd e this
    | disabled => exact absurd e h3
    | ok s' => exact ⟨op, s', h1, h2, e⟩
  cases hcu : s.cur with
  | none =>
    have hl : s.loc = .ready := hs.resolve_left (fun e => e hcu)
    refine go (.popWrite .err false true) trivial rfl ?_
    unfold step
    dsimp only
    rw [if_pos ⟨hcu, hl⟩]
    split
    · intro e; cases e
    · split
      · intro e
        unfold writeEvent at e
        dsimp only at e
        split at e
        · cases e
        · split at e
          · cases e
          · split at e
            · cases e
            · split at e <;> cases e
      · intro e; cases e
  | some k =>
    by_cases ht : k.todoR = true
    · refine go (.popRead .err true) trivial rfl ?_
      unfold step
      dsimp only
      rw [hcu]
      dsimp only
      rw [if_pos ht]
      intro e
      unfold readEvent at e
      dsimp only at e
      split at e
      · cases e
      · split at e
        · cases e
        · split at e
          · cases e
          · split at e <;> cases e
        · split at e
          · cases e
          · split at e <;> cases e
    · refine go .popEnd trivial trivial ?_
      unfold step
      dsimp only
      rw [hcu]
      dsimp only
      rw [if_neg ht]
      split
      · split <;> (intro e; cases e)
      · intro e; cases e

theorem select_enabled {s : St} (h : Hist Good s) (hc : s.cur = none) (hq : s.queued = true) : step s .select = .ok (select s) := by
  have := epoll_no_ub h.client (op := .select) trivial
  unfold step at this ⊢
  dsimp only at this ⊢
  rw [if_pos ⟨hc, hq⟩] at this ⊢
  split
  · rename_i ha; rw [if_pos ha] at this; exact absurd rfl this
  · rfl

/-- A pending read (accept) never hangs while there is input: either the ready loop has a move for the connection, or the kernel
reports it to the next `select`, which then puts it on the ready list. -/
theorem epoll_read_not_lost {s : St} {id : Nat} (h : Hist Good s) (ho : Outstanding s id .rd) (hk : s.kin = true) :
    (∃ op s', Pop op ∧ CtlOk op ∧ step s op = .ok s') ∨
    (s.queued = true ∧ ∃ s', step s .select = .ok s' ∧ s'.loc = .ready ∧ s'.rready = true) := by
  have hA := h.client.invA
  obtain ⟨hp, hid⟩ := (out_rd_iff hA id).1 ho
  by_cases hs : s.cur ≠ none ∨ s.loc = .ready
  · exact Or.inl (selector_enabled h hs)
  · simp only [not_or, Decidable.not_not] at hs
    have hq := stuckR h.invB hp hk hs.1 hs.2
    refine Or.inr ⟨hq, _, select_enabled h hs.1 hq, ?_⟩
    simp only [select, h.invB.q_reg hq, hk, hA.pr_read hp, Bool.true_or, Bool.true_and, if_true, Bool.or_true, cond_true, and_self]

/-- A pending write never hangs while the socket takes output. -/
theorem epoll_write_not_lost {s : St} {id : Nat} (h : Hist Good s) (ho : Outstanding s id .wr) (hk : s.kout = true) :
    (∃ op s', Pop op ∧ CtlOk op ∧ step s op = .ok s') ∨
    (s.queued = true ∧ ∃ s', step s .select = .ok s' ∧ s'.loc = .ready ∧ s'.wready = true) := by
  have hA := h.client.invA
  obtain ⟨hp, hid⟩ := (out_wr_iff hA id).1 ho
  by_cases hs : s.cur ≠ none ∨ s.loc = .ready
  · exact Or.inl (selector_enabled h hs)
  · simp only [not_or, Decidable.not_not] at hs
    have hq := stuckW h.invB hp hk hs.2
    refine Or.inr ⟨hq, _, select_enabled h hs.1 hq, ?_⟩
    have hr : s.regO = true := by
      rcases h.invB.wr hp with e | e
      · exact absurd e.1 hs.2
      · exact e.1
    simp only [select, h.invB.q_reg hq, hk, hp, hr, Bool.true_or, Bool.true_and, Bool.and_true, if_true, Bool.or_true]
    cases s.khup <;> simp

/-- Readiness that arrives with no request pending is not forgotten: while the poller knows the socket, input that is there is either
recorded in the connection or still to be reported by the kernel; with the record the next read (off the main fiber) is answered
within the call, on the main fiber the connection goes to the ready list. -/
theorem epoll_readiness_remembered {s : St} (h : Hist Good s) (hr : s.regI = true) (hk : s.kin = true) :
    (s.rready = true ∨ s.queued = true) ∧
    (s.rready = true → ∀ a, Client s (.read false a true) →
      ∃ s', step s (.read false a true) = .ok s' ∧ s.next ∈ s'.done.map Prod.fst) ∧
    (s.rready = true → ∀ a, Client s (.read true a true) →
      ∃ s', step s (.read true a true) = .ok s' ∧ s'.loc = .ready ∧ Outstanding s' s.next .rd) := by
  have hB := h.invB
  have hA := h.client.invA
  refine ⟨?_, fun hrr a hc => ?_, fun hrr a hc => ?_⟩
  · cases e : s.rready
    · exact Or.inr (hB.edge_in hr hk e)
    · exact Or.inl rfl
  · have hnb := epoll_no_ub h.client hc
    obtain ⟨ha, hl, ho⟩ := hc
    have hrd := hA.noRead hl (hA.noR ho)
    unfold step at hnb ⊢
    dsimp only at hnb ⊢
    rw [if_neg (by rw [ha, hrd]; simp), if_pos hrr, if_neg (by simp)]
    unfold readEvent
    rw [if_neg (by simp [St.request, St.dropHup, ha])]
    cases a <;> exact ⟨_, by simp only [St.request, St.dropHup, hk, if_true]; rfl, by simp [St.finishR]⟩
  · have hc' := hc
    obtain ⟨ha, hl, ho⟩ := hc
    have hrd := hA.noRead hl (hA.noR ho)
    have he : step s (.read true a true) = .ok (addList { (s.request .rd).dropHup with rk := .io, rid := s.next, pr := true, read := true } .ready) := by
      unfold step
      dsimp only
      rw [if_neg (by rw [ha, hrd]; simp), if_pos hrr, if_pos rfl]
    refine ⟨_, he, rfl, ?_⟩
    exact (out_rd_iff (step_invA hA hc' he) _).2 ⟨rfl, rfl⟩

theorem run_hist {s s' : St} {n : Nat} (h : Hist Good s) (hr : Run s n s') : Hist Good s' := by
  induction hr with
  | refl => exact h
  | step op _ ho hc he ih =>
    refine .step op ih ⟨?_, hc⟩ he
    cases op <;> (first | exact trivial | (rcases ho with e | e <;> exact False.elim e))

theorem run_served {P : St → Nat → Prop} {s s' : St} {id n b : Nat} (h : Hist Good s) (hr : Run s n s')
    (hb : ∃ m, m ≤ b ∧ P s m)
    (hpop : ∀ t t' op m, Hist Good t → Pop op → CtlOk op → P t m → step t op = .ok t' → Answered t' id ∨ ∃ k, k < m ∧ P t' k)
    (hker : ∀ t t' op m, Kernel op → P t m → step t op = .ok t' → P t' m)
    (hsel : ∀ t t' m, Hist Good t → P t m → step t .select = .ok t' → ∃ k, k ≤ m ∧ P t' k) :
    Answered s' id ∨ ∃ m, m + n ≤ b ∧ P s' m := by
  induction hr with
  | refl => exact Or.inr hb
  | @step n s1 s2 op hr' ho hc he ih =>
    have hg := run_hist h hr'
    have hmono : Answered s1 id → Answered s2 id := by
      intro ha
      exact ((step_sound hg.client.invA hg.client.invE he).1.done.map Prod.fst).subset ha
    rcases ih with ih | ⟨m, hm, hP⟩
    · exact Or.inl (hmono ih)
    · by_cases hp : Pop op
      · rw [if_pos hp]
        rcases hpop _ _ op m hg hp hc hP he with e | ⟨k, hk, e⟩
        · exact Or.inl e
        · exact Or.inr ⟨k, by omega, e⟩
      · rw [if_neg hp]
        rcases ho with ho | ho
        · have : op = .select := by cases op <;> first | rfl | exact False.elim ho | exact absurd ho hp
          subst this
          obtain ⟨k, hk, e⟩ := hsel _ _ m hg hP he
          exact Or.inr ⟨k, by omega, e⟩
        · exact Or.inr ⟨m, by omega, hker _ _ op m ho hP he⟩

theorem rankR_le (s : St) : rankR s ≤ 8 ∧ 1 ≤ rankR s := by
  unfold rankR
  cases hr : reading s
  · have ht : turn s ≤ 1 := by
      unfold reading at hr
      unfold turn
      split
      · omega
      · rename_i k hk
        rw [hk] at hr
        simp only at hr
        simp [hr]
    cases (s.rready || s.rready2) <;> simp <;> (try split) <;> omega
  · simp

theorem rankW_le (s : St) : rankW s ≤ 9 ∧ 1 ≤ rankW s := by
  unfold rankW
  have ht : turn s ≤ 2 := by
    unfold turn
    split
    · omega
    · cases ‹Snap›.todoR <;> simp
  cases (s.wready || s.wready2) <;> simp <;> (repeat' split) <;> omega

theorem run_trans {s t u : St} {n m : Nat} (h : Run s n t) (g : Run t m u) : Run s (n + m) u := by
  induction g with
  | refl => exact h
  | step op _ ho hc he ih => rw [← Nat.add_assoc]; exact .step op ih ho hc he

theorem run_pop {s t : St} {op : Op} (ho : Pop op) (hc : CtlOk op) (he : step s op = .ok t) : Run s 1 t := by
  have := Run.step op (Run.refl (s := s)) (Or.inl (by cases op <;> first | exact trivial | exact False.elim ho)) hc he
  rwa [if_pos ho] at this

theorem run_select {s t : St} (he : step s .select = .ok t) : Run s 0 t :=
  Run.step .select (Run.refl (s := s)) (Or.inl trivial) trivial he

/-- In every run of the selector and the kernel a pending read (accept) with input is answered before the ready loop has made eight
moves for this connection: a run in which it is not answered yet has made fewer, and can go on (the ready loop has a move, or
the kernel reports the connection and `select` puts it on the ready list). -/
theorem epoll_read_served {s s' : St} {id n : Nat} (h : Hist Good s) (ho : Outstanding s id .rd) (hk : s.kin = true)
    (hr : Run s n s') : id ∈ s'.done.map Prod.fst ∨
      (n < 8 ∧ ((∃ op t, Pop op ∧ CtlOk op ∧ step s' op = .ok t) ∨
        (s'.queued = true ∧ ∃ t, step s' .select = .ok t ∧ t.loc = .ready ∧ t.rready = true))) := by
  obtain ⟨hp, hid⟩ := (out_rd_iff h.client.invA id).1 ho
  have := run_served (P := fun t m => PendR t id m) (b := 8) h hr ⟨rankR s, (rankR_le s).1, hp, hid, hk, rfl⟩
    (fun t t' op m hg hpo hc hP he => pop_rankR hg.client.invA hg.invB hc hpo hP he)
    (fun t t' op m hko hP he => (kernel_rank hko he).1 id m hP)
    (fun t t' m hg hP he => by
      refine ⟨2, ?_, select_rankR hg.client.invA hg.invB hP he⟩
      obtain ⟨p1, p2, p3, p4⟩ := hP
      rw [← p4]
      unfold step at he
      dsimp only at he
      split at he
      · rename_i hq
        unfold rankR turn reading
        rw [hq.1]
        cases (t.rready || t.rready2) <;> simp
        omega
      · cases he)
  rcases this with e | ⟨m, hm, hP⟩
  · exact Or.inl e
  · have hle := (rankR_le s').2
    have hg := run_hist h hr
    obtain ⟨p1, p2, p3, p4⟩ := hP
    exact Or.inr ⟨by omega, epoll_read_not_lost hg ((out_rd_iff hg.client.invA id).2 ⟨p1, p2⟩) p3⟩

/-- The same for a pending write (connect, sendfile) on a writable socket, with nine moves. -/
theorem epoll_write_served {s s' : St} {id n : Nat} (h : Hist Good s) (ho : Outstanding s id .wr) (hk : s.kout = true)
    (hr : Run s n s') : id ∈ s'.done.map Prod.fst ∨
      (n < 9 ∧ ((∃ op t, Pop op ∧ CtlOk op ∧ step s' op = .ok t) ∨
        (s'.queued = true ∧ ∃ t, step s' .select = .ok t ∧ t.loc = .ready ∧ t.wready = true))) := by
  obtain ⟨hp, hid⟩ := (out_wr_iff h.client.invA id).1 ho
  have := run_served (P := fun t m => PendW t id m) (b := 9) h hr ⟨rankW s, (rankW_le s).1, hp, hid, hk, rfl⟩
    (fun t t' op m hg hpo hc hP he => pop_rankW hg.client.invA hpo hP he)
    (fun t t' op m hko hP he => (kernel_rank hko he).2 id m hP)
    (fun t t' m hg hP he => by
      refine ⟨1, ?_, select_rankW hg.invB hP he⟩
      obtain ⟨p1, p2, p3, p4⟩ := hP
      rw [← p4]; exact (rankW_le t).2)
  rcases this with e | ⟨m, hm, hP⟩
  · exact Or.inl e
  · have hle := (rankW_le s').2
    have hg := run_hist h hr
    obtain ⟨p1, p2, p3, p4⟩ := hP
    exact Or.inr ⟨by omega, epoll_write_not_lost hg ((out_wr_iff hg.client.invA id).2 ⟨p1, p2⟩) p3⟩

/-- From any state in which a read (accept) is pending and there is input, the selector alone gets to a state in which it has been
answered. -/
theorem epoll_read_completes {s : St} {id : Nat} (h : Hist Good s) (ho : Outstanding s id .rd) (hk : s.kin = true) :
    ∃ n s', Run s n s' ∧ id ∈ s'.done.map Prod.fst := by
  obtain ⟨hp, hid⟩ := (out_rd_iff h.client.invA id).1 ho
  have key : ∀ m t, Hist Good t → PendR t id m → ∃ n s', Run t n s' ∧ Answered s' id := by
    intro m
    induction m using Nat.strongRecOn with
    | ind m ih =>
      intro t hg hP
      have pop : ∀ b u, Hist Good u → PendR u id b → b ≤ m → (u.cur ≠ none ∨ u.loc = .ready) → ∃ n s', Run u n s' ∧ Answered s' id := by
        intro b u hgu hPu hb hs
        obtain ⟨op, v, h1, h2, h3⟩ := selector_enabled hgu hs
        have hgv := run_hist hgu (run_pop h1 h2 h3)
        rcases pop_rankR hgu.client.invA hgu.invB h2 h1 hPu h3 with e | ⟨k, hk2, e⟩
        · exact ⟨1, v, run_pop h1 h2 h3, e⟩
        · obtain ⟨n, s', hr, ha⟩ := ih k (by omega) v hgv e
          exact ⟨_, s', run_trans (run_pop h1 h2 h3) hr, ha⟩
      have ⟨p1, p2, p3, p4⟩ := hP
      rcases epoll_read_not_lost hg ((out_rd_iff hg.client.invA _).2 ⟨p1, p2⟩) p3 with ⟨op, v, h1, h2, h3⟩ | ⟨hq, u, he, hl, hrr⟩
      · have hgv := run_hist hg (run_pop h1 h2 h3)
        rcases pop_rankR hg.client.invA hg.invB h2 h1 hP h3 with e | ⟨k, hk2, e⟩
        · exact ⟨1, v, run_pop h1 h2 h3, e⟩
        · obtain ⟨n, s', hr, ha⟩ := ih k hk2 v hgv e
          exact ⟨_, s', run_trans (run_pop h1 h2 h3) hr, ha⟩
      · have hgu := run_hist hg (run_select he)
        have hPu := select_rankR hg.client.invA hg.invB hP he
        have h2m : 2 ≤ m := by
          unfold step at he
          dsimp only at he
          split at he
          · rename_i hq
            rw [← p4]
            unfold rankR turn reading
            rw [hq.1]
            cases (t.rready || t.rready2) <;> simp
            omega
          · cases he
        obtain ⟨n, s', hr, ha⟩ := pop 2 u hgu hPu h2m (Or.inr hl)
        exact ⟨_, s', run_trans (run_select he) hr, ha⟩
  exact key _ s h ⟨hp, hid, hk, rfl⟩

/-- From any state in which a write (connect, sendfile) is pending on a writable socket, the selector alone gets to a state in which
it has been answered. -/
theorem epoll_write_completes {s : St} {id : Nat} (h : Hist Good s) (ho : Outstanding s id .wr) (hk : s.kout = true) :
    ∃ n s', Run s n s' ∧ id ∈ s'.done.map Prod.fst := by
  obtain ⟨hp, hid⟩ := (out_wr_iff h.client.invA id).1 ho
  have key : ∀ m t, Hist Good t → PendW t id m → ∃ n s', Run t n s' ∧ Answered s' id := by
    intro m
    induction m using Nat.strongRecOn with
    | ind m ih =>
      intro t hg hP
      have ⟨p1, p2, p3, p4⟩ := hP
      rcases epoll_write_not_lost hg ((out_wr_iff hg.client.invA _).2 ⟨p1, p2⟩) p3 with ⟨op, v, h1, h2, h3⟩ | ⟨hq, u, he, hl, hrr⟩
      · have hgv := run_hist hg (run_pop h1 h2 h3)
        rcases pop_rankW hg.client.invA h1 hP h3 with e | ⟨k, hk2, e⟩
        · exact ⟨1, v, run_pop h1 h2 h3, e⟩
        · obtain ⟨n, s', hr, ha⟩ := ih k hk2 v hgv e
          exact ⟨_, s', run_trans (run_pop h1 h2 h3) hr, ha⟩
      · have hgu := run_hist hg (run_select he)
        have hPu := select_rankW hg.invB hP he
        obtain ⟨op, v, h1, h2, h3⟩ := selector_enabled hgu (Or.inr hl)
        rcases pop_rankW hgu.client.invA h1 hPu h3 with e | ⟨k, hk2, e⟩
        · exact ⟨_, v, run_trans (run_select he) (run_pop h1 h2 h3), e⟩
        · have := (rankW_le v).2
          obtain ⟨q1, q2, q3, q4⟩ := e
          omega
  exact key _ s h ⟨hp, hid, hk, rfl⟩

/-- A hang-up the selector has not seen yet reaches a pending readhup request: the kernel reports the connection, `select` puts it
on the ready list, and the ready loop then tells the caller. -/
theorem epoll_readhup_served {s : St} {id : Nat} (h : Hist Good s) (ho : Outstanding s id .hup) (hk : s.khup = true) (he : s.err = false) :
    s.queued = true ∧ (s.cur = none → ∃ s', step s .select = .ok s' ∧ s'.loc = .ready ∧
      ∀ a again ctl, ∃ s'', step s' (.popWrite a again ctl) = .ok s'' ∧ (id, Out.hungUp) ∈ s''.done) := by
  have hA := h.client.invA
  have hB := h.invB
  obtain ⟨hp, hid⟩ := (out_hup_iff hA id).1 ho
  have hreg := hB.hup_reg hp
  have hq := hB.edge_hup hreg hk he
  refine ⟨hq, fun hc => ⟨_, select_enabled h hc hq, ?_⟩⟩
  have hal : s.alive = true := by
    cases e : s.alive
    · have := (hA.dead e).2.2.2.1; rw [hp] at this; cases this
    · rfl
  have hsf : s.sendfile = false := by
    cases e : s.sendfile
    · rfl
    · have := (hA.sf_write e).1; rw [(hA.hup_excl hp).2.1] at this; cases this
  have es : select s = { s with queued := false, nospace := s.nospace || !s.kout, err := true, wready := true, rready := true, loc := .ready } := by
    simp only [select, hreg, hk, hp, Bool.true_or, Bool.or_true, Bool.true_and, if_true, cond_true]
  rw [es]
  refine ⟨rfl, fun a again ctl => ?_⟩
  refine ⟨{ s with queued := false, nospace := s.nospace || !s.kout, err := true, wready := true, rready := true, loc := .none,
                   cur := some ⟨s.read, s.read, false, s.et⟩, write := false, rdhup := false, sendfile := false }.finishW .hungUp, ?_, ?_⟩
  · simp only [step, hc, and_self, if_true, hal, Bool.true_eq_false, if_false, Bool.true_or, Bool.true_and, hp, Bool.or_true, writeEvent, addList, hsf]
  · simp [St.finishW, hid]

/-! ## The hypotheses can be met -/

/-- Decides the rules, on states that satisfy the accounting invariant. -/
def rules (s : St) : Op → Bool
  | .read _ _ ctl => ctl && s.alive && !s.listener && !s.pr
  | .nextRead => s.alive && !s.listener && !s.pr && s.regI
  | .accept ctl => ctl && s.alive && s.listener && !s.pr
  | .write _ _ _ ctl | .sendfile _ _ _ ctl => ctl && s.alive && !s.listener && !s.write && (!s.nextW || s.done.all (fun p => p.2 != .hungUp))
  | .nextWrite => s.alive && !s.listener && !s.write && (!s.nextW || s.done.all (fun p => p.2 != .hungUp))
  | .connect ctl => ctl && s.alive && !s.listener && s.next == 0
  | .listen => s.alive && s.next == 0
  | .readhup ctl => ctl && s.alive && !s.listener
  | .removeReadhup => s.alive && !s.listener
  | .remove => s.alive && !s.listener && !s.pr && !s.write && !s.rdhup
  | .destroy => s.alive && !s.listener && !s.pr && !s.write && !s.rdhup && !s.stale
  | .nextShutdown => s.alive && s.listener && s.cur == none && (s.pr || s.regI)
  | .popWrite _ _ ctl => ctl
  | .popRead _ ctl => ctl
  | _ => true

/-- Runs a list of operations of a caller that keeps the rules. -/
def runs (s : St) : List Op → Option St
  | [] => some s
  | op :: l => if rules s op then match step s op with
    | .ok s' => runs s' l
    | _ => none
  else none

theorem rules_good {s : St} (h : InvA s) {op : Op} (hr : rules s op = true) : Good s op := by
  have a1 := fun e id => mt (out_rd_iff h id).1 (fun x => by rw [show s.pr = false from e] at x; cases x.1)
  have a2 := fun e id => mt (out_wr_iff h id).1 (fun x => by rw [show s.write = false from e] at x; cases x.1)
  have a3 := fun e id => mt (out_hup_iff h id).1 (fun x => by rw [show s.rdhup = false from e] at x; cases x.1)
  have a4 : s.pr = false → s.write = false → s.rdhup = false → ∀ id d, ¬ Outstanding s id d := by
    intro e1 e2 e3 id d
    cases d
    · exact a1 e1 id
    · exact a2 e2 id
    · exact a3 e3 id
  have a5 : (!s.nextW || s.done.all (fun p => p.2 != .hungUp)) = true → (s.nextW = true → Out.hungUp ∉ s.done.map Prod.snd) := by
    intro e e2 e3
    simp only [e2, Bool.not_true, Bool.false_or, List.all_eq_true] at e
    obtain ⟨p, hp, e4⟩ := List.mem_map.1 e3
    have := e p hp
    rw [e4] at this
    simp at this
  cases op <;> simp only [rules, Bool.and_eq_true, Bool.not_eq_true', beq_iff_eq] at hr
  case read => exact ⟨⟨hr.1.1.2, hr.1.2, a1 hr.2⟩, hr.1.1.1⟩
  case accept => exact ⟨⟨hr.1.1.2, hr.1.2, a1 hr.2⟩, hr.1.1.1⟩
  case write => exact ⟨⟨hr.1.1.1.2, hr.1.1.2, a2 hr.1.2, a5 hr.2⟩, hr.1.1.1.1⟩
  case sendfile => exact ⟨⟨hr.1.1.1.2, hr.1.1.2, a2 hr.1.2, a5 hr.2⟩, hr.1.1.1.1⟩
  case nextRead => exact ⟨⟨hr.1.1.1, hr.1.1.2, a1 hr.1.2, hr.2⟩, trivial⟩
  case nextWrite => exact ⟨⟨hr.1.1.1, hr.1.1.2, a2 hr.1.2, a5 hr.2⟩, trivial⟩
  case connect => exact ⟨⟨hr.1.1.2, hr.1.2, hr.2⟩, hr.1.1.1⟩
  case listen => exact ⟨hr, trivial⟩
  case readhup => exact ⟨⟨hr.1.2, hr.2⟩, hr.1.1⟩
  case removeReadhup => exact ⟨hr, trivial⟩
  case remove => exact ⟨⟨hr.1.1.1.1, hr.1.1.1.2, a4 hr.1.1.2 hr.1.2 hr.2⟩, trivial⟩
  case destroy => exact ⟨⟨hr.1.1.1.1.1, hr.1.1.1.1.2, a4 hr.1.1.1.2 hr.1.1.2 hr.1.2, hr.2⟩, trivial⟩
  case nextShutdown =>
    refine ⟨⟨hr.1.1.1, hr.1.1.2, hr.1.2, ?_⟩, trivial⟩
    rcases Bool.or_eq_true _ _ ▸ hr.2 with e | e
    · exact Or.inl ⟨_, h.out_r e⟩
    · exact Or.inr e
  case popWrite => exact ⟨trivial, hr⟩
  case popRead => exact ⟨trivial, hr⟩
  all_goals exact ⟨trivial, trivial⟩

theorem hist_of_runs {s t : St} {l : List Op} (h : Hist Good s) (hr : runs s l = some t) : Hist Good t := by
  induction l generalizing s with
  | nil => simp only [runs, Option.some.injEq] at hr; subst hr; exact h
  | cons op l ih =>
    unfold runs at hr
    split at hr
    · rename_i hru
      split at hr
      · rename_i he
        exact ih (.step op h (rules_good h.client.invA hru) he) hr
      · cases hr
    · cases hr

/-- What a test looks at. -/
def view (s : St) : List (Nat × Out) × List Nat × Nat × Bool × Bool × Bool × Loc :=
  (s.done, s.withdrawn, s.next, s.pr, s.write, s.rdhup, s.loc)

/-- A read waits for input and gets it: `epoll_read_not_lost`, `epoll_read_served`, `epoll_read_completes` apply after two operations. -/
example : ∃ s, runs {} [.read true .err true, .dataIn] = some s ∧ Hist Good s ∧ Outstanding s 0 .rd ∧ s.kin = true := by
  refine have e := rfl; ⟨_, e, hist_of_runs .init e, ?_, rfl⟩
  exact ⟨by decide, rfl, by decide, by decide⟩

example : (runs {} [.read true .err true, .dataIn, .select, .popWrite .err false true, .popRead (.got 5 false) true, .popEnd]).map view =
    some ([(0, .got 5)], [], 1, false, false, false, .none) := by rfl

/-- A write that the socket refuses waits for room and is then done: the second write meets a full buffer. -/
example : (runs {} [.write true .err false true, .select, .popWrite (.got 100 false) false true, .popEnd,
      .write false .err true true, .spaceOut, .select, .popWrite (.got 7 true) false true, .popEnd]).map view =
    some ([(0, .got 100), (1, .got 7)], [], 2, false, false, false, .none) := by rfl

/-- `epoll_write_not_lost`, `epoll_write_served`, `epoll_write_completes`: a pending write on a writable socket. -/
example : ∃ s, runs {} [.connect true] = some s ∧ Hist Good s ∧ Outstanding s 0 .wr ∧ s.kout = true := by
  refine have e := rfl; ⟨_, e, hist_of_runs .init e, ?_, rfl⟩
  exact ⟨by decide, rfl, by decide, by decide⟩

/-- `epoll_readhup_served`: a readhup request is told about the hang-up. -/
example : ∃ s, runs {} [.readhup true, .hangup] = some s ∧ Hist Good s ∧ Outstanding s 0 .hup ∧ s.khup = true ∧ s.err = false ∧ s.cur = none := by
  refine have e := rfl; ⟨_, e, hist_of_runs .init e, ?_, rfl, rfl, rfl⟩
  exact ⟨by decide, rfl, by decide, by decide⟩

/-- A listening socket: the first accept finds nothing, registers, and gets the connection that arrives; then a shutdown ends the next
accept. -/
example : (runs {} [.listen, .accept true, .popWrite .err false true, .popRead .err true, .popEnd, .dataIn, .select,
      .popWrite .err false true, .popRead (.got 9 false) true, .popEnd, .accept true, .popWrite .err false true, .popRead .err true, .popEnd,
      .nextShutdown, .popWrite .err false true, .popRead .err true, .popEnd]).map view =
    some ([(0, .got 9), (1, .sysErr)], [], 2, false, false, false, .none) := by rfl

/-- Removal and destruction after use: `epoll_no_ub` covers it. -/
example : (runs {} [.read true .err true, .dataIn, .select, .popWrite .err false true, .popRead (.got 5 false) true, .popEnd,
      .remove, .destroy, .hangup]).map (fun s => (s.alive, s.queued)) = some (false, false) := by rfl

/-- `epoll_remove_forgets`: input that came while the request was served is known before and forgotten after the removal. -/
example : (runs {} [.read true .err true, .dataIn, .select, .popWrite .err false true, .popRead (.got 5 true) true, .popEnd]).map
      (fun s => (s.rev, s.rready)) = some (true, true) ∧
    (runs {} [.read true .err true, .dataIn, .select, .popWrite .err false true, .popRead (.got 5 true) true, .popEnd, .remove]).map
      (fun s => (s.rev, s.rready)) = some (false, false) := by exact ⟨rfl, rfl⟩

/-- A readhup request superseded by a read is withdrawn, not answered. -/
example : (runs {} [.readhup true, .read false .err true]).map (fun s => (view s, s.stale)) =
    some (([], [0], 2, true, false, false, .rw), true) := by rfl

/-! ## Findings: what happens outside the rules -/

/-- Runs a list of operations without checking the rules. -/
def anyRun (s : St) : List Op → Option St
  | [] => some s
  | op :: l => match step s op with
    | .ok s' => anyRun s' l
    | _ => none

/-- Nothing the selector can do for this connection. -/
def idle (s : St) : Bool := s.cur == none && s.loc != .ready && !s.queued

/-- `epoll_add_event` sets STF_REV before `epoll_ctl` and leaves it set when the call fails (src/kepoll_selector.c:97-134): the read
that failed reports the error, but the next read believes the socket is registered and hangs although there is input. -/
theorem epoll_ctl_failure_hangs_next_read :
    (anyRun {} [.read true .err false, .read true .err true, .dataIn]).map (fun s => (s.done, s.pr, s.kin, idle s)) =
      some ([(0, .noPoll)], true, true, true) := by rfl

/-- A readhup request made after the hang-up was noticed (a read returned end of file) is never told: the edge is gone and
STF_ERR is not consulted (src/kepoll_selector.c:263-285). -/
theorem epoll_readhup_after_hangup_hangs :
    (runs {} [.read true .err true, .hangup, .select, .popWrite .err false true, .popRead (.got 0 true) true, .popEnd, .readhup true]).map
      (fun s => (s.done, s.rdhup, s.khup, idle s)) = some ([(0, .got 0)], true, true, true) := by rfl

/-- EPOLLRDHUP, which only says that the peer will send no more, sets STF_ERR for good (378), and `selectable_event_write` then refuses
every write (src/kselectable.c:486-488): a half-closed connection cannot be answered although the socket is writable. -/
theorem epoll_half_close_refuses_writes :
    (runs {} [.read true .err true, .hangup, .select, .popWrite .err false true, .popRead (.got 0 true) true, .popEnd,
      .write false (.got 100 true) false true]).map (fun s => (s.done, s.kout)) = some ([(0, .got 0), (1, .hungUp)], true) := by rfl

/-- `sendfile` does not look at STF_ERR and is not refused. -/
theorem epoll_half_close_allows_sendfile :
    (runs {} [.read true .err true, .hangup, .select, .popWrite .err false true, .popRead (.got 0 true) true, .popEnd,
      .sendfile false (.got 100 true) false true]).map (fun s => s.done) = some [(0, .got 0), (1, .got 100)] := by rfl

/-- `selectable_next_read` on a connection the poller does not know leaves STF_READ set (`st_flags` has no STF_ET, so
`selectable_read_event` does not clear it): the next read fails its assertion. -/
theorem epoll_next_read_unregistered :
    (anyRun {} [.nextRead, .popWrite .err false true, .popRead .err true, .popEnd]).map (fun s => (s.done, s.pr, s.read, step s (.read true .err true) matches .ub)) =
      some ([(0, .zero)], false, true, true) := by rfl

/-- `selectable_next_write` that meets a hang-up leaves STF_WREADY2 set: the next write fails its assertion. -/
theorem epoll_next_write_hangup :
    (runs {} [.read true .err true, .hangup, .select, .popWrite .err false true, .popRead (.got 0 true) true, .popEnd, .nextWrite,
      .popWrite .err false true, .popEnd]).map (fun s => (s.done, s.write, s.wready2, step s (.write true .err false true) matches .ub)) =
      some ([(0, .got 0), (1, .hungUp)], false, true, true) := by rfl

/-- An accept can be completed twice: the first one is answered while the listening socket is not registered (STF_READ stays set);
the shutdown of the listening socket then runs its callback again. -/
theorem epoll_accept_twice :
    (anyRun {} [.listen, .accept true, .dataIn, .popWrite .err false true, .popRead (.got 9 false) true, .popEnd, .nextShutdown,
      .popWrite .err false true, .popRead .err true]).map (fun s => s.done) = some [(0, .got 9), (0, .sysErr)] := by rfl

/-- A read that supersedes a readhup request whose hang-up is already on the ready list leaves the connection there: destroying it
fails the assertion of `selectable_clean` (in a release build the list keeps a dangling pointer). -/
theorem epoll_superseded_readhup_destroy :
    (runs {} [.readhup true, .hangup, .select, .read false (.got 0 true) true]).map
      (fun s => (s.done, s.withdrawn, s.loc, step s .destroy matches .ub)) = some ([(1, .got 0)], [0], .ready, true) := by rfl

end Kasync.Epoll
