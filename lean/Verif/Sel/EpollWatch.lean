import Verif.Sel.EpollProps

/-! # Epoll selector: every waiting connection is under a timeout (C36)

The timeout checks of the selector (`Verif.Sel.Lists`) walk the connect and read/write lists.  A request that waits on a connection that
is in no list would never time out. -/

namespace Kasync.Epoll

/-- Where the connection of a waiting request is. -/
structure InvT (s : St) : Prop where
  r : s.pr = true → s.loc ≠ .none ∨ s.khup = true ∨ ∃ k, s.cur = some k ∧ k.rd = true ∧ k.et = true
  w : s.write = true → s.loc ≠ .none ∨ s.khup = true ∨ ∃ k, s.cur = some k ∧ k.wr = true ∧ k.et = true
  e : s.write = true → s.et = true ∨ s.wready = true ∨ s.wready2 = true

theorem waitRead_invT {s : St} {ctl : Bool} (h : InvT { s with pr := false }) : InvT (waitRead s ctl) := by
  obtain ⟨h1, h2, h3⟩ := h
  unfold waitRead
  rcases epollCtl_cases { s with rev := true, et := true, wready := true } s.wev s.wev ctl with ⟨n, q, e⟩ | e <;>
    simp only [addEventR, e, addList, St.finishR] <;> (repeat' split) <;> constructor <;> grind

theorem waitWrite_invT {s : St} {ctl : Bool} (h : InvT { s with write := false }) (hw : s.wev = true → s.et = true) : InvT (waitWrite s ctl) := by
  obtain ⟨h1, h2, h3⟩ := h
  unfold waitWrite
  rcases addEventRW_cases s ctl with ⟨n, q, e⟩ | e <;> rw [e] <;>
    simp only [addList, St.finishW] <;> (repeat' split) <;> constructor <;> grind

theorem readEvent_invT {s s' : St} {a : Ans} {ctl : Bool} (h : InvT { s with pr := false }) (hk : s.rk ≠ .accept)
    (he : readEvent s a ctl = .ok s') : InvT s' := by
  unfold readEvent at he
  split at he
  · cases he
  · dsimp only at he
    split at he
    · simp only [Res.ok.injEq] at he; subst he
      obtain ⟨h1, h2, h3⟩ := h
      constructor <;> simp only [St.finishR] <;> grind
    · split at he
      · split at he <;> simp only [Res.ok.injEq] at he <;> subst he <;> obtain ⟨h1, h2, h3⟩ := h <;>
          constructor <;> simp only [St.finishR] <;> grind
      · split at he
        · cases he
        · simp only [Res.ok.injEq] at he; subst he
          refine waitRead_invT ?_
          obtain ⟨h1, h2, h3⟩ := h
          constructor <;> simp only [St.dropHup] <;> grind
    · rename_i hh; exact absurd hh hk

theorem writeEvent_invT {s s' : St} {a : Ans} {again ctl : Bool} (h : InvT { s with write := false }) (hw : s.wev = true → s.et = true)
    (he : writeEvent s a again ctl = .ok s') : InvT s' := by
  unfold writeEvent at he
  split at he
  · cases he
  · dsimp only at he
    split at he
    · simp only [Res.ok.injEq] at he; subst he
      obtain ⟨h1, h2, h3⟩ := h
      constructor <;> simp only [St.finishW] <;> grind
    · split at he
      · simp only [Res.ok.injEq] at he; subst he
        obtain ⟨h1, h2, h3⟩ := h
        constructor <;> simp only [St.finishW] <;> grind
      · split at he
        · simp only [Res.ok.injEq] at he; subst he
          refine waitWrite_invT ?_ hw
          obtain ⟨h1, h2, h3⟩ := h
          constructor <;> grind
        · split at he <;> simp only [Res.ok.injEq] at he <;> subst he <;> obtain ⟨h1, h2, h3⟩ := h <;>
            constructor <;> simp only [St.finishW] <;> grind

theorem waitRead_listener (s : St) (ctl : Bool) : (waitRead s ctl).listener = s.listener := by
  unfold waitRead
  rcases epollCtl_cases { s with rev := true, et := true, wready := true } s.wev s.wev ctl with ⟨n, q, e⟩ | e <;>
    simp only [addEventR, e, addList, St.finishR] <;> (repeat' split) <;> rfl

theorem waitWrite_listener (s : St) (ctl : Bool) : (waitWrite s ctl).listener = s.listener := by
  unfold waitWrite
  rcases addEventRW_cases s ctl with ⟨n, q, e⟩ | e <;> rw [e] <;> simp only [addList, St.finishW] <;> (repeat' split) <;> rfl

theorem waitAccept_listener (s : St) (ctl : Bool) : (waitAccept s ctl).1.listener = s.listener := by
  unfold waitAccept
  rcases epollCtl_cases { s with rev := true, et := true } false false ctl with ⟨n, q, e⟩ | e <;> rw [e] <;>
    simp only [addList] <;> (repeat' split) <;> rfl

theorem readEvent_listener {s s' : St} {a : Ans} {ctl : Bool} (he : readEvent s a ctl = .ok s') : s'.listener = s.listener := by
  unfold readEvent at he
  split at he
  · cases he
  · dsimp only at he
    split at he
    · simp only [Res.ok.injEq] at he; subst he; rfl
    · split at he
      · split at he <;> simp only [Res.ok.injEq] at he <;> subst he <;> rfl
      · split at he
        · cases he
        · simp only [Res.ok.injEq] at he; subst he; rw [waitRead_listener]; rfl
    · split at he
      · split at he <;> simp only [Res.ok.injEq] at he <;> subst he <;> rfl
      · split at he
        · simp only [Res.ok.injEq] at he; subst he; rfl
        · simp only [Res.ok.injEq] at he; subst he
          split
          · rw [waitAccept_listener]
          · show (waitAccept _ _).1.listener = _; rw [waitAccept_listener]

theorem remove_invT {s s' : St} (h : InvT s) (hp : s.pr = false) (hw : s.write = false) (he : remove s = .ok s') : InvT s' := by
  obtain ⟨h1, h2, h3⟩ := h
  unfold remove at he
  split at he
  · cases he; constructor <;> grind
  · simp only at he
    split at he
    · cases he
    · simp only [Res.ok.injEq, addList] at he; subst he
      constructor <;> grind

theorem remove_listener {s s' : St} (he : remove s = .ok s') : s'.listener = s.listener := by
  unfold remove at he
  split at he
  · cases he; rfl
  · simp only at he
    split at he
    · cases he
    · simp only [Res.ok.injEq, addList] at he; subst he; rfl

set_option maxHeartbeats 2000000 in
theorem step_invT {s s' : St} {op : Op} (hA : InvA s) (h : s.listener = false → InvT s) (hc : Client s op) (he : step s op = .ok s') :
    s'.listener = false → InvT s' := by
  have hwe : s.wev = true → s.et = true := fun e => hA.rev_et (Or.inr (Or.inl e))
  cases op <;> unfold step at he <;> dsimp only at he
  case read main a ctl =>
    obtain ⟨ha, hl, ho⟩ := hc
    obtain ⟨h1, h2, h3⟩ := h hl
    intro _
    split at he
    · cases he
    · split at he
      · split at he
        · simp only [Res.ok.injEq, addList, St.dropHup, St.request] at he; subst he
          constructor <;> grind
        · refine readEvent_invT ?_ ?_ he
          · constructor <;> simp only [St.dropHup, St.request] <;> grind
          · intro e; cases e
      · simp only [Res.ok.injEq] at he; subst he
        refine waitRead_invT ?_
        constructor <;> simp only [St.dropHup, St.request] <;> grind
  case accept ctl =>
    obtain ⟨ha, hl, ho⟩ := hc
    intro hl'
    split at he
    · cases he
    · simp only [Res.ok.injEq] at he; subst he
      have := waitAccept_listener { s.request .rd with rk := .accept, rid := s.next, pr := true, read := true } ctl
      have e2 : (waitAccept { s.request .rd with rk := .accept, rid := s.next, pr := true, read := true } ctl).1.listener = false := by
        split at hl' <;> exact hl'
      rw [this] at e2
      rw [show (s.request .rd).listener = s.listener from rfl, hl] at e2; cases e2
  case write main a again ctl =>
    obtain ⟨ha, hl, ho, hw⟩ := hc
    obtain ⟨h1, h2, h3⟩ := h hl
    intro _
    split at he
    · cases he
    · split at he
      · split at he
        · simp only [Res.ok.injEq, addList, St.dropHup, St.request] at he; subst he
          constructor <;> grind
        · refine writeEvent_invT ?_ ?_ he
          · constructor <;> simp only [St.dropHup, St.request] <;> grind
          · exact hwe
      · simp only [Res.ok.injEq] at he; subst he
        refine waitWrite_invT ?_ hwe
        constructor <;> simp only [St.dropHup, St.request] <;> grind
  case sendfile main a again ctl =>
    obtain ⟨ha, hl, ho, hw⟩ := hc
    obtain ⟨h1, h2, h3⟩ := h hl
    intro _
    split at he
    · cases he
    · split at he
      · split at he
        · simp only [Res.ok.injEq, addList, St.dropHup, St.request] at he; subst he
          constructor <;> grind
        · refine writeEvent_invT ?_ ?_ he
          · constructor <;> simp only [St.dropHup, St.request] <;> grind
          · exact hwe
      · simp only [Res.ok.injEq] at he; subst he
        refine waitWrite_invT ?_ hwe
        constructor <;> simp only [St.dropHup, St.request] <;> grind
  case nextRead =>
    obtain ⟨ha, hl, -⟩ := hc
    obtain ⟨h1, h2, h3⟩ := h hl
    intro _
    split at he
    · cases he
    · simp only [Res.ok.injEq, addList, St.dropHup, St.request] at he; subst he
      constructor <;> grind
  case nextWrite =>
    obtain ⟨ha, hl, -⟩ := hc
    obtain ⟨h1, h2, h3⟩ := h hl
    intro _
    split at he
    · cases he
    · simp only [Res.ok.injEq, addList, St.dropHup, St.request] at he; subst he
      constructor <;> grind
  case connect ctl =>
    obtain ⟨ha, hl, -⟩ := hc
    obtain ⟨h1, h2, h3⟩ := h hl
    intro _
    split at he
    · cases he
    · rcases addEventRW_cases { s.request .wr with wk := .null, wid := s.next, write := true } ctl with ⟨n, q, e⟩ | e <;> rw [e] at he <;>
        simp only [if_true, Bool.false_eq_true, if_false, Res.ok.injEq, addList, St.finishW, St.request] at he <;> subst he <;> constructor <;> grind
  case readhup ctl =>
    obtain ⟨ha, hl⟩ := hc
    obtain ⟨h1, h2, h3⟩ := h hl
    intro _
    split at he
    · cases he
    · split at he
      · simp only [Res.ok.injEq] at he; subst he; exact ⟨h1, h2, h3⟩
      · by_cases hv : (s.wev || s.rev) = true
        · rw [if_pos hv] at he
          simp only [if_true, Res.ok.injEq, St.dropHup, St.request] at he; subst he
          constructor <;> grind
        · rw [if_neg hv] at he
          rcases addEventRW_cases { (s.request .hup).dropHup with wk := .null, wid := s.next, rdhup := true } ctl with ⟨n, q, e⟩ | e <;>
            rw [e] at he <;> simp only [if_true, if_false, Bool.false_eq_true, Res.ok.injEq, St.dropHup, St.request, St.finishW] at he <;>
            subst he <;> clear e <;> constructor <;> grind
  case removeReadhup =>
    obtain ⟨ha, hl⟩ := hc
    have hT := h hl
    intro _
    split at he
    · cases he
    · split at he
      · simp only [Res.ok.injEq] at he; subst he; exact hT
      · split at he
        · cases he
        · rename_i hh _
          obtain ⟨x1, x2, x3⟩ := hA.hup_excl (by simpa using hh)
          have hp : s.pr = false := by have := hA.pr_read; cases e : s.pr <;> grind
          refine remove_invT ?_ ?_ ?_ he
          · exact ⟨hT.r, hT.w, hT.e⟩
          · exact hp
          · exact x2
  case listen =>
    intro hl'
    split at he
    · cases he
    · simp only [Res.ok.injEq] at he; subst he; cases hl'
  case nextShutdown =>
    obtain ⟨ha, hl, -⟩ := hc
    intro hl'
    split at he
    · cases he
    · simp only [Res.ok.injEq] at he; subst he
      rw [show _ = s.listener from rfl, hl] at hl'; cases hl'
  case remove =>
    obtain ⟨ha, hl, ho⟩ := hc
    intro _
    split at he
    · cases he
    · exact remove_invT (h hl) (hA.noR (fun id => ho id _)) (hA.noW (fun id => ho id _)) he
  case destroy =>
    obtain ⟨ha, hl, ho, -⟩ := hc
    intro _
    split at he
    · cases he
    · split at he
      · rename_i hr
        obtain ⟨h1, h2, h3⟩ := remove_invT (h hl) (hA.noR (fun id => ho id _)) (hA.noW (fun id => ho id _)) hr
        simp only [Res.ok.injEq] at he; subst he
        exact ⟨h1, h2, h3⟩
      · rename_i hno; exact absurd he (hno _)
  case expire =>
    split at he
    · split at he
      · cases he
      · simp only [Res.ok.injEq] at he; subst he
        intro hl
        obtain ⟨h1, h2, h3⟩ := h hl
        constructor <;> grind
    · cases he
  case select =>
    split at he
    · split at he
      · cases he
      · simp only [Res.ok.injEq, select] at he; subst he
        intro hl
        have hl2 : s.listener = false := by split at hl <;> exact hl
        obtain ⟨h1, h2, h3⟩ := h hl2
        split <;> constructor <;> grind
    · cases he
  case popWrite a again ctl =>
    split at he
    · rename_i hq
      split at he
      · cases he
      · split at he
        · rename_i hsv
          intro hl
          have hl2 : s.listener = false := by
            cases e : s.listener
            · rfl
            · obtain ⟨b1, b2, -⟩ := hA.lst e
              simp [b1, b2] at hsv
          obtain ⟨h1, h2, h3⟩ := h hl2
          refine writeEvent_invT ?_ ?_ he
          · constructor
            · intro hp
              have hr := hA.pr_read hp
              exact Or.inr (Or.inr ⟨_, rfl, hr, (hA.read_pr hl2 hr).2.1⟩)
            · intro e; cases e
            · intro e; cases e
          · exact hwe
        · rename_i hsv
          simp only [Res.ok.injEq, addList] at he; subst he
          intro hl
          obtain ⟨h1, h2, h3⟩ := h hl
          constructor
          · intro hp
            have hr := hA.pr_read hp
            exact Or.inr (Or.inr ⟨_, rfl, hr, (hA.read_pr hl hr).2.1⟩)
          · intro hw
            refine Or.inr (Or.inr ⟨_, rfl, hw, ?_⟩)
            have := h3 hw
            dsimp only at hw
            rw [hw] at hsv
            simp only [Bool.true_or, Bool.and_true] at hsv
            grind
          · exact h3
    · cases he
  case popRead a ctl =>
    split at he
    · rename_i k hk
      split at he
      · rename_i ht
        intro hl
        have hl2 : s.listener = false := by rw [← hl]; exact (readEvent_listener he).symm
        obtain ⟨h1, h2, h3⟩ := h hl2
        have hr := hA.pr_read (hA.cur_rd k hk (hA.cur_todo k hk ht))
        refine readEvent_invT ?_ ?_ he
        · constructor
          · intro e; cases e
          · intro hw
            rcases h2 hw with e | e | ⟨k', e1, e2, e3⟩
            · exact Or.inl e
            · exact Or.inr (Or.inl e)
            · rw [hk] at e1; cases e1
              exact Or.inr (Or.inr ⟨_, rfl, e2, e3⟩)
          · exact h3
        · exact (hA.read_pr hl2 hr).2.2
      · cases he
    · cases he
  case popEnd =>
    split at he
    · rename_i k hk
      split at he
      · cases he
      · split at he
        · split at he
          · cases he
          · simp only [Res.ok.injEq] at he; subst he
            intro hl
            have hl2 : s.listener = false := by dsimp only at hl; split at hl <;> exact hl
            obtain ⟨h1, h2, h3⟩ := h hl2
            simp only [addList]
            split <;> constructor <;> grind
        · simp only [Res.ok.injEq] at he; subst he
          intro hl
          obtain ⟨h1, h2, h3⟩ := h hl
          constructor <;> grind
    · cases he
  all_goals
    simp only [Res.ok.injEq] at he; subst he
    intro hl
    obtain ⟨h1, h2, h3⟩ := h hl
    constructor <;> grind

theorem Hist.invT {s : St} (h : Hist Client s) : s.listener = false → InvT s := by
  induction h with
  | init => intro _; constructor <;> simp
  | step op h hc he ih => exact step_invT h.invA ih hc he

/-- A read or write that waits is always under supervision: its connection is in the ready list or in one of the lists the timeout
check walks, or the ready loop is at it, or it was already shut down (by the timeout check or the peer). -/
theorem epoll_waiting_supervised {s : St} {id : Nat} {d : Side} (h : Hist Client s) (hl : s.listener = false) (hd : d ≠ .hup)
    (ho : Outstanding s id d) : s.loc ≠ .none ∨ s.cur ≠ none ∨ s.khup = true := by
  have hA := h.invA
  obtain ⟨h1, h2, -⟩ := h.invT hl
  cases d with
  | hup => exact absurd rfl hd
  | rd =>
    rcases h1 ((out_rd_iff hA id).1 ho).1 with e | e | ⟨k, e, -⟩
    · exact Or.inl e
    · exact Or.inr (Or.inr e)
    · exact Or.inr (Or.inl (by rw [e]; simp))
  | wr =>
    rcases h2 ((out_wr_iff hA id).1 ho).1 with e | e | ⟨k, e, -⟩
    · exact Or.inl e
    · exact Or.inr (Or.inr e)
    · exact Or.inr (Or.inl (by rw [e]; simp))

/-- A connect that was started waits in the connect list, where the connect timeout applies; it leaves that list only when its
connection is shut down for being too late, becomes ready, or is removed. -/
theorem epoll_connect_supervised {s s' : St} {ctl : Bool} (h : Hist Client s) (hc : Client s (.connect ctl))
    (he : step s (.connect ctl) = .ok s') :
    (s'.loc = .connect ∧ Outstanding s' s.next .wr) ∨ (s.next, Out.noPoll) ∈ s'.done := by
  have hA' := step_invA h.invA hc he
  unfold step at he
  dsimp only at he
  split at he
  · cases he
  · rcases addEventRW_cases { s.request .wr with wk := .null, wid := s.next, write := true } ctl with ⟨n, q, e⟩ | e <;> rw [e] at he <;>
      simp only [if_true, Bool.false_eq_true, if_false, Res.ok.injEq] at he
    · refine Or.inl ⟨?_, ?_⟩
      · subst he; rfl
      · refine (out_wr_iff hA' _).2 ⟨?_, ?_⟩ <;> subst he <;> rfl
    · right; subst he; simp [St.finishW, St.request]

/-- An expiry ends the wait: the shutdown the timeout check performs makes the connection report readiness, and the selector's loop can
then answer the request. -/
theorem epoll_expire_answers {s s' : St} {id : Nat} {d : Side} (h : Hist Good s) (hd : d ≠ .hup) (ho : Outstanding s id d)
    (he : step s .expire = .ok s') : s'.khup = true ∧ ∃ n s'', Run s' n s'' ∧ id ∈ s''.done.map Prod.fst := by
  have hg : Hist Good s' := .step .expire h ⟨trivial, trivial⟩ he
  unfold step at he
  dsimp only at he
  split at he
  · split at he
    · cases he
    · simp only [Res.ok.injEq] at he; subst he
      refine ⟨rfl, ?_⟩
      cases d with
      | hup => exact absurd rfl hd
      | rd => exact epoll_read_completes hg ho rfl
      | wr => exact epoll_write_completes hg ho rfl
  · cases he

/-- The hypotheses can be met: a connect that waits, and one that has expired. -/
example : (runs {} [.connect true]).map (fun s => (s.loc, s.listener, s.write)) = some (.connect, false, true) := by rfl
example : (runs {} [.read true .err true, .expire]).map (fun s => (s.loc, s.khup, s.pr, s.queued)) = some (.none, true, true, true) := by rfl

end Kasync.Epoll
