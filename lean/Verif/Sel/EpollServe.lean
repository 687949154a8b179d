import Verif.Sel.EpollPoll

/-! # Epoll selector: what a history of the selector's own moves leads to -/

namespace Kasync.Epoll

/-- The moves of the selector's loop for this connection. -/
def Selector : Op → Prop
  | .select | .popWrite .. | .popRead .. | .popEnd => True
  | _ => False

/-- The moves of the selector's ready loop for this connection. -/
def Pop : Op → Prop
  | .popWrite .. | .popRead .. | .popEnd => True
  | _ => False

/-- The moves of the kernel. -/
def Kernel : Op → Prop
  | .dataIn | .spaceOut | .hangup => True
  | _ => False

instance : DecidablePred Pop := fun op => by cases op <;> (unfold Pop; infer_instance)

theorem out_rd_iff {s : St} (h : InvA s) (id : Nat) : Outstanding s id .rd ↔ s.pr = true ∧ id = s.rid := by
  refine ⟨fun ho => ?_, fun ho => by rw [ho.2]; exact h.out_r ho.1⟩
  obtain ⟨a, b, c, d⟩ := ho
  rcases h.acct id a with e | e | e | e
  · exact absurd e c
  · exact absurd e d
  · exact e
  · exfalso
    rcases e.1 with e1 | e1
    · have := (h.out_w e1).2.1; rw [← e.2, b] at this; cases this
    · have := (h.out_h e1).2.1; rw [← e.2, b] at this; cases this

theorem out_wr_iff {s : St} (h : InvA s) (id : Nat) : Outstanding s id .wr ↔ s.write = true ∧ id = s.wid := by
  refine ⟨fun ho => ?_, fun ho => by rw [ho.2]; exact h.out_w ho.1⟩
  obtain ⟨a, b, c, d⟩ := ho
  rcases h.acct id a with e | e | e | e
  · exact absurd e c
  · exact absurd e d
  · have := (h.out_r e.1).2.1; rw [← e.2, b] at this; cases this
  · rcases e.1 with e1 | e1
    · exact ⟨e1, e.2⟩
    · have := (h.out_h e1).2.1; rw [← e.2, b] at this; cases this

theorem out_hup_iff {s : St} (h : InvA s) (id : Nat) : Outstanding s id .hup ↔ s.rdhup = true ∧ id = s.wid := by
  refine ⟨fun ho => ?_, fun ho => by rw [ho.2]; exact h.out_h ho.1⟩
  obtain ⟨a, b, c, d⟩ := ho
  rcases h.acct id a with e | e | e | e
  · exact absurd e c
  · exact absurd e d
  · have := (h.out_r e.1).2.1; rw [← e.2, b] at this; cases this
  · rcases e.1 with e1 | e1
    · have := (h.out_w e1).2.1; rw [← e.2, b] at this; cases this
    · exact ⟨e1, e.2⟩

/-! ## A dead connection is out of the kernel's hands -/

def InvD (s : St) : Prop := s.alive = false → s.regI = false ∧ s.regO = false ∧ s.queued = false

theorem epollCtl_alive (s : St) (m o c : Bool) : (epollCtl s m o c).1.alive = s.alive := by
  unfold epollCtl; split <;> rfl

theorem waitRead_alive (s : St) (ctl : Bool) : (waitRead s ctl).alive = s.alive := by
  unfold waitRead
  rcases epollCtl_cases { s with rev := true, et := true, wready := true } s.wev s.wev ctl with ⟨n, q, e⟩ | e <;>
    simp only [addEventR, e, addList, St.finishR] <;> (repeat' split) <;> rfl

theorem waitWrite_alive (s : St) (ctl : Bool) : (waitWrite s ctl).alive = s.alive := by
  unfold waitWrite
  rcases addEventRW_cases s ctl with ⟨n, q, e⟩ | e <;> rw [e] <;>
    simp only [addList, St.finishW] <;> (repeat' split) <;> rfl

theorem waitAccept_alive (s : St) (ctl : Bool) : (waitAccept s ctl).1.alive = s.alive := by
  unfold waitAccept
  rcases epollCtl_cases { s with rev := true, et := true } false false ctl with ⟨n, q, e⟩ | e <;> rw [e] <;>
    simp only [addList] <;> (repeat' split) <;> rfl

theorem readEvent_alive {s s' : St} {a : Ans} {ctl : Bool} (he : readEvent s a ctl = .ok s') : s.alive = true ∧ s'.alive = true := by
  unfold readEvent at he
  split at he
  · cases he
  · rename_i hal
    have hal : s.alive = true := by simpa using hal
    refine ⟨hal, ?_⟩
    dsimp only at he
    split at he
    · simp only [Res.ok.injEq] at he; subst he; exact hal
    · split at he
      · split at he <;> simp only [Res.ok.injEq] at he <;> subst he <;> exact hal
      · split at he
        · cases he
        · simp only [Res.ok.injEq] at he; subst he; rw [waitRead_alive]; exact hal
    · split at he
      · split at he <;> simp only [Res.ok.injEq] at he <;> subst he <;> exact hal
      · split at he
        · simp only [Res.ok.injEq] at he; subst he; exact hal
        · have := waitAccept_alive { s with read := true, rready := false, rready2 := false } ctl
          simp only [Res.ok.injEq] at he
          split at he <;> subst he <;> simp_all [St.finishR]

theorem writeEvent_alive {s s' : St} {a : Ans} {again ctl : Bool} (he : writeEvent s a again ctl = .ok s') : s.alive = true ∧ s'.alive = true := by
  unfold writeEvent at he
  split at he
  · cases he
  · rename_i hal
    have hal : s.alive = true := by simpa using hal
    refine ⟨hal, ?_⟩
    dsimp only at he
    split at he
    · simp only [Res.ok.injEq] at he; subst he; exact hal
    · split at he
      · simp only [Res.ok.injEq] at he; subst he; exact hal
      · split at he
        · simp only [Res.ok.injEq] at he; subst he; rw [waitWrite_alive]; exact hal
        · split at he <;> simp only [Res.ok.injEq] at he <;> subst he <;> exact hal

theorem remove_alive {s s' : St} (he : remove s = .ok s') : s'.alive = s.alive := by
  unfold remove at he
  split at he
  · cases he; rfl
  · dsimp only at he
    split at he
    · cases he
    · simp only [Res.ok.injEq] at he; subst he; rfl

theorem step_invD {s s' : St} {op : Op} (h : InvD s) (he : step s op = .ok s') : InvD s' := by
  have hof : s'.alive = true → InvD s' := fun e e2 => by rw [e] at e2; cases e2
  cases op <;> unfold step at he <;> dsimp only at he
  case read =>
    split at he
    · cases he
    · rename_i hg; simp only [not_or, Bool.not_eq_false] at hg
      split at he
      · split at he
        · simp only [Res.ok.injEq] at he; subst he; exact hof hg.1
        · exact hof (readEvent_alive he).2
      · simp only [Res.ok.injEq] at he; subst he; exact hof (by rw [waitRead_alive]; exact hg.1)
  case accept ctl =>
    split at he
    · cases he
    · rename_i hg; simp only [Bool.not_eq_false] at hg
      have := waitAccept_alive { s.request .rd with rk := .accept, rid := s.next, pr := true, read := true } ctl
      simp only [Res.ok.injEq] at he
      refine hof ?_
      rw [← hg, ← show _ = s.alive from this, ← he]
      split <;> rfl
  case write =>
    split at he
    · cases he
    · rename_i hg; simp only [not_or, Bool.not_eq_false] at hg
      split at he
      · split at he
        · simp only [Res.ok.injEq] at he; subst he; exact hof hg.1
        · exact hof (writeEvent_alive he).2
      · simp only [Res.ok.injEq] at he; subst he; exact hof (by rw [waitWrite_alive]; exact hg.1)
  case sendfile =>
    split at he
    · cases he
    · rename_i hg; simp only [not_or, Bool.not_eq_false] at hg
      split at he
      · split at he
        · simp only [Res.ok.injEq] at he; subst he; exact hof hg.1
        · exact hof (writeEvent_alive he).2
      · simp only [Res.ok.injEq] at he; subst he; exact hof (by rw [waitWrite_alive]; exact hg.1)
  case nextRead =>
    split at he
    · cases he
    · rename_i hg; simp only [not_or, Bool.not_eq_false] at hg
      simp only [Res.ok.injEq] at he; subst he; exact hof hg.1
  case nextWrite =>
    split at he
    · cases he
    · rename_i hg; simp only [not_or, Bool.not_eq_false] at hg
      simp only [Res.ok.injEq] at he; subst he; exact hof hg.1
  case connect ctl =>
    split at he
    · cases he
    · rename_i hg; simp only [not_or, Bool.not_eq_false] at hg
      rcases addEventRW_cases { s.request .wr with wk := .null, wid := s.next, write := true } ctl with ⟨n, q, e⟩ | e <;>
        rw [e] at he <;> simp only [Res.ok.injEq] at he <;> subst he <;> exact hof hg.1
  case readhup ctl =>
    split at he
    · cases he
    · rename_i hg; simp only [Bool.not_eq_false] at hg
      split at he
      · cases he; exact h
      · rcases addEventRW_cases { (s.request .hup).dropHup with wk := .null, wid := s.next, rdhup := true } ctl with ⟨n, q, e⟩ | e <;>
          rw [e] at he <;> split at he <;> simp only [Res.ok.injEq] at he <;> subst he <;> exact hof hg
  case removeReadhup =>
    split at he
    · cases he
    · rename_i hg; simp only [Bool.not_eq_false] at hg
      split at he
      · cases he; exact h
      · split at he
        · cases he
        · exact hof (by rw [remove_alive he]; exact hg)
  case listen =>
    split at he
    · cases he
    · rename_i hg; simp only [Bool.not_eq_false] at hg
      simp only [Res.ok.injEq] at he; subst he; exact hof hg
  case nextShutdown =>
    split at he
    · cases he
    · rename_i hg; simp only [Bool.not_eq_false] at hg
      simp only [Res.ok.injEq] at he; subst he; exact hof hg
  case remove =>
    split at he
    · cases he
    · rename_i hg; simp only [Bool.not_eq_false] at hg
      exact hof (by rw [remove_alive he]; exact hg)
  case destroy =>
    split at he
    · cases he
    · split at he
      · simp only [Res.ok.injEq] at he; subst he; exact fun _ => ⟨rfl, rfl, rfl⟩
      · rename_i hno; exact absurd he (hno _)
  case expire =>
    split at he
    · split at he
      · cases he
      · rename_i hg; simp only [Bool.not_eq_false] at hg
        simp only [Res.ok.injEq] at he; subst he; exact hof hg
    · cases he
  case select =>
    split at he
    · split at he
      · cases he
      · rename_i hg; simp only [Bool.not_eq_false] at hg
        simp only [Res.ok.injEq] at he; subst he
        refine hof ?_
        unfold select; dsimp only; split <;> exact hg
    · cases he
  case popWrite =>
    split at he
    · split at he
      · cases he
      · rename_i hg; simp only [Bool.not_eq_false] at hg
        split at he
        · exact hof (writeEvent_alive he).2
        · simp only [Res.ok.injEq] at he; subst he; exact hof hg
    · cases he
  case popRead =>
    split at he
    · split at he
      · exact hof (readEvent_alive he).2
      · cases he
    · cases he
  case popEnd =>
    split at he
    · split at he
      · cases he
      · split at he
        · split at he
          · cases he
          · rename_i hg; simp only [Bool.not_eq_false] at hg
            simp only [Res.ok.injEq] at he; subst he
            exact hof (by show (if s.loc = .none then addList s .rw else s).alive = true; split <;> exact hg)
        · simp only [Res.ok.injEq] at he; subst he; exact h
    · cases he
  all_goals
    simp only [Res.ok.injEq] at he; subst he
    intro e
    obtain ⟨a, b, c⟩ := h e
    refine ⟨a, b, ?_⟩
    simp [a, b, c]

/-! ## Histories satisfy the invariants -/

/-- The caller keeps the rules and no `epoll_ctl` call fails. -/
def Good (s : St) (op : Op) : Prop := Client s op ∧ CtlOk op

theorem Hist.mono {p q : St → Op → Prop} (hpq : ∀ s op, p s op → q s op) {s : St} (h : Hist p s) : Hist q s := by
  induction h with
  | init => exact .init
  | step op _ ho he ih => exact .step op ih (hpq _ _ ho) he

theorem Hist.invA {s : St} (h : Hist Client s) : InvA s := by
  induction h with
  | init => exact invA_init
  | step op _ ho he ih => exact step_invA ih ho he

theorem Hist.invD {s : St} (h : Hist Client s) : InvD s := by
  induction h with
  | init => intro e; cases e
  | step op _ ho he ih => exact step_invD ih he

theorem Hist.client {s : St} (h : Hist Good s) : Hist Client s := h.mono (fun _ _ e => e.1)

theorem Hist.invB {s : St} (h : Hist Good s) : InvB s := by
  induction h with
  | init => exact invB_init
  | step op h' ho he ih => exact step_invB h'.client.invA ih ho.1 ho.2 he

end Kasync.Epoll
