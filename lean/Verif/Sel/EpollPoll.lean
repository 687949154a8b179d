import Verif.Sel.EpollAcct

/-! # Epoll selector: no readiness is lost (as long as `epoll_ctl` succeeds) -/

namespace Kasync.Epoll

/-- the ready loop has this connection in hand and will deliver its read event -/
def reading (s : St) : Bool := match s.cur with
  | some k => k.todoR
  | none => false

structure InvB (s : St) : Prop where
  rev_reg : s.rev = s.regI
  wev_reg : s.wev = s.regO
  reg_le : s.regO = true → s.regI = true
  hup_in : s.khup = true → s.kin = true
  q_reg : s.queued = true → s.regI = true
  edge_in : s.regI = true → s.kin = true → s.rready = false → s.queued = true
  edge_out : s.regO = true → s.wready = false → (s.kout = true → s.queued = true) ∧ (s.kout = false → s.nospace = true)
  edge_hup : s.regI = true → s.khup = true → s.err = false → s.queued = true
  rd_now : s.pr = true → (s.rready = true ∨ s.rready2 = true) → s.loc = .ready ∨ reading s = true
  rd_wait : s.pr = true → s.rready = false → s.rready2 = false → s.regI = true
  wr : s.write = true → (s.loc = .ready ∧ (s.wready = true ∨ s.wready2 = true)) ∨
    (s.regO = true ∧ (s.kout = true → s.queued = true) ∧ (s.kout = false → s.nospace = true))
  w2k : s.wready2 = true → s.write = true → s.wk = .null
  hup_reg : s.rdhup = true → s.regI = true
  todo : reading s = true → s.rready = true ∨ s.rready2 = true
  nopoll : ∀ p ∈ s.done, p.2 ≠ .noPoll

theorem invB_init : InvB {} := by
  constructor <;> simp [reading]

macro "invb_auto" : tactic => `(tactic| (constructor <;> simp only [reading] at * <;> grind))

theorem waitRead_invB {s : St} (h : InvB { s with pr := false }) (hr : s.rready = false) (hr2 : s.rready2 = false)
    (h11 : reading s = false) : InvB (waitRead s true) := by
  obtain ⟨g1, g2, g3, g4, g5, g6, g7, g8, g9, g10, g11, g12, g13, g14, g15⟩ := h
  dsimp only at *
  unfold waitRead
  by_cases hv : s.rev = true
  · simp only [hv, if_true, addList]
    split <;> invb_auto
  · have e1 : s.regI = false := by grind
    have e2 : s.regO = false := by grind
    have e3 : s.wev = false := by grind
    simp only [hv, if_false, addList, addEventR, epollCtl, e1, e2, e3, Bool.or_self, and_self, if_true, Bool.false_eq_true]
    split <;> invb_auto

theorem waitWrite_invB {s : St} (h : InvB { s with write := false }) (hh : s.rdhup = false) (hk : s.wready2 = true → s.wk = .null)
    (hp : s.wready = false) : InvB (waitWrite s true) := by
  obtain ⟨g1, g2, g3, g4, g5, g6, g7, g8, g9, g10, g11, g12, g13, g14, g15⟩ := h
  dsimp only at *
  unfold waitWrite
  by_cases hv : s.wev = true
  · simp only [hv, if_true, addList]
    split <;> invb_auto
  · have e2 : s.regO = false := by grind
    have e3 : s.wev = false := by grind
    simp only [hv, if_false, addList, addEventRW, epollCtl, e2, e3, Bool.or_false, Bool.false_or, and_self, if_true, Bool.false_eq_true, g1]
    split <;> invb_auto

theorem readEvent_invB {s s' : St} {a : Ans} (hh : s.rdhup = false) (hr2 : s.rk ≠ .null → s.rready2 = false)
    (hl : s.rk = .accept → s.wev = false ∧ s.write = false) (h : InvB { s with pr := false }) (hc : reading s = false)
    (he : readEvent s a true = .ok s') : InvB s' := by
  unfold readEvent at he
  split at he
  · cases he
  · split at he
    · simp only [Res.ok.injEq, St.finishR] at he; subst he
      obtain ⟨g1, g2, g3, g4, g5, g6, g7, g8, g9, g10, g11, g12, g13, g14, g15⟩ := h
      dsimp only at *
      invb_auto
    · rename_i hk
      split at he
      · obtain ⟨g1, g2, g3, g4, g5, g6, g7, g8, g9, g10, g11, g12, g13, g14, g15⟩ := h
        dsimp only at *
        split at he <;> simp only [Res.ok.injEq, St.finishR] at he <;> subst he <;> invb_auto
      · rename_i hkin
        dsimp only at he
        split at he
        · cases he
        · simp only [Res.ok.injEq, St.dropHup, hh, cond_false, Bool.or_false] at he; subst he
          refine waitRead_invB ?_ rfl rfl hc
          obtain ⟨g1, g2, g3, g4, g5, g6, g7, g8, g9, g10, g11, g12, g13, g14, g15⟩ := h
          dsimp only at *
          invb_auto
    · rename_i hk
      obtain ⟨l1, l2⟩ := hl hk
      obtain ⟨g1, g2, g3, g4, g5, g6, g7, g8, g9, g10, g11, g12, g13, g14, g15⟩ := h
      dsimp only at *
      split at he
      · split at he <;> simp only [Res.ok.injEq, St.finishR] at he <;> subst he <;> invb_auto
      · split at he
        · simp only [Res.ok.injEq, St.finishR] at he; subst he; invb_auto
        · simp only [waitAccept, Bool.false_eq_true, if_false] at he
          split at he
          · simp only [Res.ok.injEq, if_true] at he; subst he; invb_auto
          · have e1 : s.regI = false := by grind
            have e2 : s.regO = false := by grind
            simp only [epollCtl, e1, e2, Bool.or_self, and_self, if_true, Res.ok.injEq] at he
            subst he
            invb_auto

theorem writeEvent_invB {s s' : St} {a : Ans} {again : Bool} (hp : s.write = true ∨ s.rdhup = true) (hx : s.rdhup = true → s.wk = .null)
    (h : InvB { s with write := false, rdhup := false }) (hw : s.wready = true ∨ s.wk = .null)
    (hk : s.write = true → s.wready2 = true → s.wk = .null) (he : writeEvent s a again true = .ok s') : InvB s' := by
  unfold writeEvent at he
  split at he
  · cases he
  · by_cases hse : s.sendfile = false ∧ s.err = true
    · simp only [if_pos hse, Res.ok.injEq, St.finishW] at he
      subst he
      obtain ⟨g1, g2, g3, g4, g5, g6, g7, g8, g9, g10, g11, g12, g13, g14, g15⟩ := h
      dsimp only at *
      invb_auto
    · simp only [if_neg hse] at he
      split at he
      · simp only [Res.ok.injEq, St.finishW] at he; subst he
        obtain ⟨g1, g2, g3, g4, g5, g6, g7, g8, g9, g10, g11, g12, g13, g14, g15⟩ := h
        dsimp only at *
        invb_auto
      · rename_i hwk
        have hh : s.rdhup = false := by grind
        split at he
        · simp only [Res.ok.injEq] at he; subst he
          refine waitWrite_invB ?_ rfl ?_ rfl
          · obtain ⟨g1, g2, g3, g4, g5, g6, g7, g8, g9, g10, g11, g12, g13, g14, g15⟩ := h
            dsimp only at *
            invb_auto
          · dsimp only; grind
        · obtain ⟨g1, g2, g3, g4, g5, g6, g7, g8, g9, g10, g11, g12, g13, g14, g15⟩ := h
          dsimp only at *
          split at he <;> simp only [Res.ok.injEq, St.finishW] at he <;> subst he <;> invb_auto


theorem step_read_invB {s s' : St} {main : Bool} {a : Ans} (hA : InvA s) (h : InvB s) (hp : s.pr = false)
    (he : step s (.read main a true) = .ok s') : InvB s' := by
  have hr2 : s.rready2 = false := by have := hA.rr2; cases e : s.rready2 <;> grind
  have hrd : reading s = false := by
    have h1 := hA.cur_todo; have h2 := hA.cur_rd
    unfold reading; split <;> grind
  unfold step at he
  dsimp only at he
  split at he
  · cases he
  · rename_i hg
    have hb : InvB { { (s.request .rd).dropHup with rk := .io, rid := s.next, pr := true, read := true } with pr := false } := by
      clear he
      obtain ⟨g1, g2, g3, g4, g5, g6, g7, g8, g9, g10, g11, g12, g13, g14, g15⟩ := h
      simp only [St.request, St.dropHup]
      invb_auto
    split at he
    · rename_i hrr
      split at he
      · simp only [Res.ok.injEq] at he; subst he
        clear hb
        obtain ⟨g1, g2, g3, g4, g5, g6, g7, g8, g9, g10, g11, g12, g13, g14, g15⟩ := h
        simp only [St.request, St.dropHup, addList]
        invb_auto
      · refine readEvent_invB ?_ ?_ ?_ hb ?_ he
        · rfl
        · exact fun _ => hr2
        · exact fun e => by cases e
        · exact hrd
    · rename_i hrr
      simp only [Res.ok.injEq] at he; subst he
      exact waitRead_invB hb (Bool.eq_false_iff.2 hrr) hr2 hrd

theorem step_write_invB {s s' : St} {sf main : Bool} {a : Ans} {again : Bool} (h : InvB s)
    (hw2 : s.wready2 = false)
    (he : (let s1 := { (s.request .wr).dropHup with wk := .io, wid := s.next, write := true, sendfile := sf }
      if s.wready then
        if main then Res.ok (addList s1 .ready) else writeEvent s1 a again true
      else .ok (waitWrite s1 true)) = .ok s') : InvB s' := by
  have hb : InvB { { (s.request .wr).dropHup with wk := .io, wid := s.next, write := true, sendfile := sf } with write := false, rdhup := false } := by
    clear he
    obtain ⟨g1, g2, g3, g4, g5, g6, g7, g8, g9, g10, g11, g12, g13, g14, g15⟩ := h
    simp only [St.request, St.dropHup]
    invb_auto
  dsimp only at he
  split at he
  · rename_i hrr
    split at he
    · simp only [Res.ok.injEq] at he; subst he
      clear hb
      obtain ⟨g1, g2, g3, g4, g5, g6, g7, g8, g9, g10, g11, g12, g13, g14, g15⟩ := h
      simp only [St.request, St.dropHup, addList]
      invb_auto
    · refine writeEvent_invB (Or.inl rfl) (fun e => by cases e) hb (Or.inl hrr) (fun _ e => by rw [show s.wready2 = true from e] at hw2; cases hw2) he
  · rename_i hrr
    simp only [Res.ok.injEq] at he; subst he
    exact waitWrite_invB hb rfl (fun e => by rw [show s.wready2 = true from e] at hw2; cases hw2) (Bool.eq_false_iff.2 hrr)

theorem waitAccept_invB {s : St} (h : InvB { s with pr := false }) (hw : s.wev = false) (h2 : s.rready2 = false) (hrd : reading s = false) :
    (waitAccept s true).2 = true ∧ InvB (waitAccept s true).1 := by
  obtain ⟨g1, g2, g3, g4, g5, g6, g7, g8, g9, g10, g11, g12, g13, g14, g15⟩ := h
  dsimp only at *
  unfold waitAccept
  split
  · refine ⟨rfl, ?_⟩
    simp only [addList]
    invb_auto
  · split
    · refine ⟨rfl, ?_⟩
      dsimp only
      invb_auto
    · have e1 : s.regI = false := by grind
      have e2 : s.regO = false := by grind
      simp only [epollCtl, e1, e2, Bool.or_self, and_self, if_true, true_and]
      invb_auto

theorem remove_invB {s s' : St} (h : InvB s) (hp : s.pr = false) (hw : s.write = false) (hh : s.rdhup = false) (hrd : reading s = false)
    (he : remove s = .ok s') : InvB s' := by
  unfold remove at he
  split at he
  · cases he; exact h
  · dsimp only at he
    split at he
    · cases he
    · simp only [Res.ok.injEq, Epoll.addList] at he; subst he
      obtain ⟨g1, g2, g3, g4, g5, g6, g7, g8, g9, g10, g11, g12, g13, g14, g15⟩ := h
      invb_auto

set_option maxHeartbeats 4000000 in
theorem step_invB {s s' : St} {op : Op} (hA : InvA s) (h : InvB s) (hc : Client s op) (hk : CtlOk op) (he : step s op = .ok s') : InvB s' := by
  cases op with
  | read main a ctl => cases hk; exact step_read_invB hA h (hA.noR hc.2.2) he
  | accept ctl =>
    cases hk
    obtain ⟨ha, hl, ho⟩ := hc
    have hp := hA.noR ho
    obtain ⟨l1, l2, l3, l4, l5, l6, l7⟩ := hA.lst hl
    have hrd : reading s = false := by
      have h1 := hA.cur_todo; have h2 := hA.cur_rd
      unfold reading; split <;> grind
    have hb : InvB { { s.request .rd with rk := .accept, rid := s.next, pr := true, read := true } with pr := false } := by
      clear he
      obtain ⟨g1, g2, g3, g4, g5, g6, g7, g8, g9, g10, g11, g12, g13, g14, g15⟩ := h
      simp only [St.request]
      invb_auto
    have := waitAccept_invB hb l6 l4 hrd
    unfold step at he
    dsimp only at he
    rw [if_neg (by rw [ha]; simp), this.1] at he
    simp only [if_true, Res.ok.injEq] at he; subst he
    exact this.2
  | write main a again ctl =>
    cases hk
    obtain ⟨ha, hl, ho, hw⟩ := hc
    have hp := hA.noW ho
    have hw2 := hA.noW2 hp hw
    have hsf : s.sendfile = false := by
      cases e : s.sendfile
      · rfl
      · have := (hA.sf_write e).1; rw [hp] at this; cases this
    refine step_write_invB (sf := false) (main := main) (a := a) (again := again) h hw2 ?_
    rw [← he]
    simp only [step, ha, hp, hw2, Bool.true_eq_false, Bool.false_eq_true, or_self, if_false, St.request, St.dropHup, hsf]
  | sendfile main a again ctl =>
    cases hk
    obtain ⟨ha, hl, ho, hw⟩ := hc
    have hp := hA.noW ho
    have hw2 := hA.noW2 hp hw
    have hsf : s.sendfile = false := by
      cases e : s.sendfile
      · rfl
      · have := (hA.sf_write e).1; rw [hp] at this; cases this
    refine step_write_invB (sf := true) (main := main) (a := a) (again := again) h hw2 ?_
    rw [← he]
    simp only [step, ha, hp, hsf, Bool.true_eq_false, Bool.false_eq_true, or_self, if_false]
  | nextRead =>
    unfold step at he
    dsimp only at he
    split at he
    · cases he
    · simp only [Res.ok.injEq] at he; subst he
      obtain ⟨g1, g2, g3, g4, g5, g6, g7, g8, g9, g10, g11, g12, g13, g14, g15⟩ := h
      simp only [St.request, St.dropHup, Epoll.addList]
      invb_auto
  | nextWrite =>
    unfold step at he
    dsimp only at he
    split at he
    · cases he
    · simp only [Res.ok.injEq] at he; subst he
      obtain ⟨g1, g2, g3, g4, g5, g6, g7, g8, g9, g10, g11, g12, g13, g14, g15⟩ := h
      simp only [St.request, St.dropHup, Epoll.addList]
      invb_auto
  | connect ctl =>
    cases hk
    obtain ⟨ha, hl, hn0⟩ := hc
    have hpr := (hA.idle hn0).2.2.2
    unfold step at he
    dsimp only at he
    split at he
    · cases he
    · rename_i hne
      simp only [not_or, Bool.not_eq_true] at hne
      obtain ⟨-, k1, k2, k3, k4, k5⟩ := hne
      have hw2 : s.wready2 = false := by
        have := (hA.idle hn0).2.2.1
        have h2 := hA.wr2
        cases e : s.wready2 <;> grind
      obtain ⟨g1, g2, g3, g4, g5, g6, g7, g8, g9, g10, g11, g12, g13, g14, g15⟩ := h
      have e1 : s.regI = false := by grind
      have e2 : s.regO = false := by grind
      simp only [addEventRW, epollCtl, St.request, e1, e2, k4, k5, Bool.or_self, and_self, if_true, Epoll.addList, Res.ok.injEq] at he; subst he
      invb_auto
  | readhup ctl =>
    cases hk
    obtain ⟨ha, hl⟩ := hc
    unfold step at he
    dsimp only at he
    rw [if_neg (by rw [ha]; simp)] at he
    split at he
    · cases he; exact h
    · rename_i hne
      simp only [Bool.or_eq_true, not_or, Bool.not_eq_true] at hne
      obtain ⟨k1, k2⟩ := hne
      have hpr : s.pr = false := by cases e : s.pr; rfl; rw [hA.pr_read e] at k1; cases k1
      obtain ⟨g1, g2, g3, g4, g5, g6, g7, g8, g9, g10, g11, g12, g13, g14, g15⟩ := h
      split at he
      · rename_i hrw
        simp only [Bool.or_eq_true] at hrw
        simp only [if_true, Res.ok.injEq, St.request, St.dropHup] at he; subst he
        invb_auto
      · rename_i hrw
        simp only [Bool.or_eq_true, not_or, Bool.not_eq_true] at hrw
        obtain ⟨k4, k5⟩ := hrw
        have e1 : s.regI = false := by grind
        have e2 : s.regO = false := by grind
        simp only [addEventRW, epollCtl, St.request, St.dropHup, e1, e2, k4, k5, Bool.or_self, and_self, if_true, Res.ok.injEq] at he; subst he
        invb_auto
  | removeReadhup =>
    obtain ⟨ha, hl⟩ := hc
    unfold step at he
    dsimp only at he
    rw [if_neg (by rw [ha]; simp)] at he
    split at he
    · cases he; exact h
    · split at he
      · cases he
      · rename_i hh hne
        simp only [not_or, Bool.not_eq_true] at hne
        have hpr : s.pr = false := by cases e : s.pr; rfl; rw [hA.pr_read e] at hne; cases hne.1
        have hrd : reading s = false := by
          have h1 := hA.cur_todo; have h2 := hA.cur_rd
          unfold reading; split <;> grind
        refine remove_invB (s := s.dropHup) ?_ hpr hne.2 rfl hrd he
        clear he
        obtain ⟨g1, g2, g3, g4, g5, g6, g7, g8, g9, g10, g11, g12, g13, g14, g15⟩ := h
        simp only [St.dropHup]
        invb_auto
  | listen =>
    obtain ⟨ha, hn0⟩ := hc
    have hpr := (hA.idle hn0).2.2.2
    unfold step at he
    dsimp only at he
    rw [if_neg (by rw [ha]; simp)] at he
    simp only [Res.ok.injEq] at he; subst he
    obtain ⟨g1, g2, g3, g4, g5, g6, g7, g8, g9, g10, g11, g12, g13, g14, g15⟩ := h
    invb_auto
  | nextShutdown =>
    obtain ⟨ha, hl, hcu, ho⟩ := hc
    obtain ⟨l1, l2, l3, l4, l5, l6, l7⟩ := hA.lst hl
    unfold step at he
    dsimp only at he
    rw [if_neg (by rw [ha]; simp)] at he
    simp only [Res.ok.injEq, Epoll.addList] at he; subst he
    obtain ⟨g1, g2, g3, g4, g5, g6, g7, g8, g9, g10, g11, g12, g13, g14, g15⟩ := h
    invb_auto
  | remove =>
    obtain ⟨ha, hl, ho⟩ := hc
    have e1 := hA.noR (fun id => ho id _)
    have e2 := hA.noW (fun id => ho id _)
    have e3 := hA.noH (fun id => ho id _)
    have hrd : reading s = false := by
      have h1 := hA.cur_todo; have h2 := hA.cur_rd
      unfold reading; split <;> grind
    clear ho
    unfold step at he
    dsimp only at he
    rw [if_neg (by rw [ha]; simp)] at he
    unfold remove at he
    split at he
    · cases he; exact h
    · dsimp only at he
      split at he
      · cases he
      · simp only [Res.ok.injEq, Epoll.addList] at he; subst he
        obtain ⟨g1, g2, g3, g4, g5, g6, g7, g8, g9, g10, g11, g12, g13, g14, g15⟩ := h
        invb_auto
  | destroy =>
    obtain ⟨ha, hl, ho, hst⟩ := hc
    have e1 := hA.noR (fun id => ho id _)
    have e2 := hA.noW (fun id => ho id _)
    have e3 := hA.noH (fun id => ho id _)
    have hrd : reading s = false := by
      have h1 := hA.cur_todo; have h2 := hA.cur_rd
      unfold reading; split <;> grind
    clear ho
    obtain ⟨g1, g2, g3, g4, g5, g6, g7, g8, g9, g10, g11, g12, g13, g14, g15⟩ := h
    unfold step at he
    dsimp only at he
    split at he
    · cases he
    · unfold remove at he
      split at he
      · cases he
        rename_i hr
        split at hr
        · cases hr; invb_auto
        · dsimp only at hr
          split at hr
          · cases hr
          · simp only [Res.ok.injEq, Epoll.addList] at hr; subst hr; invb_auto
      · rename_i hno
        exact absurd he (hno _)
  | expire =>
    unfold step at he
    dsimp only at he
    split at he
    · split at he
      · cases he
      · simp only [Res.ok.injEq] at he; subst he
        obtain ⟨g1, g2, g3, g4, g5, g6, g7, g8, g9, g10, g11, g12, g13, g14, g15⟩ := h
        invb_auto
    · cases he
  | select =>
    unfold step at he
    dsimp only at he
    split at he
    · rename_i hcu
      split at he
      · cases he
      · simp only [Res.ok.injEq] at he; subst he
        have hrp := hA.pr_read
        obtain ⟨g1, g2, g3, g4, g5, g6, g7, g8, g9, g10, g11, g12, g13, g14, g15⟩ := h
        unfold select
        dsimp only
        split
        · invb_auto
        · invb_auto
    · cases he
  | popWrite a again ctl =>
    cases hk
    unfold step at he
    dsimp only at he
    split at he
    · rename_i hcur
      obtain ⟨hcu, hlo⟩ := hcur
      split at he
      · cases he
      · have hrp := hA.pr_read
        have hx := hA.hup_excl
        split at he
        · rename_i hw
          simp only [Bool.and_eq_true, Bool.or_eq_true] at hw
          refine writeEvent_invB ?_ ?_ ?_ ?_ ?_ he
          · exact hw.2
          · exact fun e => (hx e).2.2
          · clear he
            obtain ⟨g1, g2, g3, g4, g5, g6, g7, g8, g9, g10, g11, g12, g13, g14, g15⟩ := h
            simp only [Epoll.addList]
            invb_auto
          · rcases hw.1 with e | e
            · exact Or.inl e
            · right
              rcases hw.2 with e2 | e2
              · exact h.w2k e e2
              · exact (hx e2).2.2
          · exact fun e1 e2 => h.w2k e2 e1
        · rename_i hw
          simp only [Res.ok.injEq, Epoll.addList] at he; subst he
          obtain ⟨g1, g2, g3, g4, g5, g6, g7, g8, g9, g10, g11, g12, g13, g14, g15⟩ := h
          invb_auto
    · cases he
  | popRead a ctl =>
    cases hk
    unfold step at he
    dsimp only at he
    split at he
    · rename_i k hk
      split at he
      · rename_i ht
        have hrd := hA.cur_todo k hk ht
        have hp := hA.cur_rd k hk hrd
        have hr := hA.pr_read hp
        have hh : s.rdhup = false := by have := hA.hup_excl; grind
        refine readEvent_invB (s := { s with cur := some { k with todoR := false, rd := false } }) hh ?_ ?_ ?_ rfl he
        · intro e
          have := hA.rr2
          dsimp only at *
          cases e2 : s.rready2 <;> grind
        · intro e
          cases hl : s.listener
          · exact absurd e (hA.read_pr hl hr).2.2
          · exact ⟨(hA.lst hl).2.2.2.2.2.1, (hA.lst hl).1⟩
        · clear he
          obtain ⟨g1, g2, g3, g4, g5, g6, g7, g8, g9, g10, g11, g12, g13, g14, g15⟩ := h
          invb_auto
      · cases he
    · cases he
  | popEnd =>
    unfold step at he
    dsimp only at he
    split at he
    · rename_i k hk
      split at he
      · cases he
      · obtain ⟨g1, g2, g3, g4, g5, g6, g7, g8, g9, g10, g11, g12, g13, g14, g15⟩ := h
        split at he
        · split at he
          · cases he
          · simp only [Res.ok.injEq] at he
            simp only [Epoll.addList] at he; split at he <;> subst he <;> invb_auto
        · simp only [Res.ok.injEq] at he; subst he; invb_auto
    · cases he
  | dataIn =>
    unfold step at he; dsimp only at he; simp only [Res.ok.injEq] at he; subst he
    obtain ⟨g1, g2, g3, g4, g5, g6, g7, g8, g9, g10, g11, g12, g13, g14, g15⟩ := h
    invb_auto
  | spaceOut =>
    unfold step at he; dsimp only at he; simp only [Res.ok.injEq] at he; subst he
    obtain ⟨g1, g2, g3, g4, g5, g6, g7, g8, g9, g10, g11, g12, g13, g14, g15⟩ := h
    invb_auto
  | hangup =>
    unfold step at he; dsimp only at he; simp only [Res.ok.injEq] at he; subst he
    obtain ⟨g1, g2, g3, g4, g5, g6, g7, g8, g9, g10, g11, g12, g13, g14, g15⟩ := h
    invb_auto

end Kasync.Epoll
