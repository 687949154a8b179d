import Verif.Sel.KqueueStep

/-! # Kqueue selector: no readiness is lost (invariant of histories in which `kevent` does not fail) -/

namespace Kasync.Kq

structure Poll (s : St) : Prop where
  reg : (s.rev = true → s.regR = true) ∧ (s.wev = true → s.regW = true) ∧ (s.wev = true → s.rev = true)
  pR : s.regR = true → s.kin = true → s.qR = true ∨ s.rready = true
  pW : s.regW = true → s.kout = true → s.qW = true ∨ (s.wready = true ∧ (s.write = true → s.loc = .ready))
  rd_io : s.read = true → (s.rk = .io → s.rev = true) ∧ (s.rk = .null → s.rready2 = true)
  wr_io : s.write = true → s.wk ≠ .null → s.wev = true ∨ s.wready = true
  wr_null : s.write = true → s.wk = .null → s.wready2 = true ∨ (s.req s.wid = .conn ∧ s.wev = true)
  ready_rev : s.rready = true ∨ s.wready = true → s.rev = true
  R : s.read = true → s.rready = true ∨ s.rready2 = true → s.loc = .ready ∨ ∃ k, s.cur = some k ∧ k.todoR = true
  W : s.write = true → s.wev = false ∨ s.wready2 = true → s.loc = .ready
  conn : s.write = true → s.req s.wid = .conn → s.read = false ∧ (s.loc = .ready → s.kout = true) ∧ s.cur = none ∧ s.wk = .null ∧
    s.loc ≠ .rw ∧ s.wev = true ∧ s.wready2 = false ∧ s.wready = true
  fresh : s.next = 0 → s.cur = none ∧ s.sendfile = false
  Lr : s.read = true → s.loc ≠ .none ∨ s.shut = true ∨ ∃ k, s.cur = some k ∧ k.et = true ∧ k.rd = true
  Lw : s.write = true → s.loc ≠ .none ∨ s.shut = true ∨ ∃ k, s.cur = some k ∧ k.et = true ∧ k.wr = true
  shut : (s.shut = true → s.kin = true ∧ s.kout = true ∧ s.eof = true) ∧ (s.eof = true → s.kin = true)
  sf : s.sendfile = true → s.write = true
  polled : ∀ id, (id, Out.noPoll) ∉ s.done

theorem poll_init : Poll {} := by
  constructor <;> simp

macro "poll_auto" : tactic => `(tactic| (constructor <;> grind))

theorem waitRead_ok (s : St) : waitRead s .ok =
    { s with rev := true, et := s.et || !s.rev, wready := s.wready || !s.rev, regR := s.regR || !s.rev, qR := s.qR || (!s.rev && s.kin),
             loc := if s.loc = .none then .rw else s.loc } := by
  obtain ⟨b, t, ht, -, hb, e⟩ := waitRead_eq s .ok
  have hb := hb rfl
  subst hb
  rw [e, ht]
  simp

theorem waitWrite_ok (s : St) : waitWrite s .ok =
    { s with rev := s.rev || !s.wev, wev := true, et := s.et || !s.wev, wready := s.wready || (!s.wev && !s.rev),
             regR := s.regR || (!s.wev && !s.rev), qR := s.qR || (!s.wev && !s.rev && s.kin),
             regW := s.regW || !s.wev, qW := s.qW || (!s.wev && s.kout), loc := if s.loc = .none then .rw else s.loc } := by
  obtain ⟨b, b1, t, ht, -, hb, hb1, e⟩ := waitWrite_eq s .ok
  have hb := hb rfl
  subst hb
  have hb1 := hb1 rfl
  subst hb1
  rw [e, ht]
  simp

/-- `readEvent` on a connection whose read-side request is being served. -/
theorem readEvent_poll {s s' : St} {a : Ans} (hi : Inv s) (hp : s.read = true)
    (h : Poll { s with loc := .ready }) (hsf : s.loc ≠ .none → s.write = true)
    (hpW : s.regW = true → s.kout = true → s.qW = true ∨ (s.wready = true ∧ (s.write = true → s.loc = .ready)))
    (hW : s.write = true → s.wev = false ∨ s.wready2 = true → s.loc = .ready)
    (hL : s.write = true → s.loc ≠ .none ∨ s.shut = true ∨ ∃ k, s.cur = some k ∧ k.et = true ∧ k.wr = true)
    (hT : ∀ k, s.cur = some k → k.todoR = false ∧ k.rd = false)
    (he : readEvent s a .ok = .ok s') : Poll s' := by
  unfold readEvent St.finishR at he
  have het := hi.read_et hp
  simp only [hp, het, Bool.not_true, Bool.and_false, Bool.false_eq_true, if_false, waitRead_ok] at he
  split at he
  · cases he
  rename_i ha
  have hrr := hi.rr2
  obtain ⟨g1, g2, g3, g4, g5, g6, g7, g8, g9, g10, g11, g12, g13, g14, g15, g16⟩ := h
  dsimp only at *
  split at he
  · cases he
    poll_auto
  · rename_i hk
    split at he
    · split at he <;> cases he <;> poll_auto
    · cases he
      poll_auto

/-- `writeEvent` on a connection whose write-side request is being served. -/
theorem writeEvent_poll {s s' : St} {main : Bool} {a : Ans} {again : Bool} (hi : Inv s) (hp : s.write = true)
    (h : Poll { s with loc := .ready, cur := none }) (hloc : s.loc ≠ .none → s.read = true)
    (hrdy : s.wready = true ∨ s.wready2 = true) (hf : s.cur ≠ none → s.next ≠ 0)
    (hR : s.read = true → s.rready = true ∨ s.rready2 = true → s.loc = .ready ∨ ∃ k, s.cur = some k ∧ k.todoR = true)
    (hL : s.read = true → s.loc ≠ .none ∨ s.shut = true ∨ ∃ k, s.cur = some k ∧ k.et = true ∧ k.rd = true)
    (he : writeEvent s main a again .ok = .ok s') : Poll s' := by
  unfold writeEvent St.finishW addList at he
  simp only [waitWrite_ok] at he
  split at he
  · cases he
  have hlt := (hi.out_w hp).1.1
  have hw2 := hi.wr2
  have hcd := hi.file hp
  obtain ⟨g1, g2, g3, g4, g5, g6, g7, g8, g9, g10, g11, g12, g13, g14, g15, g16⟩ := h
  dsimp only at *
  split at he
  · split at he
    · split at he
      · cases he; poll_auto
      · split at he
        · cases he; poll_auto
        · split at he
          · split at he
            · cases he; poll_auto
            · cases he
          · cases he; poll_auto
    · cases he
  · split at he
    · cases he; poll_auto
    · cases he
    · split at he
      · cases he; poll_auto
      · split at he <;> cases he <;> poll_auto

set_option maxHeartbeats 4000000 in
theorem step_poll {s s' : St} {op : Op} (hi : Inv s) (h : Poll s) (hc : Good s op) (he : step s op = .ok s') : Poll s' := by
  obtain ⟨hc, hctl⟩ := hc
  have hR := hi.reading
  have hW := hi.writing
  have hC := hi.connecting
  cases op <;> unfold step at he <;> dsimp only at he
  case read main a c =>
    obtain rfl : c = .ok := hctl
    obtain ⟨ha, hn, hnc⟩ := hc
    have hr : s.read = false := by simpa [hR] using hn
    have hcn : ¬ (s.write = true ∧ s.req s.wid = .conn) := by rw [← hC]; exact hnc
    have h2 : s.rready2 = false := by have := hi.rr2; grind
    rw [if_neg (by simp [ha, hr])] at he
    have hlt : s.write = true → s.wid < s.next := fun e => (hi.out_w e).1.1
    have hcur : ∀ k, s.cur = some k → k.rd = false ∧ k.todoR = false := by have := hi.cur_rd; have := hi.cur_todo; grind
    have hloc : s.loc ≠ .none → s.write = true := by have := hi.listed; grind
    split at he
    · rename_i hrr
      have het : s.et = true := hi.rr_et hrr
      have hN : Inv { s.request .rd with rk := .io, rid := s.next, read := true } := by
        have hN := newRead_inv (k := .io) (r2 := false) hi hr (by simp) ha
        have : ({ s.request .rd with rk := .io, rid := s.next, read := true } : St) =
            { s.request .rd with rk := .io, rid := s.next, read := true, rready2 := false, et := true } := by
          simp only [St.nrequest, St.request, h2, het]
        rw [this]; exact hN
      have hP : Poll { s.request .rd with rk := .io, rid := s.next, read := true, loc := .ready } := by
        obtain ⟨g1, g2, g3, g4, g5, g6, g7, g8, g9, g10, g11, g12, g13, g14, g15, g16⟩ := h
        simp only [St.nrequest, St.request]
        clear hN hR hW hC he
        poll_auto
      split at he
      · cases he
        exact hP
      · refine readEvent_poll hN rfl hP hloc h.pW ?_ ?_ ?_ he
        · exact h.W
        · exact h.Lw
        · intro k hk; exact ⟨(hcur k hk).2, (hcur k hk).1⟩
    · cases he
      obtain ⟨g1, g2, g3, g4, g5, g6, g7, g8, g9, g10, g11, g12, g13, g14, g15, g16⟩ := h
      rw [waitRead_ok]
      simp only [St.nrequest, St.request]
      clear hR hW hC
      have := hi.reg_rev; have := hi.reg_wev
      clear hi
      poll_auto
  case write main a again c =>
    obtain rfl : c = .ok := hctl
    obtain ⟨ha, hn, hsf⟩ := hc
    have hw : s.write = false := by simpa [hW] using hn
    have h2 : s.wready2 = false := by have := hi.wr2; grind
    have h3 : s.sendfile = false := by have := h.sf; grind
    rw [if_neg (by simp [ha, hw, h2])] at he
    have hN : Inv { s.request .wr with wk := .io, wid := s.next, write := true } := by
      have hN := newWrite_inv (k := .io) (w2 := false) (sf := false) (q := .wr) hi hw (by simp) (by simp) (by decide) (by decide) ha
      have : ({ s.request .wr with wk := .io, wid := s.next, write := true } : St) =
          { s.request .wr with wk := .io, wid := s.next, write := true, wready2 := false, sendfile := false } := by
        simp only [St.nrequest, St.request, h2, h3]
      rw [this]; exact hN
    have hloc : s.loc ≠ .none → s.read = true := by have := hi.listed; grind
    have hcw := hi.cur_wr
    split at he
    · rename_i hwr
      split at he
      · cases he
        obtain ⟨g1, g2, g3, g4, g5, g6, g7, g8, g9, g10, g11, g12, g13, g14, g15, g16⟩ := h
        simp only [St.nrequest, St.request, addList]
        clear hR hW hC
        poll_auto
      · refine writeEvent_poll hN rfl ?_ hloc (Or.inl hwr) (fun _ => Nat.succ_ne_zero _) ?_ ?_ he
        · obtain ⟨g1, g2, g3, g4, g5, g6, g7, g8, g9, g10, g11, g12, g13, g14, g15, g16⟩ := h
          simp only [St.nrequest, St.request, addList]
          clear hR hW hC
          poll_auto
        · exact h.R
        · exact h.Lr
    · cases he
      obtain ⟨g1, g2, g3, g4, g5, g6, g7, g8, g9, g10, g11, g12, g13, g14, g15, g16⟩ := h
      rw [waitWrite_ok]
      simp only [St.nrequest, St.request]
      clear hR hW hC
      have := hi.reg_rev; have := hi.reg_wev
      clear hi
      poll_auto
  case sendfile main a again c =>
    obtain rfl : c = .ok := hctl
    obtain ⟨ha, hn, hsf, -⟩ := hc
    have hw : s.write = false := by simpa [hW] using hn
    have h2 : s.wready2 = false := by have := hi.wr2; grind
    rw [if_neg (by simp [ha, hw])] at he
    have hN : Inv { s.request .file with wk := .file, wid := s.next, write := true, sendfile := true } := by
      have hN := newWrite_inv (k := .file) (w2 := false) (sf := true) (q := .file) hi hw (by simp) (by simp) (by decide) (by decide) ha
      have : ({ s.request .file with wk := .file, wid := s.next, write := true, sendfile := true } : St) =
          { s.request .file with wk := .file, wid := s.next, write := true, wready2 := false, sendfile := true } := by
        simp only [St.nrequest, St.request, h2]
      rw [this]; exact hN
    have hloc : s.loc ≠ .none → s.read = true := by have := hi.listed; grind
    have hcw := hi.cur_wr
    split at he
    · rename_i hwr
      split at he
      · cases he
        obtain ⟨g1, g2, g3, g4, g5, g6, g7, g8, g9, g10, g11, g12, g13, g14, g15, g16⟩ := h
        simp only [St.nrequest, St.request, addList]
        clear hR hW hC
        poll_auto
      · refine writeEvent_poll hN rfl ?_ hloc (Or.inl hwr) (fun _ => Nat.succ_ne_zero _) ?_ ?_ he
        · obtain ⟨g1, g2, g3, g4, g5, g6, g7, g8, g9, g10, g11, g12, g13, g14, g15, g16⟩ := h
          simp only [St.nrequest, St.request, addList]
          clear hR hW hC
          poll_auto
        · exact h.R
        · exact h.Lr
    · cases he
      obtain ⟨g1, g2, g3, g4, g5, g6, g7, g8, g9, g10, g11, g12, g13, g14, g15, g16⟩ := h
      rw [waitWrite_ok]
      simp only [St.nrequest, St.request]
      clear hR hW hC
      have := hi.reg_rev; have := hi.reg_wev
      clear hi
      poll_auto
  case nextRead =>
    obtain ⟨ha, hn, hnc, hreg⟩ := hc
    have hr : s.read = false := by simpa [hR] using hn
    have hcn : ¬ (s.write = true ∧ s.req s.wid = .conn) := by rw [← hC]; exact hnc
    have hlt : s.write = true → s.wid < s.next := fun e => (hi.out_w e).1.1
    split at he
    · cases he
    cases he
    obtain ⟨g1, g2, g3, g4, g5, g6, g7, g8, g9, g10, g11, g12, g13, g14, g15, g16⟩ := h
    simp only [St.nrequest, St.request, addList]
    clear hR hW hC hi
    poll_auto
  case nextWrite =>
    obtain ⟨ha, hn, hsf⟩ := hc
    have hw : s.write = false := by simpa [hW] using hn
    split at he
    · cases he
    cases he
    obtain ⟨g1, g2, g3, g4, g5, g6, g7, g8, g9, g10, g11, g12, g13, g14, g15, g16⟩ := h
    simp only [St.nrequest, St.request, addList]
    clear hR hW hC hi
    poll_auto
  case connect now c =>
    obtain rfl : c = .ok := hctl
    obtain ⟨ha, h0⟩ := hc
    obtain ⟨f1, f2, f3, f4, f5⟩ := hi.fresh h0
    have h2 : s.wready2 = false := by have := hi.wr2; grind
    have hl : s.loc = .none := by have := hi.listed; grind
    rw [if_neg (by simp [ha, f1, f2, f3, f4])] at he
    simp only [addEventRW, St.nrequest, St.request, f3, Bool.false_eq_true, if_false, if_true, evAddR, evAddW, addList, Res.ok.injEq] at he
    subst he
    obtain ⟨g1, g2, g3, g4, g5, g6, g7, g8, g9, g10, g11, g12, g13, g14, g15, g16⟩ := h
    clear hR hW hC hi
    poll_auto
  case remove =>
    obtain ⟨ha, hn, hm⟩ := hc
    have hr : s.read = false := by simpa [hR] using hn
    have hw : s.write = false := by simpa [hW] using hm
    rw [if_neg (by simp [ha])] at he
    cases he
    have h4 := hi.reg_rev; have h5 := hi.reg_wev; have h6 := hi.rr2; have h7 := hi.wr2
    obtain ⟨g1, g2, g3, g4, g5, g6, g7, g8, g9, g10, g11, g12, g13, g14, g15, g16⟩ := h
    clear hR hW hC hi
    unfold remove
    split <;> poll_auto
  case destroy =>
    obtain ⟨ha, hn, hm⟩ := hc
    have hr : s.read = false := by simpa [hR] using hn
    have hw : s.write = false := by simpa [hW] using hm
    split at he
    · cases he
    cases he
    obtain ⟨g1, g2, g3, g4, g5, g6, g7, g8, g9, g10, g11, g12, g13, g14, g15, g16⟩ := h
    clear hR hW hC hi
    unfold remove
    split <;> poll_auto
  case expire =>
    split at he
    · rename_i hcl
      split at he
      · cases he
      cases he
      obtain ⟨g1, g2, g3, g4, g5, g6, g7, g8, g9, g10, g11, g12, g13, g14, g15, g16⟩ := h
      clear hR hW hC hi
      unfold wake
      poll_auto
    · cases he
  case selectR =>
    split at he
    · split at he
      · cases he
      cases he
      have h4 := hi.reg_rev; have h6 := hi.q_reg
      obtain ⟨g1, g2, g3, g4, g5, g6, g7, g8, g9, g10, g11, g12, g13, g14, g15, g16⟩ := h
      clear hR hW hC hi
      split <;> poll_auto
    · cases he
  case selectW =>
    split at he
    · split at he
      · cases he
      cases he
      have h4 := hi.reg_rev; have h5 := hi.reg_wev; have h6 := hi.q_reg
      obtain ⟨g1, g2, g3, g4, g5, g6, g7, g8, g9, g10, g11, g12, g13, g14, g15, g16⟩ := h
      clear hR hW hC hi
      split <;> poll_auto
    · cases he
  case popWrite a again c =>
    obtain rfl : c = .ok := hctl
    split at he
    · rename_i hcl
      split at he
      · cases he
      have hlt : s.write = true → s.wid < s.next := fun e => (hi.out_w e).1.1
      have hltr : s.read = true → s.rid < s.next := fun e => (hi.out_r e).1.1
      have hli := hi.listed
      have hre := hi.read_et
      have hve := hi.rev_et
      split at he
      · rename_i hcond
        simp only [Bool.and_eq_true, Bool.or_eq_true] at hcond
        refine writeEvent_poll ?_ ?_ ?_ ?_ ?_ ?_ ?_ ?_ he
        · obtain ⟨g1, g2, g3, g4, g5, g6, g7, g8, g9, g10, g11, g12, g13, g14, g15, g16, g17, g18, g19, g20, g21, g22, g23, g24⟩ := hi
          clear hR hW hC he h
          unfold addList
          inv_auto
        · exact hcond.2
        · obtain ⟨g1, g2, g3, g4, g5, g6, g7, g8, g9, g10, g11, g12, g13, g14, g15, g16⟩ := h
          clear hR hW hC hi he
          simp only [addList]
          poll_auto
        · intro e; exact absurd rfl e
        · exact hcond.1
        · intro _; have := hlt hcond.2; show s.next ≠ 0; omega
        · intro e1 e2
          refine Or.inr ⟨_, rfl, ?_⟩
          simp only [addList] at e1 e2
          simp only [Bool.and_eq_true, Bool.or_eq_true]
          exact ⟨e2, e1⟩
        · intro e1
          exact Or.inr (Or.inr ⟨_, rfl, hre e1, e1⟩)
      · rename_i hcond
        cases he
        obtain ⟨g1, g2, g3, g4, g5, g6, g7, g8, g9, g10, g11, g12, g13, g14, g15, g16⟩ := h
        have hq : ∀ k : Snap, k = ⟨(s.rready || s.rready2) && s.read, s.read, s.write, s.et⟩ →
            (k.todoR = true ↔ (s.rready = true ∨ s.rready2 = true) ∧ s.read = true) ∧ k.rd = s.read ∧ k.wr = s.write ∧ k.et = s.et := by
          intro k e; subst e; simp
        generalize (⟨(s.rready || s.rready2) && s.read, s.read, s.write, s.et⟩ : Snap) = k at hq
        have hq := hq k rfl
        have hcw : ¬ ((s.wready = true ∨ s.wready2 = true) ∧ s.write = true) := by simpa using hcond
        have hwc : s.write = true → s.req s.wid = .conn → s.wready = true := by
          intro e1 e2
          exact (g10 e1 e2).2.2.2.2.2.2.2
        clear hR hW hC hi hcond
        unfold addList
        poll_auto
    · cases he
  case popRead a c =>
    obtain rfl : c = .ok := hctl
    split at he
    · rename_i k hk
      split at he
      · rename_i ht
        have hrd := hi.cur_todo k hk ht
        have hr := hi.cur_rd k hk hrd
        have hcn : ¬ (s.write = true ∧ s.req s.wid = .conn) := by
          rintro ⟨e1, e2⟩
          have := (h.conn e1 e2).1
          rw [hr] at this; cases this
        refine readEvent_poll ?_ ?_ ?_ ?_ ?_ ?_ ?_ ?_ he
        · obtain ⟨g1, g2, g3, g4, g5, g6, g7, g8, g9, g10, g11, g12, g13, g14, g15, g16, g17, g18, g19, g20, g21, g22, g23, g24⟩ := hi
          clear hR hW hC he h
          inv_auto
        · exact hr
        · obtain ⟨g1, g2, g3, g4, g5, g6, g7, g8, g9, g10, g11, g12, g13, g14, g15, g16⟩ := h
          clear hR hW hC hi he
          poll_auto
        · exact hi.cur_loc k hk hrd
        · exact h.pW
        · exact h.W
        · intro e1
          rcases h.Lw e1 with e | e | ⟨k', e, e', e''⟩
          · exact Or.inl e
          · exact Or.inr (Or.inl e)
          · rw [hk] at e; cases e
            exact Or.inr (Or.inr ⟨_, rfl, e', e''⟩)
        · intro k' hk'; cases hk'; exact ⟨rfl, rfl⟩
      · cases he
    · cases he
  case popEnd =>
    split at he
    · rename_i k hk
      split at he
      · cases he
      have h14 := hi.cur_rd; have h16 := hi.cur_wr
      obtain ⟨g1, g2, g3, g4, g5, g6, g7, g8, g9, g10, g11, g12, g13, g14, g15, g16⟩ := h
      clear hR hW hC hi
      split at he
      · split at he
        · cases he
        simp only [addList, Res.ok.injEq] at he
        split at he <;> subst he <;> poll_auto
      · cases he
        poll_auto
    · cases he
  case dataIn =>
    cases he
    obtain ⟨g1, g2, g3, g4, g5, g6, g7, g8, g9, g10, g11, g12, g13, g14, g15, g16⟩ := h
    unfold wake
    clear hR hW hC hi
    poll_auto
  case spaceOut =>
    cases he
    obtain ⟨g1, g2, g3, g4, g5, g6, g7, g8, g9, g10, g11, g12, g13, g14, g15, g16⟩ := h
    unfold wake
    clear hR hW hC hi
    poll_auto
  case hangup reset =>
    cases he
    obtain ⟨g1, g2, g3, g4, g5, g6, g7, g8, g9, g10, g11, g12, g13, g14, g15, g16⟩ := h
    unfold wake
    clear hR hW hC hi
    poll_auto

end Kasync.Kq
