import Verif.Sel.EpollStep

/-! # Epoll selector: the accounting invariant holds in every history -/

namespace Kasync.Epoll

theorem waitAccept_invA {s : St} {ctl : Bool} (h : InvA s) (hl : s.listener = true) (hp : s.pr = true) (ha : s.alive = true)
    (hc : ∀ k, s.cur = some k → k.rd = false) (hloc : s.loc ≠ .none → s.et = true) :
    ((waitAccept s ctl).2 = true → InvA (waitAccept s ctl).1) ∧ ((waitAccept s ctl).2 = false → InvA ((waitAccept s ctl).1.finishR .noPoll)) := by
  have hn : s.next ≠ 0 := by have := (h.out_r hp).1; omega
  have hc3 : ∀ k, s.cur = some k → k.rd = true → s.write = true := fun k e e2 => by rw [hc k e] at e2; cases e2
  have h' := h
  obtain ⟨g1, g2, g3, g4, g5, g6, g7, g8, g9, g10, g11, g12, g13, g14, g15, g16, g17, g18, g19, g20, g21, g22, g23, g24, g25, g26, g27, g28, g29⟩ := h
  unfold waitAccept
  split
  · exact ⟨fun _ => h'.addList _ (fun e => by rw [hl] at e; cases e) (fun _ => Or.inr hp) hc3 ha, fun e => by cases e⟩
  · split
    · exact ⟨fun _ => h', fun e => by cases e⟩
    · rcases epollCtl_cases { s with rev := true, et := true } false false ctl with ⟨n, q, e⟩ | e <;> rw [e]
      · refine And.intro (fun _ => ?_) (fun e => by cases e)
        simp only [if_true]
        inv_auto
      · refine And.intro (fun e => by cases e) (fun _ => ?_)
        simp only [if_false, Bool.false_eq_true, St.finishR]
        inv_auto

theorem InvA.noR {s : St} (h : InvA s) (hc : ∀ id, ¬ Outstanding s id .rd) : s.pr = false := by
  cases e : s.pr
  · rfl
  · exact absurd (h.out_r e) (hc _)

theorem InvA.noW {s : St} (h : InvA s) (hc : ∀ id, ¬ Outstanding s id .wr) : s.write = false := by
  cases e : s.write
  · rfl
  · exact absurd (h.out_w e) (hc _)

theorem InvA.noH {s : St} (h : InvA s) (hc : ∀ id, ¬ Outstanding s id .hup) : s.rdhup = false := by
  cases e : s.rdhup
  · rfl
  · exact absurd (h.out_h e) (hc _)

theorem InvA.noRead {s : St} (h : InvA s) (hl : s.listener = false) (hc : s.pr = false) : s.read = false := by
  cases e : s.read
  · rfl
  · have := (h.read_pr hl e).1; rw [hc] at this; cases this

theorem InvA.noW2 {s : St} (h : InvA s) (hw : s.write = false) (hc : s.nextW = true → Out.hungUp ∉ s.done.map Prod.snd) : s.wready2 = false := by
  cases e : s.wready2
  · rfl
  · obtain ⟨e1, e2⟩ := h.wr2 e
    rcases e2 with e2 | e2
    · rw [hw] at e2; cases e2.1
    · exact absurd e2 (hc e1)

/-- the kernel's moves -/
theorem InvA.kernel {s : St} (h : InvA s) (a b c d e : Bool) :
    InvA { s with kin := a, kout := b, khup := c, nospace := d, queued := e } :=
  h.congr rfl h.rr_et h.rev_et (fun e => Or.inl e) (fun e => ⟨(h.fresh e).2.2.2.1, (h.fresh e).2.2.2.2, (h.idle e).1⟩) (fun _ e => Or.inl e)
    (fun e => ⟨(h.lst e).2.2.2.2.2.1, h.lst_rev e⟩)

theorem step_read_invA {s s' : St} {main : Bool} {a : Ans} {ctl : Bool} (h : InvA s) (ha : s.alive = true) (hl : s.listener = false)
    (hp : s.pr = false) (he : step s (.read main a ctl) = .ok s') : InvA s' := by
  have hrd := h.noRead hl hp
  have hr2 : s.rready2 = false := by
    cases e : s.rready2
    · rfl
    · have := (h.rr2 e).1; rw [hp] at this; cases this
  have hck : ∀ k, s.cur = some k → k.rd = false := by
    intro k e
    cases e2 : k.rd
    · rfl
    · have := h.cur_rd k e e2; rw [hp] at this; cases this
  have hn := newRead_invA (k := .io) (r2 := false) h hl hp (by decide) (by decide) ha
  have hlo : s.loc ≠ .none → s.write = true ∨ (s.stale || s.rdhup) = true := by have := h.listed hl; grind
  have hn' : s.et = true → InvA { (s.request .rd).dropHup with rk := .io, rid := s.next, pr := true, read := true } := by
    intro e
    refine hn.congr ?_ (fun _ _ => e) (fun _ => e) (fun _ => Or.inl e) (fun e => by cases e) (fun e => by rw [show s.listener = true from e] at hl; cases hl)
      (fun e => by rw [show s.listener = true from e] at hl; cases hl)
    simp only [Same, St.request, St.dropHup, hr2]
  have hgo : ¬ (s.alive = false ∨ s.read = true) := by rw [ha, hrd]; simp
  unfold step at he
  dsimp only at he
  rw [if_neg hgo] at he
  split at he
  · rename_i hrr
    have het := h.rr_et hl hrr
    split at he
    · simp only [Res.ok.injEq] at he; subst he
      refine (hn' het).addList _ (fun _ => Or.inl rfl) (fun e => by rw [show s.listener = true from e] at hl; cases hl)
        (fun k e1 e2 => by rw [hck k e1] at e2; cases e2) ha
    · exact readEvent_invA (hn' het) rfl hck hlo he
  · simp only [Res.ok.injEq] at he; subst he
    refine waitRead_invA ?_ hl rfl hck hlo (fun e => h.rev_et (Or.inl e)) hr2
    refine hn.congr ?_ (fun _ _ => rfl) (fun _ => rfl) (fun _ => Or.inl rfl) (fun e => by cases e) (fun e => by rw [show s.listener = true from e] at hl; cases hl)
      (fun e => by rw [show s.listener = true from e] at hl; cases hl)
    simp only [Same, St.request, St.dropHup, hr2]

theorem step_write_invA {s s' : St} {sf main : Bool} {a : Ans} {again ctl : Bool} (h : InvA s) (ha : s.alive = true) (hl : s.listener = false)
    (hp : s.write = false) (hw2 : s.wready2 = false)
    (he : (let s1 := { (s.request .wr).dropHup with wk := .io, wid := s.next, write := true, sendfile := sf }
      if s.wready then
        if main then Res.ok (addList s1 .ready) else writeEvent s1 a again ctl
      else .ok (waitWrite s1 ctl)) = .ok s') : InvA s' := by
  have hck : ∀ k, s.cur = some k → k.wr = false := by
    intro k e
    cases e2 : k.wr
    · rfl
    · have := h.cur_wr k e e2; rw [hp] at this; cases this
  have hc2 : ∀ k, s.cur = some k → k.rd = true → s.loc = .none := by
    intro k e e2
    cases e3 : s.loc
    · rfl
    all_goals (have := h.cur_loc k e e2 (by rw [e3]; decide); rw [hp] at this; cases this)
  have hn := newWrite_invA (k := .io) (w2 := s.wready2) (sf := sf) (n2 := s.nextW) h hl hp (fun e => by rw [hw2] at e; cases e) (fun _ => rfl) ha hw2
  have hlo : s.loc ≠ .none → s.read = true ∨ (s.stale || s.rdhup) = true := by have := h.listed hl; grind
  dsimp only at he
  split at he
  · split at he
    · simp only [Res.ok.injEq] at he; subst he
      refine hn.addList _ (fun _ => Or.inr (Or.inl rfl)) (fun e => by rw [show s.listener = true from e] at hl; cases hl)
        (fun k e1 e2 => rfl) ha
    · exact writeEvent_invA hn (Or.inl rfl) hck hc2 hlo hl he
  · simp only [Res.ok.injEq] at he; subst he
    refine waitWrite_invA hn hl rfl (fun k e => ⟨hck k e, hc2 k e⟩) hlo (fun e => ?_)
    rw [show s.wready2 = true from e] at hw2; cases hw2

theorem Outstanding.rd_of_pr {s : St} (h : InvA s) {id : Nat} (ho : Outstanding s id .rd) : s.pr = true := by
  obtain ⟨a, b, c, d⟩ := ho
  rcases h.acct id a with e | e | e | e
  · exact absurd e c
  · exact absurd e d
  · exact e.1
  · exfalso
    rcases e.1 with e1 | e1
    · have := (h.out_w e1).2.1; rw [← e.2, b] at this; cases this
    · have := (h.out_h e1).2.1; rw [← e.2, b] at this; cases this

set_option maxHeartbeats 2000000 in
/-- every operation of a caller that keeps the rules preserves the invariant -/
theorem step_invA {s s' : St} {op : Op} (h : InvA s) (hc : Client s op) (he : step s op = .ok s') : InvA s' := by
  cases op with
  | read main a ctl =>
    obtain ⟨ha, hl, ho⟩ := hc
    exact step_read_invA h ha hl (h.noR ho) he
  | accept ctl =>
    obtain ⟨ha, hl, ho⟩ := hc
    have hp := h.noR ho
    have hck : ∀ k, s.cur = some k → k.rd = false := by
      intro k e
      cases e2 : k.rd
      · rfl
      · have := h.cur_rd k e e2; rw [hp] at this; cases this
    have hn : InvA { s.request .rd with rk := .accept, rid := s.next, pr := true, read := true } := by
      obtain ⟨h1, h2, h3, h4, h5, h6, h7, h8, h9, h10, h11, h12, h13, h14, h15, h16, h17, h18, h19, h20, h21, h22, h23, h24, h25, h26, h27, h28, h29⟩ := h
      simp only [St.request]
      clear he
      inv_auto
    have hloc : s.loc ≠ .none → s.et = true := by
      intro e
      cases e2 : s.et
      · exact absurd (h.lst_idle hl e2 hp) e
      · rfl
    have w := waitAccept_invA (ctl := ctl) hn hl rfl ha hck hloc
    unfold step at he
    dsimp only at he
    rw [if_neg (by rw [ha]; simp)] at he
    generalize waitAccept { s.request .rd with rk := .accept, rid := s.next, pr := true, read := true } ctl = x at *
    obtain ⟨s2, ok⟩ := x
    cases ok <;> simp only [if_true, if_false, Bool.false_eq_true, Res.ok.injEq] at he <;> subst he
    · exact w.2 rfl
    · exact w.1 rfl
  | write main a again ctl =>
    obtain ⟨ha, hl, ho, hw⟩ := hc
    have hp := h.noW ho
    have hw2 := h.noW2 hp hw
    have hsf : s.sendfile = false := by
      cases e : s.sendfile
      · rfl
      · have := (h.sf_write e).1; rw [hp] at this; cases this
    refine step_write_invA (sf := false) (main := main) (a := a) (again := again) (ctl := ctl) h ha hl hp hw2 ?_
    rw [← he]
    simp only [step, ha, hp, hw2, Bool.true_eq_false, Bool.false_eq_true, or_self, if_false, St.request, St.dropHup, hsf]
  | sendfile main a again ctl =>
    obtain ⟨ha, hl, ho, hw⟩ := hc
    have hp := h.noW ho
    have hw2 := h.noW2 hp hw
    have hsf : s.sendfile = false := by
      cases e : s.sendfile
      · rfl
      · have := (h.sf_write e).1; rw [hp] at this; cases this
    refine step_write_invA (sf := true) (main := main) (a := a) (again := again) (ctl := ctl) h ha hl hp hw2 ?_
    rw [← he]
    simp only [step, ha, hp, hsf, Bool.true_eq_false, Bool.false_eq_true, or_self, if_false]
  | nextRead =>
    obtain ⟨ha, hl, ho, hreg⟩ := hc
    have hp := h.noR ho
    have het := h.rev_et (Or.inr (Or.inr (Or.inl hreg)))
    have hn := newRead_invA (k := .null) (r2 := true) h hl hp (by decide) (fun _ => rfl) ha
    have hck : ∀ k, s.cur = some k → k.rd = true → s.write = true := by
      intro k e e2
      have := h.cur_rd k e e2; rw [hp] at this; cases this
    unfold step at he
    dsimp only at he
    split at he
    · cases he
    · simp only [Res.ok.injEq] at he; subst he
      have hn' : InvA { (s.request .rd).dropHup with rk := .null, rid := s.next, pr := true, read := true, rready2 := true } := by
        refine hn.congr rfl (fun _ _ => het) (fun _ => het) (fun _ => Or.inl het) (fun e => by cases e) (fun e => by rw [show s.listener = true from e] at hl; cases hl)
          (fun e => by rw [show s.listener = true from e] at hl; cases hl)
      exact hn'.addList _ (fun _ => Or.inl rfl) (fun e => by rw [show s.listener = true from e] at hl; cases hl) hck ha
  | nextWrite =>
    obtain ⟨ha, hl, ho, hw⟩ := hc
    have hp := h.noW ho
    have hw2 := h.noW2 hp hw
    have hsf : s.sendfile = false := by
      cases e : s.sendfile
      · rfl
      · have := (h.sf_write e).1; rw [hp] at this; cases this
    have hn := newWrite_invA (k := .null) (w2 := true) (sf := s.sendfile) (n2 := true) h hl hp (fun _ => ⟨rfl, rfl⟩) (fun e => by rw [hsf] at e; cases e) ha hw2
    unfold step at he
    dsimp only at he
    split at he
    · cases he
    · simp only [Res.ok.injEq] at he; subst he
      exact hn.addList _ (fun _ => Or.inr (Or.inl rfl)) (fun e => by rw [show s.listener = true from e] at hl; cases hl) (fun _ _ _ => rfl) ha
  | connect ctl =>
    obtain ⟨ha, hl, hn0⟩ := hc
    unfold step at he
    dsimp only at he
    split at he
    · cases he
    · rename_i hne
      have hw2 : s.wready2 = false := by
        cases e : s.wready2
        · rfl
        · have hd : s.done = [] := by
            cases e3 : s.done with
            | nil => rfl
            | cons p l => have := h.done_lt p.1 (by rw [e3]; simp); omega
          have := (h.wr2 e).2
          rw [hd] at this
          simp only [not_or] at hne
          simp_all
      simp only [not_or, Bool.not_eq_true] at hne
      obtain ⟨-, k1, k2, k3, k4, k5⟩ := hne
      obtain ⟨i1, i2, i3, i4⟩ := h.idle hn0
      obtain ⟨h1, h2, h3, h4, h5, h6, h7, h8, h9, h10, h11, h12, h13, h14, h15, h16, h17, h18, h19, h20, h21, h22, h23, h24, h25, h26, h27, h28, h29⟩ := h
      rcases addEventRW_cases { s.request .wr with wk := .null, wid := s.next, write := true } ctl with ⟨n, q, e⟩ | e
      · rw [e] at he
        simp only [if_true, Res.ok.injEq, addList, St.request] at he; subst he
        clear e
        inv_auto
      · rw [e] at he
        simp only [if_false, Bool.false_eq_true, Res.ok.injEq, St.finishW, St.request] at he; subst he
        clear e
        inv_auto
  | readhup ctl =>
    obtain ⟨ha, hl⟩ := hc
    unfold step at he
    dsimp only at he
    rw [if_neg (by rw [ha]; simp)] at he
    split at he
    · cases he; exact h
    · rename_i hne
      simp only [Bool.or_eq_true, not_or, Bool.not_eq_true] at hne
      obtain ⟨k1, k2⟩ := hne
      have hpr : s.pr = false := by cases e : s.pr; rfl; rw [h.pr_read e] at k1; cases k1
      have hn : InvA { (s.request .hup).dropHup with wk := .null, wid := s.next, rdhup := true } := by
        obtain ⟨h1, h2, h3, h4, h5, h6, h7, h8, h9, h10, h11, h12, h13, h14, h15, h16, h17, h18, h19, h20, h21, h22, h23, h24, h25, h26, h27, h28, h29⟩ := h
        clear he
        simp only [St.request, St.dropHup]
        cases hh : s.rdhup <;> simp only [cond_true, cond_false] <;> inv_auto
      split at he
      · simp only [if_true, Res.ok.injEq] at he; subst he; exact hn
      · have hne : s.next + 1 ≠ 0 := by omega
        rcases addEventRW_cases { (s.request .hup).dropHup with wk := .null, wid := s.next, rdhup := true } ctl with ⟨n, q, e⟩ | e <;> rw [e] at he
        · simp only [if_true, Res.ok.injEq] at he; subst he
          exact hn.congr rfl (fun _ _ => rfl) (fun _ => rfl) (fun _ => Or.inl rfl) (fun e => absurd e hne)
            (fun e => by rw [show s.listener = true from e] at hl; cases hl) (fun e => by rw [show s.listener = true from e] at hl; cases hl)
        · simp only [if_false, Bool.false_eq_true, Res.ok.injEq, St.finishW] at he; subst he
          clear e
          have hn1 : InvA { { (s.request .hup).dropHup with wk := .null, wid := s.next, rdhup := true } with rev := true, et := true, wready := true, wev := true } :=
            hn.congr rfl (fun _ _ => rfl) (fun _ => rfl) (fun _ => Or.inl rfl) (fun e => absurd e hne)
              (fun e => by rw [show s.listener = true from e] at hl; cases hl) (fun e => by rw [show s.listener = true from e] at hl; cases hl)
          have hloc : s.loc ≠ .none → s.rdhup = true ∨ s.stale = true := by have := h.listed hl; grind
          have hck : ∀ k, s.cur = some k → k.wr = false ∧ k.rd = false := by
            intro k e
            have a1 := h.cur_wr k e
            have a2 := h.cur_rd k e
            cases e1 : k.wr <;> cases e2 : k.rd <;> simp_all
          have hlo : s.loc ≠ .none → s.read = true ∨ (s.stale || s.rdhup) = true := by grind
          have := finishW_invA (o := .noPoll) (w2 := s.wready2) (ko := s.kout) hn1 (Or.inr rfl) (fun k e => (hck k e).1)
            (fun k e e2 => by rw [(hck k e).2] at e2; cases e2) hlo hl ?_
          · have hsf : s.sendfile = false := by
              cases e : s.sendfile
              · rfl
              · have := (h.sf_write e).1; rw [k2] at this; cases this
            simp only [St.request, St.dropHup, hsf, k2] at this ⊢
            exact this
          · intro e
            obtain ⟨e1, e2⟩ := h.wr2 e
            refine ⟨e1, ?_⟩
            rcases e2 with e2 | e2
            · rw [k2] at e2; cases e2.1
            · exact List.mem_cons_of_mem _ e2
  | removeReadhup =>
    obtain ⟨ha, hl⟩ := hc
    unfold step at he
    dsimp only at he
    rw [if_neg (by rw [ha]; simp)] at he
    split at he
    · cases he; exact h
    · split at he
      · cases he
      · rename_i hh hne
        have g : InvA s.dropHup := by
          obtain ⟨h1, h2, h3, h4, h5, h6, h7, h8, h9, h10, h11, h12, h13, h14, h15, h16, h17, h18, h19, h20, h21, h22, h23, h24, h25, h26, h27, h28, h29⟩ := h
          clear he
          simp only [St.dropHup]
          cases e : s.rdhup <;> simp only [cond_true, cond_false] <;> inv_auto
        exact remove_invA g hl he
  | listen =>
    obtain ⟨ha, hn0⟩ := hc
    unfold step at he
    dsimp only at he
    rw [if_neg (by rw [ha]; simp)] at he
    simp only [Res.ok.injEq] at he; subst he
    have hd : s.done = [] := by
      cases e3 : s.done with
      | nil => rfl
      | cons p l => have := h.done_lt p.1 (by rw [e3]; simp); omega
    obtain ⟨h1, h2, h3, h4, h5, h6, h7, h8, h9, h10, h11, h12, h13, h14, h15, h16, h17, h18, h19, h20, h21, h22, h23, h24, h25, h26, h27, h28, h29⟩ := h
    have k1 := h20 hn0
    have k2 := h21 hn0
    inv_auto
  | nextShutdown =>
    obtain ⟨ha, hl, hcu, ho⟩ := hc
    unfold step at he
    dsimp only at he
    rw [if_neg (by rw [ha]; simp)] at he
    simp only [Res.ok.injEq] at he; subst he
    have hg : InvA { s with rready := true, err := true, kin := true, khup := true, queued := s.queued || s.regI || s.regO } :=
      h.congr rfl (fun e => by rw [show s.listener = false from e] at hl; cases hl) h.rev_et (fun e => Or.inl e) (fun e => ⟨(h.fresh e).2.2.2.1, (h.fresh e).2.2.2.2, (h.idle e).1⟩)
        (fun _ e => Or.inl e) (fun e => ⟨(h.lst e).2.2.2.2.2.1, h.lst_rev e⟩)
    refine hg.addList _ (fun e => by rw [show s.listener = false from e] at hl; cases hl) (fun _ => ?_) (fun k e => by rw [show s.cur = some k from e] at hcu; cases hcu) ha
    rcases ho with ⟨id, ho⟩ | ho
    · exact Or.inr (Outstanding.rd_of_pr (s := s) h ho)
    · exact Or.inl (h.rev_et (Or.inr (Or.inr (Or.inl ho))))
  | remove =>
    obtain ⟨ha, hl, ho⟩ := hc
    unfold step at he
    dsimp only at he
    rw [if_neg (by rw [ha]; simp)] at he
    exact remove_invA h hl he
  | destroy =>
    obtain ⟨ha, hl, ho, hst⟩ := hc
    have e1 := h.noR (fun id => ho id _)
    have e2 := h.noW (fun id => ho id _)
    have e3 := h.noH (fun id => ho id _)
    have e4 := h.noRead hl e1
    unfold step at he
    dsimp only at he
    split at he
    · cases he
    · rename_i hne
      simp only [not_or] at hne
      have hloc : s.loc = .none := by simpa using hne.2.2.2
      cases hr : remove s with
      | ub => rw [hr] at he; cases he
      | disabled => rw [hr] at he; cases he
      | ok s1 =>
        rw [hr] at he
        simp only [Res.ok.injEq] at he; subst he
        have g := remove_invA h hl hr
        have f : s1.pr = false ∧ s1.read = false ∧ s1.write = false ∧ s1.rdhup = false ∧ s1.loc = .none := by
          unfold remove at hr
          split at hr
          · cases hr; exact ⟨e1, e4, e2, e3, hloc⟩
          · dsimp only at hr
            split at hr
            · cases hr
            · simp only [Res.ok.injEq, addList] at hr; subst hr; exact ⟨e1, e4, e2, e3, rfl⟩
        clear hr h
        obtain ⟨h1, h2, h3, h4, h5, h6, h7, h8, h9, h10, h11, h12, h13, h14, h15, h16, h17, h18, h19, h20, h21, h22, h23, h24, h25, h26, h27, h28, h29⟩ := g
        clear ho
        inv_auto
  | expire =>
    unfold step at he
    dsimp only at he
    split at he
    · split at he
      · cases he
      · simp only [Res.ok.injEq] at he; subst he
        obtain ⟨h1, h2, h3, h4, h5, h6, h7, h8, h9, h10, h11, h12, h13, h14, h15, h16, h17, h18, h19, h20, h21, h22, h23, h24, h25, h26, h27, h28, h29⟩ := h
        inv_auto
    · cases he
  | select =>
    unfold step at he
    dsimp only at he
    split at he
    · split at he
      · cases he
      · rename_i h1 h2
        simp only [Res.ok.injEq] at he; subst he
        exact select_invA h h1.1 (by simpa using h2)
    · cases he
  | popWrite a again ctl =>
    unfold step at he
    dsimp only at he
    split at he
    · rename_i hcur
      obtain ⟨hcu, hlo⟩ := hcur
      split at he
      · cases he
      · rename_i hal
        have hb : ∀ k : Snap, (k.todoR = true → k.rd = true) → (k.rd = true → s.pr = true) → (k.wr = true → s.write = true) →
            InvA { addList s .none with cur := some k } := by
          intro k k1 k2 k3
          obtain ⟨h1, h2, h3, h4, h5, h6, h7, h8, h9, h10, h11, h12, h13, h14, h15, h16, h17, h18, h19, h20, h21, h22, h23, h24, h25, h26, h27, h28, h29⟩ := h
          clear he
          simp only [addList]
          inv_auto
        have hrp : s.read = true → s.pr = true := by
          intro e
          cases hl : s.listener
          · exact (h.read_pr hl e).1
          · cases e2 : s.et
            · cases e3 : s.pr
              · have := h.lst_idle hl e2 e3; rw [hlo] at this; cases this
              · rfl
            · exact h.lst_et hl e2 e
        split at he
        · rename_i hw
          simp only [Bool.and_eq_true, Bool.or_eq_true] at hw
          have hl : s.listener = false := by
            cases e : s.listener
            · rfl
            · have := h.lst e; rcases hw.2 with e2 | e2 <;> simp_all
          refine writeEvent_invA (hb _ ?_ ?_ ?_) hw.2 ?_ (fun _ _ _ => rfl) (fun e => absurd rfl e) hl he
          · intro e; simp only [Bool.and_eq_true] at e; exact e.2
          · exact hrp
          · intro e; cases e
          · intro k e; cases e; rfl
        · simp only [Res.ok.injEq] at he; subst he
          refine hb _ ?_ ?_ ?_
          · intro e; simp only [Bool.and_eq_true] at e; exact e.2
          · exact hrp
          · exact fun e => e
    · cases he
  | popRead a ctl =>
    unfold step at he
    dsimp only at he
    split at he
    · rename_i k hk
      split at he
      · rename_i ht
        have hrd := h.cur_todo k hk ht
        have hp := h.cur_rd k hk hrd
        refine readEvent_invA (s := { s with cur := some { k with todoR := false, rd := false } }) ?_ hp ?_ (fun e => Or.inl (h.cur_loc k hk hrd e)) he
        · obtain ⟨h1, h2, h3, h4, h5, h6, h7, h8, h9, h10, h11, h12, h13, h14, h15, h16, h17, h18, h19, h20, h21, h22, h23, h24, h25, h26, h27, h28, h29⟩ := h
          clear he
          inv_auto
        · intro k' e; cases e; rfl
      · cases he
    · cases he
  | popEnd =>
    unfold step at he
    dsimp only at he
    split at he
    · rename_i k hk
      have hn : InvA { s with cur := none } := by
        obtain ⟨h1, h2, h3, h4, h5, h6, h7, h8, h9, h10, h11, h12, h13, h14, h15, h16, h17, h18, h19, h20, h21, h22, h23, h24, h25, h26, h27, h28, h29⟩ := h
        clear he
        inv_auto
      split at he
      · cases he
      · split at he
        · rename_i hrw
          simp only [Bool.and_eq_true, Bool.or_eq_true] at hrw
          split at he
          · cases he
          · rename_i hal
            simp only [Res.ok.injEq] at he
            split at he
            · subst he
              refine hn.addList .rw (fun _ => ?_) (fun e => ?_) (fun k e => by cases e) (by simpa using hal)
              · rcases hrw.1 with e | e
                · exact Or.inl (h.pr_read (h.cur_rd k hk e))
                · exact Or.inr (Or.inl (h.cur_wr k hk e))
              · rcases hrw.1 with e1 | e1
                · exact Or.inr (h.cur_rd k hk e1)
                · have := (h.lst e).1; rw [h.cur_wr k hk e1] at this; cases this
            · subst he; exact hn
        · simp only [Res.ok.injEq] at he; subst he; exact hn
    · cases he
  | dataIn => unfold step at he; dsimp only at he; simp only [Res.ok.injEq] at he; subst he; exact h.kernel ..
  | spaceOut => unfold step at he; dsimp only at he; simp only [Res.ok.injEq] at he; subst he; exact h.kernel ..
  | hangup => unfold step at he; dsimp only at he; simp only [Res.ok.injEq] at he; subst he; exact h.kernel ..

end Kasync.Epoll
