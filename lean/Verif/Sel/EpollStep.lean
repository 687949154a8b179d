import Verif.Sel.EpollInv

/-! # Epoll selector: every operation keeps the accounting invariant -/

namespace Kasync.Epoll

theorem finishW_invA {s : St} {o : Out} (h : InvA s) (hp : s.write = true ∨ s.rdhup = true)
    (hc : ∀ k, s.cur = some k → k.wr = false) (hc2 : ∀ k, s.cur = some k → k.rd = true → s.loc = .none)
    (hloc : s.loc ≠ .none → s.read = true ∨ s.stale = true) (hl : s.listener = false)
    {w2 ko : Bool} (h2 : w2 = true → s.nextW = true ∧ Out.hungUp ∈ o :: s.done.map Prod.snd) :
    InvA { s with done := s.done ++ [(s.wid, o)], write := false, rdhup := false, sendfile := false, wready2 := w2, kout := ko } := by
  obtain ⟨h1, h2, h3, h4, h5, h6, h7, h8, h9, h10, h11, h12, h13, h14, h15, h16, h17, h18, h19, h20, h21, h22, h23, h24, h25, h26, h27, h28, h29⟩ := h
  inv_auto

theorem writeEvent_invA {s s' : St} {a : Ans} {again ctl : Bool} (h : InvA s) (hp : s.write = true ∨ s.rdhup = true)
    (hc : ∀ k, s.cur = some k → k.wr = false) (hc2 : ∀ k, s.cur = some k → k.rd = true → s.loc = .none)
    (hloc : s.loc ≠ .none → s.read = true ∨ s.stale = true) (hl : s.listener = false)
    (he : writeEvent s a again ctl = .ok s') : InvA s' := by
  have hF : ∀ o w2 ko, (w2 = true → s.nextW = true ∧ Out.hungUp ∈ o :: s.done.map Prod.snd) → 
    InvA { s with done := s.done ++ [(s.wid, o)], write := false, rdhup := false, sendfile := false, wready2 := w2, kout := ko } :=
    fun o w2 ko h2 => finishW_invA h hp hc hc2 hloc hl h2
  unfold writeEvent at he
  split at he
  · cases he
  · by_cases hse : s.sendfile = false ∧ s.err = true
    · simp only [if_pos hse, Res.ok.injEq, St.finishW] at he
      subst he
      refine hF .hungUp s.wready2 s.kout (fun e => ⟨(h.wr2 e).1, List.mem_cons_self⟩)
    · have hw2 : s.sendfile = true → s.wready2 = true → s.nextW = true ∧ Out.hungUp ∈ s.done.map Prod.snd := by
        intro e1 e2
        have a1 := h.sf_write e1
        have a2 := h.wr2 e2
        rw [a1.2] at a2
        simpa using a2
      simp only [if_neg hse] at he
      have hw2' : ∀ o, (s.sendfile && s.wready2) = true → s.nextW = true ∧ Out.hungUp ∈ o :: s.done.map Prod.snd := by
        intro o e
        simp only [Bool.and_eq_true] at e
        exact ⟨(hw2 e.1 e.2).1, List.mem_cons_of_mem _ (hw2 e.1 e.2).2⟩
      split at he
      · simp only [Res.ok.injEq, St.finishW] at he; subst he
        exact hF .zero _ s.kout (hw2' _)
      · rename_i hk
        have hh : s.rdhup = false := by have := h.hup_excl; grind
        have hw : s.write = true := by grind
        split at he
        · simp only [Res.ok.injEq] at he; subst he
          have g : InvA { s with wready2 := s.sendfile && s.wready2 } := by
            obtain ⟨h1, h2, h3, h4, h5, h6, h7, h8, h9, h10, h11, h12, h13, h14, h15, h16, h17, h18, h19, h20, h21, h22, h23, h24, h25, h26, h27, h28, h29⟩ := h
            inv_auto
          refine waitWrite_invA ?_ hl rfl (fun k e => ⟨hc k e, hc2 k e⟩) hloc ?_
          · refine g.congr ?_ g.rr_et g.rev_et (fun e => Or.inl e) (fun e => ⟨(g.fresh e).2.2.2.1, (g.fresh e).2.2.2.2, (g.idle e).1⟩)
              (fun _ e => Or.inl e) (fun e => ⟨(g.lst e).2.2.2.2.2.1, g.lst_rev e⟩)
            simp only [Same, hw, hh]
          · intro e; simp only [Bool.and_eq_true] at e; exact hw2 e.1 e.2
        · split at he <;> simp only [Res.ok.injEq, St.finishW] at he <;> subst he
          · exact hF _ _ _ (hw2' _)
          · exact hF .sysErr _ s.kout (hw2' _)

theorem newRead_invA {s : St} {k : RKind} {r2 : Bool} (h : InvA s) (hl : s.listener = false) (hp : s.pr = false)
    (hk : k ≠ .accept) (hk2 : r2 = true → k = .null) (ha : s.alive = true) :
    InvA { (s.request .rd).dropHup with rk := k, rid := s.next, pr := true, read := true, rready2 := r2, et := true } := by
  obtain ⟨h1, h2, h3, h4, h5, h6, h7, h8, h9, h10, h11, h12, h13, h14, h15, h16, h17, h18, h19, h20, h21, h22, h23, h24, h25, h26, h27, h28, h29⟩ := h
  simp only [St.request, St.dropHup]
  cases hh : s.rdhup <;> simp only [cond_true, cond_false] <;> inv_auto

theorem newWrite_invA {s : St} {k : WKind} {w2 sf n2 : Bool} (h : InvA s) (hl : s.listener = false) (hp : s.write = false)
    (hk2 : w2 = true → n2 = true ∧ k = .null) (hsf : sf = true → k = .io) (ha : s.alive = true) (hw2 : s.wready2 = false) :
    InvA { (s.request .wr).dropHup with wk := k, wid := s.next, write := true, wready2 := w2, sendfile := sf, nextW := n2 } := by
  obtain ⟨h1, h2, h3, h4, h5, h6, h7, h8, h9, h10, h11, h12, h13, h14, h15, h16, h17, h18, h19, h20, h21, h22, h23, h24, h25, h26, h27, h28, h29⟩ := h
  simp only [St.request, St.dropHup]
  cases hh : s.rdhup <;> simp only [cond_true, cond_false] <;> inv_auto

theorem InvA.addList {s : St} (h : InvA s) (l : Loc) (h1 : s.listener = false → s.read = true ∨ s.write = true ∨ s.rdhup = true)
    (h2 : s.listener = true → s.et = true ∨ s.pr = true) (h3 : ∀ k, s.cur = some k → k.rd = true → s.write = true) (h4 : s.alive = true) :
    InvA (addList s l) := by
  obtain ⟨g1, g2, g3, g4, g5, g6, g7, g8, g9, g10, g11, g12, g13, g14, g15, g16, g17, g18, g19, g20, g21, g22, g23, g24, g25, g26, g27, g28, g29⟩ := h
  simp only [Epoll.addList]
  inv_auto

theorem remove_invA {s s' : St} (h : InvA s) (hl : s.listener = false) (he : remove s = .ok s') : InvA s' := by
  obtain ⟨g1, g2, g3, g4, g5, g6, g7, g8, g9, g10, g11, g12, g13, g14, g15, g16, g17, g18, g19, g20, g21, g22, g23, g24, g25, g26, g27, g28, g29⟩ := h
  unfold remove at he
  split at he
  · cases he; inv_auto
  · simp only at he
    split at he
    · cases he
    · simp only [Res.ok.injEq, Epoll.addList] at he; subst he
      inv_auto

theorem select_invA {s : St} (h : InvA s) (hc : s.cur = none) (ha : s.alive = true) : InvA (select s) := by
  obtain ⟨g1, g2, g3, g4, g5, g6, g7, g8, g9, g10, g11, g12, g13, g14, g15, g16, g17, g18, g19, g20, g21, g22, g23, g24, g25, g26, g27, g28, g29⟩ := h
  unfold select
  simp only
  split
  · generalize hb : ((s.khup && (s.write || s.rdhup)) || (!s.khup && (s.kout && s.regO) && s.write) || ((s.kin || s.khup) && s.read)) = b
    cases b <;> simp only [cond_true, cond_false]
    · inv_auto
    · have : s.read = true ∨ s.write = true ∨ s.rdhup = true := by grind
      inv_auto
  · inv_auto

end Kasync.Epoll
