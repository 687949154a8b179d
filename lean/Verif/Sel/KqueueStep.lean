import Verif.Sel.KqueueInv

/-! # Kqueue selector: every operation keeps the accounting invariant -/

namespace Kasync.Kq

theorem wake_inv {s : St} {r w : Bool} (h : Inv s) : Inv (wake s r w) := by
  obtain ⟨g1, g2, g3, g4, g5, g6, g7, g8, g9, g10, g11, g12, g13, g14, g15, g16, g17, g18, g19, g20, g21, g22, g23, g24⟩ := h
  unfold wake
  inv_auto

theorem kern_inv {s : St} {a b e f : Bool} (h : Inv s) : Inv { s with kin := a, kout := b, eof := e, shut := f } := by
  obtain ⟨g1, g2, g3, g4, g5, g6, g7, g8, g9, g10, g11, g12, g13, g14, g15, g16, g17, g18, g19, g20, g21, g22, g23, g24⟩ := h
  inv_auto

theorem ready_inv {s : St} (h : Inv s) (ha : s.alive = true) (hp : s.read = true ∨ s.write = true)
    (hc : ∀ k, s.cur = some k → k.rd = true → s.write = true) : Inv (addList s .ready) := by
  obtain ⟨g1, g2, g3, g4, g5, g6, g7, g8, g9, g10, g11, g12, g13, g14, g15, g16, g17, g18, g19, g20, g21, g22, g23, g24⟩ := h
  unfold addList
  inv_auto

set_option maxHeartbeats 4000000 in
theorem step_inv {s s' : St} {op : Op} (h : Inv s) (hc : Client s op) (he : step s op = .ok s') : Inv s' := by
  have hR := h.reading
  have hW := h.writing
  have hC := h.connecting
  have hrid : s.req s.rid = .rd ∨ s.read = false := by
    cases hr : s.read
    · exact Or.inr rfl
    · exact Or.inl (h.out_r hr).2
  cases op <;> unfold step at he <;> dsimp only at he
  case read main a c =>
    obtain ⟨ha, hn, hnc⟩ := hc
    have hr : s.read = false := by simpa [hR] using hn
    have h2 : s.rready2 = false := by have := h.rr2; grind
    rw [if_neg (by simp [ha, hr])] at he
    have hN := newRead_inv (k := .io) (r2 := false) h hr (by simp) ha
    have hcur : ∀ k, s.cur = some k → k.rd = false := by have := h.cur_rd; grind
    have hloc : s.loc ≠ .none → s.write = true := by have := h.listed; grind
    split at he
    · rename_i hrr
      have het : s.et = true := h.rr_et hrr
      have hN' : Inv { s.request .rd with rk := .io, rid := s.next, read := true } := by
        have : ({ s.request .rd with rk := .io, rid := s.next, read := true } : St) =
            { s.request .rd with rk := .io, rid := s.next, read := true, rready2 := false, et := true } := by
          simp only [St.nrequest, St.request, h2, het]
        rw [this]; exact hN
      split at he
      · cases he
        refine ready_inv hN' ha (Or.inl rfl) ?_
        intro k hk hkr
        have := hcur k hk
        rw [hkr] at this; cases this
      · exact readEvent_inv hN' rfl hcur hloc he
    · cases he
      have : ({ s.request .rd with rk := .io, rid := s.next, read := true } : St) =
            { s.request .rd with rk := .io, rid := s.next, read := true, rready2 := false } := by
          simp only [St.nrequest, St.request, h2]
      rw [this]
      exact waitRead_inv hN rfl rfl (fun e => h.rev_et (Or.inl e)) ha hcur hloc
  case write main a again c =>
    obtain ⟨ha, hn, hsf⟩ := hc
    have hw : s.write = false := by simpa [hW] using hn
    have h2 : s.wready2 = false := by have := h.wr2; grind
    have h3 : s.sendfile = false := by have := h.sf; grind
    rw [if_neg (by simp [ha, hw, h2])] at he
    have hN := newWrite_inv (k := .io) (w2 := false) (sf := false) (q := .wr) h hw (by simp) (by simp) (by decide) (by decide) ha
    have hN' : Inv { s.request .wr with wk := .io, wid := s.next, write := true } := by
      have : ({ s.request .wr with wk := .io, wid := s.next, write := true } : St) =
          { s.request .wr with wk := .io, wid := s.next, write := true, wready2 := false, sendfile := false } := by
        simp only [St.nrequest, St.request, h2, h3]
      rw [this]; exact hN
    have hcur : ∀ k, s.cur = some k → k.wr = false ∧ (k.rd = true → s.loc = .none) := by have := h.cur_wr; have := h.cur_loc; grind
    have hloc : s.loc ≠ .none → s.read = true := by have := h.listed; grind
    split at he
    · split at he
      · cases he
        exact ready_inv hN' ha (Or.inr rfl) (fun _ _ _ => rfl)
      · exact writeEvent_inv hN' rfl hcur hloc he
    · cases he
      exact waitWrite_inv hN' rfl h2 ha hcur hloc
  case sendfile main a again c =>
    obtain ⟨ha, hn, hsf, -⟩ := hc
    have hw : s.write = false := by simpa [hW] using hn
    have h2 : s.wready2 = false := by have := h.wr2; grind
    rw [if_neg (by simp [ha, hw])] at he
    have hN := newWrite_inv (k := .file) (w2 := false) (sf := true) (q := .file) h hw (by simp) (by simp) (by decide) (by decide) ha
    have hN' : Inv { s.request .file with wk := .file, wid := s.next, write := true, sendfile := true } := by
      have : ({ s.request .file with wk := .file, wid := s.next, write := true, sendfile := true } : St) =
          { s.request .file with wk := .file, wid := s.next, write := true, wready2 := false, sendfile := true } := by
        simp only [St.nrequest, St.request, h2]
      rw [this]; exact hN
    have hcur : ∀ k, s.cur = some k → k.wr = false ∧ (k.rd = true → s.loc = .none) := by have := h.cur_wr; have := h.cur_loc; grind
    have hloc : s.loc ≠ .none → s.read = true := by have := h.listed; grind
    split at he
    · split at he
      · cases he
        exact ready_inv hN' ha (Or.inr rfl) (fun _ _ _ => rfl)
      · exact writeEvent_inv hN' rfl hcur hloc he
    · cases he
      exact waitWrite_inv hN' rfl h2 ha hcur hloc
  case nextRead =>
    obtain ⟨ha, hn, hnc, hreg⟩ := hc
    have hr : s.read = false := by simpa [hR] using hn
    have h2 : s.rready2 = false := by have := h.rr2; grind
    have het : s.et = true := h.rev_et (Or.inl (h.reg_rev hreg))
    rw [if_neg (by simp [ha, hr, h2])] at he
    have hN := newRead_inv (k := .null) (r2 := true) h hr (by simp) ha
    have : ({ s.nrequest .rd with rk := .null, rid := s.next, read := true, rready2 := true } : St) =
            { s.nrequest .rd with rk := .null, rid := s.next, read := true, rready2 := true, et := true } := by
          simp only [St.nrequest, St.request, het]
    rw [this] at he
    cases he
    refine ready_inv (hN.withNul (fun i => if i = s.next then true else s.nul i)) ha (Or.inl rfl) ?_
    intro k hk hkr
    have := h.cur_rd k hk hkr
    rw [hr] at this; cases this
  case nextWrite =>
    obtain ⟨ha, hn, hsf⟩ := hc
    have hw : s.write = false := by simpa [hW] using hn
    have h2 : s.wready2 = false := by have := h.wr2; grind
    have h3 : s.sendfile = false := by have := h.sf; grind
    rw [if_neg (by simp [ha, hw, h2])] at he
    have hN := newWrite_inv (k := .null) (w2 := true) (sf := false) (q := .wr) h hw (by simp) (by simp) (by decide) (by decide) ha
    have : ({ s.nrequest .wr with wk := .null, wid := s.next, write := true, wready2 := true } : St) =
          { s.nrequest .wr with wk := .null, wid := s.next, write := true, wready2 := true, sendfile := false } := by
        simp only [St.nrequest, St.request, h3]
    rw [this] at he
    cases he
    exact ready_inv (hN.withNul (fun i => if i = s.next then true else s.nul i)) ha (Or.inr rfl) (fun _ _ _ => rfl)
  case connect now c =>
    obtain ⟨ha, h0⟩ := hc
    obtain ⟨f1, f2, f3, f4, f5⟩ := h.fresh h0
    have h2 : s.wready2 = false := by have := h.wr2; grind
    have hd : s.done = [] := by
      cases hd : s.done with
      | nil => rfl
      | cons x l => have := h.done_lt x.1 (by simp [hd]); omega
    have h3 : s.sendfile = false := by have := h.sf; grind
    have hN := newWrite_inv (k := .null) (w2 := false) (sf := false) (q := .conn) h f2 (by simp) (by simp) (by decide) (by decide) ha
    rw [if_neg (by simp [ha, f1, f2, f3, f4])] at he
    simp only [addEventRW, St.nrequest, St.request, f3, Bool.false_eq_true, if_false, evAddR, evAddW, addList, St.finishW, Bool.or_false] at he
    simp only [St.nrequest, St.request] at hN
    obtain ⟨g1, g2, g3, g4, g5, g6, g7, g8, g9, g10, g11, g12, g13, g14, g15, g16, g17, g18, g19, g20, g21, g22, g23, g24⟩ := hN
    have hcur := h.cur_rd
    have hlisted := h.listed
    have hcurw := h.cur_wr
    clear hR hW hC hrid h
    cases c <;> simp only [if_true, if_false, Bool.false_eq_true, Res.ok.injEq] at he <;> subst he <;> dsimp only at * <;> inv_auto
  case remove =>
    obtain ⟨ha, hn, hm⟩ := hc
    have hr : s.read = false := by simpa [hR] using hn
    have hw : s.write = false := by simpa [hW] using hm
    rw [if_neg (by simp [ha])] at he
    cases he
    obtain ⟨g1, g2, g3, g4, g5, g6, g7, g8, g9, g10, g11, g12, g13, g14, g15, g16, g17, g18, g19, g20, g21, g22, g23, g24⟩ := h
    clear hR hW hC
    unfold remove
    split <;> inv_auto
  case destroy =>
    obtain ⟨ha, hn, hm⟩ := hc
    have hr : s.read = false := by simpa [hR] using hn
    have hw : s.write = false := by simpa [hW] using hm
    split at he
    · cases he
    cases he
    obtain ⟨g1, g2, g3, g4, g5, g6, g7, g8, g9, g10, g11, g12, g13, g14, g15, g16, g17, g18, g19, g20, g21, g22, g23, g24⟩ := h
    clear hR hW hC
    unfold remove
    split <;> inv_auto
  case expire =>
    split at he
    · rename_i hcl
      split at he
      · cases he
      cases he
      refine wake_inv ?_
      obtain ⟨g1, g2, g3, g4, g5, g6, g7, g8, g9, g10, g11, g12, g13, g14, g15, g16, g17, g18, g19, g20, g21, g22, g23, g24⟩ := h
      clear hR hW hC
      inv_auto
    · cases he
  case selectR =>
    split at he
    · split at he
      · cases he
      cases he
      have hqr := h.q_reg
      have hre := h.reg_rev
      have hve := h.rev_et
      obtain ⟨g1, g2, g3, g4, g5, g6, g7, g8, g9, g10, g11, g12, g13, g14, g15, g16, g17, g18, g19, g20, g21, g22, g23, g24⟩ := h
      clear hR hW hC
      split
      · inv_auto
      · inv_auto
    · cases he
  case selectW =>
    split at he
    · split at he
      · cases he
      cases he
      obtain ⟨g1, g2, g3, g4, g5, g6, g7, g8, g9, g10, g11, g12, g13, g14, g15, g16, g17, g18, g19, g20, g21, g22, g23, g24⟩ := h
      clear hR hW hC
      split
      · inv_auto
      · inv_auto
    · cases he
  case popWrite a again c =>
    split at he
    · rename_i hcl
      split at he
      · cases he
      split at he
      · rename_i hcond
        simp only [Bool.and_eq_true] at hcond
        refine writeEvent_inv ?_ ?_ ?_ ?_ he
        · obtain ⟨g1, g2, g3, g4, g5, g6, g7, g8, g9, g10, g11, g12, g13, g14, g15, g16, g17, g18, g19, g20, g21, g22, g23, g24⟩ := h
          clear hR hW hC he
          unfold addList
          inv_auto
        · exact hcond.2
        · intro k hk
          cases hk
          exact ⟨rfl, fun _ => rfl⟩
        · intro e; exact absurd rfl e
      · cases he
        obtain ⟨g1, g2, g3, g4, g5, g6, g7, g8, g9, g10, g11, g12, g13, g14, g15, g16, g17, g18, g19, g20, g21, g22, g23, g24⟩ := h
        clear hR hW hC
        unfold addList
        inv_auto
    · cases he
  case popRead a c =>
    split at he
    · rename_i k hk
      split at he
      · rename_i ht
        have hrd := h.cur_todo k hk ht
        refine readEvent_inv ?_ ?_ ?_ ?_ he
        · obtain ⟨g1, g2, g3, g4, g5, g6, g7, g8, g9, g10, g11, g12, g13, g14, g15, g16, g17, g18, g19, g20, g21, g22, g23, g24⟩ := h
          clear hR hW hC he
          inv_auto
        · exact h.cur_rd k hk hrd
        · intro k' hk'; cases hk'; rfl
        · exact h.cur_loc k hk hrd
      · cases he
    · cases he
  case popEnd =>
    split at he
    · rename_i k hk
      split at he
      · cases he
      obtain ⟨g1, g2, g3, g4, g5, g6, g7, g8, g9, g10, g11, g12, g13, g14, g15, g16, g17, g18, g19, g20, g21, g22, g23, g24⟩ := h
      clear hR hW hC
      split at he
      · split at he
        · cases he
        simp only [addList, Res.ok.injEq] at he
        split at he <;> subst he <;> inv_auto
      · cases he
        inv_auto
    · cases he
  case dataIn => cases he; exact wake_inv (kern_inv h)
  case spaceOut => cases he; exact wake_inv (kern_inv h)
  case hangup reset => cases he; exact wake_inv (kern_inv h)

theorem Hist.inv {s : St} (h : Hist Client s) : Inv s := by
  induction h with
  | init => exact inv_init
  | step op _ hc he ih => exact step_inv ih hc he

end Kasync.Kq
