import Verif.Sel.Epoll

/-! # Epoll selector: the rules of use and the accounting invariant -/

namespace Kasync.Epoll

/-! ## Vocabulary -/

/-- Request number `id` was made on side `d` and has been neither answered nor withdrawn. -/
def Outstanding (s : St) (id : Nat) (d : Side) : Prop :=
  id < s.next ∧ s.side id = d ∧ id ∉ s.done.map Prod.fst ∧ id ∉ s.withdrawn

/-- The rules a caller follows: a connection is used only while it exists, a listening socket only for accepting; at most one
read-side and one write-side request at a time; nothing outstanding when the connection is removed or destroyed.  Four rules
are there because of defects (see the findings at the end): `selectable_next_read` only on a connection the poller knows,
no write-side request after a `selectable_next_write` met a hang-up, a listening socket is shut down only while an accept waits or
the poller knows it, no destruction (without `selectable_remove` first) after a read or write superseded a readhup
(the shutdown runs from the selector's notice queue, so not inside a callback of this socket). -/
def Client (s : St) : Op → Prop
  | .read .. => s.alive = true ∧ s.listener = false ∧ ∀ id, ¬ Outstanding s id .rd
  | .nextRead => s.alive = true ∧ s.listener = false ∧ (∀ id, ¬ Outstanding s id .rd) ∧ s.regI = true
  | .accept _ => s.alive = true ∧ s.listener = true ∧ ∀ id, ¬ Outstanding s id .rd
  | .write .. | .sendfile .. | .nextWrite => s.alive = true ∧ s.listener = false ∧ (∀ id, ¬ Outstanding s id .wr) ∧
      (s.nextW = true → Out.hungUp ∉ s.done.map Prod.snd)
  | .connect _ => s.alive = true ∧ s.listener = false ∧ s.next = 0
  | .listen => s.alive = true ∧ s.next = 0
  | .readhup _ | .removeReadhup => s.alive = true ∧ s.listener = false
  | .remove => s.alive = true ∧ s.listener = false ∧ ∀ id d, ¬ Outstanding s id d
  | .destroy => s.alive = true ∧ s.listener = false ∧ (∀ id d, ¬ Outstanding s id d) ∧ s.stale = false
  | .nextShutdown => s.alive = true ∧ s.listener = true ∧ s.cur = none ∧ ((∃ id, Outstanding s id .rd) ∨ s.regI = true)
  | _ => True

/-- No `epoll_ctl` call fails for lack of memory. -/
def CtlOk : Op → Prop
  | .read _ _ ctl | .accept ctl | .write _ _ _ ctl | .sendfile _ _ _ ctl | .connect ctl | .readhup ctl
  | .popWrite _ _ ctl | .popRead _ ctl => ctl = true
  | _ => True

/-- States of a connection after any history of the caller, the kernel and the selector in which the caller keeps the rules
(`ok`). -/
inductive Hist (ok : St → Op → Prop) : St → Prop where
  | init : Hist ok {}
  | step {s s' : St} (op : Op) : Hist ok s → ok s op → step s op = .ok s' → Hist ok s'

/-! ## Accounting invariant, whatever `epoll_ctl` answers -/

structure InvA (s : St) : Prop where
  pr_read : s.pr = true → s.read = true
  read_pr : s.listener = false → s.read = true → s.pr = true ∧ s.et = true ∧ s.rk ≠ .accept
  rr_et : s.listener = false → s.rready = true → s.et = true
  listed : s.listener = false → s.loc ≠ .none → s.read = true ∨ s.write = true ∨ s.rdhup = true ∨ s.stale = true
  lst : s.listener = true → s.write = false ∧ s.rdhup = false ∧ s.wready2 = false ∧ s.rready2 = false ∧ s.sendfile = false ∧ s.wev = false ∧ s.stale = false
  lst_rk : s.listener = true → s.read = true → s.rk = .accept
  lst_et : s.listener = true → s.et = true → s.read = true → s.pr = true
  lst_idle : s.listener = true → s.et = false → s.pr = false → s.loc = .none
  hup_excl : s.rdhup = true → s.read = false ∧ s.write = false ∧ s.wk = .null
  sf_write : s.sendfile = true → s.write = true ∧ s.wk = .io
  rr2 : s.rready2 = true → s.pr = true ∧ s.rk = .null
  wr2 : s.wready2 = true → s.nextW = true ∧ ((s.write = true ∧ s.wk = .null) ∨ Out.hungUp ∈ s.done.map Prod.snd)
  cur_todo : ∀ k, s.cur = some k → k.todoR = true → k.rd = true
  cur_rd : ∀ k, s.cur = some k → k.rd = true → s.pr = true
  cur_loc : ∀ k, s.cur = some k → k.rd = true → s.loc ≠ .none → s.write = true
  cur_wr : ∀ k, s.cur = some k → k.wr = true → s.write = true
  dead : s.alive = false → s.pr = false ∧ s.read = false ∧ s.write = false ∧ s.rdhup = false ∧ s.loc = .none
  rev_et : s.rev = true ∨ s.wev = true ∨ s.regI = true ∨ s.regO = true → s.et = true
  lst_rev : s.listener = true → s.et = true → s.rev = true
  idle : s.next = 0 → s.et = false ∧ s.stale = false ∧ s.nextW = false ∧ s.pr = false
  fresh : s.next = 0 → s.read = false ∧ s.write = false ∧ s.rdhup = false ∧ s.rev = false ∧ s.wev = false
  done_lt : ∀ i ∈ s.done.map Prod.fst, i < s.next
  done_nodup : (s.done.map Prod.fst).Nodup
  wd_lt : ∀ i ∈ s.withdrawn, i < s.next ∧ i ∉ s.done.map Prod.fst
  wd_nodup : s.withdrawn.Nodup
  out_r : s.pr = true → Outstanding s s.rid .rd
  out_w : s.write = true → Outstanding s s.wid .wr
  out_h : s.rdhup = true → Outstanding s s.wid .hup
  acct : ∀ i, i < s.next → i ∈ s.done.map Prod.fst ∨ i ∈ s.withdrawn ∨ (s.pr = true ∧ i = s.rid) ∨
    ((s.write = true ∨ s.rdhup = true) ∧ i = s.wid)

theorem invA_init : InvA {} := by
  constructor <;> simp [Outstanding]

/-- Decides all fields of `InvA` by `grind`. -/
macro "inv_auto" : tactic => `(tactic| (constructor <;> simp only [Outstanding, List.map_append, List.map_cons, List.map_nil] at * <;> grind))

theorem finishR_invA {s : St} {o : Out} (h : InvA s) (hp : s.pr = true) (hc : ∀ k, s.cur = some k → k.rd = false)
    (hloc : s.loc ≠ .none → s.write = true ∨ s.stale = true)
    {r : Bool} (hl : s.listener = false ∨ s.et = true → r = false) (hq : r = true → s.read = true) :
    InvA { s with done := s.done ++ [(s.rid, o)], pr := false, read := r, rready2 := false } := by
  obtain ⟨h1, h2, h3, h4, h5, h6, h7, h8, h9, h10, h11, h12, h13, h14, h15, h16, h17, h18, h19, h20, h21, h22, h23, h24, h25, h26, h27, h28, h29⟩ := h
  have hr := h1 hp
  have hh : s.rdhup = false := by grind
  inv_auto

/-- `t` differs from `s` only in the kernel's fields, the readiness flags and the registration flags. -/
def Same (s t : St) : Prop :=
  t = { t with read := s.read, write := s.write, rdhup := s.rdhup, sendfile := s.sendfile, rready2 := s.rready2,
               wready2 := s.wready2, rk := s.rk, rid := s.rid, wk := s.wk, wid := s.wid, loc := s.loc, cur := s.cur,
               alive := s.alive, listener := s.listener, pr := s.pr, nextW := s.nextW, stale := s.stale, next := s.next, side := s.side,
               done := s.done, withdrawn := s.withdrawn }

theorem InvA.congr {s t : St} (h : InvA s) (e : Same s t)
    (h1 : t.listener = false → t.rready = true → t.et = true) (h2 : t.rev = true ∨ t.wev = true ∨ t.regI = true ∨ t.regO = true → t.et = true)
    (h3 : s.et = true → t.et = true ∨ (s.read = false ∧ s.listener = false))
    (h4 : t.next = 0 → t.rev = false ∧ t.wev = false ∧ t.et = false)
    (h5 : s.listener = true → t.et = true → s.et = true ∨ s.pr = true)
    (h6 : s.listener = true → t.wev = false ∧ (t.et = true → t.rev = true)) : InvA t := by
  rw [e] at h1 h2 h3 h4 h5 h6 ⊢
  obtain ⟨g1, g2, g3, g4, g5, g6, g7, g8, g9, g10, g11, g12, g13, g14, g15, g16, g17, g18, g19, g20, g21, g22, g23, g24, g25, g26, g27, g28, g29⟩ := h
  dsimp only at *
  clear e
  inv_auto

theorem epollCtl_cases (s : St) (m o c : Bool) :
    (∃ n q, epollCtl s m o c = ({ s with regI := true, regO := o, nospace := n, queued := q }, true)) ∨ epollCtl s m o c = (s, false) := by
  unfold epollCtl
  split
  · exact Or.inl ⟨_, _, rfl⟩
  · exact Or.inr rfl

theorem waitRead_invA {s : St} {ctl : Bool} (h : InvA { s with et := true }) (hl : s.listener = false) (hp : s.pr = true)
    (hc : ∀ k, s.cur = some k → k.rd = false) (hloc : s.loc ≠ .none → s.write = true ∨ s.stale = true) (hr : s.rev = true → s.et = true)
    (h2 : s.rready2 = false) : InvA (waitRead s ctl) := by
  have hn : s.next ≠ 0 := by have := (h.out_r hp).1; dsimp only at this; omega
  obtain ⟨g1, g2, g3, g4, g5, g6, g7, g8, g9, g10, g11, g12, g13, g14, g15, g16, g17, g18, g19, g20, g21, g22, g23, g24, g25, g26, g27, g28, g29⟩ := h
  dsimp only at *
  unfold waitRead
  by_cases hv : s.rev = true
  · simp only [hv, if_true, addList]
    split <;> inv_auto
  · simp only [hv, if_false, addList, addEventR]
    rcases epollCtl_cases { s with rev := true, et := true, wready := true } s.wev s.wev ctl with ⟨n, q, e⟩ | e
    · rw [e]; simp only [if_true]
      split <;> inv_auto
    · rw [e]; simp only [if_false, St.finishR]
      inv_auto

theorem addEventRW_cases (s : St) (c : Bool) :
    (∃ n q, addEventRW s c = ({ s with rev := true, et := true, wready := true, wev := true, regI := true, regO := true, nospace := n, queued := q }, true)) ∨
      addEventRW s c = ({ s with rev := true, et := true, wready := true, wev := true }, false) := by
  unfold addEventRW
  rcases epollCtl_cases { s with rev := true, et := true, wready := true, wev := true } (s.wev || s.rev) true c with ⟨n, q, e⟩ | e
  · exact Or.inl ⟨n, q, e⟩
  · exact Or.inr e

theorem waitWrite_invA {s : St} {ctl : Bool} (h : InvA s) (hl : s.listener = false) (hp : s.write = true)
    (hc : ∀ k, s.cur = some k → k.wr = false ∧ (k.rd = true → s.loc = .none)) (hloc : s.loc ≠ .none → s.read = true ∨ s.stale = true)
    (h2 : s.wready2 = true → s.nextW = true ∧ Out.hungUp ∈ s.done.map Prod.snd) : InvA (waitWrite s ctl) := by
  have hn : s.next ≠ 0 := by have := (h.out_w hp).1; omega
  obtain ⟨g1, g2, g3, g4, g5, g6, g7, g8, g9, g10, g11, g12, g13, g14, g15, g16, g17, g18, g19, g20, g21, g22, g23, g24, g25, g26, g27, g28, g29⟩ := h
  unfold waitWrite
  by_cases hv : s.wev = true
  · simp only [hv, if_true, addList]
    split <;> inv_auto
  · simp only [hv, if_false, addList, Bool.false_eq_true]
    rcases addEventRW_cases s ctl with ⟨n, q, e⟩ | e
    · rw [e]; simp only [if_true]
      split <;> inv_auto
    · rw [e]; simp only [if_false, St.finishW, Bool.false_eq_true]
      inv_auto

theorem readEvent_invA {s s' : St} {a : Ans} {ctl : Bool} (h : InvA s) (hp : s.pr = true) (hc : ∀ k, s.cur = some k → k.rd = false)
    (hloc : s.loc ≠ .none → s.write = true ∨ s.stale = true) (he : readEvent s a ctl = .ok s') : InvA s' := by
  have hr := h.pr_read hp
  have hh : s.rdhup = false := by have := h.hup_excl; grind
  have hR : ∀ o r, (s.listener = false ∨ s.et = true → r = false) → InvA { s with done := s.done ++ [(s.rid, o)], pr := false, read := r, rready2 := false } :=
    fun o r hl => finishR_invA (r := r) h hp hc hloc hl (fun _ => hr)
  unfold readEvent at he
  split at he
  · cases he
  · have hr2 : s.rk ≠ .null → s.rready2 = false := by have := h.rr2; cases e : s.rready2 <;> grind
    have hkin : ∀ o r b, (s.listener = false ∨ s.et = true → r = false) →
        InvA { s with done := s.done ++ [(s.rid, o)], pr := false, read := r, rready2 := false, kin := b } := by
      intro o r b hl
      have g := hR o r hl
      exact g.congr rfl g.rr_et g.rev_et (fun e => Or.inl e) (fun e => ⟨(g.fresh e).2.2.2.1, (g.fresh e).2.2.2.2, (g.idle e).1⟩) (fun _ e => Or.inl e) (fun e => ⟨(g.lst e).2.2.2.2.2.1, g.lst_rev e⟩)
    cases hl : s.listener
    · obtain ⟨-, het, hna⟩ := h.read_pr hl hr
      have hrf : (s.read && !s.et) = false := by rw [het]; simp
      simp only [hrf] at he
      split at he
      · simp only [Res.ok.injEq, St.finishR] at he; subst he; exact hR _ _ (fun _ => rfl)
      · rename_i hk
        split at he
        · split at he <;> simp only [Res.ok.injEq, St.finishR] at he <;> subst he
          · exact hkin _ _ _ (fun _ => rfl)
          · exact hR _ _ (fun _ => rfl)
        · rw [if_neg (by simp)] at he
          · simp only [Res.ok.injEq, St.dropHup, hh, cond_false, Bool.or_false] at he; subst he
            have hrr := hr2 (by rw [hk]; decide)
            refine waitRead_invA ?_ hl hp hc hloc (fun _ => het) rfl
            refine h.congr ?_ (fun _ e => by cases e) (fun _ => rfl) (fun _ => Or.inl rfl) (fun e => by have := (h.idle e).2.2.2; rw [hp] at this; cases this) (fun _ _ => Or.inr hp) (fun e => by rw [hl] at e; cases e)
            simp only [Same, hr, hrr, hh]
      · rename_i hk; exact absurd hk hna
    · have hk := h.lst_rk hl hr
      obtain ⟨hw, -, hw2, hr2', hsf, hwv, hst⟩ := h.lst hl
      have hrf : (s.read && !s.et) = !s.et := by rw [hr]; simp
      have hro : s.listener = false ∨ s.et = true → (!s.et) = false := by intro e; rcases e with e | e <;> simp_all
      simp only [hrf] at he
      split at he
      · rename_i e; rw [hk] at e; cases e
      · rename_i e; rw [hk] at e; cases e
      split at he
      · split at he <;> simp only [Res.ok.injEq, St.finishR] at he <;> subst he
        · exact hkin _ _ _ hro
        · exact hR _ _ hro
      · split at he
        · simp only [Res.ok.injEq, St.finishR] at he; subst he; exact hR _ _ hro
        · simp only [waitAccept, Bool.false_eq_true, if_false] at he
          have hb : InvA { s with rready := false, read := true, rready2 := false } := by
            refine h.congr ?_ (fun e => by rw [hl] at e; cases e) h.rev_et (fun e => Or.inl e) (fun e => ⟨(h.fresh e).2.2.2.1, (h.fresh e).2.2.2.2, (h.idle e).1⟩) (fun _ e => Or.inl e) (fun e => ⟨(h.lst e).2.2.2.2.2.1, h.lst_rev e⟩)
            simp only [Same, hr, hr2']
          split at he
          · simp only [Res.ok.injEq, if_true] at he; subst he; exact hb
          · have hnr : s.rev = false := by rename_i e; exact Bool.eq_false_iff.2 e
            rcases epollCtl_cases { s with rready := false, read := true, rready2 := false, rev := true, et := true } false false ctl with ⟨n, q, e⟩ | e <;>
              rw [e] at he <;> simp only [if_true, if_false, Res.ok.injEq, Bool.false_eq_true, St.finishR] at he <;> subst he
            · refine hb.congr rfl (fun e => by rw [hl] at e; cases e) (fun _ => rfl) (fun e => Or.inl rfl) ?_ (fun _ e => Or.inr hp) (fun e => ⟨(h.lst e).2.2.2.2.2.1, fun _ => rfl⟩)
              intro e; have := (h.out_r hp).1; dsimp only at e; omega
            · clear e hR hkin
              obtain ⟨g1, g2, g3, g4, g5, g6, g7, g8, g9, g10, g11, g12, g13, g14, g15, g16, g17, g18, g19, g20, g21, g22, g23, g24, g25, g26, g27, g28, g29⟩ := h
              clear hb
              inv_auto

end Kasync.Epoll
