import Verif.Sel.EpollRank

/-! # Epoll selector: answers are never taken back and say nothing false -/

namespace Kasync.Epoll

/-- `t` is a later state than `s`: answers, withdrawals and the sides of requests are kept, a hang-up stays. -/
structure Later (s t : St) : Prop where
  done : s.done <+: t.done
  withdrawn : s.withdrawn <+: t.withdrawn
  next : s.next ≤ t.next
  side : ∀ i, i < s.next → t.side i = s.side i
  khup : s.khup = true → t.khup = true

theorem Later.refl (s : St) : Later s s := ⟨List.prefix_rfl, List.prefix_rfl, Nat.le_refl _, fun _ _ => rfl, fun e => e⟩

theorem Later.trans {s t u : St} (h : Later s t) (g : Later t u) : Later s u :=
  ⟨h.done.trans g.done, h.withdrawn.trans g.withdrawn, Nat.le_trans h.next g.next,
    fun i e => (g.side i (Nat.lt_of_lt_of_le e h.next)).trans (h.side i e), fun e => g.khup (h.khup e)⟩

structure InvE (s : St) : Prop where
  err_hup : s.err = true → s.khup = true
  hung : ∀ i, (i, Out.hungUp) ∈ s.done → s.khup = true ∧ s.side i ≠ .rd
  wd : ∀ i ∈ s.withdrawn, s.side i = .hup

macro "later_auto" : tactic => `(tactic| (constructor <;> first | exact List.prefix_rfl | exact List.prefix_append _ _ | exact Nat.le_refl _ | exact fun _ _ => rfl | exact fun e => e | grind))

theorem waitRead_later (s : St) (ctl : Bool) : Later s (waitRead s ctl) := by
  unfold waitRead
  rcases epollCtl_cases { s with rev := true, et := true, wready := true } s.wev s.wev ctl with ⟨n, q, e⟩ | e <;>
    simp only [addEventR, e, addList, St.finishR] <;> (repeat' split) <;> later_auto

theorem waitRead_invE {s : St} {ctl : Bool} (h : InvE s) : InvE (waitRead s ctl) := by
  obtain ⟨h1, h2, h3⟩ := h
  unfold waitRead
  rcases epollCtl_cases { s with rev := true, et := true, wready := true } s.wev s.wev ctl with ⟨n, q, e⟩ | e <;>
    simp only [addEventR, e, addList, St.finishR] <;> (repeat' split) <;> constructor <;> grind

theorem waitWrite_later (s : St) (ctl : Bool) : Later s (waitWrite s ctl) := by
  unfold waitWrite
  rcases addEventRW_cases s ctl with ⟨n, q, e⟩ | e <;> rw [e] <;>
    simp only [addList, St.finishW] <;> (repeat' split) <;> later_auto

theorem waitWrite_invE {s : St} {ctl : Bool} (h : InvE s) : InvE (waitWrite s ctl) := by
  obtain ⟨h1, h2, h3⟩ := h
  unfold waitWrite
  rcases addEventRW_cases s ctl with ⟨n, q, e⟩ | e <;> rw [e] <;>
    simp only [addList, St.finishW] <;> (repeat' split) <;> constructor <;> grind

theorem waitAccept_later (s : St) (ctl : Bool) : Later s (waitAccept s ctl).1 := by
  unfold waitAccept
  rcases epollCtl_cases { s with rev := true, et := true } false false ctl with ⟨n, q, e⟩ | e <;> rw [e] <;>
    simp only [addList] <;> (repeat' split) <;> later_auto

theorem waitAccept_invE {s : St} {ctl : Bool} (h : InvE s) : InvE (waitAccept s ctl).1 := by
  obtain ⟨h1, h2, h3⟩ := h
  unfold waitAccept
  rcases epollCtl_cases { s with rev := true, et := true } false false ctl with ⟨n, q, e⟩ | e <;> rw [e] <;>
    simp only [addList] <;> (repeat' split) <;> constructor <;> grind

theorem finishR_later (s : St) (o : Out) : Later s (s.finishR o) := by unfold St.finishR; later_auto

theorem finishR_invE {s : St} {o : Out} (h : InvE s) (ho : o ≠ .hungUp) : InvE (s.finishR o) := by
  obtain ⟨h1, h2, h3⟩ := h
  unfold St.finishR
  constructor <;> grind

theorem dropHup_later (s : St) : Later s s.dropHup := by
  unfold St.dropHup; cases e : s.rdhup <;> simp only [cond_true, cond_false] <;> later_auto

theorem dropHup_invE {s : St} (h : InvE s) (hs : s.rdhup = true → s.side s.wid = .hup) : InvE s.dropHup := by
  obtain ⟨h1, h2, h3⟩ := h
  unfold St.dropHup; cases e : s.rdhup <;> simp only [cond_true, cond_false] <;> constructor <;> grind

theorem request_later (s : St) (d : Side) : Later s (s.request d) := by
  unfold St.request; later_auto

theorem request_invE {s : St} {d : Side} (h : InvE s) (hA : InvA s) : InvE (s.request d) := by
  obtain ⟨h1, h2, h3⟩ := h
  have a1 := hA.done_lt
  have a2 := hA.wd_lt
  unfold St.request
  constructor
  · exact h1
  · intro i hi
    refine ⟨(h2 i hi).1, ?_⟩
    dsimp only
    have := a1 i (List.mem_map.2 ⟨_, hi, rfl⟩)
    rw [if_neg (by omega)]
    exact (h2 i hi).2
  · intro i hi
    dsimp only
    have := (a2 i hi).1
    rw [if_neg (by omega)]
    exact h3 i hi

/-- fields neither `Later` nor `InvE` looks at -/
def Core (s t : St) : Prop := t.err = s.err ∧ t.khup = s.khup ∧ t.done = s.done ∧ t.withdrawn = s.withdrawn ∧ t.side = s.side ∧ t.next = s.next

theorem Core.later {s t : St} (h : Core s t) : Later s t := by
  obtain ⟨h1, h2, h3, h4, h5, h6⟩ := h
  constructor
  · rw [h3]; exact List.prefix_rfl
  · rw [h4]; exact List.prefix_rfl
  · rw [h6]; exact Nat.le_refl _
  · rw [h5]; exact fun _ _ => rfl
  · rw [h2]; exact fun e => e

theorem Core.invE {s t : St} (h : Core s t) (g : InvE s) : InvE t := by
  obtain ⟨h1, h2, h3, h4, h5, h6⟩ := h
  obtain ⟨g1, g2, g3⟩ := g
  constructor
  · rw [h1, h2]; exact g1
  · rw [h3, h2, h5]; exact g2
  · rw [h4, h5]; exact g3

theorem Later.core_trans {s t u : St} (g : Later t u) (h : Core s t) : Later s u := h.later.trans g

theorem InvE.core {s t : St} (g : InvE s) (h : Core s t) : InvE t := h.invE g

theorem readEvent_sound {s s' : St} {a : Ans} {ctl : Bool} (h : InvE s) (hh : s.rdhup = false) (he : readEvent s a ctl = .ok s') :
    Later s s' ∧ InvE s' := by
  unfold readEvent at he
  split at he
  · cases he
  · dsimp only at he
    have fin : ∀ t o, Core s t → o ≠ Out.hungUp → Later s (t.finishR o) ∧ InvE (t.finishR o) := fun t o hc ho =>
      ⟨hc.later.trans (finishR_later t o), finishR_invE (hc.invE h) ho⟩
    have hcr : ∀ r b k, Core s { s with read := r, rready := b, rready2 := false, kin := k } := fun _ _ _ => ⟨rfl, rfl, rfl, rfl, rfl, rfl⟩
    split at he
    · simp only [Res.ok.injEq] at he; subst he; exact fin _ _ (hcr _ _ _) (by decide)
    · split at he
      · split at he <;> simp only [Res.ok.injEq] at he <;> subst he <;> exact fin _ _ (hcr _ _ _) (by simp)
      · split at he
        · cases he
        · simp only [Res.ok.injEq] at he; subst he
          have c := hcr true false s.kin
          have d1 := dropHup_later { s with read := true, rready := false, rready2 := false }
          have d2 := dropHup_invE (c.invE h) (fun e => by rw [show s.rdhup = true from e] at hh; cases hh)
          exact ⟨(c.later.trans d1).trans (waitRead_later _ _), waitRead_invE d2⟩
    · split at he
      · split at he <;> simp only [Res.ok.injEq] at he <;> subst he <;> exact fin _ _ (hcr _ _ _) (by simp)
      · split at he
        · simp only [Res.ok.injEq] at he; subst he; exact fin _ _ (hcr _ _ _) (by simp)
        · simp only [Res.ok.injEq] at he
          have c := hcr true false s.kin
          have d1 := waitAccept_later { s with read := true, rready := false, rready2 := false } ctl
          have d2 := waitAccept_invE (ctl := ctl) (c.invE h)
          split at he <;> subst he
          · exact ⟨c.later.trans d1, d2⟩
          · exact ⟨(c.later.trans d1).trans (finishR_later _ _), finishR_invE d2 (by decide)⟩

theorem finishW_later (s : St) (o : Out) : Later s (s.finishW o) := by unfold St.finishW; later_auto

theorem finishW_later' (s t : St) (o : Out) (h : Core s t) : Later s (t.finishW o) := h.later.trans (finishW_later t o)

theorem finishW_invE {s : St} {o : Out} (h : InvE s) (ho : o = .hungUp → s.khup = true ∧ s.side s.wid ≠ .rd) : InvE (s.finishW o) := by
  obtain ⟨h1, h2, h3⟩ := h
  unfold St.finishW
  constructor <;> grind

theorem writeEvent_sound {s s' : St} {a : Ans} {again ctl : Bool} (h : InvE s) (hw : s.side s.wid ≠ .rd) (he : writeEvent s a again ctl = .ok s') :
    Later s s' ∧ InvE s' := by
  unfold writeEvent at he
  split at he
  · cases he
  · dsimp only at he
    have hcr : ∀ w r sf w2 w1 n k, Core s { s with write := w, rdhup := r, sendfile := sf, wready2 := w2, wready := w1, nospace := n, kout := k } :=
      fun _ _ _ _ _ _ _ => ⟨rfl, rfl, rfl, rfl, rfl, rfl⟩
    have fin : ∀ t o, Core s t → o ≠ Out.hungUp → Later s (t.finishW o) ∧ InvE (t.finishW o) := fun t o hc ho =>
      ⟨hc.later.trans (finishW_later t o), finishW_invE (hc.invE h) (fun e => absurd e ho)⟩
    split at he
    · rename_i hse
      simp only [Res.ok.injEq] at he; subst he
      have c := hcr false false false s.wready2 s.wready s.nospace s.kout
      refine ⟨c.later.trans (finishW_later _ _), finishW_invE (c.invE h) (fun _ => ⟨h.err_hup hse.2, hw⟩)⟩
    · split at he
      · simp only [Res.ok.injEq] at he; subst he; exact fin _ _ (hcr _ _ _ _ _ _ _) (by decide)
      · split at he
        · simp only [Res.ok.injEq] at he; subst he
          have c := hcr true false s.sendfile (s.sendfile && s.wready2) false true s.kout
          exact ⟨c.later.trans (waitWrite_later _ _), waitWrite_invE (c.invE h)⟩
        · split at he <;> simp only [Res.ok.injEq] at he <;> subst he <;> exact fin _ _ (hcr _ _ _ _ _ _ _) (by simp)

theorem remove_core {s s' : St} (he : remove s = .ok s') : Core s s' := by
  unfold remove at he
  split at he
  · cases he; exact ⟨rfl, rfl, rfl, rfl, rfl, rfl⟩
  · dsimp only at he
    split at he
    · cases he
    · simp only [Res.ok.injEq] at he; subst he; exact ⟨rfl, rfl, rfl, rfl, rfl, rfl⟩

theorem addEventRW_core (s : St) (ctl : Bool) : Core s (addEventRW s ctl).1 := by
  rcases addEventRW_cases s ctl with ⟨n, q, e⟩ | e <;> rw [e] <;> exact ⟨rfl, rfl, rfl, rfl, rfl, rfl⟩

theorem new_sound {s : St} {d : Side} (h : InvE s) (hA : InvA s) : Later s (s.request d).dropHup ∧ InvE (s.request d).dropHup := by
  refine ⟨(request_later s d).trans (dropHup_later _), dropHup_invE (request_invE h hA) ?_⟩
  intro e
  obtain ⟨a, b, c, d⟩ := hA.out_h e
  show (if s.wid = s.next then _ else s.side s.wid) = _
  rw [if_neg (by omega)]; exact b

/-- Every operation keeps earlier answers, and the soundness of answers. -/
theorem step_sound {s s' : St} {op : Op} (hA : InvA s) (h : InvE s) (he : step s op = .ok s') : Later s s' ∧ InvE s' := by
  cases op <;> unfold step at he <;> dsimp only at he
  case read =>
    split at he
    · cases he
    · have n := new_sound (d := .rd) h hA
      have c : Core (s.request .rd).dropHup { (s.request .rd).dropHup with rk := .io, rid := s.next, pr := true, read := true } := ⟨rfl, rfl, rfl, rfl, rfl, rfl⟩
      split at he
      · split at he
        · simp only [Res.ok.injEq] at he; subst he
          exact ⟨n.1.trans (Core.later ⟨rfl, rfl, rfl, rfl, rfl, rfl⟩), InvE.core n.2 ⟨rfl, rfl, rfl, rfl, rfl, rfl⟩⟩
        · have := readEvent_sound (c.invE n.2) rfl he
          exact ⟨(n.1.trans c.later).trans this.1, this.2⟩
      · simp only [Res.ok.injEq] at he; subst he
        exact ⟨(n.1.trans c.later).trans (waitRead_later _ _), waitRead_invE (c.invE n.2)⟩
  case accept ctl =>
    split at he
    · cases he
    · have c : Core (s.request .rd) { s.request .rd with rk := .accept, rid := s.next, pr := true, read := true } := ⟨rfl, rfl, rfl, rfl, rfl, rfl⟩
      have n1 := (request_later s .rd).trans c.later
      have n2 := c.invE (request_invE (d := .rd) h hA)
      simp only [Res.ok.injEq] at he
      split at he <;> subst he
      · exact ⟨n1.trans (waitAccept_later _ _), waitAccept_invE n2⟩
      · exact ⟨(n1.trans (waitAccept_later _ _)).trans (finishR_later _ _), finishR_invE (waitAccept_invE n2) (by decide)⟩
  case write =>
    split at he
    · cases he
    · have n := new_sound (d := .wr) h hA
      have c : Core (s.request .wr).dropHup { (s.request .wr).dropHup with wk := .io, wid := s.next, write := true } := ⟨rfl, rfl, rfl, rfl, rfl, rfl⟩
      split at he
      · split at he
        · simp only [Res.ok.injEq] at he; subst he
          exact ⟨n.1.trans (Core.later ⟨rfl, rfl, rfl, rfl, rfl, rfl⟩), InvE.core n.2 ⟨rfl, rfl, rfl, rfl, rfl, rfl⟩⟩
        · have := writeEvent_sound (c.invE n.2) (by show (if s.next = s.next then Side.wr else _) ≠ _; simp) he
          exact ⟨(n.1.trans c.later).trans this.1, this.2⟩
      · simp only [Res.ok.injEq] at he; subst he
        exact ⟨(n.1.trans c.later).trans (waitWrite_later _ _), waitWrite_invE (c.invE n.2)⟩
  case sendfile =>
    split at he
    · cases he
    · have n := new_sound (d := .wr) h hA
      have c : Core (s.request .wr).dropHup { (s.request .wr).dropHup with wk := .io, wid := s.next, write := true, sendfile := true } := ⟨rfl, rfl, rfl, rfl, rfl, rfl⟩
      split at he
      · split at he
        · simp only [Res.ok.injEq] at he; subst he
          exact ⟨n.1.trans (Core.later ⟨rfl, rfl, rfl, rfl, rfl, rfl⟩), InvE.core n.2 ⟨rfl, rfl, rfl, rfl, rfl, rfl⟩⟩
        · have := writeEvent_sound (c.invE n.2) (by show (if s.next = s.next then Side.wr else _) ≠ _; simp) he
          exact ⟨(n.1.trans c.later).trans this.1, this.2⟩
      · simp only [Res.ok.injEq] at he; subst he
        exact ⟨(n.1.trans c.later).trans (waitWrite_later _ _), waitWrite_invE (c.invE n.2)⟩
  case nextRead =>
    split at he
    · cases he
    · have n := new_sound (d := .rd) h hA
      simp only [Res.ok.injEq] at he; subst he
      exact ⟨n.1.trans (Core.later ⟨rfl, rfl, rfl, rfl, rfl, rfl⟩), InvE.core n.2 ⟨rfl, rfl, rfl, rfl, rfl, rfl⟩⟩
  case nextWrite =>
    split at he
    · cases he
    · have n := new_sound (d := .wr) h hA
      simp only [Res.ok.injEq] at he; subst he
      exact ⟨n.1.trans (Core.later ⟨rfl, rfl, rfl, rfl, rfl, rfl⟩), InvE.core n.2 ⟨rfl, rfl, rfl, rfl, rfl, rfl⟩⟩
  case connect ctl =>
    split at he
    · cases he
    · have c : Core (s.request .wr) { s.request .wr with wk := .null, wid := s.next, write := true } := ⟨rfl, rfl, rfl, rfl, rfl, rfl⟩
      have c2 := addEventRW_core { s.request .wr with wk := .null, wid := s.next, write := true } ctl
      have n1 := ((request_later s .wr).trans c.later).trans c2.later
      have n2 := c2.invE (c.invE (request_invE (d := .wr) h hA))
      simp only [Res.ok.injEq] at he
      split at he <;> subst he
      · exact ⟨n1.trans (Core.later ⟨rfl, rfl, rfl, rfl, rfl, rfl⟩), InvE.core n2 ⟨rfl, rfl, rfl, rfl, rfl, rfl⟩⟩
      · refine ⟨n1.trans (finishW_later' _ _ _ ⟨rfl, rfl, rfl, rfl, rfl, rfl⟩), finishW_invE (InvE.core n2 ⟨rfl, rfl, rfl, rfl, rfl, rfl⟩) (fun e => by cases e)⟩
  case readhup ctl =>
    split at he
    · cases he
    · split at he
      · cases he; exact ⟨Later.refl _, h⟩
      · have n := new_sound (d := .hup) h hA
        have c : Core (s.request .hup).dropHup { (s.request .hup).dropHup with wk := .null, wid := s.next, rdhup := true } := ⟨rfl, rfl, rfl, rfl, rfl, rfl⟩
        have c2 := addEventRW_core { (s.request .hup).dropHup with wk := .null, wid := s.next, rdhup := true } ctl
        have n1 := n.1.trans c.later
        have n2 := c.invE n.2
        by_cases hr : (s.wev || s.rev) = true
        · simp only [hr, if_true, Res.ok.injEq] at he; subst he; exact ⟨n1, n2⟩
        · simp only [hr, if_false, Res.ok.injEq, Bool.false_eq_true] at he
          split at he <;> subst he
          · exact ⟨n1.trans c2.later, c2.invE n2⟩
          · exact ⟨(n1.trans c2.later).trans (finishW_later' _ _ _ ⟨rfl, rfl, rfl, rfl, rfl, rfl⟩),
              finishW_invE (InvE.core (c2.invE n2) ⟨rfl, rfl, rfl, rfl, rfl, rfl⟩) (fun e => by cases e)⟩
  case removeReadhup =>
    split at he
    · cases he
    · split at he
      · cases he; exact ⟨Later.refl _, h⟩
      · split at he
        · cases he
        · have c := remove_core he
          exact ⟨(dropHup_later s).trans c.later, c.invE (dropHup_invE h (fun e => (hA.out_h e).2.1))⟩
  case listen =>
    split at he
    · cases he
    · simp only [Res.ok.injEq] at he; subst he
      exact ⟨Core.later ⟨rfl, rfl, rfl, rfl, rfl, rfl⟩, InvE.core h ⟨rfl, rfl, rfl, rfl, rfl, rfl⟩⟩
  case nextShutdown =>
    split at he
    · cases he
    · simp only [Res.ok.injEq] at he; subst he
      exact ⟨⟨List.prefix_rfl, List.prefix_rfl, Nat.le_refl _, fun _ _ => rfl, fun _ => rfl⟩,
        ⟨fun _ => rfl, fun i hi => ⟨rfl, (h.hung i hi).2⟩, h.wd⟩⟩
  case remove =>
    split at he
    · cases he
    · exact ⟨(remove_core he).later, (remove_core he).invE h⟩
  case destroy =>
    split at he
    · cases he
    · split at he
      · rename_i hr
        simp only [Res.ok.injEq] at he; subst he
        exact ⟨(remove_core hr).later.trans (Core.later ⟨rfl, rfl, rfl, rfl, rfl, rfl⟩), InvE.core ((remove_core hr).invE h) ⟨rfl, rfl, rfl, rfl, rfl, rfl⟩⟩
      · rename_i hno; exact absurd he (hno _)
  case expire =>
    split at he
    · split at he
      · cases he
      · simp only [Res.ok.injEq] at he; subst he
        exact ⟨⟨List.prefix_rfl, List.prefix_rfl, Nat.le_refl _, fun _ _ => rfl, fun _ => rfl⟩,
          ⟨fun _ => rfl, fun i hi => ⟨rfl, (h.hung i hi).2⟩, h.wd⟩⟩
    · cases he
  case select =>
    split at he
    · split at he
      · cases he
      · simp only [Res.ok.injEq, select] at he; subst he
        split
        · refine ⟨⟨List.prefix_rfl, List.prefix_rfl, Nat.le_refl _, fun _ _ => rfl, fun e => e⟩, ⟨fun e => ?_, h.hung, h.wd⟩⟩
          simp only [Bool.or_eq_true] at e
          exact e.elim h.err_hup (fun e => e)
        · exact ⟨Core.later ⟨rfl, rfl, rfl, rfl, rfl, rfl⟩, InvE.core h ⟨rfl, rfl, rfl, rfl, rfl, rfl⟩⟩
    · cases he
  case popWrite =>
    split at he
    · split at he
      · cases he
      · split at he
        · rename_i hw
          simp only [Bool.and_eq_true, Bool.or_eq_true] at hw
          have := writeEvent_sound ?_ ?_ he
          · exact ⟨Later.core_trans this.1 ⟨rfl, rfl, rfl, rfl, rfl, rfl⟩, this.2⟩
          · exact InvE.core h ⟨rfl, rfl, rfl, rfl, rfl, rfl⟩
          · show s.side s.wid ≠ .rd
            rcases hw.2 with e | e
            · rw [(hA.out_w e).2.1]; decide
            · rw [(hA.out_h e).2.1]; decide
        · simp only [Res.ok.injEq] at he; subst he
          exact ⟨Core.later ⟨rfl, rfl, rfl, rfl, rfl, rfl⟩, InvE.core h ⟨rfl, rfl, rfl, rfl, rfl, rfl⟩⟩
    · cases he
  case popRead =>
    split at he
    · rename_i k hk
      split at he
      · rename_i ht
        have hr := hA.pr_read (hA.cur_rd k hk (hA.cur_todo k hk ht))
        have hh : s.rdhup = false := by have := hA.hup_excl; grind
        have := readEvent_sound ?_ ?_ he
        · exact ⟨Later.core_trans this.1 ⟨rfl, rfl, rfl, rfl, rfl, rfl⟩, this.2⟩
        · exact InvE.core h ⟨rfl, rfl, rfl, rfl, rfl, rfl⟩
        · exact hh
      · cases he
    · cases he
  case popEnd =>
    split at he
    · split at he
      · cases he
      · split at he
        · split at he
          · cases he
          · simp only [Res.ok.injEq] at he; subst he
            split
            · exact ⟨Core.later ⟨rfl, rfl, rfl, rfl, rfl, rfl⟩, InvE.core h ⟨rfl, rfl, rfl, rfl, rfl, rfl⟩⟩
            · exact ⟨Core.later ⟨rfl, rfl, rfl, rfl, rfl, rfl⟩, InvE.core h ⟨rfl, rfl, rfl, rfl, rfl, rfl⟩⟩
        · simp only [Res.ok.injEq] at he; subst he
          exact ⟨Core.later ⟨rfl, rfl, rfl, rfl, rfl, rfl⟩, InvE.core h ⟨rfl, rfl, rfl, rfl, rfl, rfl⟩⟩
    · cases he
  case hangup =>
    simp only [Res.ok.injEq] at he; subst he
    exact ⟨⟨List.prefix_rfl, List.prefix_rfl, Nat.le_refl _, fun _ _ => rfl, fun _ => rfl⟩,
      ⟨fun _ => rfl, fun i hi => ⟨rfl, (h.hung i hi).2⟩, h.wd⟩⟩
  all_goals
    simp only [Res.ok.injEq] at he; subst he
    exact ⟨Core.later ⟨rfl, rfl, rfl, rfl, rfl, rfl⟩, InvE.core h ⟨rfl, rfl, rfl, rfl, rfl, rfl⟩⟩

theorem Hist.invE {s : St} (h : Hist Client s) : InvE s := by
  induction h with
  | init => exact ⟨fun e => (by cases e), fun i hi => (by simp at hi), fun i hi => (by simp at hi)⟩
  | step op h' ho he ih => exact (step_sound h'.invA ih he).2

end Kasync.Epoll
