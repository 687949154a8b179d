import Verif.Sel.EpollServe

/-! # Epoll selector: how far a pending request is from its answer -/

namespace Kasync.Epoll

/-- Where the ready loop stands at this connection. -/
def turn (s : St) : Nat := match s.cur with
  | none => 0
  | some k => bif k.todoR then 2 else 1

/-- Upper bound on the ready-loop moves until the pending read is answered. -/
def rankR (s : St) : Nat :=
  bif reading s then 1
  else bif s.rready || s.rready2 then 2 + turn s
  else 5 + turn s + 2 * (if s.loc = .ready then 1 else 0)

/-- Upper bound on the ready-loop moves until the pending write is answered. -/
def rankW (s : St) : Nat :=
  bif s.wready || s.wready2 then (if s.loc = .ready then 1 + turn s else 4 + turn s)
  else 4 + turn s + 3 * (if s.loc = .ready then 1 else 0)

/-- A read is pending, there is input, and the bound is `n`. -/
def PendR (s : St) (id n : Nat) : Prop := s.pr = true ∧ id = s.rid ∧ s.kin = true ∧ rankR s = n

def PendW (s : St) (id n : Nat) : Prop := s.write = true ∧ id = s.wid ∧ s.kout = true ∧ rankW s = n

def Answered (s : St) (id : Nat) : Prop := id ∈ s.done.map Prod.fst

theorem waitWrite_keeps (s : St) (ctl : Bool) : (waitWrite s ctl).pr = s.pr ∧ (waitWrite s ctl).rid = s.rid ∧ (waitWrite s ctl).kin = s.kin ∧
    (waitWrite s ctl).rready = s.rready ∧ (waitWrite s ctl).rready2 = s.rready2 ∧ (waitWrite s ctl).cur = s.cur ∧
    ((waitWrite s ctl).loc = .ready → s.loc = .ready) := by
  unfold waitWrite
  rcases addEventRW_cases s ctl with ⟨n, q, e⟩ | e <;> rw [e] <;>
    simp only [addList, St.finishW] <;> (repeat' split) <;> simp

theorem waitRead_keeps (s : St) (ctl : Bool) : (waitRead s ctl).write = s.write ∧ (waitRead s ctl).wid = s.wid ∧ (waitRead s ctl).kout = s.kout ∧
    (s.wready = true → (waitRead s ctl).wready = true) ∧ (waitRead s ctl).wready2 = s.wready2 ∧ (waitRead s ctl).cur = s.cur ∧
    ((waitRead s ctl).loc = .ready ↔ s.loc = .ready) := by
  unfold waitRead
  rcases epollCtl_cases { s with rev := true, et := true, wready := true } s.wev s.wev ctl with ⟨n, q, e⟩ | e <;>
    simp only [addEventR, e, addList, St.finishR] <;> (repeat' split) <;> simp_all

theorem pop_rankR {s s' : St} {op : Op} {id n : Nat} (hA : InvA s) (h : InvB s) (hc : CtlOk op) (ho : Pop op) (hp : PendR s id n)
    (he : step s op = .ok s') : Answered s' id ∨ ∃ m, m < n ∧ PendR s' id m := by
  obtain ⟨p1, p2, p3, p4⟩ := hp
  have hr := hA.pr_read p1
  have hx := hA.hup_excl
  cases op <;> try (exact False.elim ho)
  case popWrite a again ctl =>
    cases hc
    unfold step at he
    dsimp only at he
    split at he
    · rename_i hcu
      obtain ⟨hcu, hlo⟩ := hcu
      split at he
      · cases he
      · right
        split at he
        · unfold writeEvent at he
          split at he
          · cases he
          · dsimp only at he
            split at he
            · simp only [Res.ok.injEq, addList, St.finishW] at he; subst he
              refine ⟨_, ?_, p1, p2, p3, rfl⟩
              rw [← p4]
              simp only [rankR, reading, turn, hcu, hlo, hr, Bool.and_true, cond_false]
              cases s.rready <;> cases s.rready2 <;> simp
            · split at he
              · simp only [Res.ok.injEq, addList, St.finishW] at he; subst he
                refine ⟨_, ?_, p1, p2, p3, rfl⟩
                rw [← p4]
                simp only [rankR, reading, turn, hcu, hlo, hr, Bool.and_true, cond_false]
                cases s.rready <;> cases s.rready2 <;> simp
              · split at he
                · simp only [Res.ok.injEq, addList] at he
                  subst he
                  refine ⟨_, ?_, ?_, ?_, ?_, rfl⟩
                  · rw [← p4]
                    simp only [rankR, reading, turn, waitWrite_keeps, hcu, hlo, hr, Bool.and_true, cond_false]
                    rw [if_neg (fun e => by have := (waitWrite_keeps _ _).2.2.2.2.2.2 e; cases this)]
                    cases s.rready <;> cases s.rready2 <;> simp
                  · rw [(waitWrite_keeps _ _).1]; exact p1
                  · rw [(waitWrite_keeps _ _).2.1]; exact p2
                  · rw [(waitWrite_keeps _ _).2.2.1]; exact p3
                · split at he <;> simp only [Res.ok.injEq, addList, St.finishW] at he <;> subst he
                  all_goals
                    refine ⟨_, ?_, p1, p2, p3, rfl⟩
                    rw [← p4]
                    simp only [rankR, reading, turn, hcu, hlo, hr, Bool.and_true, cond_false]
                    cases s.rready <;> cases s.rready2 <;> simp
        · simp only [Res.ok.injEq, addList] at he; subst he
          refine ⟨_, ?_, p1, p2, p3, rfl⟩
          rw [← p4]
          simp only [rankR, reading, turn, hcu, hlo, hr, Bool.and_true, cond_false]
          cases s.rready <;> cases s.rready2 <;> simp
    · cases he
  case popRead a ctl =>
    left
    unfold step at he
    dsimp only at he
    split at he
    · rename_i k hk
      split at he
      · unfold readEvent at he
        split at he
        · cases he
        · dsimp only at he
          rw [p2]
          split at he
          · simp only [Res.ok.injEq, St.finishR] at he; subst he; simp [Answered]
          · split at he <;> simp only [Res.ok.injEq, St.finishR] at he <;> subst he <;> simp [Answered]
          · split at he <;> simp only [Res.ok.injEq, St.finishR] at he <;> subst he <;> simp [Answered]
      · cases he
    · cases he
  case popEnd =>
    right
    have g9 := h.rd_now p1
    unfold step at he
    dsimp only at he
    split at he
    · rename_i k hk
      split at he
      · cases he
      · rename_i ht
        have ht : k.todoR = false := by simpa using ht
        have hrn : reading s = false := by simp [reading, hk, ht]
        have hgo : (s.rready = true ∨ s.rready2 = true) → s.loc = .ready := by
          intro e; rcases g9 e with e | e
          · exact e
          · rw [hrn] at e; cases e
        split at he
        · split at he
          · cases he
          · simp only [Res.ok.injEq] at he
            split at he <;> subst he <;> refine ⟨_, ?_, p1, p2, p3, rfl⟩ <;> rw [← p4] <;>
              simp only [rankR, reading, turn, hk, ht, cond_false, addList] <;>
              cases e1 : s.rready <;> cases e2 : s.rready2 <;> simp <;> (try omega) <;> simp_all
        · simp only [Res.ok.injEq] at he; subst he
          refine ⟨_, ?_, p1, p2, p3, rfl⟩
          rw [← p4]
          simp only [rankR, reading, turn, hk, ht, cond_false]
          cases e1 : s.rready <;> cases e2 : s.rready2 <;> simp
    · cases he


theorem pop_rankW {s s' : St} {op : Op} {id n : Nat} (hA : InvA s) (ho : Pop op) (hp : PendW s id n)
    (he : step s op = .ok s') : Answered s' id ∨ ∃ m, m < n ∧ PendW s' id m := by
  obtain ⟨p1, p2, p3, p4⟩ := hp
  have hx := hA.hup_excl
  have hacc : s.read = true → s.rk ≠ .accept := by
    intro e e2
    cases hl : s.listener
    · exact (hA.read_pr hl e).2.2 e2
    · have := (hA.lst hl).1; rw [p1] at this; cases this
  cases op <;> try (exact False.elim ho)
  case popWrite a again ctl =>
    unfold step at he
    dsimp only at he
    split at he
    · rename_i hcu
      obtain ⟨hcu, hlo⟩ := hcu
      split at he
      · cases he
      · split at he
        · left
          unfold writeEvent at he
          split at he
          · cases he
          · dsimp only at he
            rw [p2]
            split at he
            · simp only [Res.ok.injEq, addList, St.finishW] at he; subst he
              simp [Answered]
            · split at he
              · simp only [Res.ok.injEq, addList, St.finishW] at he; subst he
                simp [Answered]
              · split at he
                · rename_i hk; rw [show s.kout = false from hk.1] at p3; cases p3
                · split at he <;> simp only [Res.ok.injEq, addList, St.finishW] at he <;> subst he <;> simp [Answered]
        · rename_i hw
          right
          simp only [p1, Bool.true_or, Bool.and_true, Bool.not_eq_true] at hw
          simp only [Res.ok.injEq, addList] at he; subst he
          refine ⟨_, ?_, p1, p2, p3, rfl⟩
          rw [← p4]
          simp only [rankW, turn, hcu, hlo, hw, cond_false]
          split <;> (try split) <;> simp_all <;> cases ((s.rready || s.rready2) && s.read) <;> simp
    · cases he
  case popRead a ctl =>
    right
    unfold step at he
    dsimp only at he
    split at he
    · rename_i k hk
      split at he
      · rename_i ht
        have hr := hA.pr_read (hA.cur_rd k hk (hA.cur_todo k hk ht))
        have hac := hacc hr
        unfold readEvent at he
        split at he
        · cases he
        · dsimp only at he
          split at he
          · simp only [Res.ok.injEq, St.finishR] at he; subst he
            refine ⟨_, ?_, p1, p2, p3, rfl⟩
            rw [← p4]
            simp only [rankW, turn, hk, ht, cond_false, cond_true]
            cases (s.wready || s.wready2) <;> simp <;> (repeat' split) <;> omega
          · split at he
            · split at he <;> simp only [Res.ok.injEq, St.finishR] at he <;> subst he <;> refine ⟨_, ?_, p1, p2, p3, rfl⟩ <;> rw [← p4] <;>
                simp only [rankW, turn, hk, ht, cond_false, cond_true] <;>
                cases (s.wready || s.wready2) <;> simp <;> (repeat' split) <;> omega
            · split at he
              · cases he
              · simp only [Res.ok.injEq, St.dropHup] at he
                subst he
                refine ⟨_, ?_, ?_, ?_, ?_, rfl⟩
                · rw [← p4]
                  have k4 := (waitRead_keeps { s with read := true, rdhup := false, rready := false, rready2 := false, cur := some { k with todoR := false, rd := false }, stale := s.stale || s.rdhup, withdrawn := bif s.rdhup then s.withdrawn ++ [s.wid] else s.withdrawn } ctl).2.2.2.1
                  simp only [rankW, turn, waitRead_keeps, hk, ht, cond_false, cond_true]
                  generalize (waitRead { s with read := true, rdhup := false, rready := false, rready2 := false, cur := some { k with todoR := false, rd := false }, stale := s.stale || s.rdhup, withdrawn := bif s.rdhup then s.withdrawn ++ [s.wid] else s.withdrawn } ctl).wready = w at *
                  dsimp only at k4
                  cases w <;> cases e1 : s.wready <;> cases e2 : s.wready2 <;> simp_all <;> (repeat' split) <;> omega
                · rw [(waitRead_keeps _ _).1]; exact p1
                · rw [(waitRead_keeps _ _).2.1]; exact p2
                · rw [(waitRead_keeps _ _).2.2.1]; exact p3
          · rename_i e; exact absurd e hac
      · cases he
    · cases he
  case popEnd =>
    right
    unfold step at he
    dsimp only at he
    split at he
    · rename_i k hk
      split at he
      · cases he
      · rename_i ht
        have ht : k.todoR = false := by simpa using ht
        split at he
        · split at he
          · cases he
          · simp only [Res.ok.injEq] at he
            split at he <;> subst he <;> refine ⟨_, ?_, p1, p2, p3, rfl⟩ <;> rw [← p4] <;>
              simp only [rankW, turn, hk, ht, cond_false, addList] <;>
              cases (s.wready || s.wready2) <;> simp_all <;> (repeat' split) <;> omega
        · simp only [Res.ok.injEq] at he; subst he
          refine ⟨_, ?_, p1, p2, p3, rfl⟩
          rw [← p4]
          simp only [rankW, turn, hk, ht, cond_false]
          cases (s.wready || s.wready2) <;> simp_all <;> (repeat' split) <;> omega
    · cases he

theorem select_rankR {s s' : St} {id n : Nat} (hA : InvA s) (h : InvB s) (hp : PendR s id n) (he : step s .select = .ok s') :
    PendR s' id 2 := by
  obtain ⟨p1, p2, p3, p4⟩ := hp
  have hr := hA.pr_read p1
  unfold step at he
  dsimp only at he
  split at he
  · rename_i hq
    split at he
    · cases he
    · simp only [Res.ok.injEq, select] at he
      rw [if_pos (by simp [h.q_reg hq.2, p3])] at he
      subst he
      refine ⟨p1, p2, p3, ?_⟩
      simp [rankR, reading, turn, hq.1, p3]
  · cases he

theorem select_rankW {s s' : St} {id n : Nat} (h : InvB s) (hp : PendW s id n) (he : step s .select = .ok s') :
    PendW s' id 1 := by
  obtain ⟨p1, p2, p3, p4⟩ := hp
  have h11 := h.wr p1
  unfold step at he
  dsimp only at he
  split at he
  · rename_i hq
    split at he
    · cases he
    · simp only [Res.ok.injEq, select] at he
      have hreg := h.q_reg hq.2
      split at he
      · subst he
        refine ⟨p1, p2, p3, ?_⟩
        simp only [rankW, turn, hq.1]
        rcases h11 with ⟨e1, e2⟩ | ⟨e1, e2, e3⟩
        · have ew : (s.wready || s.khup || (s.kout && s.regO) || s.wready2) = true := by rcases e2 with e | e <;> simp [e]
          simp only [ew, cond_true, e1]
          cases ((s.khup && (s.write || s.rdhup)) || (!s.khup && (s.kout && s.regO) && s.write) || ((s.kin || s.khup) && s.read)) <;> simp
        · simp only [e1, p3, p1]
          cases s.khup <;> simp
      · rename_i hno
        subst he
        refine ⟨p1, p2, p3, ?_⟩
        simp only [hreg, p3, Bool.true_or, Bool.true_and, Bool.or_eq_true, not_or, Bool.not_eq_true] at hno
        rcases h11 with ⟨e1, e2⟩ | ⟨e1, e2, e3⟩
        · simp only [rankW, turn, hq.1, e1]
          rcases e2 with e | e <;> simp [e]
        · rw [hno.2] at e1; cases e1
  · cases he

theorem kernel_rank {s s' : St} {op : Op} (ho : Kernel op) (he : step s op = .ok s') :
    (∀ id n, PendR s id n → PendR s' id n) ∧ (∀ id n, PendW s id n → PendW s' id n) := by
  cases op <;> try (exact False.elim ho)
  all_goals
    simp only [step, Res.ok.injEq] at he
    subst he
    exact ⟨fun id n ⟨p1, p2, p3, p4⟩ => ⟨p1, p2, by first | exact p3 | rfl, p4⟩, fun id n ⟨p1, p2, p3, p4⟩ => ⟨p1, p2, by first | exact p3 | rfl, p4⟩⟩

/-- A read with input waiting in no list: `select` is enabled. -/
theorem stuckR {s : St} (h : InvB s) (hp : s.pr = true) (hk : s.kin = true) (hc : s.cur = none) (hl : s.loc ≠ .ready) : s.queued = true := by
  have hrn : reading s = false := by simp [reading, hc]
  have hnr : ¬ (s.rready = true ∨ s.rready2 = true) := by
    intro e
    rcases h.rd_now hp e with e | e
    · exact hl e
    · rw [hrn] at e; cases e
  simp only [not_or, Bool.not_eq_true] at hnr
  exact h.edge_in (h.rd_wait hp hnr.1 hnr.2) hk hnr.1

theorem stuckW {s : St} (h : InvB s) (hp : s.write = true) (hk : s.kout = true) (hl : s.loc ≠ .ready) : s.queued = true := by
  rcases h.wr hp with e | e
  · exact absurd e.1 hl
  · exact e.2.1 hk

end Kasync.Epoll
