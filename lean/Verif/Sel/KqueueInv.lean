import Verif.Sel.Kqueue

/-! # Kqueue selector: the rules of use and the accounting invariant -/

namespace Kasync.Kq

/-! ## Vocabulary -/

/-- Request `id` was made and its callback has not been called. -/
def Outstanding (s : St) (id : Nat) : Prop := id < s.next ∧ id ∉ s.done.map Prod.fst

/-- A read-side request is outstanding. -/
def Reading (s : St) : Prop := ∃ id, Outstanding s id ∧ s.req id = .rd

/-- A write-side request (write, next_write, sendfile, connect) is outstanding. -/
def Writing (s : St) : Prop := ∃ id, Outstanding s id ∧ s.req id ≠ .rd

/-- A connect is outstanding. -/
def Connecting (s : St) : Prop := ∃ id, Outstanding s id ∧ s.req id = .conn

/-- The rules a caller follows: a connection is used only while it exists, at most one read-side and one write-side request at a
time, `connect` comes first, nothing outstanding when the connection is removed or destroyed.  Because of defects (see the findings)
also: no read-side request while a connect is outstanding; `selectable_next_read` only on a connection the poller knows; no
write-side request after `kevent` failed for a `sendfile`; and no `sendfile` off the main fiber that fails. -/
def Client (s : St) : Op → Prop
  | .read .. => s.alive = true ∧ ¬ Reading s ∧ ¬ Connecting s
  | .nextRead => s.alive = true ∧ ¬ Reading s ∧ ¬ Connecting s ∧ s.regR = true
  | .write .. | .nextWrite => s.alive = true ∧ ¬ Writing s ∧ ∀ id, s.req id = .file → (id, Out.noPoll) ∉ s.done
  | .sendfile main a _ _ => s.alive = true ∧ ¬ Writing s ∧ (∀ id, s.req id = .file → (id, Out.noPoll) ∉ s.done) ∧
      (main = false → a ≠ .err)
  | .connect .. => s.alive = true ∧ s.next = 0
  | .remove | .destroy => s.alive = true ∧ ¬ Reading s ∧ ¬ Writing s
  | _ => True

/-- `kevent` does not fail. -/
def CtlOk : Op → Prop
  | .read _ _ c | .write _ _ _ c | .sendfile _ _ _ c | .connect _ c | .popWrite _ _ c | .popRead _ c => c = .ok
  | _ => True

/-- The rules, and `kevent` never fails. -/
def Good (s : St) (op : Op) : Prop := Client s op ∧ CtlOk op

/-- States of a connection after any history of the caller, the kernel and the selector that keeps the rules `ok`. -/
inductive Hist (ok : St → Op → Prop) : St → Prop where
  | init : Hist ok {}
  | step {s s' : St} (op : Op) : Hist ok s → ok s op → step s op = .ok s' → Hist ok s'

theorem Hist.mono {p q : St → Op → Prop} (hpq : ∀ s op, p s op → q s op) {s : St} (h : Hist p s) : Hist q s := by
  induction h with
  | init => exact .init
  | step op _ hc he ih => exact .step op ih (hpq _ _ hc) he

theorem Hist.client {s : St} (h : Hist Good s) : Hist Client s := h.mono (fun _ _ g => g.1)

/-! ## Accounting invariant, whatever `kevent` answers -/

structure Inv (s : St) : Prop where
  read_et : s.read = true → s.et = true
  rev_et : s.rev = true ∨ s.wev = true → s.et = true
  rr_et : s.rready = true → s.et = true
  reg_rev : s.regR = true → s.rev = true
  reg_wev : s.regW = true → s.wev = true
  q_reg : (s.qR = true → s.regR = true) ∧ (s.qW = true → s.regW = true)
  listed : s.loc ≠ .none → s.read = true ∨ s.write = true
  sf : s.sendfile = true → (s.write = true ∧ s.wk = .file) ∨ ∃ id, s.req id = .file ∧ (id, Out.noPoll) ∈ s.done
  sf' : s.write = true → s.wk = .file → s.sendfile = true
  nsf : s.write = true → s.wk ≠ .file → s.sendfile = false
  rr2 : s.rready2 = true → s.read = true ∧ s.rk = .null
  wr2 : s.wready2 = true → s.write = true ∧ s.wk = .null
  cur_todo : ∀ k, s.cur = some k → k.todoR = true → k.rd = true
  cur_rd : ∀ k, s.cur = some k → k.rd = true → s.read = true
  cur_loc : ∀ k, s.cur = some k → k.rd = true → s.loc ≠ .none → s.write = true
  cur_wr : ∀ k, s.cur = some k → k.wr = true → s.write = true
  dead : s.alive = false → s.read = false ∧ s.write = false ∧ s.loc = .none ∧ s.regR = false ∧ s.regW = false
  fresh : s.next = 0 → s.read = false ∧ s.write = false ∧ s.rev = false ∧ s.wev = false ∧ s.et = false
  done_lt : ∀ i ∈ s.done.map Prod.fst, i < s.next
  done_nodup : (s.done.map Prod.fst).Nodup
  out_r : s.read = true → Outstanding s s.rid ∧ s.req s.rid = .rd
  out_w : s.write = true → Outstanding s s.wid ∧ s.req s.wid ≠ .rd
  file : s.write = true → (s.req s.wid = .file ↔ s.wk = .file)
  acct : ∀ i, Outstanding s i → (s.read = true ∧ i = s.rid) ∨ (s.write = true ∧ i = s.wid)

theorem inv_init : Inv {} := by
  constructor <;> simp [Outstanding]

namespace Inv
variable {s : St} (h : Inv s)
include h

theorem reading : Reading s ↔ s.read = true := by
  constructor
  · rintro ⟨id, ho, hr⟩
    rcases h.acct id ho with ⟨a, -⟩ | ⟨a, e⟩
    · exact a
    · exact absurd (e ▸ hr) (h.out_w a).2
  · exact fun e => ⟨_, h.out_r e⟩

theorem writing : Writing s ↔ s.write = true := by
  constructor
  · rintro ⟨id, ho, hr⟩
    rcases h.acct id ho with ⟨a, e⟩ | ⟨a, -⟩
    · exact absurd (e ▸ (h.out_r a).2) hr
    · exact a
  · exact fun e => ⟨_, h.out_w e⟩

theorem connecting : Connecting s ↔ s.write = true ∧ s.req s.wid = .conn := by
  constructor
  · rintro ⟨id, ho, hr⟩
    rcases h.acct id ho with ⟨a, e⟩ | ⟨a, e⟩
    · rw [e, (h.out_r a).2] at hr; cases hr
    · exact ⟨a, e ▸ hr⟩
  · exact fun e => ⟨_, (h.out_w e.1).1, e.2⟩

end Inv

theorem waitRead_eq (s : St) (c : Ctl) : ∃ b : Bool, ∃ t : St,
    t = { s with rev := true, et := s.et || !s.rev, wready := s.wready || !s.rev,
                 regR := s.regR || (!s.rev && b), qR := s.qR || (!s.rev && b && s.kin) } ∧ (s.rev = true → b = true) ∧ (c = .ok → b = true) ∧
    waitRead s c = if b then { t with loc := if s.loc = .none then .rw else s.loc } else { t with read := false, done := s.done ++ [(s.rid, .noPoll)] } := by
  unfold waitRead addEventR evAddR addList St.finishR
  cases hr : s.rev
  · cases c
    · refine ⟨true, _, rfl, by simp, by simp, ?_⟩
      simp
      split <;> simp_all
    · exact ⟨false, _, rfl, by simp, by simp, by simp⟩
    · exact ⟨false, _, rfl, by simp, by simp, by simp⟩
  · refine ⟨true, _, rfl, by simp, by simp, ?_⟩
    simp
    split
    · simp_all
    · cases s; simp_all

theorem waitWrite_eq (s : St) (c : Ctl) : ∃ b b1 : Bool, ∃ t : St,
    t = { s with rev := s.rev || !s.wev, wev := true, et := s.et || !s.wev, wready := s.wready || (!s.wev && !s.rev),
                 regR := s.regR || (!s.wev && !s.rev && b1), qR := s.qR || (!s.wev && !s.rev && b1 && s.kin),
                 regW := s.regW || (!s.wev && b), qW := s.qW || (!s.wev && b && s.kout) } ∧
    (s.wev = true → b = true) ∧ (c = .ok → b = true) ∧ (b = true → b1 = true) ∧
    waitWrite s c = if b then { t with loc := if s.loc = .none then .rw else s.loc } else { t with write := false, done := s.done ++ [(s.wid, .noPoll)] } := by
  unfold waitWrite addEventRW evAddR evAddW addList St.finishW
  cases hw : s.wev
  · cases hr : s.rev
    · cases c
      · refine ⟨true, true, _, rfl, by simp, by simp, by simp, ?_⟩
        simp
        split <;> simp_all
      · exact ⟨false, false, _, rfl, by simp, by simp, by simp, by simp⟩
      · exact ⟨false, true, _, rfl, by simp, by simp, by simp, by simp⟩
    · cases c
      · refine ⟨true, true, _, rfl, by simp, by simp, by simp, ?_⟩
        simp
        split <;> simp_all
      · exact ⟨false, true, _, rfl, by simp, by simp, by simp, by simp [hr]⟩
      · exact ⟨false, true, _, rfl, by simp, by simp, by simp, by simp [hr]⟩
  · refine ⟨true, true, _, rfl, by simp, by simp, by simp, ?_⟩
    simp
    split
    · simp_all
    · cases s; simp_all

macro "inv_auto" : tactic => `(tactic| (constructor <;> simp only [Outstanding, List.map_append, List.map_cons, List.map_nil] at * <;> grind))

theorem waitRead_inv {s : St} {c : Ctl} (h : Inv { s with et := true }) (hp : s.read = true) (h2 : s.rready2 = false)
    (hr : s.rev = true → s.et = true) (ha : s.alive = true)
    (hc : ∀ k, s.cur = some k → k.rd = false) (hloc : s.loc ≠ .none → s.write = true) : Inv (waitRead s c) := by
  obtain ⟨b, t, ht, hb, -, e⟩ := waitRead_eq s c
  rw [e]; clear e
  have hn : s.next ≠ 0 := by have := (h.out_r hp).1.1; dsimp only at this; omega
  have het : (s.et || !s.rev) = true := by cases hv : s.rev <;> simp_all
  have hrg := h.reg_rev
  dsimp only at hrg
  subst ht
  obtain ⟨g1, g2, g3, g4, g5, g6, g7, g8, g9, g10, g11, g12, g13, g14, g15, g16, g17, g18, g19, g20, g21, g22, g23, g24⟩ := h
  dsimp only at *
  rw [het]
  cases b
  · simp only [if_false, Bool.false_eq_true]
    inv_auto
  · simp only [if_true]
    inv_auto

theorem waitWrite_inv {s : St} {c : Ctl} (h : Inv s) (hp : s.write = true) (h2 : s.wready2 = false) (ha : s.alive = true)
    (hc : ∀ k, s.cur = some k → k.wr = false ∧ (k.rd = true → s.loc = .none)) (hloc : s.loc ≠ .none → s.read = true) : Inv (waitWrite s c) := by
  obtain ⟨b, b1, t, ht, hb, -, hb1, e⟩ := waitWrite_eq s c
  rw [e]; clear e
  have hn : s.next ≠ 0 := by have := (h.out_w hp).1.1; omega
  have hf := h.file hp
  subst ht
  obtain ⟨g1, g2, g3, g4, g5, g6, g7, g8, g9, g10, g11, g12, g13, g14, g15, g16, g17, g18, g19, g20, g21, g22, g23, g24⟩ := h
  dsimp only at *
  cases b
  · simp only [if_false, Bool.false_eq_true]
    inv_auto
  · simp only [if_true]
    inv_auto

theorem readEvent_inv {s s' : St} {a : Ans} {c : Ctl} (h : Inv s) (hp : s.read = true)
    (hc : ∀ k, s.cur = some k → k.rd = false) (hloc : s.loc ≠ .none → s.write = true) (he : readEvent s a c = .ok s') : Inv s' := by
  unfold readEvent St.finishR at he
  have het := h.read_et hp
  simp only [hp, het, Bool.not_true, Bool.and_false, Bool.false_eq_true, if_false] at he
  split at he
  · cases he
  rename_i ha
  split at he
  · cases he
    obtain ⟨g1, g2, g3, g4, g5, g6, g7, g8, g9, g10, g11, g12, g13, g14, g15, g16, g17, g18, g19, g20, g21, g22, g23, g24⟩ := h
    inv_auto
  · rename_i hk
    split at he
    · split at he <;> cases he
      all_goals
        obtain ⟨g1, g2, g3, g4, g5, g6, g7, g8, g9, g10, g11, g12, g13, g14, g15, g16, g17, g18, g19, g20, g21, g22, g23, g24⟩ := h
        inv_auto
    · cases he
      refine waitRead_inv ?_ rfl rfl (fun _ => by first | rfl | exact het) (by simpa using ha) hc hloc
      obtain ⟨g1, g2, g3, g4, g5, g6, g7, g8, g9, g10, g11, g12, g13, g14, g15, g16, g17, g18, g19, g20, g21, g22, g23, g24⟩ := h
      inv_auto

theorem writeEvent_inv {s s' : St} {main : Bool} {a : Ans} {again : Bool} {c : Ctl} (h : Inv s) (hp : s.write = true)
    (hc : ∀ k, s.cur = some k → k.wr = false ∧ (k.rd = true → s.loc = .none)) (hloc : s.loc ≠ .none → s.read = true)
    (he : writeEvent s main a again c = .ok s') : Inv s' := by
  unfold writeEvent St.finishW addList at he
  split at he
  · cases he
  rename_i ha
  dsimp only at he
  have ha : s.alive = true := by simpa using ha
  split at he
  · rename_i hsf
    split at he
    · rename_i hk
      have h2 : s.wready2 = false := by have := h.wr2; grind
      split at he
      · cases he
        refine waitWrite_inv ?_ rfl h2 ha hc hloc
        obtain ⟨g1, g2, g3, g4, g5, g6, g7, g8, g9, g10, g11, g12, g13, g14, g15, g16, g17, g18, g19, g20, g21, g22, g23, g24⟩ := h
        inv_auto
      · split at he
        · cases he
          obtain ⟨g1, g2, g3, g4, g5, g6, g7, g8, g9, g10, g11, g12, g13, g14, g15, g16, g17, g18, g19, g20, g21, g22, g23, g24⟩ := h
          inv_auto
        · split at he
          · split at he
            · cases he
              obtain ⟨g1, g2, g3, g4, g5, g6, g7, g8, g9, g10, g11, g12, g13, g14, g15, g16, g17, g18, g19, g20, g21, g22, g23, g24⟩ := h
              inv_auto
            · cases he
          · cases he
            refine waitWrite_inv ?_ rfl h2 ha hc hloc
            obtain ⟨g1, g2, g3, g4, g5, g6, g7, g8, g9, g10, g11, g12, g13, g14, g15, g16, g17, g18, g19, g20, g21, g22, g23, g24⟩ := h
            inv_auto
    · cases he
  · rename_i hsf
    split at he
    · cases he
      obtain ⟨g1, g2, g3, g4, g5, g6, g7, g8, g9, g10, g11, g12, g13, g14, g15, g16, g17, g18, g19, g20, g21, g22, g23, g24⟩ := h
      inv_auto
    · cases he
    · split at he
      · cases he
        refine waitWrite_inv ?_ rfl rfl ha hc hloc
        obtain ⟨g1, g2, g3, g4, g5, g6, g7, g8, g9, g10, g11, g12, g13, g14, g15, g16, g17, g18, g19, g20, g21, g22, g23, g24⟩ := h
        inv_auto
      · split at he <;> cases he
        all_goals
          obtain ⟨g1, g2, g3, g4, g5, g6, g7, g8, g9, g10, g11, g12, g13, g14, g15, g16, g17, g18, g19, g20, g21, g22, g23, g24⟩ := h
          inv_auto

theorem newRead_inv {s : St} {k : RKind} {r2 : Bool} (h : Inv s) (hp : s.read = false) (hk : r2 = true → k = .null) (ha : s.alive = true) :
    Inv { s.request .rd with rk := k, rid := s.next, read := true, rready2 := r2, et := true } := by
  have hd : ∀ id o, (id, o) ∈ s.done → id < s.next := fun id o hm => h.done_lt id (List.mem_map.2 ⟨_, hm, rfl⟩)
  obtain ⟨g1, g2, g3, g4, g5, g6, g7, g8, g9, g10, g11, g12, g13, g14, g15, g16, g17, g18, g19, g20, g21, g22, g23, g24⟩ := h
  simp only [St.nrequest, St.request]
  inv_auto

theorem newWrite_inv {s : St} {k : WKind} {w2 sf : Bool} {q : Req} (h : Inv s) (hp : s.write = false) (hk : w2 = true → k = .null)
    (hsf : sf = true ↔ k = .file) (hq : q ≠ .rd) (hqk : q = .file ↔ k = .file) (ha : s.alive = true) :
    Inv { s.request q with wk := k, wid := s.next, write := true, wready2 := w2, sendfile := sf } := by
  have hd : ∀ id o, (id, o) ∈ s.done → id < s.next := fun id o hm => h.done_lt id (List.mem_map.2 ⟨_, hm, rfl⟩)
  obtain ⟨g1, g2, g3, g4, g5, g6, g7, g8, g9, g10, g11, g12, g13, g14, g15, g16, g17, g18, g19, g20, g21, g22, g23, g24⟩ := h
  simp only [St.nrequest, St.request]
  inv_auto

theorem Inv.withNul {s : St} (h : Inv s) (f : Nat → Bool) : Inv { s with nul := f } := by
  cases h
  constructor <;> assumption

end Kasync.Kq
