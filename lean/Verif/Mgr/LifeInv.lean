import Verif.Mgr.LifeSpec

/-! # Where every callback is: one place each (C59) -/

namespace Kasync.Mlife

/-- the place of a callback -/
inductive Loc where
  | none | mid | ready
  | inbox (x : Nat)
  | timers (x : Nat)
  | firing (x : Nat)
  | ran | refused
  deriving DecidableEq

def Note.id? : Note → Option Nat
  | .call id | .timer id _ | .fwd id _ => some id
  | .adjust _ => Option.none

def ids (l : List Note) : List Nat := l.filterMap Note.id?

theorem ids_cons (m : Note) (l : List Note) : ids (m :: l) = (match m.id? with | some i => i :: ids l | Option.none => ids l) := by
  unfold ids; rw [List.filterMap_cons]; cases m.id? <;> rfl

@[simp] theorem ids_call (i : Nat) (l : List Note) : ids (.call i :: l) = i :: ids l := rfl
@[simp] theorem ids_timer (i : Nat) (a : Int) (l : List Note) : ids (.timer i a :: l) = i :: ids l := rfl
@[simp] theorem ids_fwd (i : Nat) (a : Int) (l : List Note) : ids (.fwd i a :: l) = i :: ids l := rfl
@[simp] theorem ids_adjust (d : Int) (l : List Note) : ids (.adjust d :: l) = ids l := rfl
@[simp] theorem ids_nil : ids [] = [] := rfl

theorem runs_append (a b : List Ev) : runs (a ++ b) = runs a ++ runs b := by simp [runs, List.filterMap_append]

@[simp] theorem runs_ran (x i : Nat) : runs [.ran x i] = [i] := rfl
@[simp] theorem runs_onReady (i : Nat) : runs [.onReady i] = [] := rfl
@[simp] theorem runs_timer (i : Nat) (m : Int) : runs [.timer i m] = [] := rfl
@[simp] theorem runs_refused (i : Nat) : runs [.refused i] = [] := rfl

/-- the ids of the timers -/
def tids (l : List (Nat × Int)) : List Nat := l.map Prod.fst

@[simp] theorem tids_cons (p : Nat × Int) (l : List (Nat × Int)) : tids (p :: l) = p.1 :: tids l := rfl
@[simp] theorem tids_nil : tids [] = [] := rfl
@[simp] theorem tids_map (l : List (Nat × Int)) (d : Int) : tids (l.map (fun p => (p.1, p.2 + d))) = tids l := by simp [tids, Function.comp_def]

structure InvL (s : St) (loc : Nat → Loc) : Prop where
  mid : ∀ i, i ∈ s.mid ↔ loc i = .mid
  midN : s.mid.Nodup
  rdy : ∀ i, i ∈ ids s.ready ↔ loc i = .ready
  rdyN : (ids s.ready).Nodup
  ibx : ∀ x i, i ∈ ids (s.sel x).inbox ↔ loc i = .inbox x
  ibxN : ∀ x, (ids (s.sel x).inbox).Nodup
  tms : ∀ x i, i ∈ tids (s.sel x).timers ↔ loc i = .timers x
  tmsN : ∀ x, (tids (s.sel x).timers).Nodup
  frg : ∀ x i, i ∈ (s.sel x).firing ↔ loc i = .firing x
  frgN : ∀ x, (s.sel x).firing.Nodup
  ran : ∀ i, i ∈ runs s.hist ↔ loc i = .ran
  ranN : (runs s.hist).Nodup
  ref : ∀ i, Ev.refused i ∈ s.hist ↔ loc i = .refused
  new : ∀ i, loc i = .none ↔ s.next ≤ i
  req : ∀ i, loc i ≠ .none → Ev.onReady i ∈ s.hist ∨ ∃ m, Ev.timer i m ∈ s.hist
  rq1 : ∀ i, Ev.onReady i ∈ s.hist → i < s.next ∧ ∀ m, Ev.timer i m ∉ s.hist
  rq2 : ∀ i m, Ev.timer i m ∈ s.hist → i < s.next

/-- selectors outside the manager have never been touched -/
def Out (s : St) : Prop := ∀ x, s.inRange x = false → (∃ k, s.sel x = { count := k }) ∧ ∀ i, Ev.ran x i ∉ s.hist

def Inv (s : St) : Prop := (∃ loc, InvL s loc) ∧ Out s

theorem invL_start : InvL start (fun _ => .none) := by
  constructor <;> simp [start, runs]

theorem inv_start : Inv start := ⟨⟨_, invL_start⟩, fun x _ => ⟨⟨0, rfl⟩, by simp [start]⟩⟩

/-- set the place of `i` -/
def put (loc : Nat → Loc) (i : Nat) (l : Loc) : Nat → Loc := fun j => if j = i then l else loc j

theorem put_eq (loc : Nat → Loc) (i j : Nat) (l : Loc) : put loc i l j = if j = i then l else loc j := rfl

macro "invl" h:ident : tactic => `(tactic| (
  obtain ⟨h1, h2, h3, h4, h5, h6, h7, h8, h9, h10, h11, h12, h13, h14, h15, h16, h17⟩ := $h
  constructor <;> simp only [St.upd, St.log, put_eq, runs_append, doRan, runs_ran, runs_onReady, runs_timer, runs_refused, List.mem_append, List.mem_singleton, reduceCtorEq, or_false, false_or, Ev.onReady.injEq, Ev.timer.injEq, Ev.refused.injEq, List.append_nil] at * <;> grind))

/-- a request that goes to the list of the manager, or straight to a selector -/
theorem new_ready {s : St} {loc} (h : InvL s loc) (m : Note) (e : Ev) (hm : m.id? = some s.next) (he : e = .onReady s.next ∨ ∃ k, e = .timer s.next k) :
    InvL { s.log [e] with next := s.next + 1, ready := m :: s.ready } (put loc s.next .ready) := by
  have hid := ids_cons m s.ready
  rw [hm] at hid
  simp only at hid
  rcases he with rfl | ⟨k, rfl⟩ <;> invl h

theorem new_mid {s : St} {loc} (h : InvL s loc) :
    InvL { s.log [.onReady s.next] with next := s.next + 1, mid := s.next :: s.mid } (put loc s.next .mid) := by
  invl h

theorem new_post {s : St} {loc} (h : InvL s loc) (m : Note) (e : Ev) (x : Nat) (hm : m.id? = some s.next) (he : e = .onReady s.next ∨ ∃ k, e = .timer s.next k) :
    InvL ({ s.log [e] with next := s.next + 1 }.upd x (fun l => { l with inbox := m :: l.inbox })) (put loc s.next (.inbox x)) := by
  have hid := ids_cons m (s.sel x).inbox
  rw [hm] at hid
  simp only at hid
  rcases he with rfl | ⟨k, rfl⟩ <;> invl h

theorem new_timer {s : St} {loc} (h : InvL s loc) (x : Nat) (k a : Int) :
    InvL ({ s.log [.timer s.next k] with next := s.next + 1 }.upd x (fun l => { l with timers := (s.next, a) :: l.timers })) (put loc s.next (.timers x)) := by
  have hid := tids_cons (s.next, a) (s.sel x).timers
  simp only at hid
  invl h

theorem new_refused {s : St} {loc} (h : InvL s loc) (k : Int) :
    InvL (St.log { s.log [.timer s.next k] with next := s.next + 1 } [.refused s.next]) (put loc s.next .refused) := by
  invl h

/-- a change that moves no callback and logs nothing about them -/
theorem same {s t : St} {loc} (h : InvL s loc) (hm : t.mid = s.mid) (hr : t.ready = s.ready) (hi : ∀ x, ids (t.sel x).inbox = ids (s.sel x).inbox)
    (ht : ∀ x, tids (t.sel x).timers = tids (s.sel x).timers) (hf : ∀ x, (t.sel x).firing = (s.sel x).firing) (hn : t.next = s.next) {e : List Ev}
    (hh : t.hist = s.hist ++ e) (he : ∀ v ∈ e, (∀ x i, v ≠ .ran x i) ∧ (∀ i, v ≠ .refused i ∧ v ≠ .onReady i) ∧ ∀ i m, v ≠ .timer i m) : InvL t loc := by
  have hru : runs e = [] := by
    unfold runs; rw [List.filterMap_eq_nil_iff]; intro v hv
    have := (he v hv).1
    cases v <;> simp at this ⊢
  obtain ⟨h1, h2, h3, h4, h5, h6, h7, h8, h9, h10, h11, h12, h13, h14, h15, h16, h17⟩ := h
  constructor <;> simp only [hm, hr, hi, ht, hf, hn, hh, runs_append, hru, List.append_nil, List.mem_append] <;> first | assumption | grind

theorem mid_ready {s : St} {loc} (h : InvL s loc) {i : Nat} (hi : i ∈ s.mid) :
    InvL { s with mid := s.mid.erase i, ready := .call i :: s.ready } (put loc i .ready) := by
  have he : ∀ j, j ∈ s.mid.erase i ↔ j ≠ i ∧ j ∈ s.mid := fun j => h.midN.mem_erase_iff
  have hn : (s.mid.erase i).Nodup := h.midN.erase i
  have hid := ids_call i s.ready
  generalize s.mid.erase i = L at *
  invl h

theorem ready_inbox {s : St} {loc} (h : InvL s loc) {m : Note} {ms : List Note} (hr : s.ready = m :: ms) (x : Nat) :
    ∃ loc', InvL ({ s with ready := ms }.upd x (fun l => { l with inbox := m :: l.inbox })) loc' := by
  have hid := ids_cons m (s.sel x).inbox
  have hid' := ids_cons m ms
  cases hm : m.id? with
  | none => rw [hm] at hid hid'; simp only at hid hid'; exact ⟨loc, by invl h⟩
  | some i => rw [hm] at hid hid'; simp only at hid hid'; exact ⟨put loc i (.inbox x), by invl h⟩

theorem drain_inv : ∀ (l : List Note) (picks : List Nat) (s : St), s.ready = l → (∃ loc, InvL s loc) → ∃ loc, InvL { drain s l picks with ready := [] } loc
  | [], picks, s, hr, h => by
    have : { drain s [] picks with ready := [] } = s := by rw [drain, ← hr]
    rw [this]; exact h
  | m :: ms, picks, s, hr, ⟨loc, h⟩ => by
    have h1 := drain_inv ms picks.tail ({ s with ready := ms }.upd (picks.headD 0) (fun l => { l with inbox := m :: l.inbox })) rfl (ready_inbox h hr _)
    have : ∀ (l : List Note) (p : List Nat) (a : St) (r : List Note), drain { a with ready := r } l p = { drain a l p with ready := r } := by
      intro l
      induction l with
      | nil => intro p a r; rfl
      | cons m l ih => intro p a r; exact ih p.tail (a.upd (p.headD 0) (fun l => { l with inbox := m :: l.inbox })) r
    have h2 := this ms picks.tail (s.upd (picks.headD 0) (fun l => { l with inbox := m :: l.inbox })) ms
    obtain ⟨loc', h3⟩ := h1
    refine ⟨loc', ?_⟩
    have h4 : { drain (({ s with ready := ms } : St).upd (picks.headD 0) (fun l => { l with inbox := m :: l.inbox })) ms picks.tail with ready := [] } =
      { drain s (m :: ms) picks with ready := [] } := by
      have : (({ s with ready := ms } : St).upd (picks.headD 0) (fun l => { l with inbox := m :: l.inbox })) =
        { s.upd (picks.headD 0) (fun l => { l with inbox := m :: l.inbox }) with ready := ms } := rfl
      rw [this, h2]; rfl
    rw [← h4]; exact h3

theorem head_inbox {s : St} {loc} (h : InvL s loc) {x i : Nat} {l : List Nat} (hb : ids (s.sel x).inbox = i :: l) :
    loc i = .inbox x ∧ l.Nodup ∧ ∀ j, j ∈ l ↔ loc j = .inbox x ∧ j ≠ i := by
  have h1 := h.ibx x
  have h2 := h.ibxN x
  rw [hb] at h1 h2
  grind

theorem handle_call {s : St} {loc} (h : InvL s loc) {x i : Nat} {r : List Note} (hb : (s.sel x).inbox = .call i :: r) :
    InvL (doRan (s.upd x (fun l => { l with inbox := r })) x i) (put loc i .ran) := by
  obtain ⟨hl, hn, hj⟩ := head_inbox h (show ids (s.sel x).inbox = i :: ids r by rw [hb]; rfl)
  clear hb
  invl h

theorem handle_timer {s : St} {loc} (h : InvL s loc) {x i : Nat} {a : Int} {r : List Note} (hb : (s.sel x).inbox = .timer i a :: r) :
    InvL ((s.upd x (fun l => { l with inbox := r })).upd x (fun l => { l with timers := (i, a) :: l.timers })) (put loc i (.timers x)) := by
  obtain ⟨hl, hn, hj⟩ := head_inbox h (show ids (s.sel x).inbox = i :: ids r by rw [hb]; rfl)
  clear hb
  have hid' := tids_cons (i, a) (s.sel x).timers
  simp only at hid'
  invl h

theorem handle_fwd {s : St} {loc} (h : InvL s loc) {x i : Nat} {a : Int} {r : List Note} (hb : (s.sel x).inbox = .fwd i a :: r) (p : Nat) :
    InvL ((s.upd x (fun l => { l with inbox := r })).upd p (fun l => { l with inbox := .timer i a :: l.inbox })) (put loc i (.inbox p)) := by
  obtain ⟨hl, hn, hj⟩ := head_inbox h (show ids (s.sel x).inbox = i :: ids r by rw [hb]; rfl)
  clear hb
  have hid' := ids_timer i a (s.sel p).inbox
  have hid'' := ids_timer i a r
  invl h

theorem check_inv {s : St} {loc} (h : InvL s loc) (x : Nat) (hf : (s.sel x).firing = []) (due : Nat × Int → Bool) :
    ∃ loc', InvL (s.upd x (fun l => { l with timers := l.timers.filter (fun p => ! due p), firing := (l.timers.filter due).map Prod.fst })) loc' := by
  have hn : (tids (s.sel x).timers).Nodup := h.tmsN x
  have a1 : ∀ i, i ∈ tids ((s.sel x).timers.filter (fun p => ! due p)) ↔ ∃ p ∈ (s.sel x).timers, p.1 = i ∧ due p = false := by
    intro i; simp only [tids, List.mem_map, List.mem_filter, Bool.not_eq_true']; grind
  have a2 : ∀ i, i ∈ ((s.sel x).timers.filter due).map Prod.fst ↔ ∃ p ∈ (s.sel x).timers, p.1 = i ∧ due p = true := by
    intro i; simp only [List.mem_map, List.mem_filter]; grind
  have n1 : (tids ((s.sel x).timers.filter (fun p => ! due p))).Nodup := List.Nodup.sublist (List.filter_sublist.map _) hn
  have n2 : (((s.sel x).timers.filter due).map Prod.fst).Nodup := List.Nodup.sublist (List.filter_sublist.map _) hn
  have uq : ∀ p ∈ (s.sel x).timers, ∀ q ∈ (s.sel x).timers, p.1 = q.1 → p = q := by
    unfold tids at hn
    generalize (s.sel x).timers = l at hn
    induction l with
    | nil => intro p hp; cases hp
    | cons y l ih => simp only [List.map_cons, List.nodup_cons, List.mem_map] at hn; grind
  have hm : ∀ i, i ∈ tids (s.sel x).timers ↔ ∃ p ∈ (s.sel x).timers, p.1 = i := by intro i; simp [tids]
  refine ⟨fun i => if (i ∈ ((s.sel x).timers.filter due).map Prod.fst) then .firing x else loc i, ?_⟩
  generalize hA : (s.sel x).timers.filter (fun p => ! due p) = A at *
  generalize hB : ((s.sel x).timers.filter due).map Prod.fst = B at *
  have hS : (s.upd x (fun l => { l with timers := l.timers.filter (fun p => ! due p), firing := (l.timers.filter due).map Prod.fst })) =
      s.upd x (fun l => { l with timers := A, firing := B }) := by
    unfold St.upd; congr 1; funext y; split
    · rename_i e; subst e; simp only [hA, hB]
    · rfl
  rw [hS]
  have b1 : ∀ i, i ∈ B → loc i = .timers x := by
    intro i hi; rw [← h.tms x i, hm]; obtain ⟨p, hp, h1, _⟩ := (a2 i).1 hi; exact ⟨p, hp, h1⟩
  have b2 : ∀ i, i ∈ tids A ↔ loc i = .timers x ∧ i ∉ B := by
    intro i; rw [← h.tms x i, hm, a1, a2]
    constructor
    · rintro ⟨p, hp, h1, h2⟩
      refine ⟨⟨p, hp, h1⟩, ?_⟩
      rintro ⟨q, hq, h3, h4⟩
      have := uq p hp q hq (by rw [h1, h3]); subst this; rw [h2] at h4; cases h4
    · rintro ⟨⟨p, hp, h1⟩, h2⟩
      refine ⟨p, hp, h1, ?_⟩
      cases hd : due p with
      | false => rfl
      | true => exact absurd ⟨p, hp, h1, hd⟩ h2
  have b3 : ∀ i, loc i ≠ .firing x := by intro i hi; rw [← h.frg, hf] at hi; cases hi
  clear hS a1 a2 uq hm hA hB hn hf
  invl h

theorem fire_inv {s : St} {loc} (h : InvL s loc) {x i : Nat} {r : List Nat} (hf : (s.sel x).firing = i :: r) :
    InvL (doRan (s.upd x (fun l => { l with firing := r })) x i) (put loc i .ran) := by
  have h1 := h.frg x
  have h2 := h.frgN x
  rw [hf] at h1 h2
  have hl : loc i = .firing x := by grind
  have hn : r.Nodup := by grind
  have hj : ∀ j, j ∈ r ↔ loc j = .firing x ∧ j ≠ i := by grind
  clear hf h1 h2
  invl h

end Kasync.Mlife
