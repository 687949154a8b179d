import Verif.Mgr.LifeThread

/-! # Timers and the clock (C59) -/

namespace Kasync.Mlife

theorem snoc_split {α : Type} {l a c : List α} {e b : α} (h : l ++ [e] = a ++ b :: c) :
    (c = [] ∧ a = l ∧ b = e) ∨ ∃ c', c = c' ++ [e] ∧ l = a ++ b :: c' := by
  rcases List.eq_nil_or_concat c with rfl | ⟨c', x, rfl⟩
  · left
    have := List.append_inj' h rfl
    exact ⟨rfl, this.1.symm, by simpa using this.2.symm⟩
  · right
    simp only [List.concat_eq_append] at h ⊢
    rw [← List.cons_append, ← List.append_assoc] at h
    have := List.append_inj' h rfl
    have hx : e = x := by simpa using this.2
    subst hx
    exact ⟨c', rfl, this.1⟩

theorem clk_snoc (h : List Ev) (e : Ev) : clk (h ++ [e]) = clkStep (clk h) e := by simp [clk]

theorem onTime_append {i : Nat} {h : List Ev} (ht : OnTime i h) (e : List Ev) : OnTime i (h ++ e) := by
  obtain ⟨h1, m, h2, h3, rfl, hle⟩ := ht
  exact ⟨h1, m, h2, h3 ++ e, by simp, hle⟩

/-- adjustments posted and not yet made -/
def pend : List Note → Int
  | [] => 0
  | .adjust d :: l => d + pend l
  | _ :: l => pend l

def noAdj (l : List Note) : Prop := ∀ d, Note.adjust d ∉ l

theorem pend_zero {l : List Note} (h : noAdj l) : pend l = 0 := by
  induction l with
  | nil => rfl
  | cons m l ih =>
    have h' := ih (fun d hd => h d (List.mem_cons_of_mem _ hd))
    cases m with
    | adjust d => exact absurd List.mem_cons_self (h d)
    | _ => exact h'

theorem pend_le {l : List Note} (h : ∀ d, Note.adjust d ∈ l → d < 0) : pend l ≤ 0 := by
  induction l with
  | nil => exact Int.le_refl 0
  | cons m l ih =>
    have h' := ih (fun d hd => h d (List.mem_cons_of_mem _ hd))
    cases m with
    | adjust d => have := h d List.mem_cons_self; simp only [pend]; omega
    | _ => exact h'

@[simp] theorem pend_call (i : Nat) (l : List Note) : pend (.call i :: l) = pend l := rfl
@[simp] theorem pend_timer (i : Nat) (a : Int) (l : List Note) : pend (.timer i a :: l) = pend l := rfl
@[simp] theorem pend_fwd (i : Nat) (a : Int) (l : List Note) : pend (.fwd i a :: l) = pend l := rfl
@[simp] theorem pend_adjust (d : Int) (l : List Note) : pend (.adjust d :: l) = d + pend l := rfl

/-- history and clock -/
structure HInv (h : List Ev) (c : Int) (due : Nat → Int) : Prop where
  ck : (clk h).1 = c
  df : ∀ h1 i m h2, h = h1 ++ .timer i m :: h2 → due i = cont h1 + m
  rnt : ∀ h1 x i h2, h = h1 ++ .ran x i :: h2 → Ev.onReady i ∈ h1 ∨ OnTime i h1

/-- places and times -/
structure PInv (s : St) (due : Nat → Int) (sh : Int) : Prop where
  tin : ∀ x i a, (i, a) ∈ (s.sel x).timers → a + pend (s.sel x).inbox - sh = due i
  itm : ∀ x i a, Note.timer i a ∈ (s.sel x).inbox → a - sh = due i
  ifw : ∀ x i a, Note.fwd i a ∈ (s.sel x).inbox → a - sh = due i
  itn : ∀ x i a, Note.timer i a ∈ (s.sel x).inbox → ∀ y, noAdj (s.sel y).inbox
  ifn : ∀ x i a, Note.fwd i a ∈ (s.sel x).inbox → ∀ y, noAdj (s.sel y).inbox
  rfw : ∀ i a, Note.fwd i a ∈ s.ready → a - sh = due i
  rtm : ∀ i a, Note.timer i a ∉ s.ready
  rad : noAdj s.ready
  neg : ∀ x d, Note.adjust d ∈ (s.sel x).inbox → d < 0
  kc : ∀ x i, Note.call i ∈ (s.sel x).inbox → Ev.onReady i ∈ s.hist
  kr : ∀ i, Note.call i ∈ s.ready → Ev.onReady i ∈ s.hist
  km : ∀ i, i ∈ s.mid → Ev.onReady i ∈ s.hist
  kt : ∀ x i a, (i, a) ∈ (s.sel x).timers → ∃ m, Ev.timer i m ∈ s.hist
  fir : ∀ x i, i ∈ (s.sel x).firing → OnTime i s.hist
  rdn : s.n ≠ none → s.ready = [] ∧ s.mid = []
  noc : ∀ x, (s.sel x).closed = false ∧ (s.sel x).shutdown = false ∧ (s.sel x).destroyed = false
  nor : ∀ i, Ev.refused i ∉ s.hist
  kit : ∀ x i a, Note.timer i a ∈ (s.sel x).inbox ∨ Note.fwd i a ∈ (s.sel x).inbox → ∃ m, Ev.timer i m ∈ s.hist
  krt : ∀ i a, Note.fwd i a ∈ s.ready → ∃ m, Ev.timer i m ∈ s.hist
  oof : ∀ x, s.inRange x = false → (s.sel x).inbox = [] ∧ (s.sel x).timers = [] ∧ (s.sel x).firing = []

def TInv (s : St) : Prop := ∃ due, HInv s.hist s.clock due ∧ PInv s due (clk s.hist).2

theorem hinv_log {h : List Ev} {c : Int} {due : Nat → Int} (hi : HInv h c due) (e : Ev) (h1 : ∀ i m, e ≠ .timer i m) (h2 : ∀ t, e ≠ .clock t)
    (h3 : ∀ x i, e = .ran x i → Ev.onReady i ∈ h ∨ OnTime i h) : HInv (h ++ [e]) c due ∧ (clk (h ++ [e])).2 = (clk h).2 := by
  have hc : clk (h ++ [e]) = clk h := by
    rw [clk_snoc]; cases e with
    | clock t => exact absurd rfl (h2 t)
    | _ => rfl
  refine ⟨⟨by rw [hc]; exact hi.ck, ?_, ?_⟩, by rw [hc]⟩
  · intro a i m b hb
    rcases snoc_split hb with ⟨_, _, h⟩ | ⟨c', rfl, h⟩
    · exact absurd h.symm (h1 i m)
    · exact hi.df a i m c' h
  · intro a x i b hb
    rcases snoc_split hb with ⟨_, rfl, h⟩ | ⟨c', rfl, h⟩
    · exact h3 x i h.symm
    · exact hi.rnt a x i c' h

/-- a request: the new number has no meaning yet -/
theorem hinv_timer {h : List Ev} {c : Int} {due : Nat → Int} (hi : HInv h c due) (i : Nat) (m : Int) (hn : ∀ m, Ev.timer i m ∉ h) :
    HInv (h ++ [.timer i m]) c (fun j => if j = i then c - (clk h).2 + m else due j) ∧ (clk (h ++ [.timer i m])).2 = (clk h).2 := by
  have hc : clk (h ++ [.timer i m]) = clk h := by rw [clk_snoc]; rfl
  refine ⟨⟨by rw [hc]; exact hi.ck, ?_, ?_⟩, by rw [hc]⟩
  · intro a j m' b hb
    rcases snoc_split hb with ⟨_, rfl, h⟩ | ⟨c', rfl, h⟩
    · cases h; simp only [if_true, cont, hi.ck]
    · have hj : j ≠ i := by rintro rfl; exact hn m' (by rw [h]; simp)
      simp only [hj, if_false]; exact hi.df a j m' c' h
  · intro a x j b hb
    rcases snoc_split hb with ⟨_, rfl, h⟩ | ⟨c', rfl, h⟩
    · cases h
    · exact hi.rnt a x j c' h

theorem hinv_clock {h : List Ev} {c : Int} {due : Nat → Int} (hi : HInv h c due) (t : Int) :
    HInv (h ++ [.clock t]) t due ∧ (clk (h ++ [.clock t])).2 = if t / 1000 < c / 1000 then (clk h).2 + (t - c) else (clk h).2 := by
  have hc : clk (h ++ [.clock t]) = if t / 1000 < c / 1000 then (t, (clk h).2 + (t - c)) else (t, (clk h).2) := by
    rw [clk_snoc]; simp only [clkStep, hi.ck]
  refine ⟨⟨by rw [hc]; split <;> rfl, ?_, ?_⟩, by rw [hc]; split <;> rfl⟩
  · intro a i m b hb
    rcases snoc_split hb with ⟨_, _, h⟩ | ⟨c', rfl, h⟩
    · cases h
    · exact hi.df a i m c' h
  · intro a x i b hb
    rcases snoc_split hb with ⟨_, rfl, h⟩ | ⟨c', rfl, h⟩
    · cases h
    · exact hi.rnt a x i c' h

theorem tinv_start : TInv start :=
  ⟨fun _ => 0, ⟨rfl, by intro h1 i m h2 h; simp [start] at h, by intro h1 i m h2 h; simp [start] at h⟩, by
    constructor <;> simp [start, noAdj]⟩

macro "pinv" h:ident : tactic => `(tactic| (
  obtain ⟨h1, h2, h3, h4, h5, h6, h7, h8, h9, h10, h11, h12, h13, h14, h15, h16, h17, h18, h19, h20⟩ := $h
  constructor <;> simp only [St.upd, St.log, doRan, St.inRange, noAdj, List.mem_append, List.mem_singleton, reduceCtorEq, or_false, false_or, Ev.onReady.injEq, Ev.timer.injEq, Ev.refused.injEq] at * <;> first | assumption | grind [pend_call, pend_timer, pend_fwd, pend_adjust]))

/-- requests other than timers, logged as `e` -/
theorem p_ready {s : St} {due : Nat → Int} {sh : Int} (h : PInv s due sh) (hn : s.n = none) (i : Nat) (k : Nat) :
    PInv { s.log [.onReady i] with next := k, ready := .call i :: s.ready } due sh := by
  have hot : ∀ j, OnTime j s.hist → OnTime j (s.hist ++ [.onReady i]) := fun j hj => onTime_append hj _
  pinv h

theorem p_mid {s : St} {due : Nat → Int} {sh : Int} (h : PInv s due sh) (hn : s.n = none) (i : Nat) (k : Nat) :
    PInv { s.log [.onReady i] with next := k, mid := i :: s.mid } due sh := by
  have hot : ∀ j, OnTime j s.hist → OnTime j (s.hist ++ [.onReady i]) := fun j hj => onTime_append hj _
  pinv h

theorem p_add {s : St} {due : Nat → Int} {sh : Int} (h : PInv s due sh) {i : Nat} (hi : i ∈ s.mid) :
    PInv { s with mid := s.mid.erase i, ready := .call i :: s.ready } due sh := by
  have hn : s.n = none := by
    cases hn : s.n with
    | none => rfl
    | some k => rw [(h.rdn (by rw [hn]; simp)).2] at hi; cases hi
  have he : ∀ j, j ∈ s.mid.erase i → j ∈ s.mid := fun j hj => List.mem_of_mem_erase hj
  have hc := h.km i hi
  generalize s.mid.erase i = L at *
  pinv h

theorem p_post {s : St} {due : Nat → Int} {sh : Int} (h : PInv s due sh) {x : Nat} (hx : s.inRange x = true) (i : Nat) (k : Nat) :
    PInv ({ s.log [.onReady i] with next := k }.upd x (fun l => { l with inbox := .call i :: l.inbox })) due sh := by
  have hot : ∀ j, OnTime j s.hist → OnTime j (s.hist ++ [.onReady i]) := fun j hj => onTime_append hj _
  pinv h

theorem p_tready {s : St} {due : Nat → Int} {sh : Int} (h : PInv s due sh) (hn : s.n = none) (fr : ∀ m, Ev.timer s.next m ∉ s.hist) (m : Int) :
    PInv { s.log [.timer s.next m] with next := s.next + 1, ready := .fwd s.next (s.clock + m) :: s.ready }
      (fun j => if j = s.next then s.clock - sh + m else due j) sh := by
  have hot : ∀ j, OnTime j s.hist → OnTime j (s.hist ++ [.timer s.next m]) := fun j hj => onTime_append hj _
  pinv h

theorem p_tpost {s : St} {due : Nat → Int} {sh : Int} (h : PInv s due sh) (fr : ∀ m, Ev.timer s.next m ∉ s.hist) (m : Int) {x : Nat} (hx : s.inRange x = true)
    (hna : ∀ y, noAdj (s.sel y).inbox) :
    PInv ({ s.log [.timer s.next m] with next := s.next + 1 }.upd x (fun l => { l with inbox := .timer s.next (s.clock + m) :: l.inbox }))
      (fun j => if j = s.next then s.clock - sh + m else due j) sh := by
  have hot : ∀ j, OnTime j s.hist → OnTime j (s.hist ++ [.timer s.next m]) := fun j hj => onTime_append hj _
  pinv h

theorem p_tnew {s : St} {due : Nat → Int} {sh : Int} (h : PInv s due sh) (fr : ∀ m, Ev.timer s.next m ∉ s.hist) (m : Int) {x : Nat} (hx : s.inRange x = true)
    (hna : ∀ y, noAdj (s.sel y).inbox) :
    PInv ({ s.log [.timer s.next m] with next := s.next + 1 }.upd x (fun l => { l with timers := (s.next, s.clock + m) :: l.timers }))
      (fun j => if j = s.next then s.clock - sh + m else due j) sh := by
  have hot : ∀ j, OnTime j s.hist → OnTime j (s.hist ++ [.timer s.next m]) := fun j hj => onTime_append hj _
  have hp := pend_zero (hna x)
  pinv h

/-- steps of threads that move nothing -/
theorem p_log {s : St} {due : Nat → Int} {sh : Int} (h : PInv s due sh) (e : Ev) (he : ∀ i, e ≠ .refused i) : PInv (s.log [e]) due sh := by
  have hot : ∀ j, OnTime j s.hist → OnTime j (s.hist ++ [e]) := fun j hj => onTime_append hj _
  pinv h

theorem p_upd {s : St} {due : Nat → Int} {sh : Int} (h : PInv s due sh) (x : Nat) (f : Sel → Sel)
    (hf : ∀ l, (f l).inbox = l.inbox ∧ (f l).timers = l.timers ∧ (f l).firing = l.firing ∧ (f l).closed = l.closed ∧ (f l).shutdown = l.shutdown ∧ (f l).destroyed = l.destroyed) :
    PInv (s.upd x f) due sh := by
  pinv h

theorem p_handle_call {s : St} {due : Nat → Int} {sh : Int} (h : PInv s due sh) {x i : Nat} {r : List Note} (hb : (s.sel x).inbox = .call i :: r) :
    PInv (doRan (s.upd x (fun l => { l with inbox := r })) x i) due sh := by
  have hot : ∀ j, OnTime j s.hist → OnTime j (s.hist ++ [.ran x i]) := fun j hj => onTime_append hj _
  have hp := pend_call i r
  pinv h

theorem p_handle_timer {s : St} {due : Nat → Int} {sh : Int} (h : PInv s due sh) {x i : Nat} {a : Int} {r : List Note} (hb : (s.sel x).inbox = .timer i a :: r) :
    PInv ((s.upd x (fun l => { l with inbox := r })).upd x (fun l => { l with timers := (i, a) :: l.timers })) due sh := by
  have hp := pend_timer i a r
  have hd := h.itm x i a (by rw [hb]; exact List.mem_cons_self)
  have hk := h.kit x i a (.inl (by rw [hb]; exact List.mem_cons_self))
  have hz : pend r = 0 := by
    have := pend_zero (h.itn x i a (by rw [hb]; exact List.mem_cons_self) x)
    rw [hb] at this; exact this
  pinv h

theorem p_handle_fwd {s : St} {due : Nat → Int} {sh : Int} (h : PInv s due sh) {x i : Nat} {a : Int} {r : List Note} (hb : (s.sel x).inbox = .fwd i a :: r)
    {p : Nat} (hp : s.inRange p = true) :
    PInv ((s.upd x (fun l => { l with inbox := r })).upd p (fun l => { l with inbox := .timer i a :: l.inbox })) due sh := by
  have hpf := pend_fwd i a r
  have hd := h.ifw x i a (by rw [hb]; exact List.mem_cons_self)
  have hk := h.kit x i a (.inr (by rw [hb]; exact List.mem_cons_self))
  have hz := h.ifn x i a (by rw [hb]; exact List.mem_cons_self)
  pinv h

set_option maxHeartbeats 1000000 in
theorem p_handle_adjust {s : St} {due : Nat → Int} {sh : Int} (h : PInv s due sh) {x : Nat} {d : Int} {r : List Note} (hb : (s.sel x).inbox = .adjust d :: r) :
    PInv ((s.upd x (fun l => { l with inbox := r })).upd x (fun l => { l with timers := l.timers.map (fun p => (p.1, p.2 + d)) })) due sh := by
  have hp := pend_adjust d r
  have hm : ∀ i a, (i, a) ∈ (s.sel x).timers.map (fun p => (p.1, p.2 + d)) ↔ (i, a - d) ∈ (s.sel x).timers := by
    intro i a; simp only [List.mem_map, Prod.mk.injEq]
    constructor
    · rintro ⟨p, hp, rfl, rfl⟩; simpa using hp
    · intro hi; exact ⟨_, hi, rfl, by simp⟩
  have he : (s.sel x).timers = [] → (s.sel x).timers.map (fun p => (p.1, p.2 + d)) = [] := by intro h; rw [h]; rfl
  have hS : (s.upd x (fun l => { l with inbox := r })).upd x (fun l => { l with timers := l.timers.map (fun p => (p.1, p.2 + d)) }) =
      s.upd x (fun l => { l with inbox := r, timers := (s.sel x).timers.map (fun p => (p.1, p.2 + d)) }) := by
    unfold St.upd; dsimp only; congr 1; funext y; split
    · rename_i e; subst e; rfl
    · rfl
  rw [hS]; clear hS
  have hr : ∀ m, m ∈ r → m ∈ (s.sel x).inbox := fun m hm => by rw [hb]; exact List.mem_cons_of_mem _ hm
  have hpx : pend (s.sel x).inbox = d + pend r := by rw [hb]; rfl
  have hnf : ∀ i a, Note.timer i a ∈ r → False := fun i a hi => h.itn x i a (hr _ hi) x d (by rw [hb]; exact List.mem_cons_self)
  have hnf' : ∀ i a, Note.fwd i a ∈ r → False := fun i a hi => h.ifn x i a (hr _ hi) x d (by rw [hb]; exact List.mem_cons_self)
  have hxr : s.inRange x = true := by
    cases hx : s.inRange x with
    | true => rfl
    | false => rw [(h.oof x hx).1] at hb; cases hb
  have hany : ∀ y i a, Note.timer i a ∉ (s.sel y).inbox := fun y i a hi => h.itn y i a hi x d (by rw [hb]; exact List.mem_cons_self)
  have hany' : ∀ y i a, Note.fwd i a ∉ (s.sel y).inbox := fun y i a hi => h.ifn y i a hi x d (by rw [hb]; exact List.mem_cons_self)
  clear hb hp
  generalize (s.sel x).timers.map (fun p => (p.1, p.2 + d)) = T at *
  pinv h

theorem p_check {s : St} {due : Nat → Int} {sh : Int} (h : PInv s due sh) {x : Nat} (A : List (Nat × Int)) (B : List Nat)
    (hA : ∀ p, p ∈ A → p ∈ (s.sel x).timers) (hx : s.inRange x = true) (hB : ∀ i, i ∈ B → OnTime i s.hist) :
    PInv (s.upd x (fun l => { l with timers := A, firing := B })) due sh := by
  pinv h

theorem p_fire {s : St} {due : Nat → Int} {sh : Int} (h : PInv s due sh) {x i : Nat} {r : List Nat} (hf : (s.sel x).firing = i :: r) :
    PInv (doRan (s.upd x (fun l => { l with firing := r })) x i) due sh := by
  have hot : ∀ j, OnTime j s.hist → OnTime j (s.hist ++ [.ran x i]) := fun j hj => onTime_append hj _
  pinv h

end Kasync.Mlife
