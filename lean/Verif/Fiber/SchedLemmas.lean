import Verif.Fiber.Sched

/-! # Vocabulary and invariant of fiber switching -/

namespace Kasync.Sched

variable {dbg : Bool} {s s' : St}

/-- running, or suspended only because it gave the processor to a fiber it woke -/
def Stat.active : Stat → Bool
  | .run | .inWake => true
  | _ => false

/-- `L` is the list of fibers one meets going from its head along `switch_from`, ending at the main fiber. -/
def Chain (fib : Nat → Fib) : List Nat → Prop
  | [] => False
  | [x] => x = 0 ∧ (fib x).sfrom = none
  | x :: y :: t => (fib x).sfrom = some y ∧ Chain fib (y :: t)

/-- fiber and number of a call -/
def key (e : Ev) : Nat × Nat := (e.1, e.2.1)

structure InvL (s : St) (L : List Nat) : Prop where
  hd : L.head? = some s.cur
  chain : Chain s.fib L
  nodup : L.Nodup
  act : ∀ f, f ∈ L ↔ (s.fib f).st.active = true
  cur : ∀ f, (s.fib f).st = .run ↔ f = s.cur
  main : (s.fib 0).pend = none
  from0 : ∀ f, f ≠ 0 → (s.fib f).st ≠ .none → (s.fib f).st ≠ .fresh → (s.fib f).sfrom ≠ none
  tok : ∀ f, (s.fib f).tok = true → (s.fib f).pend ≠ none ∧ (s.fib f).self = false ∧ ∀ e ∈ s.given, key e ≠ (f, (s.fib f).no)
  self : ∀ f, (s.fib f).self = true → (s.fib f).pend ≠ none ∧ (s.fib f).st.active = true ∧ (f, (s.fib f).no, (s.fib f).retval) ∈ s.given
  flags : ∀ f, (s.fib f).st.active = true → (s.fib f).waitF = false ∧ (s.fib f).noticeF = (s.fib f).self
  fresh : ∀ f, (s.fib f).st = .fresh → (s.fib f).pend ≠ none ∧ (s.fib f).waitF = false ∧ (s.fib f).noticeF = false
  wait : ∀ f, (s.fib f).st = .inWait → (s.fib f).pend = some (s.fib f).code ∧ (s.fib f).noticeF = false
  gone : ∀ f, (s.fib f).st = .none ∨ (s.fib f).st = .inExit ∨ (s.fib f).st = .freed → (s.fib f).pend = none
  unborn : ∀ f, (s.fib f).st = .none → ∀ e ∈ s.given, e.1 ≠ f
  inbox : ∀ m ∈ s.inbox, (s.fib m.fib).pend = some m.obj ∧ (s.fib m.fib).no = m.no ∧ (s.fib m.fib).tok = false ∧ (s.fib m.fib).self = false ∧
    (m.fib, m.no, m.val) ∈ s.given
  inboxNodup : (s.inbox.map Msg.fib).Nodup
  posted : ∀ f, (s.fib f).pend ≠ none → (s.fib f).tok = true ∨ (s.fib f).self = true ∨ ∃ m ∈ s.inbox, m.fib = f
  givenNodup : (s.given.map key).Nodup
  givenNo : ∀ e ∈ s.given, e.2.1 ≤ (s.fib e.1).no
  retNodup : (s.returned.map key).Nodup
  retGiven : ∀ e ∈ s.returned, e ∈ s.given
  retNo : ∀ e ∈ s.returned, key e = (e.1, (s.fib e.1).no) → (s.fib e.1).pend = none
  givenRet : ∀ e ∈ s.given, e ∈ s.returned ∨ (e.2.1 = (s.fib e.1).no ∧ (s.fib e.1).pend ≠ none)
  ready : ∀ g v, (g, v) ∈ s.ready → (s.fib g).st = .inExit
  readyNodup : (s.ready.map Prod.fst).Nodup
  exiting : ∀ g, (s.fib g).st = .inExit → ∃ v, (g, v) ∈ s.ready
  exits : s.exited.Perm (s.reaped ++ s.ready)
  exitedSt : ∀ g v, (g, v) ∈ s.exited → (s.fib g).st = .inExit ∨ (s.fib g).st = .freed
  exitedNodup : (s.exited.map Prod.fst).Nodup

theorem inv_init : InvL init [0] where
  hd := rfl
  chain := ⟨rfl, rfl⟩
  nodup := by simp
  act := by intro f; by_cases h : f = 0 <;> simp [init, h, Stat.active]
  cur := by intro f; by_cases h : f = 0 <;> simp [init, h]
  main := rfl
  from0 := by intro f h; simp [init, h]
  tok := by intro f; by_cases h : f = 0 <;> simp [init, h]
  self := by intro f; by_cases h : f = 0 <;> simp [init, h]
  flags := by intro f; by_cases h : f = 0 <;> simp [init, h]
  fresh := by intro f; by_cases h : f = 0 <;> simp [init, h]
  wait := by intro f; by_cases h : f = 0 <;> simp [init, h]
  gone := by intro f; by_cases h : f = 0 <;> simp [init, h]
  unborn := by simp [init]
  inbox := by simp [init]
  inboxNodup := by simp [init]
  posted := by intro f; by_cases h : f = 0 <;> simp [init, h]
  givenNodup := by simp [init]
  givenNo := by simp [init]
  retNodup := by simp [init]
  retGiven := by simp [init]
  retNo := by simp [init]
  givenRet := by simp [init]
  ready := by simp [init]
  readyNodup := by simp [init]
  exiting := by intro f; by_cases h : f = 0 <;> simp [init, h]
  exits := by simp [init]
  exitedSt := by simp [init]
  exitedNodup := by simp [init]

/-! ## What the switching functions do -/

/-- the state after the running fiber woke `g` and the processor went to `g` -/
def resumed (s : St) (g obj : Nat) (v : Int) : St :=
  { s with
    cur := g
    fib := fun j =>
      if j = g then { s.fib j with st := .run, sfrom := some s.cur, retval := v, waitF := false, noticeF := false,
                                   code := if (s.fib j).waitF then (s.fib j).code else obj, pend := none }
      else if j = s.cur then { s.fib j with st := .inWake } else s.fib j
    returned := (g, (s.fib g).no, v) :: s.returned }

/-- the state after the running fiber suspended itself and the processor went back to `h` -/
def suspended (s : St) (obj h : Nat) (sus : Stat) : St :=
  { s with
    cur := h
    fib := fun j =>
      if j = h then { s.fib j with st := .run }
      else if j = s.cur then { s.fib j with st := sus, waitF := true, code := if (s.fib j).noticeF then (s.fib j).code else obj } else s.fib j }

theorem wakeup_eq {g obj : Nat} {v : Int} (hg : s.cur ≠ g) (hst : (s.fib g).st = .inWait ∨ (s.fib g).st = .fresh)
    (hn : (s.fib g).noticeF = false) (hw : (s.fib g).waitF = true → obj = (s.fib g).code) :
    wakeup dbg s g obj v = .ok (resumed s g obj v) := by
  have hw' : (dbg && (s.fib g).waitF && obj != (s.fib g).code) = false := by
    cases h : (s.fib g).waitF
    · simp
    · simp [hw h]
  have hne : g ≠ s.cur := fun h => hg h.symm
  unfold wakeup
  simp only [hn, Bool.and_false, Bool.false_eq_true, if_false, hw', St.upd, hg]
  unfold switch
  simp only [hg, if_false, St.upd, if_true]
  rcases hst with h | h <;> simp only [h, resumed] <;> congr 2 <;> funext j <;> by_cases hj : j = g
  · subst hj; simp [hne]
  · by_cases hc : j = s.cur
    · subst hc; simp [hg]
    · simp [hj, hc]
  · subst hj; simp [hne]
  · by_cases hc : j = s.cur
    · subst hc; simp [hg]
    · simp [hj, hc]

theorem wait_eq {obj h : Nat} {sus : Stat} (hf : (s.fib s.cur).sfrom = some h) (hh : (s.fib h).st = .inWake) (hne : h ≠ s.cur)
    (hw : (s.fib s.cur).waitF = false) (hn : (s.fib s.cur).noticeF = true → obj = (s.fib s.cur).code) :
    wait dbg s obj sus = .ok (suspended s obj h sus) := by
  have hn' : (dbg && (s.fib s.cur).noticeF && obj != (s.fib s.cur).code) = false := by
    cases h : (s.fib s.cur).noticeF
    · simp
    · simp [hn h]
  have hne' : s.cur ≠ h := fun h => hne h.symm
  unfold wait
  rw [hf]
  simp only [hw, Bool.and_false, Bool.false_eq_true, if_false, hn', St.upd]
  unfold switch
  simp only [hne, hne', if_false, hh, suspended, St.upd]
  congr 2; funext j; by_cases hj : j = h
  · subst hj; simp [hne]
  · by_cases hc : j = s.cur
    · subst hc; simp [hj]
    · simp [hj, hc]

/-! ## The chain -/

theorem Chain.congr {fib fib' : Nat → Fib} {L : List Nat} (h : Chain fib L) (he : ∀ f ∈ L, (fib' f).sfrom = (fib f).sfrom) : Chain fib' L := by
  induction L with
  | nil => exact h
  | cons x t ih =>
    cases t with
    | nil => exact ⟨h.1, by rw [he x (by simp)]; exact h.2⟩
    | cons y t =>
      refine ⟨by rw [he x (by simp)]; exact h.1, ih h.2 (fun f hf => he f (List.mem_cons_of_mem _ hf))⟩

theorem Chain.zero_mem {fib : Nat → Fib} {L : List Nat} (h : Chain fib L) : 0 ∈ L ∧ (fib 0).sfrom = none := by
  induction L with
  | nil => exact h.elim
  | cons x t ih =>
    cases t with
    | nil => obtain ⟨rfl, h2⟩ := h; exact ⟨by simp, h2⟩
    | cons y t => exact ⟨List.mem_cons_of_mem _ (ih h.2).1, (ih h.2).2⟩

/-- the running fiber, if it is not the main one, is on top of a fiber that is suspended in `kfiber_wakeup` -/
theorem InvL.below {L : List Nat} (hi : InvL s L) (hc : s.cur ≠ 0) :
    ∃ h t, L = s.cur :: h :: t ∧ (s.fib s.cur).sfrom = some h ∧ (s.fib h).st = .inWake ∧ h ≠ s.cur := by
  have hhd := hi.hd; have hch := hi.chain
  match L, hi with
  | [], _ => cases hhd
  | [x], _ => simp only [List.head?_cons, Option.some.injEq] at hhd; exact absurd (hhd ▸ hch.1) hc
  | x :: y :: t, hi =>
    simp only [List.head?_cons, Option.some.injEq] at hhd; subst hhd
    have hnd := hi.nodup
    rw [List.nodup_cons] at hnd
    have hy : y ≠ s.cur := fun h => hnd.1 (by simp [h])
    refine ⟨y, t, rfl, hch.1, ?_, hy⟩
    have ha := (hi.act y).1 (by simp)
    have hr := (hi.cur y).1
    cases h : (s.fib y).st <;> simp [h, Stat.active] at ha hr
    · exact absurd hr hy
    · rfl

theorem InvL.only_main {L : List Nat} (hi : InvL s L) (hc : s.cur = 0) : L = [0] := by
  have hhd := hi.hd; have hch := hi.chain
  match L, hi with
  | [], _ => cases hhd
  | [x], _ => rw [hch.1]
  | x :: y :: t, hi =>
    simp only [List.head?_cons, Option.some.injEq] at hhd; rw [hc] at hhd; subst hhd
    have := (hch.2.zero_mem).2
    rw [hch.1] at this; cases this

end Kasync.Sched
