import Verif.Fiber.SchedInv

/-! # C47: switching between fibers -/

namespace Kasync.Sched

variable {dbg : Bool} {s s' : St} {L : List Nat} {o : Op}

theorem wakeup_self {obj : Nat} {v : Int} (hn : (s.fib s.cur).noticeF = false) (hw : (s.fib s.cur).waitF = false) :
    wakeup dbg s s.cur obj v = .ok (s.upd s.cur (fun f => { f with code := if f.waitF then f.code else obj, noticeF := true, retval := v })) := by
  unfold wakeup
  simp [hn, hw, St.upd]

/-- the start function of a fiber returns -/
theorem step_exit (hi : InvL s L) (hc0 : s.cur ≠ 0) (hp : (s.fib s.cur).pend = none) (v : Int) :
    ∃ s' h t, step dbg s (.exit v) = .ok s' ∧ L = s.cur :: h :: t ∧ InvL s' (h :: t) ∧ s'.inbox = s.inbox ∧ (s'.fib s.cur).st = .inExit ∧
      s'.ready = s.ready ++ [(s.cur, v)] ∧ s'.exited = (s.cur, v) :: s.exited ∧
      ∀ f, (s.fib f).st = .inWait → (s'.fib f).st = .inWait := by
  have hcr : (s.fib s.cur).st = .run := (hi.cur s.cur).2 rfl
  obtain ⟨h', t, rfl, hf, hh, hne⟩ := hi.below hc0
  have hw := wait_eq (dbg := dbg) (obj := 0) (sus := .inExit) (s := { s.upd s.cur (fun f => { f with waitF := false, noticeF := false, retval := v }) with
    ready := s.ready ++ [(s.cur, v)], exited := (s.cur, v) :: s.exited }) (h := h')
    (by simpa [St.upd] using hf) (by simpa [St.upd, hne] using hh) hne (by simp [St.upd]) (by simp [St.upd])
  refine ⟨_, h', t, ?_, rfl, suspended_exit (v := v) hi hf hh hne hp hc0, rfl, by simp [suspended, St.upd, Ne.symm hne], rfl, rfl,
    fun f hfw => ?_⟩
  rotate_left
  · have h1 : f ≠ h' := fun e => by rw [e, hh] at hfw; cases hfw
    have h2 : f ≠ s.cur := fun e => by rw [e, hcr] at hfw; cases hfw
    simp [suspended, St.upd, h1, h2, hfw]
  simp only [step]
  rw [if_neg (by simp [hc0, hp])]
  exact hw

/-- a fiber whose call is not completed yet suspends itself -/
theorem step_wait (hi : InvL s L) {o : Nat} (hp : (s.fib s.cur).pend = some o) (hs : (s.fib s.cur).self = false) :
    ∃ s' h t, step dbg s .wait = .ok s' ∧ L = s.cur :: h :: t ∧ InvL s' (h :: t) ∧ s'.inbox = s.inbox ∧ (s'.fib s.cur).st = .inWait ∧
      ∀ f, (s.fib f).st = .inWait → (s'.fib f).st = .inWait := by
  have hcr : (s.fib s.cur).st = .run := (hi.cur s.cur).2 rfl
  have hfl := hi.flags s.cur (by rw [(hi.cur s.cur).2 rfl]; rfl)
  have hc0 : s.cur ≠ 0 := fun h => by rw [h, hi.main] at hp; cases hp
  obtain ⟨h, t, rfl, hf, hh, hne⟩ := hi.below hc0
  refine ⟨_, h, t, ?_, rfl, suspended_wait hi hf hh hne hp hs, rfl, by simp [suspended, Ne.symm hne], fun f hfw => ?_⟩
  rotate_left
  · have h1 : f ≠ h := fun e => by rw [e, hh] at hfw; cases hfw
    have h2 : f ≠ s.cur := fun e => by rw [e, hcr] at hfw; cases hfw
    simp [suspended, h1, h2, hfw]
  simp only [step, hp, hs, Bool.false_eq_true, if_false]
  exact wait_eq hf hh hne hfl.1 (fun hn => by rw [hfl.2, hs] at hn; cases hn)

/-- a call that was completed at once returns without a switch -/
theorem step_wait_self (hi : InvL s L) {o : Nat} (hp : (s.fib s.cur).pend = some o) (hs : (s.fib s.cur).self = true) :
    ∃ s', step dbg s .wait = .ok s' ∧ InvL s' L ∧ s'.cur = s.cur ∧ s'.inbox = s.inbox ∧ (s'.fib s.cur).pend = none ∧
      s'.returned = (s.cur, (s.fib s.cur).no, (s.fib s.cur).retval) :: s.returned ∧ ∀ f, (s'.fib f).st = (s.fib f).st := by
  have hfl := hi.flags s.cur (by rw [(hi.cur s.cur).2 rfl]; rfl)
  refine ⟨_, ?_, selfReturned hi hs hp, rfl, rfl, by simp [St.upd], rfl, fun f => by by_cases h : f = s.cur <;> simp [St.upd, h]⟩
  simp only [step, hp, hs, if_true]
  rw [if_neg (by simp [hfl.1, hfl.2, hs])]

/-- Every step that is possible is defined and keeps the invariant; it keeps, pushes or pops the chain. -/
theorem step_cases (hi : InvL s L) (o : Op) :
    step dbg s o = .disabled ∨
    (∃ s', step dbg s o = .ok s' ∧ InvL s' L ∧ s'.cur = s.cur) ∨
    (∃ s' g, step dbg s o = .ok s' ∧ InvL s' (g :: L) ∧ (s'.fib g).sfrom = some s.cur) ∨
    (∃ s' h t, step dbg s o = .ok s' ∧ L = s.cur :: h :: t ∧ InvL s' (h :: t)) := by
  have hfl := hi.flags s.cur (by rw [(hi.cur s.cur).2 rfl]; rfl)
  have hcr : (s.fib s.cur).st = .run := (hi.cur s.cur).2 rfl
  cases o with
  | create g =>
    simp only [step]
    by_cases h : (s.fib g).st = .none
    · rw [if_pos h]; exact Or.inr (Or.inl ⟨_, rfl, created hi h, rfl⟩)
    · rw [if_neg h]; exact Or.inl rfl
  | arm o =>
    simp only [step]
    by_cases h : s.cur = 0 ∨ (s.fib s.cur).pend ≠ none
    · rw [if_pos h]; exact Or.inl rfl
    · rw [if_neg h]
      simp only [not_or, Decidable.not_not] at h
      have h1 := hi.from0 s.cur h.1 (by simp [hcr]) (by simp [hcr])
      have h2 : (s.fib s.cur).self = false := by
        cases h' : (s.fib s.cur).self
        · rfl
        · exact absurd h.2 (hi.self _ h').1
      have : (dbg && ((s.fib s.cur).sfrom == none || (s.fib s.cur).waitF || (s.fib s.cur).noticeF)) = false := by
        cases h3 : (s.fib s.cur).sfrom
        · exact absurd h3 h1
        · simp [hfl.1, hfl.2, h2]
      rw [this, if_neg (by simp)]
      exact Or.inr (Or.inl ⟨_, rfl, armed hi h.2 h.1, rfl⟩)
  | wakeup g v =>
    simp only [step]
    by_cases h : ((s.fib g).st = .inWait ∨ (s.fib g).st = .fresh) ∧ (s.fib g).tok = true
    · rw [if_pos h]
      have hg : s.cur ≠ g := fun e => by rw [← e, hcr] at h; simp at h
      have hn : (s.fib g).noticeF = false := by
        rcases h.1 with e | e
        · exact (hi.wait g e).2
        · exact (hi.fresh g e).2.2
      have hw : (s.fib g).waitF = true → s.obj g = (s.fib g).code := fun hw => by
        rcases h.1 with e | e
        · simp [St.obj, (hi.wait g e).1]
        · rw [(hi.fresh g e).2.1] at hw; cases hw
      rw [wakeup_eq (s := issue s g v false) hg (by simpa [issue, St.upd] using h.1) (by simpa [issue, St.upd] using hn)
        (by simpa [issue, St.upd] using hw)]
      exact Or.inr (Or.inr (Or.inl ⟨_, g, rfl, resumed_wakeup hi hg h.1 h.2, by simp [resumed, issue, St.upd]⟩))
    · rw [if_neg h]; exact Or.inl rfl
  | selfWake v =>
    simp only [step]
    by_cases h : (s.fib s.cur).tok = true
    · rw [if_pos h]
      have ht := hi.tok _ h
      cases hp : (s.fib s.cur).pend with
      | none => exact absurd hp ht.1
      | some o =>
        have ho : s.obj s.cur = o := by simp [St.obj, hp]
        have := wakeup_self (dbg := dbg) (s := issue s s.cur v true) (obj := o) (v := v)
          (by simp [issue, St.upd, hfl.2, ht.2.1]) (by simp [issue, St.upd, hfl.1])
        rw [ho]
        simp only [show (issue s s.cur v true).cur = s.cur from rfl] at this
        rw [this]
        exact Or.inr (Or.inl ⟨_, rfl, selfWaked hi h hp, rfl⟩)
    · rw [if_neg h]; exact Or.inl rfl
  | wait =>
    cases hp : (s.fib s.cur).pend with
    | none => exact Or.inl (by simp only [step, hp])
    | some o =>
      cases hs : (s.fib s.cur).self with
      | true =>
        obtain ⟨s', h1, h2, h3, _⟩ := step_wait_self (dbg := dbg) hi hp hs
        exact Or.inr (Or.inl ⟨s', h1, h2, h3⟩)
      | false =>
        obtain ⟨s', h, t, h1, h2, h3, _⟩ := step_wait (dbg := dbg) hi hp hs
        exact Or.inr (Or.inr (Or.inr ⟨s', h, t, h1, h2, h3⟩))
  | post g v =>
    simp only [step]
    by_cases h : (s.fib g).tok = true
    · rw [if_pos h]; exact Or.inr (Or.inl ⟨_, rfl, posted' hi h, rfl⟩)
    · rw [if_neg h]; exact Or.inl rfl
  | deliver m =>
    simp only [step]
    by_cases h : s.cur = 0 ∧ m ∈ s.inbox
    · rw [if_pos h]
      have hm := hi.inbox m h.2
      have hL := hi.only_main h.1
      have hg : s.cur ≠ m.fib := fun e => by rw [← e, h.1, hi.main] at hm; cases hm.1
      have hst : (s.fib m.fib).st = .inWait ∨ (s.fib m.fib).st = .fresh := by
        have ha := (hi.act m.fib)
        rw [hL, List.mem_singleton, ← h.1] at ha
        have hgo := hi.gone m.fib
        cases e : (s.fib m.fib).st <;> simp [e, Stat.active, hm.1] at ha hgo ⊢
        · exact hg ha.symm
        · exact hg ha.symm
      have hn : (s.fib m.fib).noticeF = false := by
        rcases hst with e | e
        · exact (hi.wait _ e).2
        · exact (hi.fresh _ e).2.2
      have hw : (s.fib m.fib).waitF = true → m.obj = (s.fib m.fib).code := fun hw => by
        rcases hst with e | e
        · have := (hi.wait _ e).1; rw [hm.1] at this; exact Option.some.inj this
        · rw [(hi.fresh _ e).2.1] at hw; cases hw
      rw [wakeup_eq (s := { s with inbox := s.inbox.erase m }) hg hst hn hw]
      exact Or.inr (Or.inr (Or.inl ⟨_, m.fib, rfl, resumed_deliver hi hg hst h.2, by simp [resumed]⟩))
    · rw [if_neg h]; exact Or.inl rfl
  | exit v =>
    by_cases h : s.cur = 0 ∨ (s.fib s.cur).pend ≠ none
    · exact Or.inl (by simp only [step]; rw [if_pos h])
    · simp only [not_or, Decidable.not_not] at h
      obtain ⟨s', h', t, h1, h2, h3, _⟩ := step_exit (dbg := dbg) hi h.1 h.2 v
      exact Or.inr (Or.inr (Or.inr ⟨s', h', t, h1, h2, h3⟩))
  | reap =>
    simp only [step]
    cases hr : s.ready with
    | nil => exact Or.inl rfl
    | cons p rest =>
      obtain ⟨g, v⟩ := p
      dsimp only
      by_cases h : s.cur ≠ 0
      · rw [if_pos h]; exact Or.inl rfl
      · rw [if_neg h]
        have hg := hi.ready g v (by simp [hr])
        rw [if_pos hg]
        exact Or.inr (Or.inl ⟨_, rfl, reaped' hi hr hg, rfl⟩)

theorem inv (h : Reachable (step dbg) init s) : ∃ L, InvL s L :=
  h.invariant (P := fun s => ∃ L, InvL s L) ⟨_, inv_init⟩ (fun s o s' ⟨L, hi⟩ he => by
    rcases step_cases (dbg := dbg) hi o with h | ⟨_, h, hi', _⟩ | ⟨_, _, h, hi', _⟩ | ⟨_, _, _, h, _, hi'⟩ <;> rw [h] at he <;> cases he
    · exact ⟨_, hi'⟩
    · exact ⟨_, hi'⟩
    · exact ⟨_, hi'⟩)

/-! ## The chain, again -/

theorem Chain.sfrom_eq {fib fib' : Nat → Fib} {L : List Nat} (h : Chain fib L) (h' : Chain fib' L) {f : Nat} (hf : f ∈ L) :
    (fib' f).sfrom = (fib f).sfrom := by
  induction L with
  | nil => cases hf
  | cons x t ih =>
    cases t with
    | nil => rw [List.mem_singleton] at hf; subst hf; rw [h.2, h'.2]
    | cons y t =>
      rcases List.mem_cons.1 hf with rfl | hf
      · rw [h.1, h'.1]
      · exact ih h.2 h'.2 hf

theorem Chain.next_mem {fib : Nat → Fib} {x : Nat} {t : List Nat} (h : Chain fib (x :: t)) {f y : Nat} (hf : f ∈ x :: t) (hs : (fib f).sfrom = some y) : y ∈ t := by
  induction t generalizing x with
  | nil => rw [List.mem_singleton] at hf; subst hf; rw [h.2] at hs; cases hs
  | cons z t ih =>
    rcases List.mem_cons.1 hf with rfl | hf
    · rw [h.1] at hs; cases hs; simp
    · exact List.mem_cons_of_mem _ (ih h.2 hf)

theorem Chain.unique {fib : Nat → Fib} {L L' : List Nat} (h : Chain fib L) (h' : Chain fib L') (hh : L.head? = L'.head?) : L = L' := by
  induction L generalizing L' with
  | nil => exact h.elim
  | cons x t ih =>
    cases L' with
    | nil => exact h'.elim
    | cons x' t' =>
      simp only [List.head?_cons, Option.some.injEq] at hh; subst hh
      cases t with
      | nil =>
        cases t' with
        | nil => rfl
        | cons y t' => have := h.2; rw [h'.1] at this; cases this
      | cons y t =>
        cases t' with
        | nil => have := h'.2; rw [h.1] at this; cases this
        | cons y' t' =>
          have e : y = y' := by have := h.1; rw [h'.1] at this; exact (Option.some.inj this).symm
          subst e
          rw [ih h.2 h'.2 rfl]

/-! ## The properties -/

/-- **C47.**  No assertion of the switching code fails, in a debug or a release build: nobody switches to itself, to a fiber that is finished or freed, or waits without a
fiber to return to; a fiber is never completed twice, nor for another object than the one it waits for. -/
theorem fiber_no_failure (h : Reachable (step dbg) init s) (o : Op) : step dbg s o ≠ .ub := by
  obtain ⟨L, hi⟩ := inv h
  rcases step_cases (dbg := dbg) hi o with h | ⟨_, h, _⟩ | ⟨_, _, h, _⟩ | ⟨_, _, _, h, _⟩ <;> rw [h] <;> simp

/-- **C47.**  The fibers that are running or in the middle of waking another one form a stack: from the running fiber, `switch_from` leads through all of them, each exactly
once, to the selector's loop; exactly one fiber runs. -/
theorem fiber_callers_form_stack (h : Reachable (step dbg) init s) :
    ∃ L : List Nat, L.head? = some s.cur ∧ Chain s.fib L ∧ L.Nodup ∧ (∀ f, f ∈ L ↔ (s.fib f).st = .run ∨ (s.fib f).st = .inWake) ∧
      (∀ f, (s.fib f).st = .run ↔ f = s.cur) := by
  obtain ⟨L, hi⟩ := inv h
  refine ⟨L, hi.hd, hi.chain, hi.nodup, fun f => ?_, hi.cur⟩
  rw [hi.act f]
  cases (s.fib f).st <;> simp [Stat.active]

/-- executions all of whose states (from the first to the last) satisfy `P` -/
inductive While (dbg : Bool) (P : St → Prop) : St → St → Prop where
  | refl {s : St} : P s → While dbg P s s
  | tail {a b c : St} (o : Op) : While dbg P a b → step dbg b o = .ok c → P c → While dbg P a c

/-- `g` has the processor, or gave it to a fiber it woke. -/
def Active (g : Nat) (s : St) : Prop := (s.fib g).st = .run ∨ (s.fib g).st = .inWake

theorem active_iff {g : Nat} : Active g s ↔ (s.fib g).st.active = true := by
  unfold Active; cases (s.fib g).st <;> simp [Stat.active]

/-- As long as `g` stays active its `switch_from` does not change. -/
theorem while_sfrom {g : Nat} {s1 s2 : St} (h1 : ∃ L, InvL s1 L) (hw : While dbg (Active g) s1 s2) :
    (∃ L, InvL s2 L) ∧ (s2.fib g).sfrom = (s1.fib g).sfrom := by
  induction hw with
  | refl _ => exact ⟨h1, rfl⟩
  | tail o hw he hc ih =>
    obtain ⟨⟨L, hi⟩, hs⟩ := ih
    have hg : g ∈ L := by
      cases hw with
      | refl h => exact (hi.act g).2 (active_iff.1 h)
      | tail _ _ _ h => exact (hi.act g).2 (active_iff.1 h)
    rcases step_cases (dbg := dbg) hi o with h | ⟨_, h, hi', _⟩ | ⟨_, _, h, hi', _⟩ | ⟨_, _, _, h, hL, hi'⟩ <;> rw [h] at he <;> cases he
    · exact ⟨⟨_, hi'⟩, by rw [hi.chain.sfrom_eq hi'.chain hg, hs]⟩
    · refine ⟨⟨_, hi'⟩, ?_⟩
      cases L with
      | nil => cases hg
      | cons x t => rw [hi.chain.sfrom_eq hi'.chain.2 hg, hs]
    · refine ⟨⟨_, hi'⟩, ?_⟩
      subst hL
      have hg' := (hi'.act g).2 (active_iff.1 hc)
      rw [Chain.sfrom_eq hi.chain.2 hi'.chain hg', hs]

theorem while_last {P : St → Prop} {a b : St} (h : While dbg P a b) : P b := by cases h <;> assumption

/-- the state right after `g` was woken by the running fiber -/
theorem woken (hi : InvL s L) {g : Nat} {v : Int} (he : step dbg s (.wakeup g v) = .ok s') :
    (∃ L', InvL s' L') ∧ s'.cur = g ∧ (s'.fib g).sfrom = some s.cur ∧ s.cur ≠ g ∧ s'.returned = (g, (s.fib g).no, v) :: s.returned ∧
      ∀ f, (s.fib f).st = .inWait → f ≠ g → (s'.fib f).st = .inWait := by
  have hcr : (s.fib s.cur).st = .run := (hi.cur s.cur).2 rfl
  by_cases h : ((s.fib g).st = .inWait ∨ (s.fib g).st = .fresh) ∧ (s.fib g).tok = true
  · have hg : s.cur ≠ g := fun e => by rw [← e, hcr] at h; simp at h
    have hn : (s.fib g).noticeF = false := by
      rcases h.1 with e | e
      · exact (hi.wait g e).2
      · exact (hi.fresh g e).2.2
    have hw : (s.fib g).waitF = true → s.obj g = (s.fib g).code := fun hw => by
      rcases h.1 with e | e
      · simp [St.obj, (hi.wait g e).1]
      · rw [(hi.fresh g e).2.1] at hw; cases hw
    simp only [step, if_pos h] at he
    rw [wakeup_eq (s := issue s g v false) hg (by simpa [issue, St.upd] using h.1) (by simpa [issue, St.upd] using hn)
      (by simpa [issue, St.upd] using hw)] at he
    cases he
    refine ⟨⟨_, resumed_wakeup hi hg h.1 h.2⟩, rfl, by simp [resumed, issue, St.upd], hg, by simp [resumed, issue, St.upd],
      fun f hf hfg => ?_⟩
    have h2 : f ≠ s.cur := fun e => by rw [e, hcr] at hf; cases hf
    simp [resumed, issue, St.upd, h2, hfg, hf]
  · simp only [step, if_neg h] at he; cases he

/-- **C47.**  Control comes back to who woke the fiber: if `g` was woken by the running fiber, then at the step at which `g` gives up the processor (it waits, or ends), whatever
happened in between, `g` was running and the fiber that woke it runs next. -/
theorem fiber_control_returns_to_waker (h : Reachable (step dbg) init s) {g : Nat} {v : Int} {s1 s2 s3 : St} {o : Op}
    (h1 : step dbg s (.wakeup g v) = .ok s1) (hw : While dbg (Active g) s1 s2) (h3 : step dbg s2 o = .ok s3) (hg : ¬ Active g s3) :
    s2.cur = g ∧ s3.cur = s.cur := by
  obtain ⟨L, hi⟩ := inv h
  obtain ⟨hi1, _, hf, _⟩ := woken hi h1
  obtain ⟨⟨L2, hi2⟩, hf2⟩ := while_sfrom hi1 hw
  have hg2 := (hi2.act g).2 (active_iff.1 (while_last hw))
  rcases step_cases (dbg := dbg) hi2 o with h | ⟨_, h, hi', _⟩ | ⟨_, _, h, hi', _⟩ | ⟨_, x, t, h, hL, hi'⟩ <;> rw [h] at h3 <;> cases h3
  · exact absurd (active_iff.2 ((hi'.act g).1 hg2)) hg
  · exact absurd (active_iff.2 ((hi'.act g).1 (List.mem_cons_of_mem _ hg2))) hg
  · subst hL
    rcases List.mem_cons.1 hg2 with e | hg2
    · refine ⟨e.symm, ?_⟩
      have h4 := hi2.chain.1
      rw [← e, hf2, hf] at h4
      have h5 := hi'.hd
      simp only [List.head?_cons, Option.some.injEq] at h5
      rw [← h5]; exact (Option.some.inj h4).symm
    · exact absurd (active_iff.2 ((hi'.act g).1 hg2)) hg

/-- **C47.**  Until then the fiber that woke it does not run: it stays inside `kfiber_wakeup`. -/
theorem fiber_waker_stays_suspended (h : Reachable (step dbg) init s) {g : Nat} {v : Int} {s1 s2 : St}
    (h1 : step dbg s (.wakeup g v) = .ok s1) (hw : While dbg (Active g) s1 s2) : (s2.fib s.cur).st = .inWake := by
  obtain ⟨L, hi⟩ := inv h
  obtain ⟨hi1, _, hf, _⟩ := woken hi h1
  obtain ⟨⟨L2, hi2⟩, hf2⟩ := while_sfrom hi1 hw
  have hg2 := (hi2.act g).2 (active_iff.1 (while_last hw))
  cases L2 with
  | nil => cases hg2
  | cons x t =>
    have hy := hi2.chain.next_mem hg2 (hf2.trans hf)
    have hx := hi2.hd
    simp only [List.head?_cons, Option.some.injEq] at hx
    have ha := (hi2.act s.cur).1 (List.mem_cons_of_mem _ hy)
    have hr := (hi2.cur s.cur).1
    have hne : s.cur ≠ s2.cur := fun e => (List.nodup_cons.1 hi2.nodup).1 (by rw [hx, ← e]; exact hy)
    cases e : (s2.fib s.cur).st <;> simp [e, Stat.active] at ha hr
    · exact absurd hr hne
    · rfl

/-- **C47.**  A call is completed at most once and returns at most once, and it returns the value it was completed with.  (Call number 0 is the start of the fiber: its start
function is entered once, with the value given to it.) -/
theorem fiber_call_returns_given_value (h : Reachable (step dbg) init s) :
    (s.given.map (fun e => (e.1, e.2.1))).Nodup ∧ (s.returned.map (fun e => (e.1, e.2.1))).Nodup ∧ ∀ e ∈ s.returned, e ∈ s.given := by
  obtain ⟨L, hi⟩ := inv h
  exact ⟨hi.givenNodup, hi.retNodup, hi.retGiven⟩

/-- **C47.**  A completion is not lost: the call has returned with its value, or the completion is a posted message the loop has yet to handle, or the fiber itself has it and is about
to return. -/
theorem fiber_completion_not_lost (h : Reachable (step dbg) init s) {e : Ev} (he : e ∈ s.given) :
    e ∈ s.returned ∨ (∃ m ∈ s.inbox, (m.fib, m.no, m.val) = e) ∨ (Active e.1 s ∧ (s.fib e.1).self = true ∧ (s.fib e.1).retval = e.2.2) := by
  obtain ⟨L, hi⟩ := inv h
  rcases hi.givenRet e he with h | ⟨hno, hp⟩
  · exact Or.inl h
  · have hk : ∀ v, (e.1, (s.fib e.1).no, v) ∈ s.given → e = (e.1, (s.fib e.1).no, v) := fun v hv =>
      nodup_map_inj hi.givenNodup he hv (by simp [key, hno])
    rcases hi.posted _ hp with ht | hs | ⟨m, hm, hf⟩
    · exact absurd (by simp [key, hno]) ((hi.tok _ ht).2.2 e he)
    · have := hi.self _ hs
      exact Or.inr (Or.inr ⟨active_iff.2 this.2.1, hs, by have h' := hk _ this.2.2; rw [h']⟩)
    · have := hi.inbox m hm
      refine Or.inr (Or.inl ⟨m, hm, ?_⟩)
      have h' := this.2.2.2.2
      rw [← this.2.1, hf] at h'
      rw [hk _ h', ← hf, this.2.1]

/-- **C47.**  A wake-up on the fiber's own thread takes effect at once: the woken fiber runs, and its call returns that value. -/
theorem fiber_wakeup_runs_at_once (h : Reachable (step dbg) init s) {g : Nat} {v : Int} (he : step dbg s (.wakeup g v) = .ok s') :
    s'.cur = g ∧ s'.returned = (g, (s.fib g).no, v) :: s.returned := by
  obtain ⟨L, hi⟩ := inv h
  have := woken hi he
  exact ⟨this.2.1, this.2.2.2.2.1⟩

/-- the loop handles a posted wake-up -/
theorem delivered (hi : InvL s L) (hc : s.cur = 0) {m : Msg} (hm : m ∈ s.inbox) :
    ∃ s', step dbg s (.deliver m) = .ok s' ∧ s'.cur = m.fib ∧ s'.returned = (m.fib, m.no, m.val) :: s.returned ∧ s'.inbox = s.inbox.erase m ∧
      InvL s' (m.fib :: L) ∧ ∀ f, (s.fib f).st = .inWait → f ≠ m.fib → (s'.fib f).st = .inWait := by
  have hcr : (s.fib s.cur).st = .run := (hi.cur s.cur).2 rfl
  have hmi := hi.inbox m hm
  have hL := hi.only_main hc
  have hg : s.cur ≠ m.fib := fun e => by rw [← e, hc, hi.main] at hmi; cases hmi.1
  have hst : (s.fib m.fib).st = .inWait ∨ (s.fib m.fib).st = .fresh := by
    have ha := (hi.act m.fib)
    rw [hL, List.mem_singleton, ← hc] at ha
    have hgo := hi.gone m.fib
    cases e : (s.fib m.fib).st <;> simp [e, Stat.active, hmi.1] at ha hgo ⊢
    · exact hg ha.symm
    · exact hg ha.symm
  have hn : (s.fib m.fib).noticeF = false := by
    rcases hst with e | e
    · exact (hi.wait _ e).2
    · exact (hi.fresh _ e).2.2
  have hw : (s.fib m.fib).waitF = true → m.obj = (s.fib m.fib).code := fun hw => by
    rcases hst with e | e
    · have := (hi.wait _ e).1; rw [hmi.1] at this; exact Option.some.inj this
    · rw [(hi.fresh _ e).2.1] at hw; cases hw
  have := wakeup_eq (dbg := dbg) (s := { s with inbox := s.inbox.erase m }) (obj := m.obj) (v := m.val) hg hst hn hw
  refine ⟨_, ?_, rfl, by simp only [resumed]; rw [hmi.2.1], rfl, resumed_deliver hi hg hst hm, fun f hf hfg => ?_⟩
  rotate_left
  · have h2 : f ≠ s.cur := fun e => by rw [e, hcr] at hf; cases hf
    simp [resumed, h2, hfg, hf]
  simp only [step]
  rw [if_pos ⟨hc, hm⟩]
  exact this

/-- **C47.**  A wake-up posted by another thread can be delivered whenever the loop runs, and then the fiber runs and its call returns the posted value. -/
theorem fiber_posted_wakeup_delivered (h : Reachable (step dbg) init s) (hc : s.cur = 0) {m : Msg} (hm : m ∈ s.inbox) :
    ∃ s', step dbg s (.deliver m) = .ok s' ∧ s'.cur = m.fib ∧ s'.returned = (m.fib, m.no, m.val) :: s.returned ∧ s'.inbox = s.inbox.erase m := by
  obtain ⟨L, hi⟩ := inv h
  obtain ⟨s', h1, h2, h3, h4, _⟩ := delivered (dbg := dbg) hi hc hm
  exact ⟨s', h1, h2, h3, h4⟩

/-- **C47.**  A call that completes while its fiber is still running returns that value without giving up the processor. -/
theorem fiber_immediate_completion (h : Reachable (step dbg) init s) {v : Int} {s1 : St} (h1 : step dbg s (.selfWake v) = .ok s1) :
    ∃ s2, step dbg s1 .wait = .ok s2 ∧ s2.cur = s.cur ∧ s2.returned = (s.cur, (s.fib s.cur).no, v) :: s.returned := by
  obtain ⟨L, hi⟩ := inv h
  have hfl := hi.flags s.cur (by rw [(hi.cur s.cur).2 rfl]; rfl)
  by_cases ht : (s.fib s.cur).tok = true
  · have htk := hi.tok _ ht
    cases hp : (s.fib s.cur).pend with
    | none => exact absurd hp htk.1
    | some o =>
      have ho : s.obj s.cur = o := by simp [St.obj, hp]
      have := wakeup_self (dbg := dbg) (s := issue s s.cur v true) (obj := o) (v := v)
        (by simp [issue, St.upd, hfl.2, htk.2.1]) (by simp [issue, St.upd, hfl.1])
      simp only [show (issue s s.cur v true).cur = s.cur from rfl] at this
      simp only [step, if_pos ht, ho, this] at h1
      cases h1
      obtain ⟨s2, hs2, _, hc, _, _, hr, _⟩ := step_wait_self (dbg := dbg) (selfWaked hi ht hp) (o := o) (by simp [St.upd, issue, hp]) (by simp [St.upd, issue])
      exact ⟨s2, hs2, hc, by rw [hr]; simp [St.upd, issue]⟩
  · simp only [step, if_neg ht] at h1; cases h1

/-- **C47.**  A suspended fiber is resumed only by the completion of the call it waits for. -/
theorem fiber_resumed_only_by_completion (h : Reachable (step dbg) init s) {f : Nat} (hf : (s.fib f).st = .inWait) (he : step dbg s o = .ok s')
    (hf' : (s'.fib f).st ≠ .inWait) :
    s'.cur = f ∧ ∃ v, s'.returned = (f, (s.fib f).no, v) :: s.returned ∧ (f, (s.fib f).no, v) ∈ s'.given := by
  obtain ⟨L, hi⟩ := inv h
  have hcr : (s.fib s.cur).st = .run := (hi.cur s.cur).2 rfl
  have hfc : f ≠ s.cur := fun e => by rw [e, hcr] at hf; cases hf
  have hns := step_cases (dbg := dbg) hi o
  cases o with
  | create g =>
    simp only [step] at he
    by_cases h : (s.fib g).st = .none
    · rw [if_pos h] at he; cases he
      have : f ≠ g := fun e => by rw [e, h] at hf; cases hf
      simp [St.upd, this, hf] at hf'
    · rw [if_neg h] at he; cases he
  | arm o =>
    rcases hns with h | ⟨_, h, _, _⟩ | ⟨_, _, h, _, _⟩ | ⟨_, _, _, h, _⟩ <;> rw [h] at he <;> cases he <;> simp only [step] at h <;> split at h <;> try cases h
    all_goals split at h
    all_goals cases h
    all_goals simp [St.upd, hfc, hf] at hf'
  | wakeup g v =>
    have hg := woken hi he
    by_cases hfg : f = g
    · subst hfg
      obtain ⟨L', hi'⟩ := hg.1
      exact ⟨hg.2.1, v, hg.2.2.2.2.1, hi'.retGiven _ (by rw [hg.2.2.2.2.1]; simp)⟩
    · exact absurd (hg.2.2.2.2.2 f hf hfg) hf'
  | selfWake v =>
    exfalso
    simp only [step] at he
    split at he
    · unfold wakeup at he
      split at he
      · cases he
      · split at he
        · cases he
        · simp only [issue, St.upd, if_true, Res.ok.injEq] at he
          subst he
          simp [hfc, hf] at hf'
    · cases he
  | wait =>
    exfalso
    cases hp : (s.fib s.cur).pend with
    | none => simp only [step, hp] at he; cases he
    | some o =>
      cases hs : (s.fib s.cur).self with
      | true =>
        obtain ⟨s2, h1, _, _, _, _, _, hst⟩ := step_wait_self (dbg := dbg) hi hp hs
        rw [h1] at he; cases he
        exact hf' (by rw [hst, hf])
      | false =>
        obtain ⟨s2, h, t, h1, _, _, _, _, hst⟩ := step_wait (dbg := dbg) hi hp hs
        rw [h1] at he; cases he
        exact hf' (hst f hf)
  | post g v =>
    exfalso
    simp only [step] at he
    split at he
    · cases he
      by_cases hfg : f = g <;> simp [issue, St.upd, hfg] at hf'
      · exact hf' (hfg ▸ hf)
      · exact hf' hf
    · cases he
  | deliver m =>
    by_cases h : s.cur = 0 ∧ m ∈ s.inbox
    · obtain ⟨s2, h1, h2, h3, _, hi', hst⟩ := delivered (dbg := dbg) hi h.1 h.2
      rw [h1] at he; cases he
      by_cases hfg : f = m.fib
      · subst hfg
        have hno := (hi.inbox m h.2).2.1
        exact ⟨h2, m.val, by rw [h3, hno], hi'.retGiven _ (by rw [h3, hno]; simp)⟩
      · exact absurd (hst f hf hfg) hf'
    · simp only [step] at he; rw [if_neg h] at he; cases he
  | exit v =>
    exfalso
    by_cases h : s.cur = 0 ∨ (s.fib s.cur).pend ≠ none
    · simp only [step] at he; rw [if_pos h] at he; cases he
    · simp only [not_or, Decidable.not_not] at h
      obtain ⟨s2, h', t, h1, _, _, _, _, _, _, hst⟩ := step_exit (dbg := dbg) hi h.1 h.2 v
      rw [h1] at he; cases he
      exact hf' (hst f hf)
  | reap =>
    exfalso
    simp only [step] at he
    cases hr : s.ready with
    | nil => rw [hr] at he; cases he
    | cons p rest =>
      obtain ⟨g, v⟩ := p
      rw [hr] at he
      dsimp only at he
      have hg := hi.ready g v (by simp [hr])
      have hfg : f ≠ g := fun e => by rw [e, hg] at hf; cases hf
      split at he
      · cases he
      · simp only [hg, if_true, Res.ok.injEq] at he
        subst he
        simp [St.upd, hfg, hf] at hf'

/-! ## The end of a fiber -/

/-- **C47.**  Every fiber whose start function returned is either on its way to be joined (exactly once) or was handed, with the value its start function returned, to the exit
handler exactly once; it is not active and none of its calls is pending. -/
theorem fiber_exit_once (h : Reachable (step dbg) init s) :
    (s.exited.map Prod.fst).Nodup ∧ s.exited.Perm (s.reaped ++ s.ready) ∧
      ∀ g v, (g, v) ∈ s.exited → ¬ Active g s ∧ (s.fib g).st ≠ .inWait ∧ (s.fib g).pend = none := by
  obtain ⟨L, hi⟩ := inv h
  refine ⟨hi.exitedNodup, hi.exits, fun g v hg => ?_⟩
  have := hi.exitedSt g v hg
  refine ⟨fun ha => ?_, fun hw => ?_, hi.gone g (Or.inr this)⟩
  · rcases this with e | e <;> simp [Active, e] at ha
  · rcases this with e | e <;> rw [e] at hw <;> cases hw

/-- **C47.**  When a start function returns, its fiber joins the end of the ready list with the value returned, and stops. -/
theorem fiber_exit_recorded (h : Reachable (step dbg) init s) {v : Int} (he : step dbg s (.exit v) = .ok s') :
    s'.ready = s.ready ++ [(s.cur, v)] ∧ s'.exited = (s.cur, v) :: s.exited ∧ ¬ Active s.cur s' := by
  obtain ⟨L, hi⟩ := inv h
  by_cases h : s.cur = 0 ∨ (s.fib s.cur).pend ≠ none
  · simp only [step] at he; rw [if_pos h] at he; cases he
  · simp only [not_or, Decidable.not_not] at h
    obtain ⟨s2, h', t, h1, _, _, _, hx, h2, h3, _⟩ := step_exit (dbg := dbg) hi h.1 h.2 v
    rw [h1] at he; cases he
    exact ⟨h2, h3, by simp [Active, hx]⟩

/-- **C47.**  The exit handler of a fiber on the ready list can always run when the loop runs. -/
theorem fiber_exit_handled (h : Reachable (step dbg) init s) (hc : s.cur = 0) {g : Nat} {v : Int} {rest : List (Nat × Int)} (hr : s.ready = (g, v) :: rest) :
    ∃ s', step dbg s .reap = .ok s' ∧ s'.reaped = (g, v) :: s.reaped ∧ s'.ready = rest ∧ (s'.fib g).st = .freed ∧ (s'.fib g).retval = v := by
  obtain ⟨L, hi⟩ := inv h
  have hg := hi.ready g v (by simp [hr])
  refine ⟨{ s.upd g (fun f => { f with st := .freed, retval := v }) with ready := rest, reaped := (g, v) :: s.reaped }, ?_, rfl, rfl,
    by simp [St.upd], by simp [St.upd]⟩
  simp only [step, hr]
  rw [if_neg (by simp [hc]), if_pos hg]

/-- **C47.**  `kfiber_is_main`: among the fibers that were started, the selector's loop is exactly the one with no `switch_from`. -/
theorem fiber_main_iff (h : Reachable (step dbg) init s) {f : Nat} (h1 : (s.fib f).st ≠ .none) (h2 : (s.fib f).st ≠ .fresh) :
    (s.fib f).sfrom = none ↔ f = 0 := by
  obtain ⟨L, hi⟩ := inv h
  refine ⟨fun e => ?_, fun e => by rw [e]; exact hi.chain.zero_mem.2⟩
  by_cases h0 : f = 0
  · exact h0
  · exact absurd e (hi.from0 f h0 h1 h2)

/-! ## The loop gets the processor back -/

/-- the run of a list of steps -/
def runOps (dbg : Bool) (s : St) : List Op → Res St
  | [] => .ok s
  | o :: os => match step dbg s o with
    | .ok s' => runOps dbg s' os
    | .ub => .ub
    | .disabled => .disabled

/-- a step at which the running fiber gives up the processor, or takes a result it already has -/
def Yields (o : Op) : Prop := o = .wait ∨ ∃ v, o = .exit v

theorem loop_reachable (n : Nat) : ∀ (s : St) (L : List Nat), InvL s L → L.length = n →
    ∃ os s', (∀ o ∈ os, Yields o) ∧ runOps dbg s os = .ok s' ∧ s'.cur = 0 ∧ s'.inbox = s.inbox := by
  induction n with
  | zero => intro s L hi hl; have := hi.hd; rw [List.length_eq_zero_iff.1 hl] at this; cases this
  | succ n ih =>
    -- a fiber with no pending call
    have hex : ∀ (s : St) (L : List Nat), InvL s L → L.length = n + 1 → s.cur ≠ 0 → (s.fib s.cur).pend = none →
        ∃ os s', (∀ o ∈ os, Yields o) ∧ runOps dbg s os = .ok s' ∧ s'.cur = 0 ∧ s'.inbox = s.inbox := by
      intro s L hi hl hc hp
      obtain ⟨s1, h, t, h1, h2, h3, h4, _⟩ := step_exit (dbg := dbg) hi hc hp 0
      subst h2
      obtain ⟨os, s', ho, hr, hc', hb⟩ := ih s1 (h :: t) h3 (by simpa using hl)
      refine ⟨.exit 0 :: os, s', ?_, by simp only [runOps, h1, hr], hc', by rw [hb, h4]⟩
      intro o hm
      rcases List.mem_cons.1 hm with rfl | hm
      · exact Or.inr ⟨0, rfl⟩
      · exact ho o hm
    intro s L hi hl
    by_cases hc : s.cur = 0
    · exact ⟨[], s, by simp, rfl, hc, rfl⟩
    · cases hp : (s.fib s.cur).pend with
      | none => exact hex s L hi hl hc hp
      | some o =>
        cases hs : (s.fib s.cur).self with
        | false =>
          obtain ⟨s1, h, t, h1, h2, h3, h4, _⟩ := step_wait (dbg := dbg) hi hp hs
          subst h2
          obtain ⟨os, s', ho, hr, hc', hb⟩ := ih s1 (h :: t) h3 (by simpa using hl)
          refine ⟨.wait :: os, s', ?_, by simp only [runOps, h1, hr], hc', by rw [hb, h4]⟩
          intro o hm
          rcases List.mem_cons.1 hm with rfl | hm
          · exact Or.inl rfl
          · exact ho o hm
        | true =>
          obtain ⟨s1, h1, h2, h3, h4, h5, _⟩ := step_wait_self (dbg := dbg) hi hp hs
          obtain ⟨os, s', ho, hr, hc', hb⟩ := hex s1 L h2 hl (by rw [h3]; exact hc) (by rw [h3]; exact h5)
          refine ⟨.wait :: os, s', ?_, by simp only [runOps, h1, hr], hc', by rw [hb, h4]⟩
          intro o hm
          rcases List.mem_cons.1 hm with rfl | hm
          · exact Or.inl rfl
          · exact ho o hm

/-- **C47.**  However deep the wake-ups are nested, once the fibers above it wait or end, the selector's loop has the processor back, with no posted wake-up lost on the way. -/
theorem fiber_loop_reachable (h : Reachable (step dbg) init s) :
    ∃ os s', (∀ o ∈ os, Yields o) ∧ runOps dbg s os = .ok s' ∧ s'.cur = 0 ∧ s'.inbox = s.inbox := by
  obtain ⟨L, hi⟩ := inv h
  exact loop_reachable L.length s L hi rfl

/-! ## The hypotheses are met

Fiber 1 is started by the loop; it starts fiber 2, which reads (object 20) and is suspended; then it sleeps (object 10).  The loop completes the read of fiber 2, which
starts fiber 3, and fiber 3 completes the sleep of fiber 1: the processor went 0 → 2 → 3 → 1.  Then fiber 1 asks something of another thread, which answers before it is
suspended; everybody waits or ends, and the loop delivers the answer. -/

def demo1 : List Op := [.create 1, .create 2, .create 3, .wakeup 1 0, .wakeup 2 0, .arm 20, .wait, .arm 10, .wait, .wakeup 2 100, .wakeup 3 0, .wakeup 1 7]
def demo2 : List Op := [.arm 11, .post 1 55, .wait, .exit 9, .arm 21, .selfWake 6, .wait, .exit 8]

/-- what can be observed of a state -/
structure Obs where
  cur : Nat
  sts : List Stat
  sfroms : List (Option Nat)
  returned : List Ev
  ready : List (Nat × Int)
  inbox : List Msg
  deriving DecidableEq

def obs (r : Res St) : Option Obs :=
  match r with
  | .ok s => some ⟨s.cur, (List.range 4).map (fun i => (s.fib i).st), (List.range 4).map (fun i => (s.fib i).sfrom), s.returned, s.ready, s.inbox⟩
  | _ => none

example : obs (runOps true init demo1) =
    some ⟨1, [.inWake, .run, .inWake, .inWake], [none, some 3, some 0, some 2], [(1, 1, 7), (3, 0, 0), (2, 1, 100), (2, 0, 0), (1, 0, 0)], [], []⟩ := by decide

example : obs (runOps true init (demo1 ++ demo2)) =
    some ⟨0, [.run, .inWait, .inExit, .inExit], [none, some 3, some 0, some 2],
      [(2, 2, 6), (1, 1, 7), (3, 0, 0), (2, 1, 100), (2, 0, 0), (1, 0, 0)], [(3, 9), (2, 8)], [⟨1, 11, 55, 2⟩]⟩ := by decide

example : obs (runOps true init (demo1 ++ demo2 ++ [.deliver ⟨1, 11, 55, 2⟩, .exit 4, .reap, .reap, .reap])) =
    some ⟨0, [.run, .freed, .freed, .freed], [none, some 0, some 0, some 2],
      [(1, 2, 55), (2, 2, 6), (1, 1, 7), (3, 0, 0), (2, 1, 100), (2, 0, 0), (1, 0, 0)], [], []⟩ := by decide

def Res.get (r : Res St) : St :=
  match r with
  | .ok s => s
  | _ => init

def Res.isOk (r : Res St) : Bool :=
  match r with
  | .ok _ => true
  | _ => false

theorem Res.get_eq {r : Res St} (h : Res.isOk r = true) : r = .ok (Res.get r) := by
  cases r <;> first | rfl | cases h

theorem getD_eq {x : Option St} (h : x.isSome = true) : x = some (x.getD init) := by
  cases x <;> first | rfl | cases h

theorem reachable_of_run {s0 s : St} (h0 : Reachable (step dbg) init s0) {os : List Op} (h : runOps dbg s0 os = .ok s) : Reachable (step dbg) init s := by
  induction os generalizing s0 with
  | nil => cases h; exact h0
  | cons o os ih =>
    simp only [runOps] at h
    cases e : step dbg s0 o with
    | ok s1 => rw [e] at h; exact ih (h0.tail o e) h
    | ub => rw [e] at h; cases h
    | disabled => rw [e] at h; cases h

/-- runs all of whose states have `g` active -/
def activeRun (dbg : Bool) (g : Nat) (s : St) : List Op → Option St
  | [] => some s
  | o :: os => match step dbg s o with
    | .ok s' => if (s'.fib g).st.active then activeRun dbg g s' os else none
    | _ => none

theorem while_of_run {g : Nat} {a s0 s : St} (h0 : While dbg (Active g) a s0) {os : List Op} (h : activeRun dbg g s0 os = some s) : While dbg (Active g) a s := by
  induction os generalizing s0 with
  | nil => cases h; exact h0
  | cons o os ih =>
    simp only [activeRun] at h
    cases e : step dbg s0 o with
    | ok s1 =>
      rw [e] at h; dsimp only at h
      by_cases hc : (s1.fib g).st.active
      · rw [if_pos hc] at h; exact ih (h0.tail o e (active_iff.2 hc)) h
      · rw [if_neg hc] at h; cases h
    | ub => rw [e] at h; cases h
    | disabled => rw [e] at h; cases h

/-- fiber 2, woken by the loop, goes through the whole of the demonstration until it ends -/
example : ∃ s s1 s2 s3 : St, Reachable (step true) init s ∧ step true s (.wakeup 2 100) = .ok s1 ∧ While true (Active 2) s1 s2 ∧
    step true s2 (.exit 8) = .ok s3 ∧ ¬ Active 2 s3 := by
  let s := Res.get (runOps true init (demo1.take 9))
  let s1 := Res.get (step true s (.wakeup 2 100))
  let s2 := (activeRun true 2 s1 (demo1.drop 10 ++ demo2.take 7)).getD init
  let s3 := Res.get (step true s2 (.exit 8))
  have h3 : (s3.fib 2).st = .inExit := by decide
  refine ⟨s, s1, s2, s3, reachable_of_run (os := demo1.take 9) .refl (Res.get_eq (by decide)), Res.get_eq (by decide),
    while_of_run (.refl (Or.inl (by decide))) (os := demo1.drop 10 ++ demo2.take 7) (getD_eq (by decide)), Res.get_eq (by decide), fun h => ?_⟩
  rcases h with h | h <;> rw [h3] at h <;> cases h

/-! ## Findings -/

/-- the raw call of `kfiber_wakeup` by code that does not hold the completion of the fiber's call -/
def rawWake (dbg : Bool) (r : Res St) (g obj : Nat) (v : Int) : Res St :=
  match r with
  | .ok s => wakeup dbg s g obj v
  | r => r

def thenOps (dbg : Bool) (r : Res St) (os : List Op) : Res St :=
  match r with
  | .ok s => runOps dbg s os
  | r => r

/-- **Finding (C47).**  A read that times out (src/kselector.c:188-195, STF_RTIME_OUT) wakes the fiber with ST_ERR_TIME_OUT but stays pending; only a second read on the same
connection takes it up again (include/kfiber.h:250-259).  If the fiber writes to the connection instead, which names the same object, the completion of the old read (100 bytes
read) is taken for the result of the write, which is still pending: no assertion notices, in either build. -/
example : ∀ dbg : Bool, obs (rawWake dbg (thenOps dbg (rawWake dbg (runOps dbg init [.create 1, .wakeup 1 0, .arm 20, .wait]) 1 20 (-2)) [.arm 20, .wait]) 1 20 100) =
    some ⟨1, [.inWake, .run, .none, .none], [none, some 0, none, none], [(1, 2, 100), (1, 1, -2), (1, 0, 0)], [], []⟩ := by decide

/-- **Finding (C47).**  The discipline is needed: `kfiber_wakeup` of a fiber that is not suspended in a wait but in a wake-up of its own (fiber 1 woke fiber 2, which wakes
fiber 1) is not noticed in either build, and makes the stack of callers a cycle: the loop is no longer reachable from the running fiber. -/
example : ∀ dbg : Bool, obs (rawWake dbg (runOps dbg init [.create 1, .create 2, .wakeup 1 0, .wakeup 2 0]) 1 0 5) =
    some ⟨1, [.inWake, .run, .inWake, .none], [none, some 2, some 1, none], [(2, 0, 0), (1, 0, 0)], [], []⟩ := by decide

end Kasync.Sched
