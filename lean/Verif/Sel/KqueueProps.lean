import Verif.Sel.KqueuePoll

/-!
# Kqueue selector: the properties (C60)

Vocabulary: `Hist Client s` -- `s` is the state of one connection after any interleaving of operations of a caller who keeps the
rules `Client`, of the kernel, and of the selector's loop, `kevent` failing whenever it likes; `Hist Good s` -- the same with
`kevent` never failing; `Reading`, `Writing`, `Connecting` -- such a request has been made and its callback not called;
`s.done` -- the callbacks made so far, in order, with what they were told; `s.kin`, `s.kout` -- the kernel would
satisfy a read, a write.
-/

namespace Kasync.Kq

theorem Hist.poll {s : St} (h : Hist Good s) : Poll s := by
  induction h with
  | init => exact poll_init
  | step op h hc he ih => exact step_poll h.client.inv ih hc he

/-! ## Memory and assertions -/

theorem readEvent_ne_ub {s : St} {a : Ans} {c : Ctl} (ha : s.alive = true) (he : s.et = true) : readEvent s a c ≠ .ub := by
  intro e
  unfold readEvent at e
  rw [if_neg (by simp [ha])] at e
  simp only [he, Bool.not_true, Bool.and_false, Bool.false_eq_true, if_false] at e
  split at e
  · cases e
  · split at e
    · split at e <;> cases e
    · cases e

theorem writeEvent_ne_ub {s : St} {main : Bool} {a : Ans} {again : Bool} {c : Ctl} (ha : s.alive = true)
    (hk : s.sendfile = true ↔ s.wk = .file) (hm : s.wk = .file → main = false → a ≠ .err) : writeEvent s main a again c ≠ .ub := by
  intro e
  unfold writeEvent at e
  rw [if_neg (by simp [ha])] at e
  dsimp only at e
  split at e
  · rename_i hs
    rw [if_pos (hk.1 hs)] at e
    split at e
    · cases e
    · split at e
      · cases e
      · split at e
        · split at e
          · cases e
          · exact hm (hk.1 hs) (by simp_all) rfl
        · cases e
  · rename_i hs
    split at e
    · cases e
    · rename_i hf; exact hs (hk.2 hf)
    · split at e
      · cases e
      · split at e <;> cases e

/-- No operation of a caller who keeps the rules, no kernel event and no move of the selector uses a released connection, fails an
assertion or takes a buffer for the description of a file, even if `kevent` fails. -/
theorem kq_no_ub {s : St} {op : Op} (h : Hist Client s) (hc : Client s op) : step s op ≠ .ub := by
  have hi := h.inv
  have hR := hi.reading
  have hW := hi.writing
  have hdead := hi.dead
  intro e
  cases op <;> unfold step at e <;> dsimp only at e
  case read main a c =>
    obtain ⟨ha, hn, -⟩ := hc
    have hr : s.read = false := by simpa [hR] using hn
    rw [if_neg (by simp [ha, hr])] at e
    split at e
    · rename_i hrr
      split at e
      · cases e
      · refine readEvent_ne_ub ?_ ?_ e
        · exact ha
        · exact hi.rr_et hrr
    · cases e
  case write main a again c =>
    obtain ⟨ha, hn, hsf⟩ := hc
    have hw : s.write = false := by simpa [hW] using hn
    have h2 : s.wready2 = false := by have := hi.wr2; grind
    have h3 : s.sendfile = false := by have := hi.sf; grind
    rw [if_neg (by simp [ha, hw, h2])] at e
    split at e
    · split at e
      · cases e
      · refine writeEvent_ne_ub ?_ ?_ ?_ e
        · exact ha
        · simp [St.nrequest, St.request, h3]
        · intro e; cases e
    · cases e
  case sendfile main a again c =>
    obtain ⟨ha, hn, hsf, hm⟩ := hc
    have hw : s.write = false := by simpa [hW] using hn
    rw [if_neg (by simp [ha, hw])] at e
    split at e
    · split at e
      · cases e
      · refine writeEvent_ne_ub ?_ ?_ ?_ e
        · exact ha
        · simp
        · exact fun _ => hm
    · cases e
  case nextRead =>
    obtain ⟨ha, hn, -, -⟩ := hc
    have hr : s.read = false := by simpa [hR] using hn
    have h2 : s.rready2 = false := by have := hi.rr2; grind
    rw [if_neg (by simp [ha, hr, h2])] at e
    cases e
  case nextWrite =>
    obtain ⟨ha, hn, -⟩ := hc
    have hw : s.write = false := by simpa [hW] using hn
    have h2 : s.wready2 = false := by have := hi.wr2; grind
    rw [if_neg (by simp [ha, hw, h2])] at e
    cases e
  case connect now c =>
    obtain ⟨ha, h0⟩ := hc
    obtain ⟨f1, f2, f3, f4, f5⟩ := hi.fresh h0
    rw [if_neg (by simp [ha, f1, f2, f3, f4])] at e
    cases e
  case remove =>
    rw [if_neg (by simp [hc.1])] at e
    cases e
  case destroy =>
    obtain ⟨ha, hn, hm⟩ := hc
    have hr : s.read = false := by simpa [hR] using hn
    have hw : s.write = false := by simpa [hW] using hm
    have hl : s.loc = .none := by have := hi.listed; grind
    rw [if_neg (by simp [ha, hl])] at e
    cases e
  case expire =>
    split at e
    · split at e
      · have := hdead (by assumption); grind
      · cases e
    · cases e
  case selectR =>
    split at e
    · split at e
      · have := hdead (by assumption); have := hi.q_reg; grind
      · cases e
    · cases e
  case selectW =>
    split at e
    · split at e
      · have := hdead (by assumption); have := hi.q_reg; grind
      · cases e
    · cases e
  case popWrite a again c =>
    split at e
    · rename_i hcl
      split at e
      · have := hdead (by assumption); grind
      · rename_i ha
        split at e
        · rename_i hcond
          simp only [Bool.and_eq_true] at hcond
          refine writeEvent_ne_ub ?_ ?_ ?_ e
          · show s.alive = true
            simpa using ha
          · show s.sendfile = true ↔ s.wk = .file
            have := hi.sf' hcond.2
            have := hi.nsf hcond.2
            constructor
            · intro e1; by_cases e2 : s.wk = .file
              · exact e2
              · have := hi.nsf hcond.2 e2; rw [e1] at this; cases this
            · exact hi.sf' hcond.2
          · intro _ e; cases e
        · cases e
    · cases e
  case popRead a c =>
    split at e
    · rename_i k hk
      split at e
      · rename_i ht
        have hrd := hi.cur_todo k hk ht
        have hr := hi.cur_rd k hk hrd
        refine readEvent_ne_ub ?_ ?_ e
        · show s.alive = true
          cases ha : s.alive
          · have := (hdead ha).1; rw [hr] at this; cases this
          · rfl
        · exact hi.read_et hr
      · cases e
    · cases e
  case popEnd =>
    split at e
    · rename_i k hk
      split at e
      · cases e
      · split at e
        · rename_i hcond
          split at e
          · rename_i ha
            have := hdead ha
            have := hi.cur_rd k hk
            have := hi.cur_wr k hk
            grind
          · cases e
        · cases e
    · cases e
  case dataIn => cases e
  case spaceOut => cases e
  case hangup => cases e

/-- A released connection has no knote: the kernel reports nothing about it. -/
theorem kq_released_unregistered {s : St} (h : Hist Client s) (hd : s.alive = false) : s.regR = false ∧ s.regW = false ∧ s.qR = false ∧ s.qW = false := by
  have hi := h.inv
  have := hi.dead hd
  have := hi.q_reg
  refine ⟨by grind, by grind, ?_, ?_⟩
  · cases e : s.qR <;> grind
  · cases e : s.qW <;> grind

/-! ## Answers -/

/-- Every request is answered at most once, only requests that were made are answered, and of those that were not answered at most
one is on the read side and at most one on the write side -- even if `kevent` fails. -/
theorem kq_exactly_once {s : St} (h : Hist Client s) :
    (s.done.map Prod.fst).Nodup ∧ (∀ i ∈ s.done.map Prod.fst, i < s.next) ∧
    (∀ i j, Outstanding s i → Outstanding s j → (s.req i = .rd ↔ s.req j = .rd) → i = j) := by
  have hi := h.inv
  refine ⟨hi.done_nodup, hi.done_lt, ?_⟩
  intro i j a b e
  have hr : s.read = true → s.req s.rid = .rd := fun e => (hi.out_r e).2
  have hw : s.write = true → s.req s.wid ≠ .rd := fun e => (hi.out_w e).2
  rcases hi.acct i a with ⟨x, rfl⟩ | ⟨x, rfl⟩ <;> rcases hi.acct j b with ⟨y, rfl⟩ | ⟨y, rfl⟩
  · rfl
  · exact absurd (e.1 (hr x)) (hw y)
  · exact absurd (e.2 (hr y)) (hw x)
  · rfl

theorem waitRead_done {l : List (Nat × Out)} {s : St} {c : Ctl} (hl : s.done = l) : l <+: (waitRead s c).done := by
  subst hl
  obtain ⟨b, t, ht, -, -, e⟩ := waitRead_eq s c
  rw [e, ht]
  cases b <;> simp

theorem waitWrite_done {l : List (Nat × Out)} {s : St} {c : Ctl} (hl : s.done = l) : l <+: (waitWrite s c).done := by
  subst hl
  obtain ⟨b, b1, t, ht, -, -, -, e⟩ := waitWrite_eq s c
  rw [e, ht]
  cases b <;> simp

theorem readEvent_done {l : List (Nat × Out)} {s s' : St} {a : Ans} {c : Ctl} (e : readEvent s a c = .ok s') (hl : s.done = l) : l <+: s'.done := by
  subst hl
  unfold readEvent St.finishR at e
  split at e
  · cases e
  dsimp only at e
  split at e
  · cases e; simp
  · split at e
    · split at e <;> cases e <;> simp
    · split at e
      · cases e
      · cases e; exact waitRead_done rfl

theorem writeEvent_done {l : List (Nat × Out)} {s s' : St} {m : Bool} {a : Ans} {g : Bool} {c : Ctl} 
    (e : writeEvent s m a g c = .ok s') (hl : s.done = l) : l <+: s'.done := by
  subst hl
  unfold writeEvent St.finishW addList at e
  split at e
  · cases e
  dsimp only at e
  split at e
  · split at e
    · split at e
      · cases e; exact waitWrite_done rfl
      · split at e
        · cases e; simp
        · split at e
          · split at e
            · cases e; simp
            · cases e
          · cases e; exact waitWrite_done rfl
    · cases e
  · split at e
    · cases e; simp
    · cases e
    · split at e
      · cases e; exact waitWrite_done rfl
      · split at e <;> cases e <;> simp

/-- An answer once given stays: every operation only appends to the answers. -/
theorem kq_answers_final {s s' : St} {op : Op} (he : step s op = .ok s') : s.done <+: s'.done := by
  cases op <;> unfold step at he <;> dsimp only at he
  case read =>
    split at he
    · cases he
    split at he
    · split at he
      · cases he; simp [addList, St.nrequest, St.request]
      · exact readEvent_done he rfl
    · cases he; exact waitRead_done rfl
  case write =>
    split at he
    · cases he
    split at he
    · split at he
      · cases he; simp [addList, St.nrequest, St.request]
      · exact writeEvent_done he rfl
    · cases he; exact waitWrite_done rfl
  case sendfile =>
    split at he
    · cases he
    split at he
    · split at he
      · cases he; simp [addList, St.nrequest, St.request]
      · exact writeEvent_done he rfl
    · cases he; exact waitWrite_done rfl
  case nextRead => split at he <;> cases he; simp [addList, St.nrequest, St.request]
  case nextWrite => split at he <;> cases he; simp [addList, St.nrequest, St.request]
  case connect now c =>
    split at he
    · cases he
    rename_i hng
    have hv : s.rev = false := by
      cases hv : s.rev
      · rfl
      · exact absurd (Or.inr (Or.inr (Or.inr (Or.inl hv)))) hng
    simp only [addEventRW, hv, Bool.false_eq_true, if_false, evAddR, evAddW, St.finishW, addList, St.nrequest, St.request, Res.ok.injEq] at he
    subst he
    cases c <;> simp
  case remove => split at he <;> cases he; unfold remove; split <;> simp
  case destroy => split at he <;> cases he; unfold remove; split <;> simp
  case expire =>
    split at he
    · split at he <;> cases he; simp [wake]
    · cases he
  case selectR =>
    split at he
    · split at he
      · cases he
      · cases he; split <;> simp
    · cases he
  case selectW =>
    split at he
    · split at he
      · cases he
      · cases he; split <;> simp
    · cases he
  case popWrite =>
    split at he
    · split at he
      · cases he
      · split at he
        · exact writeEvent_done he rfl
        · cases he; simp [addList]
    · cases he
  case popRead =>
    split at he
    · split at he
      · exact readEvent_done he rfl
      · cases he
    · cases he
  case popEnd =>
    split at he
    · split at he
      · cases he
      · split at he
        · split at he
          · cases he
          · cases he; split <;> simp [addList]
        · cases he; simp
    · cases he
  case dataIn => cases he; simp [wake]
  case spaceOut => cases he; simp [wake]
  case hangup => cases he; simp [wake]

/-! ## Readiness -/

/-- The moves of the selector's own loop. -/
def Selector : Op → Prop
  | .selectR | .selectW | .popWrite .. | .popRead .. | .popEnd => True
  | _ => False

/-- The selector has nothing to do for this connection: none of its moves is possible, whatever the kernel answers. -/
def Rest (s : St) : Prop := ∀ op, Selector op → step s op = .disabled

theorem rest_iff {s : St} (h : Hist Client s) : Rest s ↔ s.cur = none ∧ s.loc ≠ .ready ∧ s.qR = false ∧ s.qW = false := by
  constructor
  · intro hr
    have hc : s.cur = none := by
      cases hc : s.cur with
      | none => rfl
      | some k =>
        exfalso
        cases ht : k.todoR
        · have e1 := hr .popEnd trivial
          have e2 := kq_no_ub (op := .popEnd) h trivial
          unfold step at e1 e2
          simp only [hc, ht] at e1 e2
          split at e1
          · simp_all
          · split at e1
            · split at e1 <;> cases e1
            · cases e1
        · have e1 := hr (.popRead .err .ok) trivial
          have e2 := kq_no_ub (op := .popRead .err .ok) h trivial
          unfold step readEvent at e1 e2
          simp only [hc, ht, if_true] at e1 e2
          split at e1
          · cases e1
          · split at e1
            · cases e1
            · split at e1
              · cases e1
              · split at e1 <;> cases e1
    refine ⟨hc, ?_, ?_, ?_⟩
    · intro hl
      have e1 := hr (.popWrite (.got 0 false) false .ok) trivial
      unfold step at e1
      simp only [hc, hl, and_self, if_true] at e1
      split at e1
      · cases e1
      · split at e1
        · unfold writeEvent at e1
          split at e1
          · cases e1
          · dsimp only at e1
            split at e1
            · split at e1
              · split at e1 <;> cases e1
              · cases e1
            · split at e1
              · cases e1
              · cases e1
              · split at e1 <;> cases e1
        · cases e1
    · cases hq : s.qR
      · rfl
      · have e1 := hr .selectR trivial
        unfold step at e1
        simp only [hc, hq, and_self, if_true] at e1
        split at e1 <;> cases e1
    · cases hq : s.qW
      · rfl
      · have e1 := hr .selectW trivial
        unfold step at e1
        simp only [hc, hq, and_self, if_true] at e1
        split at e1 <;> cases e1
  · rintro ⟨h1, h2, h3, h4⟩ op hop
    cases op <;> first | exact hop.elim | (unfold step; simp [h1, h2, h3, h4])

/-- No readiness is lost: when the selector has nothing to do for a connection, a read waits only if the kernel has nothing to read
and a write (sendfile, connect) only if the kernel takes nothing. -/
theorem kq_not_lost {s : St} (h : Hist Good s) (hr : Rest s) :
    (Reading s → s.kin = false) ∧ (Writing s → s.kout = false) := by
  have hi := h.client.inv
  have hp := h.poll
  obtain ⟨h1, h2, h3, h4⟩ := (rest_iff h.client).1 hr
  rw [hi.reading, hi.writing]
  obtain ⟨g1, g2, g3, g4, g5, g6, g7, g8, g9, g10, g11, g12, g13, g14, g15, g16⟩ := hp
  constructor
  · intro e
    cases hk : s.kin
    · rfl
    · have := g4 e
      have := g8 e
      cases hk : s.rk <;> grind
  · intro e
    cases hk : s.kout
    · rfl
    · have := g9 e
      grind

/-- While a request waits and the selector has nothing to do, the poller watches for its event and one of the two timeout lists
holds the connection, so that it is shut down in the end. -/
theorem kq_watched {s : St} (h : Hist Good s) (hr : Rest s) :
    (Reading s → s.regR = true) ∧ (Writing s → s.regW = true) ∧ (Reading s ∨ Writing s → s.loc = .rw ∨ s.loc = .connect) := by
  have hi := h.client.inv
  have hp := h.poll
  have hnl := kq_not_lost h hr
  obtain ⟨h1, h2, h3, h4⟩ := (rest_iff h.client).1 hr
  rw [hi.reading, hi.writing] at *
  obtain ⟨g1, g2, g3, g4, g5, g6, g7, g8, g9, g10, g11, g12, g13, g14, g15, g16⟩ := hp
  refine ⟨?_, ?_, ?_⟩
  · intro e
    have := g4 e
    have := g8 e
    cases hk : s.rk <;> grind
  · intro e
    have := g9 e
    cases hk : s.wev <;> grind
  · intro e
    cases hl : s.loc
    · exfalso; grind
    · exact Or.inr rfl
    · exact Or.inl rfl
    · exact absurd hl h2

/-! ## Progress -/

/-- A run of the selector alone: `n` of its moves, `kevent` not failing and no `sendfile` failing. -/
inductive SelRun (s : St) : Nat → St → Prop where
  | refl : SelRun s 0 s
  | step {n : Nat} {t t' : St} (op : Op) : SelRun s n t → Selector op → CtlOk op →
      (∀ a g c, op = .popWrite a g c → (∃ id, Outstanding t id ∧ t.req id = .file) → a ≠ .err) → step t op = .ok t' → SelRun s (n + 1) t'

theorem Selector.client {s : St} {op : Op} (h : Selector op) : Client s op := by
  cases op <;> first | exact h.elim | exact trivial

theorem SelRun.hist {s t : St} {n : Nat} (h : Hist Good s) (r : SelRun s n t) : Hist Good t := by
  induction r with
  | refl => exact h
  | step op _ hs hc _ he ih => exact .step op ih ⟨hs.client, hc⟩ he

/-- Work left at the connection the ready loop is at. -/
def curWork : Option Snap → Nat
  | none => 0
  | some k => if k.todoR then 2 else 1

/-- Work left for the selector. -/
def work (s : St) : Nat :=
  (bif s.qR then 6 else 0) + (bif s.qW then 6 else 0) + (if s.loc = .ready then 4 else 0) + curWork s.cur

theorem curWork_le (c : Option Snap) : curWork c ≤ 2 := by
  unfold curWork; split
  · omega
  · split <;> omega

theorem work_le (s : St) : work s ≤ 18 := by
  have := curWork_le s.cur
  unfold work
  cases s.qR <;> cases s.qW <;> simp only [cond_true, cond_false] <;> split <;> omega

theorem readEvent_work {s s' : St} {a : Ans} (hr : s.rev = true ∨ s.rk = .null) (he : readEvent s a .ok = .ok s') :
    s'.qR = s.qR ∧ s'.qW = s.qW ∧ (s'.loc = .ready ↔ s.loc = .ready) ∧ s'.cur = s.cur := by
  unfold readEvent St.finishR at he
  simp only [waitRead_ok] at he
  split at he
  · cases he
  split at he
  · cases he; simp
  · rename_i hk
    have hr : s.rev = true := by simpa [hk] using hr
    split at he
    · split at he <;> cases he <;> simp
    · split at he
      · cases he
      · cases he
        simp [hr]
        split <;> simp_all

theorem writeEvent_work {s s' : St} {a : Ans} {g : Bool} (hr : s.rev = true ∨ s.wk = .null) (hf : s.wk = .file → a ≠ .err)
    (he : writeEvent s true a g .ok = .ok s') :
    s'.qR = s.qR ∧ s'.qW = s.qW ∧ (s'.loc = .ready ↔ s.loc = .ready) ∧ s'.cur = s.cur := by
  unfold writeEvent St.finishW addList at he
  simp only [waitWrite_ok] at he
  split at he
  · cases he
  split at he
  · split at he
    · rename_i hk
      have hr : s.rev = true := by simpa [hk] using hr
      split at he
      · cases he; simp_all; split <;> simp_all
      · split at he
        · cases he; simp
        · exact absurd rfl (hf hk)
    · cases he
  · split at he
    · cases he; simp
    · cases he
    · rename_i hk
      have hr : s.rev = true := by simpa [hk] using hr
      split at he
      · cases he; simp_all; split <;> simp_all
      · split at he <;> cases he <;> simp

theorem work_dec {s s' : St} {op : Op} (h : Hist Good s) (hs : Selector op) (hc : CtlOk op)
    (hf : ∀ a g c, op = .popWrite a g c → (∃ id, Outstanding s id ∧ s.req id = .file) → a ≠ .err) (he : step s op = .ok s') :
    work s' < work s := by
  have hi := h.client.inv
  obtain ⟨g1, g2, g3, g4, g5, g6, g7, g8, g9, g10, g11, g12, g13, g14, g15, g16⟩ := h.poll
  cases op <;> first | exact hs.elim | skip
  all_goals unfold step at he; dsimp only at he
  case selectR =>
    split at he
    · rename_i hq
      split at he
      · cases he
      cases he
      unfold work
      rw [hq.1, hq.2]
      split
      · simp only [cond_true, cond_false]
        (repeat' split) <;> omega
      · simp
    · cases he
  case selectW =>
    split at he
    · rename_i hq
      split at he
      · cases he
      cases he
      unfold work
      rw [hq.1, hq.2]
      split
      · simp only [cond_true, cond_false]
        (repeat' split) <;> omega
      · simp
    · cases he
  case popWrite a g c =>
    obtain rfl : c = .ok := hc
    split at he
    · rename_i hq
      split at he
      · cases he
      split at he
      · rename_i hcond
        simp only [Bool.and_eq_true, Bool.or_eq_true] at hcond
        have hrv : s.rev = true ∨ s.wk = .null := by
          by_cases e : s.wk = .null
          · exact Or.inr e
          · have := hi.wr2; grind
        have hfw : s.wk = .file → a ≠ .err := by
          intro e
          exact hf a g .ok rfl ⟨_, (hi.out_w hcond.2).1, (hi.file hcond.2).2 e⟩
        obtain ⟨w1, w2, w3, w4⟩ := writeEvent_work (by exact hrv) (by exact hfw) he
        have hn : ¬ s'.loc = .ready := by rw [w3]; simp [addList]
        have hcw := curWork_le s'.cur
        unfold work
        rw [w1, w2, if_neg hn, hq.1, hq.2, if_pos rfl]
        simp only [addList]
        have h0 : curWork none = 0 := rfl
        omega
      · cases he
        unfold work
        rw [hq.1, hq.2, if_pos rfl]
        simp only [addList, reduceCtorEq, if_false]
        have hcw := curWork_le (some ⟨(s.rready || s.rready2) && s.read, s.read, s.write, s.et⟩)
        have h0 : curWork none = 0 := rfl
        omega
    · cases he
  case popRead a c =>
    obtain rfl : c = .ok := hc
    split at he
    · rename_i k hk
      split at he
      · rename_i ht
        have hr := hi.cur_rd k hk (hi.cur_todo k hk ht)
        have hrv : s.rev = true ∨ s.rk = .null := by
          cases e : s.rk
          · exact Or.inl ((g4 hr).1 e)
          · exact Or.inr rfl
        obtain ⟨w1, w2, w3, w4⟩ := readEvent_work (by exact hrv) he
        unfold work
        simp only [w1, w2, w3, w4, hk, ht, curWork, Bool.false_eq_true, if_false, if_true]
        omega
      · cases he
    · cases he
  case popEnd =>
    split at he
    · rename_i k hk
      split at he
      · cases he
      · rename_i ht
        split at he
        · split at he
          · cases he
          · cases he
            unfold work
            rw [hk]
            have h0 : curWork none = 0 := rfl
            have h1 : curWork (some k) = 1 := if_neg ht
            split
            · rename_i hl
              simp only [addList, hl, reduceCtorEq, if_false]
              omega
            · dsimp only; omega
        · cases he
          unfold work
          rw [hk]
          have h0 : curWork none = 0 := rfl
          have h1 : curWork (some k) = 1 := if_neg ht
          dsimp only; omega
    · cases he

theorem SelRun.work {s t : St} {n : Nat} (h : Hist Good s) (r : SelRun s n t) : n + work t ≤ work s := by
  induction r with
  | refl => omega
  | step op r hs hc hf he ih =>
    have := work_dec (r.hist h) hs hc hf he
    omega

/-- The selector comes to rest: left alone by the caller and the kernel it makes at most 18 moves for a connection, whatever the
answers of the system calls (`sendfile` failing excepted, see the findings). -/
theorem kq_settles {s t : St} {n : Nat} (h : Hist Good s) (r : SelRun s n t) : n ≤ 18 := by
  have := r.work h
  have := work_le s
  omega

theorem keepR {s s' : St} {op : Op} {i : Nat} (hi : Inv s) (hs : Selector op) (hc : CtlOk op) (he : step s op = .ok s')
    (h : i ∈ s.done.map Prod.fst ∨ (s.read = true ∧ s.rid = i ∧ s.kin = true)) :
    i ∈ s'.done.map Prod.fst ∨ (s'.read = true ∧ s'.rid = i ∧ s'.kin = true) := by
  rcases h with h | ⟨h1, h2, h3⟩
  · obtain ⟨l, e⟩ := kq_answers_final he
    rw [← e]; left; simp only [List.map_append, List.mem_append]; exact Or.inl h
  cases op <;> first | exact hs.elim | skip
  all_goals unfold step at he; dsimp only at he
  case selectR =>
    split at he
    · split at he
      · cases he
      cases he
      right
      first | exact ⟨h1, h2, h3⟩ | (split <;> exact ⟨h1, h2, h3⟩)
    · cases he
  case selectW =>
    split at he
    · split at he
      · cases he
      cases he
      right
      first | exact ⟨h1, h2, h3⟩ | (split <;> exact ⟨h1, h2, h3⟩)
    · cases he
  case popWrite a g c =>
    obtain rfl : c = .ok := hc
    split at he
    · split at he
      · cases he
      · split at he
        · right
          unfold writeEvent St.finishW addList at he
          simp only [waitWrite_ok] at he
          (repeat' split at he) <;> cases he <;> exact ⟨h1, h2, h3⟩
        · cases he; right; exact ⟨h1, h2, h3⟩
    · cases he
  case popRead a c =>
    split at he
    · split at he
      · unfold readEvent St.finishR at he
        split at he
        · cases he
        · dsimp only at he
          split at he
          · cases he; left; simp [h2]
          · first | rw [if_pos h3] at he | skip
            split at he <;> cases he <;> left <;> simp [h2]
      · cases he
    · cases he
  case popEnd =>
    split at he
    · split at he
      · cases he
      · split at he
        · split at he
          · cases he
          · cases he; right; split <;> exact ⟨h1, h2, h3⟩
        · cases he; right; exact ⟨h1, h2, h3⟩
    · cases he

theorem keepW {s s' : St} {op : Op} {i : Nat} (hi : Inv s) (hs : Selector op) (hc : CtlOk op)
    (hf : ∀ a g c, op = .popWrite a g c → (∃ id, Outstanding s id ∧ s.req id = .file) → a ≠ .err) (he : step s op = .ok s')
    (h : i ∈ s.done.map Prod.fst ∨ (s.write = true ∧ s.wid = i ∧ s.kout = true)) :
    i ∈ s'.done.map Prod.fst ∨ (s'.write = true ∧ s'.wid = i ∧ s'.kout = true) := by
  rcases h with h | ⟨h1, h2, h3⟩
  · obtain ⟨l, e⟩ := kq_answers_final he
    rw [← e]; left; simp only [List.map_append, List.mem_append]; exact Or.inl h
  cases op <;> first | exact hs.elim | skip
  all_goals unfold step at he; dsimp only at he
  case selectR =>
    split at he
    · split at he
      · cases he
      cases he
      right
      first | exact ⟨h1, h2, h3⟩ | (split <;> exact ⟨h1, h2, h3⟩)
    · cases he
  case selectW =>
    split at he
    · split at he
      · cases he
      cases he
      right
      first | exact ⟨h1, h2, h3⟩ | (split <;> exact ⟨h1, h2, h3⟩)
    · cases he
  case popWrite a g c =>
    obtain rfl : c = .ok := hc
    split at he
    · split at he
      · cases he
      · split at he
        · left
          have hno : s.wk = .file → a ≠ .err := fun e => hf a g .ok rfl ⟨_, (hi.out_w h1).1, (hi.file h1).2 e⟩
          unfold writeEvent St.finishW addList at he
          simp only [h3, Bool.true_eq_false, false_and, if_false] at he
          split at he
          · cases he
          split at he
          · split at he
            · split at he
              · cases he; simp [h2]
              · exact absurd rfl (hno (by assumption))
            · cases he
          · split at he
            · cases he; simp [h2]
            · cases he
            · split at he <;> cases he <;> simp [h2]
        · cases he; right; exact ⟨h1, h2, h3⟩
    · cases he
  case popRead a c =>
    obtain rfl : c = .ok := hc
    split at he
    · split at he
      · right
        unfold readEvent St.finishR at he
        simp only [waitRead_ok] at he
        (repeat' split at he) <;> cases he <;> exact ⟨h1, h2, h3⟩
      · cases he
    · cases he
  case popEnd =>
    split at he
    · split at he
      · cases he
      · split at he
        · split at he
          · cases he
          · cases he; right; split <;> exact ⟨h1, h2, h3⟩
        · cases he; right; exact ⟨h1, h2, h3⟩
    · cases he

/-- A read the kernel can satisfy is answered: once the selector, left alone, has come to rest (after at most 18 moves), its callback
has been called. -/
theorem kq_read_completes {s t : St} {n id : Nat} (h : Hist Good s) (ho : Outstanding s id) (hq : s.req id = .rd) (hk : s.kin = true)
    (r : SelRun s n t) (hr : Rest t) : id ∈ t.done.map Prod.fst := by
  have hi := h.client.inv
  have h0 : s.read = true ∧ s.rid = id ∧ s.kin = true := by
    rcases hi.acct id ho with ⟨a, e⟩ | ⟨a, e⟩
    · exact ⟨a, e.symm, hk⟩
    · exact absurd (e ▸ hq) (hi.out_w a).2
  have key : id ∈ t.done.map Prod.fst ∨ (t.read = true ∧ t.rid = id ∧ t.kin = true) := by
    clear hr
    induction r with
    | refl => exact Or.inr h0
    | step op r hs hc hf he ih => exact keepR (r.hist h).client.inv hs hc he ih
  rcases key with e | ⟨e1, e2, e3⟩
  · exact e
  · have := (kq_not_lost (r.hist h) hr).1 ((r.hist h).client.inv.reading.2 e1)
    rw [e3] at this; cases this

/-- So is a write, a sendfile or a connect. -/
theorem kq_write_completes {s t : St} {n id : Nat} (h : Hist Good s) (ho : Outstanding s id) (hq : s.req id ≠ .rd) (hk : s.kout = true)
    (r : SelRun s n t) (hr : Rest t) : id ∈ t.done.map Prod.fst := by
  have hi := h.client.inv
  have h0 : s.write = true ∧ s.wid = id ∧ s.kout = true := by
    rcases hi.acct id ho with ⟨a, e⟩ | ⟨a, e⟩
    · exact absurd (e ▸ (hi.out_r a).2) hq
    · exact ⟨a, e.symm, hk⟩
  have key : id ∈ t.done.map Prod.fst ∨ (t.write = true ∧ t.wid = id ∧ t.kout = true) := by
    clear hr
    induction r with
    | refl => exact Or.inr h0
    | step op r hs hc hf he ih => exact keepW (r.hist h).client.inv hs hc hf he ih
  rcases key with e | ⟨e1, e2, e3⟩
  · exact e
  · have := (kq_not_lost (r.hist h) hr).2 ((r.hist h).client.inv.writing.2 e1)
    rw [e3] at this; cases this

/-- A connect is reported only when the kernel says the socket is writable (or `kevent` failed). -/
theorem kq_connect_reported {s s' : St} {op : Op} {id : Nat} (h : Hist Good s) (hg : Good s op) (he : step s op = .ok s')
    (ho : Outstanding s id) (hq : s.req id = .conn) (hd : id ∈ s'.done.map Prod.fst) : s.kout = true ∧ s'.done = s.done ++ [(id, .zero)] := by
  have hi := h.client.inv
  have hcon : s.write = true ∧ s.wid = id := by
    rcases hi.acct id ho with ⟨a, e⟩ | ⟨a, e⟩
    · rw [e, (hi.out_r a).2] at hq; cases hq
    · exact ⟨a, e.symm⟩
  obtain ⟨hw, hwid⟩ := hcon
  subst hwid
  obtain ⟨c1, c2, c3, c4, c5, c6, c7, c8⟩ := h.poll.conn hw hq
  have hnot := ho.2
  have hR := hi.reading
  have hW := hi.writing
  have hC := hi.connecting
  have hw' : Writing s := hW.2 hw
  have hc' : Connecting s := hC.2 ⟨hw, hq⟩
  obtain ⟨hg, hctl⟩ := hg
  cases op
  case read => exact absurd hc' hg.2.2
  case nextRead => exact absurd hc' hg.2.2.1
  case write => exact absurd hw' hg.2.1
  case sendfile => exact absurd hw' hg.2.1
  case nextWrite => exact absurd hw' hg.2.1
  case connect => have := ho.1; have := hg.2; omega
  case remove => exact absurd hw' hg.2.2
  case destroy => exact absurd hw' hg.2.2
  case popWrite a g c =>
    unfold step at he
    dsimp only at he
    split at he
    · rename_i hcl
      split at he
      · cases he
      · split at he
        · unfold writeEvent at he
          split at he
          · cases he
          · have hsf := hi.nsf hw (by rw [c4]; decide)
            simp only [addList, hsf, c4, Bool.false_eq_true, if_false, Res.ok.injEq] at he
            subst he
            exact ⟨c2 hcl.2, rfl⟩
        · cases he; exact absurd hd hnot
    · cases he
  case popRead => unfold step at he; simp only [c3] at he; cases he
  case popEnd => unfold step at he; simp only [c3] at he; cases he
  all_goals
    unfold step at he
    dsimp only at he
    (repeat' split at he) <;> cases he
    all_goals (first | exact absurd hd hnot | (split at hd <;> exact absurd hd hnot))

/-! ## The hypotheses are met: concrete histories -/

/-- A decidable version of the rules `Good`. -/
def okB (s : St) : Op → Bool
  | .read _ _ c => s.alive && !s.read && !(s.write && s.req s.wid = .conn) && c = .ok
  | .nextRead => s.alive && !s.read && !(s.write && s.req s.wid = .conn) && s.regR
  | .write _ _ _ c => s.alive && !s.write && s.done.all (fun p => p.2 ≠ .noPoll) && c = .ok
  | .nextWrite => s.alive && !s.write && s.done.all (fun p => p.2 ≠ .noPoll)
  | .sendfile main a _ c => s.alive && !s.write && s.done.all (fun p => p.2 ≠ .noPoll) && (main || a ≠ .err) && c = .ok
  | .connect _ c => s.alive && s.next = 0 && c = .ok
  | .remove | .destroy => s.alive && !s.read && !s.write
  | .popWrite _ _ c | .popRead _ c => c = .ok
  | _ => true

theorem okB_good {s : St} {op : Op} (hi : Inv s) (h : okB s op = true) : Good s op := by
  have hR := hi.reading
  have hW := hi.writing
  have hC := hi.connecting
  have hall : s.done.all (fun p => p.2 ≠ .noPoll) = true → ∀ id, s.req id = .file → (id, Out.noPoll) ∉ s.done := by
    intro e id _ hm
    have := List.all_eq_true.1 e _ hm
    simp at this
  cases op <;> simp only [okB, Bool.and_eq_true, Bool.not_eq_true', decide_eq_true_eq, Bool.or_eq_true] at h <;>
    simp only [Good, Client, CtlOk, hR, hW, hC] <;> grind

/-- Runs a list of operations, checking the rules before each. -/
def runB (s : St) : List Op → Option St
  | [] => some s
  | op :: l => if okB s op then (match step s op with | .ok s' => runB s' l | _ => none) else none

theorem runB_hist {s t : St} {l : List Op} (h : Hist Good s) (hr : runB s l = some t) : Hist Good t := by
  induction l generalizing s with
  | nil => cases hr; exact h
  | cons op l ih =>
    unfold runB at hr
    split at hr
    · rename_i hk
      split at hr
      · rename_i s' e
        exact ih (.step op h (okB_good h.client.inv hk) e) hr
      · cases hr
    · cases hr

/-- The properties are about states such as these: a connection is established, a read and a write wait together while the ready
loop is at the connection. -/
example : ∃ s : St, Hist Good s ∧ Reading s ∧ Writing s ∧ s.cur ≠ none ∧ s.done = [(0, .zero), (1, .got 5)] := by
  obtain ⟨s, e⟩ : ∃ s, runB {} [.connect false .ok, .spaceOut, .selectW, .popWrite .err false .ok, .popEnd, .write true .err true .ok,
    .popWrite (.got 5 false) false .ok, .popEnd, .write true .err true .ok, .read true .err .ok, .popWrite .err true .ok] = some s := ⟨_, rfl⟩
  have h := runB_hist .init e
  refine ⟨s, h, h.client.inv.reading.2 ?_, h.client.inv.writing.2 ?_, ?_, ?_⟩ <;> cases e <;> first | rfl | (intro e; cases e)

/-- Later both are answered, and the connection is released. -/
example : ∃ s : St, Hist Good s ∧ s.alive = false ∧ s.done = [(0, .zero), (1, .got 5), (3, .got 7), (2, .got 9)] := by
  obtain ⟨s, e⟩ : ∃ s, runB {} [.connect false .ok, .spaceOut, .selectW, .popWrite .err false .ok, .popEnd, .write true .err true .ok,
    .popWrite (.got 5 false) false .ok, .popEnd, .write true .err true .ok, .read true .err .ok, .popWrite .err true .ok, .popEnd, .dataIn, .selectR,
    .popWrite .err true .ok, .popRead (.got 7 false) .ok, .popEnd, .spaceOut, .selectW, .popWrite (.got 9 true) true .ok, .popEnd, .destroy] = some s := ⟨_, rfl⟩
  refine ⟨s, runB_hist .init e, ?_, ?_⟩ <;> cases e <;> rfl

/-- `kq_not_lost`, `kq_watched`: the selector is at rest while a read and a sendfile wait. -/
example : ∃ s : St, Hist Good s ∧ Rest s ∧ Reading s ∧ Writing s ∧ s.loc = .rw ∧ s.kin = false ∧ s.kout = false := by
  obtain ⟨s, e⟩ : ∃ s, runB {} [.write true .err true .ok, .selectW, .popWrite (.got 5 false) false .ok, .popEnd, .read true .err .ok,
    .sendfile true .err true .ok, .popWrite .err true .ok, .popEnd] = some s := ⟨_, rfl⟩
  have h := runB_hist .init e
  refine ⟨s, h, (rest_iff h.client).2 ?_, h.client.inv.reading.2 ?_, h.client.inv.writing.2 ?_, ?_, ?_, ?_⟩ <;> cases e <;>
    first | rfl | exact ⟨rfl, by decide, rfl, rfl⟩

/-- `kq_read_completes`, `kq_settles`: from a state in which data has arrived for a waiting read the selector alone makes four moves
and rests. -/
example : ∃ s t : St, Hist Good s ∧ Reading s ∧ s.kin = true ∧ SelRun s 4 t ∧ Rest t := by
  obtain ⟨s, e⟩ : ∃ s, runB {} [.read true .err .ok, .dataIn] = some s := ⟨_, rfl⟩
  have h := runB_hist .init e
  obtain ⟨t1, e1⟩ : ∃ t, step s .selectR = .ok t := by cases e; exact ⟨_, rfl⟩
  obtain ⟨t2, e2⟩ : ∃ t, step t1 (.popWrite (.got 0 false) false .ok) = .ok t := by cases e; cases e1; exact ⟨_, rfl⟩
  obtain ⟨t3, e3⟩ : ∃ t, step t2 (.popRead (.got 5 false) .ok) = .ok t := by cases e; cases e1; cases e2; exact ⟨_, rfl⟩
  obtain ⟨t4, e4⟩ : ∃ t, step t3 .popEnd = .ok t := by cases e; cases e1; cases e2; cases e3; exact ⟨_, rfl⟩
  have r : SelRun s 4 t4 := by
    refine .step .popEnd (.step (.popRead (.got 5 false) .ok) (.step (.popWrite (.got 0 false) false .ok) (.step .selectR .refl ?_ ?_ ?_ e1) ?_ ?_ ?_ e2)
      ?_ ?_ ?_ e3) ?_ ?_ ?_ e4
    all_goals first | exact trivial | exact rfl | (intro a g c e; cases e; simp) | (intro a g c e; cases e)
  refine ⟨s, t4, h, h.client.inv.reading.2 (by cases e; rfl), by cases e; rfl, r, (rest_iff (r.hist h).client).2 ?_⟩
  cases e; cases e1; cases e2; cases e3; cases e4
  exact ⟨rfl, by decide, rfl, rfl⟩

/-! ## Findings -/

/-- **Finding (C60).** On BSD a `sendfile` that fails with an error other than EAGAIN before anything was sent (the peer reset the
connection, say) is tried again at once with STF_WREADY still set (src/kselectable.c:336-344): the ready loop takes the connection again and
again, the callback is never called and, as the loop is left only with an empty ready list, the selector thread serves nothing else.  For
every number of rounds: -/
theorem sendfile_error_spins (s : St) (ha : s.alive = true) (hc : s.cur = none) (hl : s.loc = .ready) (hr : s.read = false)
    (hw : s.write = true) (hs : s.sendfile = true) (hk : s.wk = .file) (hy : s.wready = true) (n : Nat) :
    run step s (List.replicate n [Op.popWrite .err false .ok, .popEnd]).flatten = some s := by
  induction n with
  | zero => rfl
  | succ n ih =>
    rw [List.replicate_succ, List.flatten_cons]
    have e1 : step s (.popWrite .err false .ok) =
        .ok { s with cur := some ⟨false, false, false, s.et⟩ } := by
      cases s
      simp only at ha hc hl hr hw hs hk hy
      subst ha hc hl hr hw hs hk hy
      simp [step, addList, writeEvent]
    have e2 : step { s with cur := some ⟨false, false, false, s.et⟩ } .popEnd = .ok s := by
      cases s
      simp only at hc
      subst hc
      simp [step]
    simp only [List.cons_append, List.nil_append, run, e1, e2, ih]

/-- Such a state is reached as soon as a `sendfile` is started by the selector's main fiber on a writable connection. -/
example : ∃ s : St, Hist Good s ∧ s.cur = none ∧ s.loc = .ready ∧ s.read = false ∧ s.write = true ∧ s.sendfile = true ∧ s.wk = .file ∧ s.wready = true ∧
    s.alive = true := by
  obtain ⟨s, e⟩ : ∃ s, runB {} [.connect true .ok, .selectW, .popWrite .err false .ok, .popEnd, .sendfile true .err false .ok] = some s := ⟨_, rfl⟩
  refine ⟨s, runB_hist .init e, ?_⟩
  cases e; exact ⟨rfl, rfl, rfl, rfl, rfl, rfl, rfl, rfl⟩

/-- **Finding (C60).** Off the main fiber the same error is retried by recursion until the stack is exhausted. -/
theorem sendfile_error_recursion :
    ∃ s, Hist Good s ∧ step s (.sendfile false .err false .ok) = .ub := by
  obtain ⟨s, e⟩ : ∃ s, runB {} [.connect true .ok, .selectW, .popWrite .err false .ok, .popEnd] = some s := ⟨_, rfl⟩
  exact ⟨s, runB_hist .init e, by cases e; rfl⟩

/-- **Finding (C60).** When `kevent` fails for a `sendfile`, only STF_WRITE is cleared (src/kkqueue_selector.c:229-232): STF_SENDFILE
stays, and the next ordinary write is taken for a `sendfile`, its I/O vector for the description of a file. -/
theorem failed_sendfile_poisons_write :
    ∃ s, Hist Client s ∧ s.done = [(0, .noPoll)] ∧ ∃ t, step s (.write true .err true .ok) = .ok t ∧
      step t (.popWrite (.got 1 true) false .ok) = .ub := by
  obtain ⟨s, e⟩ : ∃ s, step {} (.sendfile true .err true .second) = .ok s := ⟨_, rfl⟩
  refine ⟨s, .step (.sendfile true .err true .second) .init ⟨rfl, ?_, ?_, by simp⟩ e, ?_⟩
  · rw [inv_init.writing]; decide
  · intro id hh; cases hh
  · cases e
    refine ⟨rfl, _, rfl, rfl⟩

/-- **Finding (C60).** The flags are set before `kevent` is called and a failure does not clear them: after a read that was refused for
that reason the next read believes the connection registered, and waits although data is there. -/
theorem failed_registration_hangs :
    ∃ s, Hist Client s ∧ Rest s ∧ Reading s ∧ s.kin = true ∧ s.done = [(0, .noPoll)] := by
  obtain ⟨s, e⟩ : ∃ s, step {} (.read true .err .first) = .ok s := ⟨_, rfl⟩
  obtain ⟨t, e1⟩ : ∃ t, step s (.read true .err .ok) = .ok t := by cases e; exact ⟨_, rfl⟩
  obtain ⟨u, e2⟩ : ∃ u, step t .dataIn = .ok u := by cases e; cases e1; exact ⟨_, rfl⟩
  have h1 : Hist Client s := .step (.read true .err .first) .init ⟨rfl, by rw [inv_init.reading]; decide, by rw [inv_init.connecting]; simp⟩ e
  have h2 : Hist Client t := .step (.read true .err .ok) h1 (by
    refine ⟨?_, ?_, ?_⟩
    · cases e; rfl
    · rw [h1.inv.reading]; cases e; decide
    · rw [h1.inv.connecting]; cases e; simp [St.finishR, addEventR, waitRead, St.nrequest, St.request]) e1
  have h3 : Hist Client u := .step .dataIn h2 trivial e2
  refine ⟨u, h3, (rest_iff h3).2 ?_, h3.inv.reading.2 ?_, ?_, ?_⟩ <;> cases e <;> cases e1 <;> cases e2
  · exact ⟨rfl, by decide, rfl, rfl⟩
  all_goals rfl

/-- **Finding (C60).** STF_ERR is never set by this selector: a connect the peer refused is reported like one that succeeded. -/
theorem refused_connect_reported_ok :
    ∃ s, Hist Good s ∧ s.shut = true ∧ s.done = [(0, .zero)] := by
  obtain ⟨s, e⟩ : ∃ s, runB {} [.connect false .ok, .hangup true, .selectW, .popWrite .err false .ok] = some s := ⟨_, rfl⟩
  exact ⟨s, runB_hist .init e, by cases e; exact ⟨rfl, rfl⟩⟩

/-- **Finding (C60).** Registering a connect sets STF_WREADY before the connection exists: anything that puts the connection on the
ready list meanwhile (`selectable_next_read` here) reports the connect as done. -/
theorem connect_reported_early :
    ∃ s, Hist Good s ∧ Connecting s ∧ ∃ t, run step s [.nextRead, .popWrite .err false .ok] = some t ∧ t.kout = false ∧ t.done = [(0, .zero)] := by
  obtain ⟨s, e⟩ : ∃ s, runB {} [.connect false .ok] = some s := ⟨_, rfl⟩
  have h := runB_hist .init e
  refine ⟨s, h, h.client.inv.connecting.2 ?_, ?_⟩ <;> cases e
  · exact ⟨rfl, rfl⟩
  · exact ⟨_, rfl, rfl, rfl⟩

/-- **Finding (C60).** After `selectable_next_read` on a connection the poller does not know STF_READ stays set (as with epoll, C36):
the next read fails its assertion. -/
theorem next_read_unregistered :
    ∃ t, run step {} [.nextRead, .popWrite .err false .ok, .popRead .err .ok, .popEnd] = some t ∧ t.done = [(0, .zero)] ∧
      step t (.read true .err .ok) = .ub := ⟨_, rfl, rfl, rfl⟩

end Kasync.Kq
