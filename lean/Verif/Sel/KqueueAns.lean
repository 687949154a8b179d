import Verif.Sel.KqueueProps

/-! # Kqueue selector: the answers are true -/

namespace Kasync.Kq

/-- The answer of the kernel to the read or write an operation makes. -/
def Op.ans : Op → Option Ans
  | .read _ a _ | .write _ a _ _ | .sendfile _ a _ _ | .popWrite a _ _ | .popRead a _ => some a
  | _ => none

/-- How a `kevent` call of the operation ends. -/
def Op.ctl : Op → Ctl
  | .read _ _ c | .write _ _ _ c | .sendfile _ _ _ c | .connect _ c | .popWrite _ _ c | .popRead _ c => c
  | _ => .ok

/-- Answer `p` is true, the kernel having answered `a` and `c`; `nul`: the requests without a buffer, `req` what they are, `kin`:
there is something to read. -/
def TrueAns (nul : Nat → Bool) (req : Nat → Req) (kin : Bool) (a : Option Ans) (c : Ctl) (p : Nat × Out) : Prop :=
  match p.2 with
  | .got n => (∃ b, a = some (.got n b)) ∧ nul p.1 = false ∧ (req p.1 = .rd → kin = true)
  | .sysErr => a = some .err ∧ nul p.1 = false ∧ req p.1 ≠ .file ∧ (req p.1 = .rd → kin = true)
  | .zero => nul p.1 = true
  | .noPoll => c ≠ .ok

structure NulInv (s : St) : Prop where
  r : s.read = true → (s.rk = .null ↔ s.nul s.rid = true)
  w : s.write = true → (s.wk = .null ↔ s.nul s.wid = true)
  lt : ∀ i, s.nul i = true → i < s.next

/-- `t` has the requests of `s`, or fewer, and new answers are true. -/
structure Same (s : St) (a : Option Ans) (c : Ctl) (t : St) : Prop where
  rk : t.rk = s.rk
  rid : t.rid = s.rid
  wk : t.wk = s.wk
  wid : t.wid = s.wid
  nul : t.nul = s.nul
  req : t.req = s.req
  next : t.next = s.next
  rd : t.read = true → s.read = true
  wr : t.write = true → s.write = true
  done : ∀ p ∈ t.done, p ∈ s.done ∨ TrueAns s.nul s.req s.kin a c p

theorem Same.inv {s t : St} {a : Option Ans} {c : Ctl} (h : Same s a c t) (n : NulInv s) : NulInv t := by
  obtain ⟨a1, a2, a3, a4, a5, a9, a6, a7, a8, -⟩ := h
  obtain ⟨b1, b2, b3⟩ := n
  constructor
  · grind
  · grind
  · rw [a5, a6]; exact b3

theorem waitRead_same {s : St} {a : Option Ans} {c : Ctl} : Same s a c (waitRead s c) := by
  obtain ⟨b, t, rfl, h1, h2, e⟩ := waitRead_eq s c
  rw [e]
  cases b
  · have hc : c ≠ .ok := fun h => by have := h2 h; cases this
    constructor <;> simp
    rintro x y (h | ⟨rfl, rfl⟩)
    · exact Or.inl h
    · exact Or.inr hc
  · constructor <;> simp
    exact fun _ _ h => Or.inl h

theorem waitWrite_same {s : St} {a : Option Ans} {c : Ctl} : Same s a c (waitWrite s c) := by
  obtain ⟨b, b1, t, rfl, h1, h2, h3, e⟩ := waitWrite_eq s c
  rw [e]
  cases b
  · have hc : c ≠ .ok := fun h => by have := h2 h; cases this
    constructor <;> simp
    rintro x y (h | ⟨rfl, rfl⟩)
    · exact Or.inl h
    · exact Or.inr hc
  · constructor <;> simp
    exact fun _ _ h => Or.inl h

theorem readEvent_same {s t : St} {a : Ans} {c : Ctl} (e : readEvent s a c = .ok t) (hr : s.read = true)
    (hq : s.req s.rid = .rd) (hn : s.rk = .null ↔ s.nul s.rid = true) : Same s (some a) c t := by
  unfold readEvent at e
  split at e
  · cases e
  dsimp only at e
  split at e
  · next hk =>
    cases e
    have : s.nul s.rid = true := hn.1 hk
    constructor <;> simp [St.finishR, hr]
    simp [TrueAns, this]
    grind
  · next hk =>
    have h0 : s.nul s.rid = false := by grind
    split at e
    · next hkin =>
      split at e <;> cases e <;> constructor <;> simp [St.finishR, hr, hkin]
      · simp [TrueAns, h0]; grind
      · simp [TrueAns, h0, hq]; grind
    · split at e
      · cases e
      · cases e
        have := waitRead_same (s := { s with read := true, rready2 := false, rready := false }) (a := some a) (c := c)
        obtain ⟨a1, a2, a3, a4, a5, a9, a6, a7, a8, a10⟩ := this
        exact ⟨a1, a2, a3, a4, a5, a9, a6, fun _ => hr, a8, a10⟩

theorem writeEvent_same {s t : St} {m : Bool} {a : Ans} {g : Bool} {c : Ctl} (e : writeEvent s m a g c = .ok t) (hw : s.write = true)
    (hq : s.req s.wid ≠ .rd) (hf : s.wk = .io → s.req s.wid ≠ .file) (hn : s.wk = .null ↔ s.nul s.wid = true) : Same s (some a) c t := by
  unfold writeEvent at e
  split at e
  · cases e
  dsimp only at e
  split at e
  · split at e
    · next hk =>
      have h0 : s.nul s.wid = false := by grind
      split at e
      · cases e
        obtain ⟨a1, a2, a3, a4, a5, a9, a6, a7, a8, a10⟩ := waitWrite_same (s := { s with write := true, sendfile := true, wready := false }) (a := some a) (c := c)
        exact ⟨a1, a2, a3, a4, a5, a9, a6, a7, fun _ => hw, a10⟩
      · split at e
        · cases e
          constructor <;> simp [St.finishW, hw]
          simp [TrueAns, h0, hq]; grind
        · split at e
          · split at e <;> cases e
            constructor <;> simp [addList, hw]
            grind
          · cases e
            obtain ⟨a1, a2, a3, a4, a5, a9, a6, a7, a8, a10⟩ := waitWrite_same (s := { s with write := true, sendfile := true }) (a := some Ans.err) (c := c)
            exact ⟨a1, a2, a3, a4, a5, a9, a6, a7, fun _ => hw, a10⟩
    · cases e
  · split at e
    · next hk =>
      cases e
      have : s.nul s.wid = true := hn.1 hk
      constructor <;> simp [St.finishW, hw]
      simp [TrueAns, this]
      grind
    · cases e
    · next hk =>
      have h0 : s.nul s.wid = false := by grind
      have h1 := hf hk
      split at e
      · cases e
        obtain ⟨a1, a2, a3, a4, a5, a9, a6, a7, a8, a10⟩ := waitWrite_same (s := { s with write := true, sendfile := false, wready2 := false, wready := false }) (a := some a) (c := c)
        exact ⟨a1, a2, a3, a4, a5, a9, a6, a7, fun _ => hw, a10⟩
      · split at e <;> cases e <;> constructor <;> simp [St.finishW, hw]
        · simp [TrueAns, h0, hq]; grind
        · simp [TrueAns, h0, hq, h1]; grind

theorem same_refl {s t : St} {a : Option Ans} {c : Ctl} (h1 : t.rk = s.rk) (h2 : t.rid = s.rid) (h3 : t.wk = s.wk) (h4 : t.wid = s.wid)
    (h5 : t.nul = s.nul) (h6 : t.req = s.req) (h7 : t.next = s.next) (h8 : t.read = s.read) (h9 : t.write = s.write) (h10 : t.done = s.done) : Same s a c t :=
  ⟨h1, h2, h3, h4, h5, h6, h7, by simp [h8], by simp [h9], by simp [h10]; grind⟩

/-- The state in which an operation has registered its request, if it makes one. -/
theorem step_same {s s' : St} {op : Op} (hi : Inv s) (hn : NulInv s) (hc : Client s op) (he : step s op = .ok s') :
    ∃ t, NulInv t ∧ t.done = s.done ∧ (t.kin = s.kin ∧ ∀ i, i < s.next → t.req i = s.req i ∧ t.nul i = s.nul i) ∧ Same t op.ans op.ctl s' := by
  have hR := hi.reading
  have hW := hi.writing
  obtain ⟨n1, n2, n3⟩ := hn
  have hn : NulInv s := ⟨n1, n2, n3⟩
  have hnext : s.nul s.next = false := by
    cases h : s.nul s.next
    · rfl
    · have := n3 _ h; omega
  have hlt : s.read = true → s.rid < s.next := fun e => (hi.out_r e).1.1
  have hltw : s.write = true → s.wid < s.next := fun e => (hi.out_w e).1.1
  cases op <;> unfold step at he <;> dsimp only at he
  case read main a c =>
    split at he
    · cases he
    refine ⟨{ s.request .rd with rk := .io, rid := s.next, read := true }, ?_, rfl, ⟨rfl, fun i hi => by simp [St.nrequest, St.request]; omega⟩, ?_⟩
    · constructor <;> simp [St.request]
      · exact hnext
      · exact n2
      · intro i h; have := n3 i h; omega
    · split at he
      · split at he
        · cases he; exact same_refl rfl rfl rfl rfl rfl rfl rfl rfl rfl rfl
        · exact readEvent_same he rfl (by simp [St.request]) (by simp [St.request, hnext])
      · cases he; exact waitRead_same
  case write main a g c =>
    split at he
    · cases he
    refine ⟨{ s.request .wr with wk := .io, wid := s.next, write := true }, ?_, rfl, ⟨rfl, fun i hi => by simp [St.nrequest, St.request]; omega⟩, ?_⟩
    · constructor <;> simp [St.request]
      · exact n1
      · exact hnext
      · intro i h; have := n3 i h; omega
    · split at he
      · split at he
        · cases he; exact same_refl rfl rfl rfl rfl rfl rfl rfl rfl rfl rfl
        · exact writeEvent_same he rfl (by simp [St.request]) (by simp [St.request]) (by simp [St.request, hnext])
      · cases he; exact waitWrite_same
  case sendfile main a g c =>
    split at he
    · cases he
    refine ⟨{ s.request .file with wk := .file, wid := s.next, write := true, sendfile := true }, ?_, rfl, ⟨rfl, fun i hi => by simp [St.nrequest, St.request]; omega⟩, ?_⟩
    · constructor <;> simp [St.request]
      · exact n1
      · exact hnext
      · intro i h; have := n3 i h; omega
    · split at he
      · split at he
        · cases he; exact same_refl rfl rfl rfl rfl rfl rfl rfl rfl rfl rfl
        · exact writeEvent_same he rfl (by simp [St.request]) (by simp) (by simp [St.request, hnext])
      · cases he; exact waitWrite_same
  case nextRead =>
    split at he <;> cases he
    refine ⟨{ s.nrequest .rd with rk := .null, rid := s.next, read := true }, ?_, rfl, ⟨rfl, fun i hi => by simp [St.nrequest, St.request]; omega⟩, same_refl rfl rfl rfl rfl rfl rfl rfl rfl rfl rfl⟩
    constructor <;> simp [St.nrequest, St.request]
    · intro h; have := hltw h; have := n2 h; grind
    · intro i h
      have := n3 i
      grind
  case nextWrite =>
    split at he <;> cases he
    refine ⟨{ s.nrequest .wr with wk := .null, wid := s.next, write := true }, ?_, rfl, ⟨rfl, fun i hi => by simp [St.nrequest, St.request]; omega⟩, same_refl rfl rfl rfl rfl rfl rfl rfl rfl rfl rfl⟩
    constructor <;> simp [St.nrequest, St.request]
    · intro h; have := hlt h; have := n1 h; grind
    · intro i h
      have := n3 i
      grind
  case connect now c =>
    split at he
    · cases he
    refine ⟨{ s.nrequest .conn with wk := .null, wid := s.next, write := true }, ?_, rfl, ⟨rfl, fun i hi => by simp [St.nrequest, St.request]; omega⟩, ?_⟩
    · constructor <;> simp [St.nrequest, St.request]
      · intro h; have := hlt h; have := n1 h; grind
      · intro i h
        have := n3 i
        grind
    · cases he
      unfold addEventRW evAddR evAddW addList St.finishW
      constructor <;> cases c <;> simp [Op.ctl, St.nrequest, St.request] <;> repeat' split <;> simp_all
      all_goals
        rintro x y (h | ⟨rfl, rfl⟩)
        · exact Or.inl h
        · exact Or.inr (by simp [TrueAns])
  case remove =>
    split at he <;> cases he
    refine ⟨s, hn, rfl, ⟨rfl, fun _ _ => ⟨rfl, rfl⟩⟩, ?_⟩
    unfold remove
    split <;> exact same_refl rfl rfl rfl rfl rfl rfl rfl rfl rfl rfl
  case destroy =>
    split at he <;> cases he
    refine ⟨s, hn, rfl, ⟨rfl, fun _ _ => ⟨rfl, rfl⟩⟩, ?_⟩
    unfold remove
    split <;> exact same_refl rfl rfl rfl rfl rfl rfl rfl rfl rfl rfl
  case expire =>
    split at he
    · split at he <;> cases he
      exact ⟨s, hn, rfl, ⟨rfl, fun _ _ => ⟨rfl, rfl⟩⟩, same_refl rfl rfl rfl rfl rfl rfl rfl rfl rfl rfl⟩
    · cases he
  case selectR =>
    split at he
    · split at he <;> cases he
      refine ⟨s, hn, rfl, ⟨rfl, fun _ _ => ⟨rfl, rfl⟩⟩, ?_⟩
      split <;> exact same_refl rfl rfl rfl rfl rfl rfl rfl rfl rfl rfl
    · cases he
  case selectW =>
    split at he
    · split at he <;> cases he
      refine ⟨s, hn, rfl, ⟨rfl, fun _ _ => ⟨rfl, rfl⟩⟩, ?_⟩
      split <;> exact same_refl rfl rfl rfl rfl rfl rfl rfl rfl rfl rfl
    · cases he
  case popWrite a g c =>
    split at he
    · split at he
      · cases he
      · split at he
        · next hw =>
          have hw : s.write = true := by simp at hw; exact hw.2
          have hs := writeEvent_same he hw ?_ ?_ ?_
          · refine ⟨_, ?_, ?_, ?_, hs⟩
            · exact ⟨n1, n2, n3⟩
            · rfl
            · exact ⟨rfl, fun _ _ => ⟨rfl, rfl⟩⟩
          · exact (hi.out_w hw).2
          · intro h h'; have := (hi.file hw).1 h'; simp only [addList] at h; rw [this] at h; cases h
          · exact n2 hw
        · cases he
          exact ⟨s, hn, rfl, ⟨rfl, fun _ _ => ⟨rfl, rfl⟩⟩, same_refl rfl rfl rfl rfl rfl rfl rfl rfl rfl rfl⟩
    · cases he
  case popRead a c =>
    split at he
    · next k hk =>
      split at he
      · next ht =>
        have hr := hi.cur_rd k hk (hi.cur_todo k hk ht)
        have hs := readEvent_same he hr (hi.out_r hr).2 (n1 hr)
        refine ⟨_, ?_, ?_, ?_, hs⟩
        · exact ⟨n1, n2, n3⟩
        · rfl
        · exact ⟨rfl, fun _ _ => ⟨rfl, rfl⟩⟩
      · cases he
    · cases he
  case popEnd =>
    split at he
    · split at he
      · cases he
      · split at he
        · split at he <;> cases he
          refine ⟨s, hn, rfl, ⟨rfl, fun _ _ => ⟨rfl, rfl⟩⟩, ?_⟩
          split <;> exact same_refl rfl rfl rfl rfl rfl rfl rfl rfl rfl rfl
        · cases he
          exact ⟨s, hn, rfl, ⟨rfl, fun _ _ => ⟨rfl, rfl⟩⟩, same_refl rfl rfl rfl rfl rfl rfl rfl rfl rfl rfl⟩
    · cases he
  all_goals
    cases he
    exact ⟨s, hn, rfl, ⟨rfl, fun _ _ => ⟨rfl, rfl⟩⟩, same_refl rfl rfl rfl rfl rfl rfl rfl rfl rfl rfl⟩

theorem Hist.nul {s : St} (h : Hist Client s) : NulInv s := by
  induction h with
  | init => constructor <;> simp
  | step op h hc he ih =>
    obtain ⟨t, ht, -, -, hs⟩ := step_same h.inv ih hc he
    exact hs.inv ht

/-- What a callback is told is true: a count only if the system call of this very operation returned that count (and, for a read, only
if there was something to read), an error only if the system call failed (never for a `sendfile`), 0 without a system call only for a
request without a buffer, and "not polled" only if `kevent` failed. -/
theorem kq_answers_true {s s' : St} {op : Op} {p : Nat × Out} (h : Hist Client s) (hc : Client s op) (he : step s op = .ok s')
    (hp : p ∈ s'.done) (hn : p ∉ s.done) : TrueAns s'.nul s'.req s.kin op.ans op.ctl p := by
  obtain ⟨t, -, hd, hk, hs⟩ := step_same h.inv h.nul hc he
  rcases hs.done p hp with hq | hq
  · exact absurd (hd ▸ hq) hn
  · rw [hs.nul, hs.req, ← hk.1]; exact hq

/-- A request keeps its kind, and whether it has a buffer. -/
theorem kq_kind_kept {s s' : St} {op : Op} {i : Nat} (h : Hist Client s) (hc : Client s op) (he : step s op = .ok s') (hi : i < s.next) : s'.req i = s.req i ∧ s'.nul i = s.nul i := by
  obtain ⟨t, -, -, ⟨-, hk⟩, hs⟩ := step_same h.inv h.nul hc he
  rw [hs.req, hs.nul]; exact hk i hi

/-- `kq_answers_true`: the answers of a run in which a read, a write, a `sendfile` and a connect are answered. -/
example : ∃ s, runB {} [.connect true .ok, .selectW, .popWrite .err false .ok, .popEnd, .sendfile true .err true .ok, .popWrite (.got 7 true) false .ok, .popEnd,
    .read true .err .ok, .dataIn, .selectR, .popWrite .err false .ok, .popRead (.got 3 false) .ok, .popEnd] = some s ∧
    s.done = [(0, .zero), (1, .got 7), (2, .got 3)] ∧ Hist Good s := by
  obtain ⟨s, e⟩ : ∃ s, runB {} [.connect true .ok, .selectW, .popWrite .err false .ok, .popEnd, .sendfile true .err true .ok, .popWrite (.got 7 true) false .ok, .popEnd,
    .read true .err .ok, .dataIn, .selectR, .popWrite .err false .ok, .popRead (.got 3 false) .ok, .popEnd] = some s := ⟨_, rfl⟩
  exact ⟨s, e, by cases e; rfl, runB_hist .init e⟩

end Kasync.Kq
