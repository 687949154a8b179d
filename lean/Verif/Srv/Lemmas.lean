import Verif.Srv.Server

/-!
# Invariant of the server model
-/

namespace Kasync.Srv

/-- The listener's descriptor is open. -/
def Pc.opened : Pc → Bool
  | .fresh | .idle | .wait | .busy | .closing => true
  | _ => false

/-- The listener may be in the server's list. -/
def Pc.listed : Pc → Bool
  | .idle | .wait | .busy | .closing | .mark | .unlink => true
  | _ => false

/-- The listener still has its reference on the server. -/
def Pc.lives : Pc → Bool
  | .free | .gone => false
  | _ => true

/-- A posted next_shutdown may refer to it. -/
def Pc.pendable : Pc → Bool
  | .idle | .wait | .busy | .closing | .mark | .unlink | .check | .held => true
  | _ => false

structure InvP (ne : Bool) (s : St) : Prop where
  liveNd : s.live.Nodup
  livePc : ∀ i, i ∈ s.live ↔ (s.pc i).lives = true
  lt : ∀ i, s.next ≤ i → s.pc i = .gone
  lstNd : s.lst.Nodup
  lstPc : ∀ i, i ∈ s.lst → (s.pc i).listed = true ∧ s.qn i = true
  qnLst : ∀ i, (s.pc i).listed = true → s.qn i = true → i ∈ s.lst
  creatNd : s.creating.Nodup
  creat : ∀ i, i ∈ s.creating ↔ s.pc i = .fresh
  lockSub : ∀ l, s.lock = some l → l.Nodup ∧ ∀ i, i ∈ l → i ∈ s.lst
  fdOpen : ∀ i, (s.pc i).opened = true → (∃ n, s.fd i = some n ∧ s.fds n = some (.listener i)) ∧ s.closes i = 0
  fdMark : ∀ i, s.pc i = .mark → (∃ n, s.fd i = some n) ∧ s.closes i = 1
  fdNone : ∀ i, i < s.next → (s.pc i).opened = false → s.pc i ≠ .mark → s.fd i = none ∧ s.closes i = 1
  fdsL : ∀ n j, s.fds n = some (.listener j) → (s.pc j).opened = true ∧ s.fd j = some n
  pendNd : s.pend.Nodup
  pendH : ∀ i, i ∈ s.pend → s.hold i = 1 ∧ s.qn i = false ∧ (s.pc i).pendable = true
  pendN : ∀ i, i ∉ s.pend → s.hold i = 0
  heldP : ∀ i, s.pc i = .held → i ∈ s.pend
  neP : ne = false → s.pend = []
  unl : s.unlinked = 0

structure InvR (s : St) : Prop where
  cnt : s.freed = 0 → s.refs = s.owners + s.live.length + s.conns.length
  fr : (s.freed = 0 ∧ s.refs > 0) ∨ (s.freed = 1 ∧ s.refs = 0 ∧ s.owners = 0 ∧ s.live = [] ∧ s.conns = [])
  own : calls s ≤ s.owners
  connNd : s.conns.Nodup
  connLt : ∀ c, c ∈ s.conns → c < s.nextConn

structure Inv (ne : Bool) (s : St) : Prop where
  p : InvP ne s
  r : InvR s

theorem touch_ok {s : St} {r : Res St} (h : s.freed = 0) : touch s r = r := if_pos h

theorem touch_inv {s s' : St} {r : Res St} (h : touch s r = .ok s') : s.freed = 0 ∧ r = .ok s' := by
  unfold touch at h
  split at h
  · exact ⟨by assumption, h⟩
  · cases h

/-- Outcome of a release. -/
theorem release_inv {s s' : St} (h : release s = .ok s') :
    s.freed = 0 ∧ s.refs > 0 ∧ (s.refs = 1 → s.lst = []) ∧
    s' = { s with refs := s.refs - 1, freed := if s.refs = 1 then 1 else 0 } := by
  unfold release at h
  obtain ⟨h0, h⟩ := touch_inv h
  split at h
  · cases h
  · rename_i h1
    split at h
    · rename_i h2
      split at h
      · rename_i h3
        simp only [Res.ok.injEq] at h; subst h
        refine ⟨h0, by omega, fun _ => h3, ?_⟩
        rw [if_pos h2, h0, h2]
      · cases h
    · rename_i h2
      simp only [Res.ok.injEq] at h; subst h
      refine ⟨h0, by omega, fun h => absurd h h2, ?_⟩
      rw [if_neg h2]
      cases s; simp_all

theorem release_ok {s : St} (h0 : s.freed = 0) (h1 : s.refs > 0) (h2 : s.refs = 1 → s.lst = []) :
    release s = .ok { s with refs := s.refs - 1, freed := if s.refs = 1 then 1 else 0 } := by
  unfold release
  rw [touch_ok h0, if_neg (by omega)]
  by_cases h : s.refs = 1
  · rw [if_pos h, if_pos (h2 h), if_pos h, h0, h]
  · rw [if_neg h, if_neg h]
    cases s; simp_all

theorem inv_init (ne : Bool) : Inv ne init := by
  constructor
  · constructor <;> simp [init, Pc.lives, Pc.opened, Pc.listed]
  · constructor <;> simp [init, calls]

theorem length_erase_of {t : Nat} {l : List Nat} (h : t ∈ l) : (l.erase t).length + 1 = l.length := by
  rw [List.length_erase_of_mem h]
  have := List.length_pos_of_mem h
  omega

theorem sysShutdown_same (s : St) (n : Option Nat) :
    ∃ sh f, sysShutdown s n = { s with shut := sh, foreign := f } := by
  unfold sysShutdown
  split
  · exact ⟨_, _, rfl⟩
  · split
    · exact ⟨_, _, rfl⟩
    · exact ⟨_, _, rfl⟩
    · exact ⟨_, _, rfl⟩

/-- The states between which a listener moves without touching anything else. -/
def Pc.quiet : Pc → Bool
  | .idle | .wait | .busy | .closing => true
  | _ => false

theorem Pc.quiet_cases {p : Pc} (h : p.quiet = true) :
    p.opened = true ∧ p.listed = true ∧ p.lives = true ∧ p.pendable = true ∧ p ≠ .fresh ∧ p ≠ .mark ∧ p ≠ .held ∧ p ≠ .gone := by
  cases p <;> simp_all [Pc.quiet, Pc.opened, Pc.listed, Pc.lives, Pc.pendable]

theorem InvP.setPc {ne : Bool} {s : St} (h : InvP ne s) {i : Nat} {q : Pc} (h1 : (s.pc i).quiet = true) (h2 : q.quiet = true) :
    InvP ne { s with pc := upd s.pc i q } := by
  have k1 := Pc.quiet_cases h1
  have k2 := Pc.quiet_cases h2
  obtain ⟨a1, a2, a3, a4, a5, a6, a7, a8, a9, b1, b2, b3, b4, b5, b6, b7, b8, b9, c1⟩ := h
  constructor <;> dsimp only [upd] <;> first | assumption | grind

set_option maxHeartbeats 4000000 in
theorem step_inv_p {ne : Bool} {s s' : St} {o : Op} (h : InvP ne s) (he : step ne s o = .ok s') : InvP ne s' := by
  have hh := h
  obtain ⟨a1, a2, a3, a4, a5, a6, a7, a8, a9, b1, b2, b3, b4, b5, b6, b7, b8, b9, c1⟩ := hh
  cases o with
  | ownRef =>
    simp only [step] at he
    split at he
    · have := (touch_inv he).2; simp only [Res.ok.injEq] at this; subst this
      constructor <;> assumption
    · cases he
  | ownRelease =>
    simp only [step] at he
    split at he
    · have := (release_inv he).2.2.2; subst this
      constructor <;> assumption
    · cases he
  | listenInit n fib =>
    simp only [step] at he
    split at he
    · rename_i hc
      have := (touch_inv he).2; simp only [Res.ok.injEq] at this; subst this
      have hg := a3 s.next (Nat.le_refl _)
      have n1 : s.next ∉ s.live := by rw [a2, hg]; decide
      have n2 : s.next ∉ s.lst := fun h => by have := (a5 _ h).1; rw [hg] at this; cases this
      have n3 : s.next ∉ s.creating := by rw [a8, hg]; decide
      have n4 : s.next ∉ s.pend := fun h => by have := (b6 _ h).2.2; rw [hg] at this; cases this
      constructor <;> dsimp only [upd] <;> first | assumption | grind [Pc.lives, Pc.listed, Pc.opened, Pc.pendable]
    · cases he
  | listenAppend i =>
    simp only [step] at he
    split at he
    · rename_i hc
      have := (touch_inv he).2; simp only [Res.ok.injEq] at this; subst this
      have hg := (a8 i).1 hc.1
      have n2 : i ∉ s.lst := fun h => by have := (a5 _ h).1; rw [hg] at this; cases this
      have n4 : i ∉ s.pend := fun h => by have := (b6 _ h).2.2; rw [hg] at this; cases this
      have n5 : (s.creating.erase i).Nodup := a7.erase i
      have n6 : ∀ j, j ∈ s.creating.erase i ↔ j ≠ i ∧ j ∈ s.creating := fun j => a7.mem_erase_iff
      have n7 : (s.lst ++ [i]).Nodup := by
        rw [List.nodup_append]; exact ⟨a4, by simp, by grind⟩
      constructor <;> dsimp only [upd] <;> first | assumption | grind [Pc.lives, Pc.listed, Pc.opened, Pc.pendable]
    · cases he
  | setStart =>
    simp only [step] at he
    split at he
    · have := (touch_inv he).2; simp only [Res.ok.injEq] at this; subst this
      constructor <;> assumption
    · cases he
  | closeBegin =>
    simp only [step] at he
    split at he
    · have := (touch_inv he).2; simp only [Res.ok.injEq] at this; subst this
      constructor <;> assumption
    · cases he
  | closeLock =>
    simp only [step] at he
    split at he
    · have := (touch_inv he).2; simp only [Res.ok.injEq] at this; subst this
      constructor <;> first | assumption | skip
      intro l hl; simp only [Option.some.injEq] at hl; subst hl; exact ⟨a4, fun i h => h⟩
    · cases he
  | closeVisit =>
    simp only [step] at he
    split at he
    · rename_i i rest hl
      obtain ⟨l1, l2⟩ := a9 _ hl
      rw [List.nodup_cons] at l1
      have hi := l2 i (List.mem_cons_self ..)
      split at he
      · cases he
      · split at he
        · rename_i hne
          have := (touch_inv he).2
          split at this
          · cases this
          · rename_i hz
            simp only [Res.ok.injEq] at this; subst this
            have n1 : i ∉ s.pend := fun h => hz (by have := (b6 _ h).2.1; rw [(a5 _ hi).2] at this; cases this)
            have n2 : (s.lst.erase i).Nodup := a4.erase i
            have n3 : ∀ j, j ∈ s.lst.erase i ↔ j ≠ i ∧ j ∈ s.lst := fun j => a4.mem_erase_iff
            have n5 : (s.pc i).pendable = true := by
              have := (a5 i hi).1
              revert this; cases s.pc i <;> simp [Pc.listed, Pc.pendable]
            constructor <;> dsimp only [upd] <;> first | assumption | grind
        · have := (touch_inv he).2; simp only [Res.ok.injEq] at this; subst this
          obtain ⟨sh, f, e⟩ := sysShutdown_same s (s.fd i)
          rw [e]
          constructor <;> first | assumption | skip
          intro l hl'; simp only [Option.some.injEq] at hl'; subst hl'
          exact ⟨l1.2, fun j hj => l2 j (List.mem_cons_of_mem _ hj)⟩
    · cases he
  | closeEnd =>
    simp only [step] at he
    split at he
    · have := (touch_inv he).2; simp only [Res.ok.injEq] at this; subst this
      constructor <;> first | assumption | skip
      intro l hl; cases hl
    · cases he
  | startAccept i ok =>
    simp only [step] at he
    split at he
    · rename_i hc
      simp only [Res.ok.injEq] at he; subst he
      exact h.setPc (by rw [hc.1]; rfl) (by cases ok <;> rfl)
    · cases he
  | acceptOk i cross =>
    simp only [step] at he
    split at he
    · rename_i hc
      have := (touch_inv he).2; simp only [Res.ok.injEq] at this; subst this
      obtain ⟨a1, a2, a3, a4, a5, a6, a7, a8, a9, b1, b2, b3, b4, b5, b6, b7, b8, b9, c1⟩ :=
        h.setPc (i := i) (q := .busy) (by rw [hc.1]; rfl) rfl
      constructor <;> assumption
    · cases he
  | acceptTls i =>
    simp only [step] at he
    split at he
    · rename_i hc
      have := (touch_inv he).2
      split at this
      · rename_i s1 hr
        simp only [Res.ok.injEq] at this; subst this
        have := (release_inv hr).2.2.2; subst this
        obtain ⟨a1, a2, a3, a4, a5, a6, a7, a8, a9, b1, b2, b3, b4, b5, b6, b7, b8, b9, c1⟩ :=
          h.setPc (i := i) (q := if s.fiber i then .busy else .closing) (by rw [hc.1]; rfl) (by split <;> rfl)
        constructor <;> assumption
      · rename_i hne; exact absurd this (hne s')
    · cases he
  | acceptFail i =>
    simp only [step] at he
    split at he
    · rename_i hc
      simp only [Res.ok.injEq] at he; subst he
      exact h.setPc (by rw [hc]; rfl) (by split <;> rfl)
    · cases he
  | rearm i ok =>
    simp only [step] at he
    split at he
    · rename_i hc
      have := (touch_inv he).2; simp only [Res.ok.injEq] at this; subst this
      exact h.setPc (by rw [hc.1]; rfl) (by split <;> rfl)
    · cases he
  | fiberAccept i ok =>
    simp only [step] at he
    split at he
    · rename_i hc
      simp only [Res.ok.injEq] at he; subst he
      exact h.setPc (by rcases hc.1 with e | e <;> rw [e] <;> rfl) (by split <;> rfl)
    · cases he
  | userDestroy i =>
    simp only [step] at he
    split at he
    · rename_i hc
      simp only [Res.ok.injEq] at he; subst he
      exact h.setPc (by rcases hc.1 with e | e <;> rw [e] <;> rfl) rfl
    · cases he
  | dClose i =>
    simp only [step] at he
    split at he
    · rename_i hc
      split at he
      · rename_i hf
        obtain ⟨⟨n, hn, _⟩, _⟩ := b1 i (by rw [hc]; rfl)
        rw [hn] at hf; cases hf
      · rename_i n hf
        split at he
        · rename_i hn
          simp only [Res.ok.injEq] at he; subst he
          constructor <;> dsimp only [upd] <;> first | assumption | grind [Pc.lives, Pc.listed, Pc.opened, Pc.pendable]
        · cases he
    · cases he
  | dMark i =>
    simp only [step] at he
    split at he
    · rename_i hc
      simp only [Res.ok.injEq] at he; subst he
      constructor <;> dsimp only [upd] <;> first | assumption | grind [Pc.lives, Pc.listed, Pc.opened, Pc.pendable]
    · cases he
  | dUnlink i =>
    simp only [step] at he
    split at he
    · rename_i hc
      have := (touch_inv he).2
      split at this
      · split at this
        · rename_i hq hi
          simp only [Res.ok.injEq] at this; subst this
          have n2 : (s.lst.erase i).Nodup := a4.erase i
          have n3 : ∀ j, j ∈ s.lst.erase i ↔ j ≠ i ∧ j ∈ s.lst := fun j => a4.mem_erase_iff
          constructor <;> dsimp only [upd] <;> first | assumption | grind [Pc.lives, Pc.listed, Pc.opened, Pc.pendable]
        · cases this
      · rename_i hq
        simp only [Res.ok.injEq] at this; subst this
        constructor <;> dsimp only [upd] <;> first | assumption | grind [Pc.lives, Pc.listed, Pc.opened, Pc.pendable]
    · cases he
  | dCheck i =>
    simp only [step] at he
    split at he
    · rename_i hc
      simp only [Res.ok.injEq] at he; subst he
      by_cases hx : ne = true ∧ s.hold i > 0
      · rw [if_pos hx]
        have : i ∈ s.pend := Decidable.byContradiction fun hn => by have := b7 _ hn; omega
        constructor <;> dsimp only [upd] <;> first | assumption | grind [Pc.lives, Pc.listed, Pc.opened, Pc.pendable]
      · rw [if_neg hx]
        have : i ∉ s.pend := by
          intro hm
          cases ne
          · rw [b9 rfl] at hm; cases hm
          · exact hx ⟨rfl, by rw [(b6 _ hm).1]; omega⟩
        constructor <;> dsimp only [upd] <;> first | assumption | grind [Pc.lives, Pc.listed, Pc.opened, Pc.pendable]
    · cases he
  | dRel i =>
    simp only [step] at he
    split at he
    · rename_i hc
      split at he
      · rename_i s1 hr
        simp only [Res.ok.injEq] at he; subst he
        have := (release_inv hr).2.2.2; subst this
        have n2 : (s.live.erase i).Nodup := a1.erase i
        have n3 : ∀ j, j ∈ s.live.erase i ↔ j ≠ i ∧ j ∈ s.live := fun j => a1.mem_erase_iff
        constructor <;> dsimp only [upd] <;> first | assumption | grind [Pc.lives, Pc.listed, Pc.opened, Pc.pendable]
      · rename_i hne; exact absurd he (hne s')
    · cases he
  | dFree i =>
    simp only [step] at he
    split at he
    · rename_i hc
      have hlt : i < s.next := by
        rcases Nat.lt_or_ge i s.next with h | h
        · exact h
        · have := a3 i h; rw [hc] at this; cases this
      have hn := b3 i hlt (by rw [hc]; rfl) (by rw [hc]; decide)
      split at he
      · simp only [Res.ok.injEq] at he; subst he
        constructor <;> dsimp only [upd] <;> first | assumption | grind [Pc.lives, Pc.listed, Pc.opened, Pc.pendable]
      · rename_i n hf; rw [hn.1] at hf; cases hf
    · cases he
  | nextShutdown i =>
    simp only [step] at he
    split at he
    · rename_i hm
      split at he
      · cases he
      · split at he
        · rename_i hpc
          split at he
          · cases he
          · have n2 : (s.pend.erase i).Nodup := b5.erase i
            have n3 : ∀ j, j ∈ s.pend.erase i ↔ j ≠ i ∧ j ∈ s.pend := fun j => b5.mem_erase_iff
            have n4 := b6 i hm
            have n5 : ne = false → s.pend.erase i = [] := fun e => by rw [b9 e]; rfl
            have n6 : i ∉ s.lst := fun hx => by rw [(a5 _ hx).2] at n4; simp at n4
            split at he
            · rename_i hf
              simp only [Res.ok.injEq] at he; subst he
              have hheld : s.pc i = .held := by
                rcases hpc with e | e | e | e
                · obtain ⟨⟨n, hn, _⟩, _⟩ := b1 i (by rw [e]; rfl); rw [hn] at hf; cases hf
                · obtain ⟨⟨n, hn, _⟩, _⟩ := b1 i (by rw [e]; rfl); rw [hn] at hf; cases hf
                · exact e
                · obtain ⟨⟨n, hn, _⟩, _⟩ := b1 i (by rw [e.1]; rfl); rw [hn] at hf; cases hf
              constructor <;> dsimp only [upd] <;> first | assumption | grind [Pc.lives, Pc.listed, Pc.opened, Pc.pendable]
            · rename_i n hf
              simp only [Res.ok.injEq] at he; subst he
              have hnh : s.pc i ≠ .held := by
                intro e
                have hlt : i < s.next := by
                  rcases Nat.lt_or_ge i s.next with h | h
                  · exact h
                  · have := a3 i h; rw [e] at this; cases this
                have := (b3 i hlt (by rw [e]; rfl) (by rw [e]; decide)).1
                rw [hf] at this; cases this
              obtain ⟨sh, f, e⟩ := sysShutdown_same { s with pend := s.pend.erase i, hold := upd s.hold i 0, shut := upd s.shut i true } (some n)
              rw [hf, e]
              constructor <;> dsimp only [upd] <;> first | assumption | grind
        · cases he
    · cases he
  | connDestroy c =>
    simp only [step] at he
    split at he
    · have := (release_inv he).2.2.2; subst this
      constructor <;> assumption
    · cases he
  | runPosted i c =>
    simp only [step] at he
    split at he
    · simp only [Res.ok.injEq] at he; subst he
      constructor <;> assumption
    · cases he
  | otherOpen n k =>
    simp only [step] at he
    split at he
    · simp only [Res.ok.injEq] at he; subst he
      constructor <;> dsimp only [upd] <;> first | assumption | grind
    · cases he
  | otherClose n =>
    simp only [step] at he
    split at he
    · simp only [Res.ok.injEq] at he; subst he
      constructor <;> dsimp only [upd] <;> first | assumption | grind
    · cases he


theorem InvR.notFreed {s : St} (h : InvR s) (hx : s.owners > 0 ∨ s.live ≠ [] ∨ s.conns ≠ []) : s.freed = 0 ∧ s.refs > 0 := by
  rcases h.fr with h | ⟨_, _, h1, h2, h3⟩
  · exact h
  · rcases hx with h | h | h
    · omega
    · exact absurd h2 h
    · exact absurd h3 h

theorem InvR.called {s : St} (h : InvR s) (hx : calls s > 0) : s.freed = 0 ∧ s.refs > 0 :=
  h.notFreed (Or.inl (by have := h.own; omega))

theorem Inv.lives {ne : Bool} {s : St} (h : Inv ne s) {i : Nat} (hx : (s.pc i).lives = true) :
    s.freed = 0 ∧ s.refs > 0 ∧ s.live.length > 0 := by
  have hm := (h.p.livePc i).2 hx
  have := h.r.notFreed (Or.inr (Or.inl (by intro e; rw [e] at hm; cases hm)))
  exact ⟨this.1, this.2, List.length_pos_of_mem hm⟩

theorem Pc.listed_lives {p : Pc} (h : p.listed = true) : p.lives = true := by cases p <;> simp_all [Pc.listed, Pc.lives]

theorem Inv.lst_nil {ne : Bool} {s : St} (h : Inv ne s) (hx : s.live = []) : s.lst = [] := by
  cases e : s.lst with
  | nil => rfl
  | cons a t =>
    have := (h.p.livePc a).2 (Pc.listed_lives (h.p.lstPc a (by rw [e]; exact List.mem_cons_self ..)).1)
    rw [hx] at this; cases this

theorem step_inv_r {ne : Bool} {s s' : St} {o : Op} (h : Inv ne s) (he : step ne s o = .ok s') : InvR s' := by
  obtain ⟨r1, r2, r3, r4, r5⟩ := h.r
  cases o with
  | ownRef =>
    simp only [step] at he
    split at he
    · rename_i hc
      obtain ⟨h0, this⟩ := touch_inv he; simp only [Res.ok.injEq] at this; subst this
      have := r1 h0
      constructor <;> dsimp only [calls] at * <;> first | assumption | grind
    · cases he
  | ownRelease =>
    simp only [step] at he
    split at he
    · rename_i hc
      obtain ⟨h0, h1, h2, this⟩ := release_inv he; subst this
      dsimp only at h0
      have := r1 h0
      refine ⟨?_, ?_, ?_, r4, r5⟩
      · dsimp only; intro _; omega
      · dsimp only
        by_cases e : s.refs = 1
        · rw [if_pos e]
          exact Or.inr ⟨rfl, by omega, by omega, List.eq_nil_of_length_eq_zero (by omega), List.eq_nil_of_length_eq_zero (by omega)⟩
        · rw [if_neg e]; exact Or.inl ⟨rfl, by dsimp only at h1; omega⟩
      · dsimp only [calls] at hc ⊢; omega
    · cases he
  | listenInit n fib =>
    simp only [step] at he
    split at he
    · rename_i hc
      obtain ⟨h0, this⟩ := touch_inv he; simp only [Res.ok.injEq] at this; subst this
      have := r1 h0
      constructor <;> dsimp only [calls] at * <;> first | assumption | grind
    · cases he
  | listenAppend i =>
    simp only [step] at he
    split at he
    · rename_i hc
      obtain ⟨h0, this⟩ := touch_inv he; simp only [Res.ok.injEq] at this; subst this
      have := r1 h0
      have := length_erase_of hc.1
      constructor <;> dsimp only [calls] at * <;> first | assumption | grind
    · cases he
  | setStart =>
    simp only [step] at he
    split at he
    · obtain ⟨h0, this⟩ := touch_inv he; simp only [Res.ok.injEq] at this; subst this
      constructor <;> assumption
    · cases he
  | closeBegin =>
    simp only [step] at he
    split at he
    · rename_i hc
      obtain ⟨h0, this⟩ := touch_inv he; simp only [Res.ok.injEq] at this; subst this
      constructor <;> dsimp only [calls] at * <;> first | assumption | grind
    · cases he
  | closeLock =>
    simp only [step] at he
    split at he
    · rename_i hc
      obtain ⟨h0, this⟩ := touch_inv he; simp only [Res.ok.injEq] at this; subst this
      constructor <;> dsimp only [calls] at * <;> first | assumption | skip
      rw [hc.2] at r3
      simp only [Option.isSome, if_true] at r3 ⊢
      simp only [Bool.false_eq_true, if_false] at r3
      omega
    · cases he
  | closeVisit =>
    simp only [step] at he
    split at he
    · rename_i i rest hl
      have r3' : calls { s with lock := some rest } ≤ s.owners := by
        simp only [calls, hl] at r3 ⊢; exact r3
      split at he
      · cases he
      · split at he
        · have := (touch_inv he).2
          split at this
          · cases this
          · simp only [Res.ok.injEq] at this; subst this
            constructor <;> assumption
        · have := (touch_inv he).2; simp only [Res.ok.injEq] at this; subst this
          obtain ⟨sh, f, e⟩ := sysShutdown_same s (s.fd i)
          rw [e]
          constructor <;> assumption
    · cases he
  | closeEnd =>
    simp only [step] at he
    split at he
    · rename_i hc
      have := (touch_inv he).2; simp only [Res.ok.injEq] at this; subst this
      constructor <;> dsimp only [calls] at * <;> first | assumption | skip
      rw [hc] at r3
      simp only [Option.isSome, if_true] at r3 ⊢
      simp only [Bool.false_eq_true, if_false]
      omega
    · cases he
  | startAccept i ok =>
    simp only [step] at he
    split at he
    · simp only [Res.ok.injEq] at he; subst he
      constructor <;> assumption
    · cases he
  | acceptOk i cross =>
    simp only [step] at he
    split at he
    · obtain ⟨h0, this⟩ := touch_inv he; simp only [Res.ok.injEq] at this; subst this
      have := r1 h0
      constructor <;> dsimp only [calls] at * <;> first | assumption | grind
    · cases he
  | acceptTls i =>
    simp only [step] at he
    split at he
    · rename_i hc
      have := (touch_inv he).2
      split at this
      · rename_i s1 hr
        simp only [Res.ok.injEq] at this; subst this
        obtain ⟨h0, h1, h2, this⟩ := release_inv hr; subst this
        have := (h.lives (i := i) (by rw [hc.1]; rfl)).2.1
        dsimp only at h0
        have := r1 h0
        constructor <;> dsimp only [calls] at * <;> first | assumption | grind
      · rename_i hne; exact absurd this (hne s')
    · cases he
  | acceptFail i =>
    simp only [step] at he
    split at he
    · simp only [Res.ok.injEq] at he; subst he
      constructor <;> assumption
    · cases he
  | rearm i ok =>
    simp only [step] at he
    split at he
    · have := (touch_inv he).2; simp only [Res.ok.injEq] at this; subst this
      constructor <;> assumption
    · cases he
  | fiberAccept i ok =>
    simp only [step] at he
    split at he
    · simp only [Res.ok.injEq] at he; subst he
      constructor <;> assumption
    · cases he
  | userDestroy i =>
    simp only [step] at he
    split at he
    · simp only [Res.ok.injEq] at he; subst he
      constructor <;> assumption
    · cases he
  | dClose i =>
    simp only [step] at he
    split at he
    · split at he
      · simp only [Res.ok.injEq] at he; subst he
        constructor <;> assumption
      · split at he
        · simp only [Res.ok.injEq] at he; subst he
          constructor <;> assumption
        · cases he
    · cases he
  | dMark i =>
    simp only [step] at he
    split at he
    · simp only [Res.ok.injEq] at he; subst he
      constructor <;> assumption
    · cases he
  | dUnlink i =>
    simp only [step] at he
    split at he
    · have := (touch_inv he).2
      split at this
      · split at this
        · simp only [Res.ok.injEq] at this; subst this
          constructor <;> assumption
        · cases this
      · simp only [Res.ok.injEq] at this; subst this
        constructor <;> assumption
    · cases he
  | dCheck i =>
    simp only [step] at he
    split at he
    · simp only [Res.ok.injEq] at he; subst he
      constructor <;> assumption
    · cases he
  | dRel i =>
    simp only [step] at he
    split at he
    · rename_i hc
      split at he
      · rename_i s1 hr
        simp only [Res.ok.injEq] at he; subst he
        obtain ⟨h0, h1, h2, this⟩ := release_inv hr; subst this
        have hm := (h.p.livePc i).2 (by rw [hc]; rfl)
        have hl := length_erase_of hm
        dsimp only at h0
        have := r1 h0
        refine ⟨?_, ?_, r3, r4, r5⟩
        · dsimp only; intro _; omega
        · dsimp only
          by_cases e : s.refs = 1
          · rw [if_pos e]
            exact Or.inr ⟨rfl, by omega, by omega, List.eq_nil_of_length_eq_zero (by omega), List.eq_nil_of_length_eq_zero (by omega)⟩
          · rw [if_neg e]; exact Or.inl ⟨rfl, by dsimp only at h1; omega⟩
      · rename_i hne; exact absurd he (hne s')
    · cases he
  | dFree i =>
    simp only [step] at he
    split at he
    · split at he
      · simp only [Res.ok.injEq] at he; subst he
        constructor <;> assumption
      · have := (touch_inv he).2; simp only [Res.ok.injEq] at this; subst this
        constructor <;> assumption
    · cases he
  | nextShutdown i =>
    simp only [step] at he
    split at he
    · split at he
      · cases he
      · split at he
        · split at he
          · cases he
          · split at he
            · simp only [Res.ok.injEq] at he; subst he
              constructor <;> assumption
            · rename_i n hf
              simp only [Res.ok.injEq] at he; subst he
              obtain ⟨sh, f, e⟩ := sysShutdown_same { s with pend := s.pend.erase i, hold := upd s.hold i 0, shut := upd s.shut i true } (some n)
              rw [hf, e]
              constructor <;> assumption
        · cases he
    · cases he
  | connDestroy c =>
    simp only [step] at he
    split at he
    · rename_i hc
      obtain ⟨h0, h1, h2, this⟩ := release_inv he; subst this
      dsimp only at h0
      have := r1 h0
      have hl := length_erase_of hc
      refine ⟨?_, ?_, r3, r4.erase c, fun d hd => r5 d (List.mem_of_mem_erase hd)⟩
      · dsimp only; intro _; omega
      · dsimp only
        by_cases e : s.refs = 1
        · rw [if_pos e]
          exact Or.inr ⟨rfl, by omega, by omega, List.eq_nil_of_length_eq_zero (by omega), List.eq_nil_of_length_eq_zero (by omega)⟩
        · rw [if_neg e]; exact Or.inl ⟨rfl, by dsimp only at h1; omega⟩
    · cases he
  | runPosted i c =>
    simp only [step] at he
    split at he
    · simp only [Res.ok.injEq] at he; subst he
      constructor <;> assumption
    · cases he
  | otherOpen n k =>
    simp only [step] at he
    split at he
    · simp only [Res.ok.injEq] at he; subst he
      constructor <;> assumption
    · cases he
  | otherClose n =>
    simp only [step] at he
    split at he
    · simp only [Res.ok.injEq] at he; subst he
      constructor <;> assumption
    · cases he

theorem step_inv {ne : Bool} {s s' : St} {o : Op} (h : Inv ne s) (he : step ne s o = .ok s') : Inv ne s' :=
  ⟨step_inv_p h.p he, step_inv_r h he⟩

theorem touch_no_ub {s : St} {r : Res St} (h : s.freed = 0) (h1 : r ≠ .ub) : touch s r ≠ .ub := by
  rw [touch_ok h]; exact h1

theorem release_no_ub {s : St} (h0 : s.freed = 0) (h1 : s.refs > 0) (h2 : s.refs = 1 → s.lst = []) : release s ≠ .ub := by
  rw [release_ok h0 h1 h2]; exact fun h => by cases h

theorem step_no_ub {ne : Bool} {s : St} {o : Op} (h : Inv ne s) : step ne s o ≠ .ub := by
  have own : s.owners > calls s → s.freed = 0 := fun hx => (h.r.notFreed (Or.inl (by omega))).1
  have cl : calls s > 0 → s.freed = 0 := fun hx => (h.r.called hx).1
  have ltn : ∀ i, s.pc i ≠ .gone → i < s.next := fun i hx => by
    rcases Nat.lt_or_ge i s.next with h1 | h1
    · exact h1
    · exact absurd (h.p.lt i h1) hx
  cases o with
  | ownRef =>
    simp only [step]
    split
    · exact touch_no_ub (own (by assumption)) (fun h => by cases h)
    · exact fun h => by cases h
  | ownRelease =>
    simp only [step]
    split
    · rename_i hc
      have := h.r.notFreed (Or.inl (by omega))
      refine release_no_ub this.1 this.2 ?_
      dsimp only; intro e
      have := h.r.cnt this.1
      exact h.lst_nil (List.eq_nil_of_length_eq_zero (by omega))
    · exact fun h => by cases h
  | listenInit n fib =>
    simp only [step]
    split
    · rename_i hc; exact touch_no_ub (own hc.1) (fun h => by cases h)
    · exact fun h => by cases h
  | listenAppend i =>
    simp only [step]
    split
    · rename_i hc
      exact touch_no_ub (cl (by have := List.length_pos_of_mem hc.1; unfold calls; omega)) (fun h => by cases h)
    · exact fun h => by cases h
  | setStart =>
    simp only [step]
    split
    · exact touch_no_ub (own (by assumption)) (fun h => by cases h)
    · exact fun h => by cases h
  | closeBegin =>
    simp only [step]
    split
    · exact touch_no_ub (own (by assumption)) (fun h => by cases h)
    · exact fun h => by cases h
  | closeLock =>
    simp only [step]
    split
    · rename_i hc
      exact touch_no_ub (cl (by unfold calls; omega)) (fun h => by cases h)
    · exact fun h => by cases h
  | closeVisit =>
    simp only [step]
    split
    · rename_i i rest hl
      have hi := (h.p.lockSub _ hl).2 i (List.mem_cons_self ..)
      have hp := h.p.lstPc i hi
      have hf := cl (by unfold calls; rw [hl]; simp only [Option.isSome, if_true]; omega)
      have hh : s.hold i = 0 := h.p.pendN i (fun hx => by have := (h.p.pendH i hx).2.1; rw [hp.2] at this; cases this)
      split
      · rename_i hx
        exfalso
        unfold goneB at hx
        revert hx
        generalize s.pc i = p at hp ⊢
        cases p <;> simp_all [Pc.listed]
      · split
        · refine touch_no_ub hf ?_
          split
          · contradiction
          · exact fun h => by cases h
        · exact touch_no_ub hf (fun h => by cases h)
    · exact fun h => by cases h
  | closeEnd =>
    simp only [step]
    split
    · rename_i hc
      exact touch_no_ub (cl (by unfold calls; rw [hc]; simp only [Option.isSome, if_true]; omega)) (fun h => by cases h)
    · exact fun h => by cases h
  | startAccept i ok => simp only [step]; split <;> exact fun h => by cases h
  | acceptOk i cross =>
    simp only [step]
    split
    · rename_i hc
      exact touch_no_ub (h.lives (i := i) (by rw [hc.1]; rfl)).1 (fun h => by cases h)
    · exact fun h => by cases h
  | acceptTls i =>
    simp only [step]
    split
    · rename_i hc
      obtain ⟨l1, l2, _⟩ := h.lives (i := i) (by rw [hc.1]; rfl)
      refine touch_no_ub l1 ?_
      rw [release_ok (s := { s with refs := s.refs + 1 }) l1 (by dsimp only; omega) (by dsimp only; intro e; omega)]
      exact fun h => by cases h
    · exact fun h => by cases h
  | acceptFail i => simp only [step]; split <;> exact fun h => by cases h
  | rearm i ok =>
    simp only [step]
    split
    · rename_i hc
      exact touch_no_ub (h.lives (i := i) (by rw [hc.1]; rfl)).1 (fun h => by cases h)
    · exact fun h => by cases h
  | fiberAccept i ok => simp only [step]; split <;> exact fun h => by cases h
  | userDestroy i => simp only [step]; split <;> exact fun h => by cases h
  | dClose i =>
    simp only [step]
    split
    · rename_i hc
      obtain ⟨⟨n, hn, hn2⟩, _⟩ := h.p.fdOpen i (by rw [hc]; rfl)
      rw [hn]; dsimp only; rw [if_pos hn2]
      exact fun h => by cases h
    · exact fun h => by cases h
  | dMark i => simp only [step]; split <;> exact fun h => by cases h
  | dUnlink i =>
    simp only [step]
    split
    · rename_i hc
      refine touch_no_ub (h.lives (i := i) (by rw [hc.1]; rfl)).1 ?_
      split
      · rename_i hq
        rw [if_pos (h.p.qnLst i (by rw [hc.1]; rfl) hq)]
        exact fun h => by cases h
      · exact fun h => by cases h
    · exact fun h => by cases h
  | dCheck i => simp only [step]; split <;> exact fun h => by cases h
  | dRel i =>
    simp only [step]
    split
    · rename_i hc
      obtain ⟨l1, l2, l3⟩ := h.lives (i := i) (by rw [hc]; rfl)
      have hm := (h.p.livePc i).2 (by rw [hc]; rfl)
      have hl := length_erase_of hm
      have hk := h.r.cnt l1
      rw [release_ok (s := { s with live := s.live.erase i }) l1 l2 ?_]
      · exact fun h => by cases h
      · dsimp only; intro e
        cases e2 : s.lst with
        | nil => rfl
        | cons a t =>
          exfalso
          have ha := (h.p.lstPc a (by rw [e2]; exact List.mem_cons_self ..)).1
          have hal := (h.p.livePc a).2 (Pc.listed_lives ha)
          have hai : a ≠ i := fun e3 => by rw [e3, hc] at ha; cases ha
          have := (h.p.liveNd.mem_erase_iff (a := a) (b := i)).2 ⟨hai, hal⟩
          have := List.length_pos_of_mem this
          omega
    · exact fun h => by cases h
  | dFree i =>
    simp only [step]
    split
    · rename_i hc
      rw [(h.p.fdNone i (ltn i (by rw [hc]; decide)) (by rw [hc]; rfl) (by rw [hc]; decide)).1]
      exact fun h => by cases h
    · exact fun h => by cases h
  | nextShutdown i =>
    simp only [step]
    split
    · rename_i hm
      have hp := h.p.pendH i hm
      split
      · rename_i hx
        exfalso
        unfold goneB at hx
        revert hx
        generalize s.pc i = p at hp ⊢
        cases p <;> simp_all [Pc.pendable]
      · split
        · rw [if_neg (by rw [hp.1]; decide)]
          split <;> exact fun h => by cases h
        · exact fun h => by cases h
    · exact fun h => by cases h
  | connDestroy c =>
    simp only [step]
    split
    · rename_i hc
      have hl := List.length_pos_of_mem hc
      have := h.r.notFreed (Or.inr (Or.inr (by intro e; rw [e] at hl; exact absurd hl (by decide))))
      have hk := h.r.cnt this.1
      exact release_no_ub this.1 this.2 (by
        dsimp only; intro e; exact h.lst_nil (List.eq_nil_of_length_eq_zero (by omega)))
    · exact fun h => by cases h
  | runPosted i c => simp only [step]; split <;> exact fun h => by cases h
  | otherOpen n k => simp only [step]; split <;> exact fun h => by cases h
  | otherClose n => simp only [step]; split <;> exact fun h => by cases h

end Kasync.Srv
