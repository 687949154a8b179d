import Verif.Srv.Props

/-!
# C38: a listener that was shut down goes away
-/

namespace Kasync.Srv

variable {ne : Bool} {s s' : St}

/-- The operation is a step of listener `i` on its own thread. -/
def Op.of (i : Nat) : Op → Bool
  | .listenAppend j | .startAccept j _ | .acceptOk j _ | .acceptTls j | .acceptFail j | .rearm j _ | .fiberAccept j _
  | .userDestroy j | .dClose j | .dMark j | .dUnlink j | .dCheck j | .dRel j | .dFree j | .nextShutdown j => j == i
  | _ => false

/-- Distance of a listener's program counter from `gone`. -/
def Pc.rank : Pc → Nat
  | .fresh => 12 | .idle => 11 | .busy => 10 | .wait => 9 | .closing => 8 | .mark => 7 | .unlink => 6 | .check => 5
  | .held => 4 | .rel => 3 | .free => 2 | .gone => 0

/-- How many steps a shut down listener can still make, at most. -/
def weight (ne : Bool) (s : St) (i : Nat) : Nat :=
  (if ne = true ∧ s.qn i = true then 50 else 0) + (if i ∈ s.pend then 20 else 0) + (s.pc i).rank

/-- A listener in callback mode, registered, whose socket has been shut down. -/
structure Ending (s : St) (i : Nat) : Prop where
  lt : i < s.next
  shut : s.shut i = true
  cb : s.fiber i = false
  reg : s.pc i ≠ .fresh

set_option maxHeartbeats 8000000 in
theorem ending_step {o : Op} {i : Nat} (hi : Inv ne s) (hx : Ending s i) (he : step ne s o = .ok s') :
    s'.pc i ≠ .fresh ∧ weight ne s' i ≤ weight ne s i ∧ (o.of i = true → weight ne s' i < weight ne s i) := by
  obtain ⟨e1, e2, e3, e4⟩ := hx
  obtain ⟨a1, a2, a3, a4, a5, a6, a7, a8, a9, b1, b2, b3, b4, b5, b6, b7, b8, b9, c1⟩ := hi.p
  have n4 : ∀ i j, j ∈ s.pend.erase i ↔ j ≠ i ∧ j ∈ s.pend := fun i j => b5.mem_erase_iff
  have n6 : ∀ i rest, s.lock = some (i :: rest) → s.qn i = true := fun i rest h =>
    (a5 i ((a9 _ h).2 i (List.mem_cons_self ..))).2
  unfold weight
  cases o <;> simp only [step, touch, release, sysShutdown] at he <;> repeat' (split at he)
  all_goals first
    | cases he
    | skip
  all_goals
    refine ⟨?_, ?_, ?_⟩ <;> dsimp only [upd, Op.of] at * <;> grind [Pc.rank, Pc.listed, Pc.opened]

/-- **C38.**  A listener in callback mode whose socket was shut down makes at most `weight` more steps of its own, whatever the rest of the
process does in between: it stays shut down and each of its steps lowers the weight, which nothing raises. -/
theorem server_shut_rank {o : Op} {i : Nat} (h : Reachable (step ne) init s) (hx : Ending s i) (he : step ne s o = .ok s') :
    Ending s' i ∧ weight ne s' i ≤ weight ne s i ∧ (o.of i = true → weight ne s' i < weight ne s i) := by
  have hf := step_frame (inv h) he
  obtain ⟨k1, k2⟩ := ending_step (inv h) hx he
  exact ⟨⟨Nat.lt_of_lt_of_le hx.lt hf.next, hf.shut i hx.lt hx.shut, (hf.fiber i hx.lt).trans hx.cb, k1⟩, k2⟩

/-- **C38.**  After the socket of a listener was shut down no connection is accepted on it, ever. -/
theorem server_shut_accepts_nothing {i : Nat} (h : Reachable (step ne) init s) (hlt : i < s.next) (hx : s.shut i = true)
    (h2 : Reachable (step ne) s s') (cross : Bool) : step ne s' (.acceptOk i cross) = .disabled := by
  have : Inv ne s' ∧ i < s'.next ∧ s'.shut i = true :=
    h2.invariant (P := fun s' => Inv ne s' ∧ i < s'.next ∧ s'.shut i = true) ⟨inv h, hlt, hx⟩ (fun a o b hi he => by
      have hf := step_frame hi.1 he
      exact ⟨step_inv hi.1 he, Nat.lt_of_lt_of_le hi.2.1 hf.next, hf.shut i hi.2.1 hi.2.2⟩)
  simp only [step]
  rw [if_neg (fun hc => by rw [this.2.2] at hc; exact absurd hc.2.1 (by decide))]

/-- Steps of a `kserver_close` call that are left. -/
def closeLeft (s : St) : Nat := match s.lock with
  | none => 0
  | some l => l.length + 1

theorem ok_of {ne : Bool} {s : St} {o : Op} (hi : Inv ne s) (hd : step ne s o ≠ .disabled) : ∃ s', step ne s o = .ok s' := by
  cases h : step ne s o with
  | ok s' => exact ⟨s', rfl⟩
  | disabled => exact absurd h hd
  | ub => exact absurd h (step_no_ub hi)

/-- **C38.**  As long as it is not freed, a listener that was shut down can make a step, or a `kserver_close` call that holds the lock can. -/
theorem server_shut_progress {i : Nat} (h : Reachable (step ne) init s) (hx : Ending s i) (hg : s.pc i ≠ .gone) :
    ∃ o s', step ne s o = .ok s' ∧
      (o.of i = true ∧ closeLeft s' = closeLeft s ∨ (o = .closeVisit ∨ o = .closeEnd) ∧ closeLeft s' < closeLeft s) := by
  have hi := inv h
  obtain ⟨e1, e2, e3, e4⟩ := hx
  have own : ∀ o : Op, o.of i = true → (∀ s', step ne s o = .ok s' → s'.lock = s.lock) → step ne s o ≠ .disabled →
      ∃ o s', step ne s o = .ok s' ∧
        (o.of i = true ∧ closeLeft s' = closeLeft s ∨ (o = .closeVisit ∨ o = .closeEnd) ∧ closeLeft s' < closeLeft s) := by
    intro o ho hl hd
    obtain ⟨s', hs⟩ := ok_of hi hd
    exact ⟨o, s', hs, Or.inl ⟨ho, by unfold closeLeft; rw [hl s' hs]⟩⟩
  have lk : ∀ o : Op, o.of i = true → (∀ j, o ≠ .listenAppend j) → ∀ s', step ne s o = .ok s' → s'.lock = s.lock := by
    intro o ho hna s' he
    cases o <;> simp only [step, touch, release, sysShutdown] at he <;> repeat' (split at he)
    all_goals first
      | cases he
      | skip
    all_goals first
      | rfl
      | (simp [Op.of] at ho; done)
      | grind
  have tnd : ∀ {t : St} {r : Res St}, r ≠ .disabled → touch t r ≠ .disabled := by
    intro t r hr; unfold touch; split
    · exact hr
    · exact fun h => by cases h
  have rnd : ∀ t : St, release t ≠ .disabled := by
    intro t; unfold release
    refine tnd ?_
    repeat' split
    all_goals exact fun h => by cases h
  have me : ∀ k : Nat, (k == k) = true := fun k => by simp
  cases hp : s.pc i with
  | gone => exact absurd hp hg
  | fresh => exact absurd hp e4
  | idle =>
    refine own (.startAccept i true) (me i) (lk _ (me i) (fun j h => by cases h)) ?_
    simp only [step]; rw [if_pos ⟨hp, e3⟩]; exact fun h => by cases h
  | wait =>
    refine own (.acceptFail i) (me i) (lk _ (me i) (fun j h => by cases h)) ?_
    simp only [step]; rw [if_pos hp]; exact fun h => by cases h
  | busy =>
    refine own (.rearm i true) (me i) (lk _ (me i) (fun j h => by cases h)) ?_
    simp only [step]; rw [if_pos ⟨hp, e3⟩]; exact tnd (fun h => by cases h)
  | closing =>
    refine own (.dClose i) (me i) (lk _ (me i) (fun j h => by cases h)) ?_
    simp only [step]; rw [if_pos hp]
    repeat' split
    all_goals exact fun h => by cases h
  | mark =>
    refine own (.dMark i) (me i) (lk _ (me i) (fun j h => by cases h)) ?_
    simp only [step]; rw [if_pos hp]; exact fun h => by cases h
  | unlink =>
    cases hl : s.lock with
    | none =>
      refine own (.dUnlink i) (me i) (lk _ (me i) (fun j h => by cases h)) ?_
      simp only [step]; rw [if_pos ⟨hp, hl⟩]
      refine tnd ?_
      repeat' split
      all_goals exact fun h => by cases h
    | some l =>
      cases l with
      | nil =>
        obtain ⟨s', hs⟩ := ok_of (o := .closeEnd) hi (by simp only [step]; rw [if_pos hl]; exact tnd (fun h => by cases h))
        refine ⟨.closeEnd, s', hs, Or.inr ⟨Or.inr rfl, ?_⟩⟩
        simp only [step] at hs
        rw [if_pos hl] at hs
        have := (touch_inv hs).2; simp only [Res.ok.injEq] at this; subst this
        unfold closeLeft; rw [hl]; simp
      | cons a t =>
        obtain ⟨s', hs⟩ := ok_of (o := .closeVisit) hi (by
          simp only [step]; rw [hl]; dsimp only
          split
          · exact fun h => by cases h
          · split
            · refine tnd ?_
              split <;> exact fun h => by cases h
            · exact tnd (fun h => by cases h))
        refine ⟨.closeVisit, s', hs, Or.inr ⟨Or.inl rfl, ?_⟩⟩
        have hlk : s'.lock = some t := by
          simp only [step] at hs
          rw [hl] at hs; dsimp only at hs
          split at hs
          · cases hs
          · split at hs
            · have := (touch_inv hs).2
              split at this
              · cases this
              · simp only [Res.ok.injEq] at this; subst this; rfl
            · have := (touch_inv hs).2; simp only [Res.ok.injEq] at this; subst this; rfl
        unfold closeLeft; rw [hl, hlk]; simp
  | check =>
    refine own (.dCheck i) (me i) (lk _ (me i) (fun j h => by cases h)) ?_
    simp only [step]; rw [if_pos hp]; exact fun h => by cases h
  | rel =>
    refine own (.dRel i) (me i) (lk _ (me i) (fun j h => by cases h)) ?_
    simp only [step]; rw [if_pos hp]
    split
    · exact fun h => by cases h
    · exact rnd _
  | free =>
    refine own (.dFree i) (me i) (lk _ (me i) (fun j h => by cases h)) ?_
    simp only [step]; rw [if_pos hp]
    split
    · exact fun h => by cases h
    · exact tnd (fun h => by cases h)
  | held =>
    refine own (.nextShutdown i) (me i) (lk _ (me i) (fun j h => by cases h)) ?_
    simp only [step]; rw [if_pos (hi.p.heldP i hp)]
    split
    · exact fun h => by cases h
    · rw [if_pos (Or.inr (Or.inr (Or.inl hp)))]
      split
      · exact fun h => by cases h
      · split <;> exact fun h => by cases h

theorem finish_aux (k : Nat) : ∀ {s : St} {i : Nat}, Reachable (step ne) init s → Ending s i → weight ne s i + closeLeft s ≤ k →
    ∃ os s', run (step ne) s os = some s' ∧ s'.pc i = .gone ∧ s'.closes i = 1 := by
  induction k with
  | zero =>
    intro s i h hx hk
    have hg : s.pc i = .gone := by
      have : (s.pc i).rank = 0 := by unfold weight at hk; omega
      revert this; cases s.pc i <;> simp [Pc.rank]
    exact ⟨[], s, rfl, hg, (server_socket_closed_once h i hx.lt).2.1 hg⟩
  | succ k ih =>
    intro s i h hx hk
    by_cases hg : s.pc i = .gone
    · exact ⟨[], s, rfl, hg, (server_socket_closed_once h i hx.lt).2.1 hg⟩
    · obtain ⟨o, s1, hs, hc⟩ := server_shut_progress h hx hg
      obtain ⟨r1, r2, r3⟩ := server_shut_rank h hx hs
      have hlt : weight ne s1 i + closeLeft s1 ≤ k := by
        rcases hc with ⟨c1, c2⟩ | ⟨_, c2⟩
        · have := r3 c1; omega
        · omega
      obtain ⟨os, s2, k1, k2⟩ := ih (.tail o h hs) r1 hlt
      exact ⟨o :: os, s2, by simp only [run, hs]; exact k1, k2⟩

/-- **C38.**  From every state in which a listener of callback mode has been shut down, it can be brought to its end: closed once and freed. -/
theorem server_shut_listener_finishes {i : Nat} (h : Reachable (step ne) init s) (hx : Ending s i) :
    ∃ os s', run (step ne) s os = some s' ∧ s'.pc i = .gone ∧ s'.closes i = 1 :=
  finish_aux _ h hx (Nat.le_refl _)

/-! ## Concrete runs -/

/-- Two listeners, one connection, `kserver_close`, everything released: the server is freed once.  Linux build. -/
def demo : List Op :=
  [.listenInit 3 false, .listenAppend 0, .setStart, .startAccept 0 true, .listenInit 4 false, .listenAppend 1, .startAccept 1 true,
   .acceptOk 0 false, .closeBegin, .closeLock, .closeVisit, .closeVisit, .closeEnd, .rearm 0 true, .acceptFail 1,
   .dClose 0, .dMark 0, .dUnlink 0, .dCheck 0, .dRel 0, .dFree 0, .ownRelease, .connDestroy 0,
   .dClose 1, .dMark 1, .dUnlink 1, .dCheck 1, .dRel 1, .dFree 1]

example : ((run (step false) init demo).map fun s => (s.freed, s.refs, s.closes 0, s.closes 1, s.lst)) = some (1, 0, 1, 1, []) := by decide

example : ((run (step false) init (demo.take 20)).map fun s => (s.freed, s.refs, s.shut 1)) = some (0, 3, true) := by decide

/-- The macOS build: a listener destroyed while its shutdown is posted is kept for the posted event, which ends it. -/
def demoMac : List Op :=
  [.listenInit 3 false, .listenAppend 0, .setStart, .startAccept 0 true, .acceptOk 0 false, .closeBegin, .closeLock, .closeVisit, .closeEnd,
   .rearm 0 true, .dClose 0, .dMark 0, .dUnlink 0, .dCheck 0, .nextShutdown 0, .dUnlink 0, .dCheck 0, .ownRelease, .connDestroy 0,
   .dRel 0, .dFree 0]

example : ((run (step true) init demoMac).map fun s => (s.freed, s.closes 0, s.pend)) = some (1, 1, []) := by decide

example : ((run (step false) init (demo.take 13)).map fun s => (s.shut 0, s.shut 1, s.pc 0, s.pc 1, s.fiber 0)) =
    some (true, true, .busy, .wait, false) := by decide

/-! ## Findings -/

/-- **Finding.**  `kserver_close` reads the descriptor of a listener that its own thread is closing (src/kserver.c:355-356 run without the lock): if
the number was reused in between, `kserver_close` shuts down a descriptor of somebody else. -/
theorem server_close_hits_foreign_socket :
    ∃ s, Reachable (step false) init s ∧ s.foreign = [7] := by
  refine ⟨_, reachable_of_run (os := [.listenInit 3 false, .listenAppend 0, .setStart, .startAccept 0 true, .acceptFail 0, .dClose 0,
    .otherOpen 3 7, .closeBegin, .closeLock, .closeVisit]) rfl, rfl⟩

/-- In the macOS build that cannot happen: the shutdown runs on the listener's own thread. -/
theorem server_close_mac_own_socket (h : Reachable (step true) init s) : s.foreign = [] := by
  have : Inv true s ∧ s.foreign = [] :=
    h.invariant (P := fun s => Inv true s ∧ s.foreign = []) ⟨inv_init true, rfl⟩ (fun a o b hi he => by
      refine ⟨step_inv hi.1 he, ?_⟩
      have hv := hi.1.p
      have hf := hi.2
      cases o with
      | nextShutdown i =>
        simp only [step] at he
        split at he
        · split at he
          · cases he
          · split at he
            · rename_i hp
              split at he
              · cases he
              · split at he
                · simp only [Res.ok.injEq] at he; subst he; exact hf
                · rename_i n hn
                  simp only [Res.ok.injEq] at he; subst he
                  have ho : (a.pc i).opened = true := by
                    rcases hp with e | e | e | e
                    · rw [e]; rfl
                    · rw [e]; rfl
                    · have hlt : i < a.next := by
                        rcases Nat.lt_or_ge i a.next with h | h
                        · exact h
                        · have := hv.lt i h; rw [e] at this; cases this
                      have := (hv.fdNone i hlt (by rw [e]; rfl) (by rw [e]; decide)).1
                      rw [hn] at this; cases this
                    · rw [e.1]; rfl
                  obtain ⟨⟨m, hm, hm2⟩, _⟩ := hv.fdOpen i ho
                  rw [hn] at hm; simp only [Option.some.injEq] at hm; subst hm
                  simp only [sysShutdown, hn, hm2]; exact hf
            · cases he
        · cases he
      | _ =>
        simp only [step, touch, release, if_true] at he <;> repeat' (split at he)
        all_goals first
          | cases he
          | skip
        all_goals first
          | exact hf
          | grind)
  exact this.2

/-- **Finding.**  The path of a unix listener is never removed: `kserver_selectable_free` unlinks it only if the descriptor is still open
(src/kserver.c:122-129), and the destructor has always closed it before (354-357). -/
theorem server_unix_path_never_removed (h : Reachable (step ne) init s) : s.unlinked = 0 := (inv h).p.unl

/-- **Finding.**  One failing accept (say, for lack of descriptors) destroys the listener for good while the server still counts as started. -/
theorem server_accept_error_kills_listener :
    ∃ s, Reachable (step false) init s ∧ s.start = true ∧ s.lst = [] ∧ s.shut 0 = false ∧ s.pc 0 = .gone := by
  refine ⟨_, reachable_of_run (os := [.listenInit 3 false, .listenAppend 0, .setStart, .startAccept 0 true, .acceptFail 0, .dClose 0,
    .dMark 0, .dUnlink 0, .dCheck 0, .dRel 0, .dFree 0]) rfl, rfl, rfl, rfl, rfl⟩

/-- **Finding.**  A user callback posted to another selector gets the listener as `data` (include/kserver.h:45), which may be freed before it runs. -/
theorem server_posted_callback_dangling :
    ∃ s, Reachable (step false) init s ∧ (0, 0) ∈ s.posted ∧ s.pc 0 = .gone := by
  refine ⟨_, reachable_of_run (os := [.listenInit 3 false, .listenAppend 0, .setStart, .startAccept 0 true, .acceptOk 0 true, .rearm 0 false,
    .dClose 0, .dMark 0, .dUnlink 0, .dCheck 0, .dRel 0, .dFree 0]) rfl, List.mem_cons_self .., rfl⟩

/-- **Finding.**  A listener that is being made while `kserver_close` runs is not shut down by it, and goes on accepting. -/
theorem server_close_misses_new_listener :
    ∃ s, Reachable (step false) init s ∧ s.waiting = 0 ∧ s.lock = none ∧ s.lst = [0] ∧ s.shut 0 = false := by
  refine ⟨_, reachable_of_run (os := [.ownRef, .listenInit 3 false, .closeBegin, .closeLock, .closeEnd, .listenAppend 0]) rfl,
    rfl, rfl, rfl, rfl⟩

end Kasync.Srv
