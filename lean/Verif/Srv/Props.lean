import Verif.Srv.Lemmas

/-!
# C38: the server object lives until its last listener and connection is gone
-/

namespace Kasync.Srv

variable {ne : Bool} {s s' : St}

theorem inv (h : Reachable (step ne) init s) : Inv ne s :=
  h.invariant (inv_init ne) (fun _ _ _ hi he => step_inv hi he)

/-- **C38.**  No assertion of src/kserver.c fails and neither the server nor a listener is used after it was freed, as long as
every call on the server is made by somebody who has a reference. -/
theorem server_no_ub (h : Reachable (step ne) init s) (o : Op) : step ne s o ≠ .ub := step_no_ub (inv h)

/-! ## The server is freed exactly once, exactly when nothing refers to it -/

/-- How often the history contains an operation of this kind. -/
def times (p : Op → Bool) (os : List Op) : Nat := (os.filter p).length

def Op.isOwnRef : Op → Bool | .ownRef => true | _ => false
def Op.isOwnRelease : Op → Bool | .ownRelease => true | _ => false
def Op.isListen : Op → Bool | .listenInit .. => true | _ => false
/-- The listener is destroyed for good. -/
def Op.isUnlisten : Op → Bool | .dRel .. => true | _ => false
/-- A connection is handed to the user. -/
def Op.isConn : Op → Bool | .acceptOk .. => true | _ => false
def Op.isDisconn : Op → Bool | .connDestroy .. => true | _ => false

structure Hist (s : St) (os : List Op) : Prop where
  own : s.owners + times Op.isOwnRelease os = 1 + times Op.isOwnRef os
  lis : s.live.length + times Op.isUnlisten os = times Op.isListen os
  con : s.conns.length + times Op.isDisconn os = times Op.isConn os

theorem times_snoc (p : Op → Bool) (os : List Op) (o : Op) : times p (os ++ [o]) = times p os + (if p o then 1 else 0) := by
  unfold times
  rw [List.filter_append, List.length_append]
  cases h : p o <;> simp [h]

theorem hist_of {o : Op} {os : List Op} (h : Hist s os)
    (h1 : s'.owners + (if o.isOwnRelease then 1 else 0) = s.owners + (if o.isOwnRef then 1 else 0))
    (h2 : s'.live.length + (if o.isUnlisten then 1 else 0) = s.live.length + (if o.isListen then 1 else 0))
    (h3 : s'.conns.length + (if o.isDisconn then 1 else 0) = s.conns.length + (if o.isConn then 1 else 0)) : Hist s' (os ++ [o]) := by
  obtain ⟨k1, k2, k3⟩ := h
  constructor <;> rw [times_snoc, times_snoc] <;> omega

/-- What a step does to the counts, and what it never undoes. -/
structure Frame (s s' : St) (o : Op) : Prop where
  own : s'.owners + (if o.isOwnRelease then 1 else 0) = s.owners + (if o.isOwnRef then 1 else 0)
  lis : s'.live.length + (if o.isUnlisten then 1 else 0) = s.live.length + (if o.isListen then 1 else 0)
  con : s'.conns.length + (if o.isDisconn then 1 else 0) = s.conns.length + (if o.isConn then 1 else 0)
  next : s.next ≤ s'.next
  shut : ∀ i, i < s.next → s.shut i = true → s'.shut i = true
  closes : ∀ i, i < s.next → s.closes i ≤ s'.closes i
  fiber : ∀ i, i < s.next → s'.fiber i = s.fiber i

set_option maxHeartbeats 4000000 in
theorem step_frame {o : Op} (hi : Inv ne s) (he : step ne s o = .ok s') : Frame s s' o := by
  have hu : ∀ (i : Nat) (b : Bool), b = true → ∀ j, s.shut j = true → upd s.shut i b j = true := fun i b hb j hj => by
    unfold upd; split <;> assumption
  have hlen : ∀ {t : Nat} {l : List Nat}, t ∈ l → (l.erase t).length + 1 = l.length := fun h => length_erase_of h
  have hrel : ∀ i, s.pc i = .rel → i ∈ s.live := fun i h => (hi.p.livePc i).2 (by rw [h]; rfl)
  have hown : s.owners > calls s → s.owners - 1 + 1 = s.owners := fun h => by omega
  cases o <;> simp only [step, touch, release, sysShutdown] at he <;> repeat' (split at he)
  all_goals first
    | cases he
    | skip
  all_goals
    constructor <;> dsimp only [Op.isOwnRelease, Op.isOwnRef, Op.isUnlisten, Op.isListen, Op.isDisconn, Op.isConn, upd] <;> grind

theorem hist_run (os : List Op) : ∀ {s0 : St} {pre : List Op}, Inv ne s0 → Hist s0 pre → run (step ne) s0 os = some s →
    Hist s (pre ++ os) ∧ Inv ne s := by
  induction os with
  | nil =>
    intro s0 pre hi hh h
    simp only [run, Option.some.injEq] at h; subst h
    rw [List.append_nil]; exact ⟨hh, hi⟩
  | cons o os ih =>
    intro s0 pre hi hh h
    unfold run at h
    split at h
    · rename_i s1 he
      obtain ⟨f1, f2, f3, _⟩ := step_frame hi he
      have := ih (step_inv hi he) (hist_of hh f1 f2 f3) h
      rwa [List.append_assoc] at this
    · cases h

/-- No listener, connection or owner refers to the server any more: the owners have released the first reference and as many
as they took, as many listeners were destroyed as made, as many connections destroyed as accepted. -/
def Unreferenced (os : List Op) : Prop :=
  times Op.isOwnRelease os = 1 + times Op.isOwnRef os ∧ times Op.isUnlisten os = times Op.isListen os ∧
  times Op.isDisconn os = times Op.isConn os

theorem hist_init : Hist init [] := ⟨rfl, rfl, rfl⟩

/-- **C38.**  After every history the server has been freed once if nothing refers to it, and not at all otherwise. -/
theorem server_freed_iff (os : List Op) (h : run (step ne) init os = some s) :
    (Unreferenced os → s.freed = 1) ∧ (¬ Unreferenced os → s.freed = 0) := by
  obtain ⟨⟨h1, h2, h3⟩, hi⟩ := hist_run os (inv_init ne) hist_init h
  simp only [List.nil_append] at h1 h2 h3
  rcases hi.r.fr with ⟨f1, f2⟩ | ⟨f1, f2, f3, f4, f5⟩
  · have hc := hi.r.cnt f1
    refine ⟨fun ⟨k1, k2, k3⟩ => ?_, fun _ => f1⟩
    omega
  · rw [f3] at h1; rw [f4] at h2; rw [f5] at h3
    simp only [List.length_nil] at h2 h3
    exact ⟨fun _ => f1, fun hn => absurd ⟨by omega, by omega, by omega⟩ hn⟩

/-- **C38.**  The counter is exactly the number of owners, listeners and connections. -/
theorem server_refs_exact (os : List Op) (h : run (step ne) init os = some s) :
    s.refs + times Op.isOwnRelease os + times Op.isUnlisten os + times Op.isDisconn os =
      1 + times Op.isOwnRef os + times Op.isListen os + times Op.isConn os := by
  obtain ⟨⟨h1, h2, h3⟩, hi⟩ := hist_run os (inv_init ne) hist_init h
  simp only [List.nil_append] at h1 h2 h3
  rcases hi.r.fr with ⟨f1, f2⟩ | ⟨f1, f2, f3, f4, f5⟩
  · have hc := hi.r.cnt f1
    omega
  · rw [f3] at h1; rw [f4] at h2; rw [f5] at h3
    simp only [List.length_nil] at h2 h3
    omega

/-! ## Each listening socket is closed exactly once -/

/-- **C38.**  Every listener's socket is closed at most once; it is closed when the listener is freed, and until it is closed
its descriptor number names this socket: nothing else is ever closed in its place. -/
theorem server_socket_closed_once (h : Reachable (step ne) init s) (i : Nat) (hi : i < s.next) :
    s.closes i ≤ 1 ∧ (s.pc i = .gone → s.closes i = 1) ∧
    (s.closes i = 0 → ∃ n, s.fd i = some n ∧ s.fds n = some (.listener i)) ∧
    (s.closes i = 1 → ∀ n, s.fds n ≠ some (.listener i)) := by
  have hv := (inv h).p
  cases ho : (s.pc i).opened
  · have hc : s.closes i = 1 := by
      by_cases hm : s.pc i = .mark
      · exact (hv.fdMark i hm).2
      · exact (hv.fdNone i hi ho hm).2
    refine ⟨by omega, fun _ => hc, fun h => by omega, fun _ n hn => ?_⟩
    have := (hv.fdsL n i hn).1; rw [ho] at this; cases this
  · obtain ⟨k1, k2⟩ := hv.fdOpen i ho
    exact ⟨by omega, fun hg => absurd ho (by rw [hg]; decide), fun _ => k1, fun h => by omega⟩

/-! ## kserver_close reaches every listener -/

/-- Progress of a `kserver_close` call that holds the lock. -/
structure CInv (ne : Bool) (s : St) : Prop where
  lin : ne = false → ∀ l, s.lock = some l → ∀ i, i ∈ s.lst → i ∉ l → s.shut i = true ∨ s.pc i = .mark ∨ s.pc i = .unlink
  dar : ne = true → ∀ l, s.lock = some l → ∀ i, i ∈ s.lst → i ∈ l
  darS : ∀ i, (s.pc i).listed = true → s.qn i = false → i ∈ s.pend ∨ s.shut i = true

theorem cinv_init : CInv ne init := by
  constructor <;> simp [init, Pc.listed]

set_option maxHeartbeats 4000000 in
theorem step_cinv {o : Op} (hi : Inv ne s) (hc : CInv ne s) (he : step ne s o = .ok s') : CInv ne s' := by
  obtain ⟨l1, l2, l3⟩ := hc
  obtain ⟨a1, a2, a3, a4, a5, a6, a7, a8, a9, b1, b2, b3, b4, b5, b6, b7, b8, b9, c1⟩ := hi.p
  have n3 : ∀ i j, j ∈ s.lst.erase i ↔ j ≠ i ∧ j ∈ s.lst := fun i j => a4.mem_erase_iff
  have n4 : ∀ i j, j ∈ s.pend.erase i ↔ j ≠ i ∧ j ∈ s.pend := fun i j => b5.mem_erase_iff
  have n5 : ∀ i, (s.pc i).listed = true →
      (∃ n, s.fd i = some n ∧ s.fds n = some (.listener i)) ∨ s.pc i = .mark ∨ s.pc i = .unlink := fun i hl => by
    have := b1 i
    revert this hl
    cases s.pc i <;> simp_all [Pc.listed, Pc.opened]
  cases o <;> simp only [step, touch, release, sysShutdown] at he <;> repeat' (split at he)
  all_goals first
    | cases he
    | skip
  all_goals
    constructor <;> dsimp only [upd] at * <;> first | assumption | grind [Pc.listed, Pc.opened]

theorem cinv (h : Reachable (step ne) init s) : CInv ne s := by
  have : Inv ne s ∧ CInv ne s :=
    h.invariant (P := fun s => Inv ne s ∧ CInv ne s) ⟨inv_init ne, cinv_init⟩
      (fun _ _ _ hi he => ⟨step_inv hi.1 he, step_cinv hi.1 hi.2 he⟩)
  exact this.2

/-- **C38.**  When `kserver_close` returns, the socket of every listener of the server is closed or shut down, or (only in the macOS
build) its shutdown is posted to the listener's thread. -/
theorem server_close_reaches_all (h : Reachable (step ne) init s) (he : step ne s .closeEnd = .ok s') (i : Nat)
    (hi : i < s'.next) (hf : s'.pc i ≠ .fresh) :
    s'.closes i = 1 ∨ s'.shut i = true ∨ (ne = true ∧ i ∈ s'.pend) := by
  have hv := (inv h).p
  have hc := cinv h
  simp only [step] at he
  split at he
  · rename_i hl
    have := (touch_inv he).2; simp only [Res.ok.injEq] at this; subst this
    dsimp only at *
    cases ho : (s.pc i).opened
    · left
      by_cases hm : s.pc i = .mark
      · exact (hv.fdMark i hm).2
      · exact (hv.fdNone i hi ho hm).2
    · right
      have hls : (s.pc i).listed = true := by revert ho hf; cases s.pc i <;> simp [Pc.opened, Pc.listed]
      cases hq : s.qn i
      · rcases hc.darS i hls hq with hp | hp
        · right
          cases hne : ne
          · rw [hv.neP hne] at hp; cases hp
          · exact ⟨rfl, hp⟩
        · exact Or.inl hp
      · have hm := hv.qnLst i hls hq
        cases hne : ne
        · rcases hc.lin hne _ hl i hm (by simp) with h | h | h
          · exact Or.inl h
          · rw [h] at ho; cases ho
          · rw [h] at ho; cases ho
        · have := hc.dar hne _ hl i hm; cases this
  · cases he

end Kasync.Srv
