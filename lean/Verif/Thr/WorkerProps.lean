import Verif.Thr.Worker

/-! # Worker pool theorems: C28 -/

namespace Kasync.Worker

/-- `kasync_worker_init`, src/kasync_worker.c:6-15 -/
def winit (mw mq : Int) : St := { maxWorker := mw, maxQueue := mq }

structure Inv (mw mq : Int) (s : St) : Prop where
  lim : s.maxWorker = mw ∧ s.maxQueue = mq
  nq : s.nqueue = s.queue.length
  nw : s.nworker = s.idle + s.got.length + s.running.length
  refs : s.refs = s.owners + s.idle + s.got.length + s.running.length + s.leaving
  freed : s.freed = true ↔ s.refs = 0
  cap : s.nworker ≤ max mw 0
  alive : 1 ≤ mw → s.queue ≠ [] → 0 < s.nworker
  all : s.accepted.Perm (s.queue ++ s.taken)
  hold : s.taken.Perm (s.got ++ s.running ++ s.done)
  fifo : s.accepted.filter (fun j => !j.high) = s.taken.filter (fun j => !j.high) ++ s.queue.filter (fun j => !j.high)
  woken : s.woken.Perm ((s.running ++ s.done).filter Job.wait)

theorem Inv.init (mw mq : Int) : Inv mw mq (winit mw mq) := by
  constructor <;> simp [winit]
  omega

theorem addJob_inv {mw mq : Int} {s s' : St} {j : Job} {c : Bool} (h : Inv mw mq s) (hr : s.freed = false)
    (he : addJob s j c = .ok s') : Inv mw mq s' := by
  obtain ⟨lim, nq, nw, refs, freed, cap, alive, all, hold, fifo, woken⟩ := h
  have hperm : (s.accepted ++ [j]).Perm ((if j.high then j :: s.queue else s.queue ++ [j]) ++ s.taken) := by
    refine (List.perm_append_comm).trans ?_
    split
    · exact all.cons j
    · rw [List.append_assoc]
      exact (all.cons j).trans List.perm_middle.symm
  have hlen : ((if j.high then j :: s.queue else s.queue ++ [j]).length : Int) = s.queue.length + 1 := by
    split <;> simp
  have hfifo : (s.accepted ++ [j]).filter (fun j => !j.high) =
      s.taken.filter (fun j => !j.high) ++ (if j.high then j :: s.queue else s.queue ++ [j]).filter (fun j => !j.high) := by
    rw [List.filter_append, fifo]
    cases hj : j.high <;> simp [hj]
  unfold addJob at he
  dsimp only at he
  split at he
  · rename_i hge
    simp only [Res.ok.injEq] at he; subst he
    refine ⟨lim, ?_, nw, refs, freed, cap, ?_, hperm, hold, hfifo, woken⟩
    · dsimp only; rw [hlen, nq]
    · intro h1 _; have := lim.1; dsimp only at hge ⊢; omega
  · rename_i hlt
    split at he
    · simp only [Res.ok.injEq] at he; subst he
      refine ⟨lim, ?_, ?_, ?_, ?_, ?_, ?_, hperm, hold, hfifo, woken⟩
      · dsimp only; rw [hlen, nq]
      · dsimp only; push_cast; omega
      · dsimp only; push_cast; omega
      · dsimp only
        have : ¬ s.refs = 0 := fun e => by rw [freed.2 e] at hr; cases hr
        rw [hr]
        constructor
        · intro h; cases h
        · intro h; exfalso; omega
      · have := lim.1; dsimp only; omega
      · intro h1 _; dsimp only; omega
    · cases he

theorem Inv.step {mw mq : Int} {s s' : St} {o : Op} (h : Inv mw mq s) (he : step s o = .ok s') : Inv mw mq s' := by
  cases o with
  | tryStart id high c =>
    simp only [Worker.step] at he
    split at he
    · cases he
    · split at he
      · cases he
      · rename_i hf
        split at he
        · simp only [Res.ok.injEq] at he; subst he
          obtain ⟨a1, a2, a3, a4, a5, a6, a7, a8, a9, a10, a11⟩ := h
          exact ⟨a1, a2, a3, a4, a5, a6, a7, a8, a9, a10, a11⟩
        · exact addJob_inv h (by simpa using hf) he
  | start id c =>
    simp only [Worker.step] at he
    split at he
    · cases he
    · split at he
      · cases he
      · rename_i hf
        exact addJob_inv h (by simpa using hf) he
  | take =>
    simp only [Worker.step] at he
    split at he
    · cases he
    · rename_i hi
      split at he
      · cases he
      · obtain ⟨lim, nq, nw, refs, freed, cap, alive, all, hold, fifo, woken⟩ := h
        split at he
        · rename_i hq
          simp only [Res.ok.injEq] at he; subst he
          refine ⟨lim, nq, ?_, ?_, freed, ?_, ?_, all, hold, fifo, woken⟩
          · dsimp only; omega
          · dsimp only; push_cast; omega
          · dsimp only; omega
          · intro _ hne; exact absurd hq hne
        · rename_i j q hq
          simp only [Res.ok.injEq] at he; subst he
          rw [hq] at nq all fifo
          refine ⟨lim, ?_, ?_, ?_, freed, cap, ?_, ?_, ?_, ?_, woken⟩
          · dsimp only; rw [nq]; simp
          · dsimp only; rw [List.length_append, List.length_singleton]; push_cast; omega
          · dsimp only; rw [List.length_append, List.length_singleton]; push_cast; omega
          · intro h1 _; exact alive h1 (by rw [hq]; simp)
          · dsimp only
            refine all.trans ?_
            rw [← List.append_assoc]
            exact (List.perm_append_comm (l₁ := [j])).trans (List.Perm.refl _)
          · dsimp only
            refine (List.Perm.append_right [j] hold).trans ?_
            simp only [List.append_assoc]
            refine List.Perm.append_left _ ?_
            rw [← List.append_assoc]
            exact List.perm_append_comm
          · dsimp only
            rw [fifo, List.filter_append]
            cases hj : j.high <;> simp [hj]
  | notice j =>
    simp only [Worker.step] at he
    split at he
    · rename_i hj
      simp only [Res.ok.injEq] at he; subst he
      obtain ⟨lim, nq, nw, refs, freed, cap, alive, all, hold, fifo, woken⟩ := h
      have hl := List.length_erase_of_mem hj
      have hp := List.length_pos_of_mem hj
      refine ⟨lim, nq, ?_, ?_, freed, cap, alive, all, ?_, fifo, ?_⟩
      · dsimp only; rw [List.length_append, List.length_singleton, hl]; omega
      · dsimp only; rw [List.length_append, List.length_singleton, hl]; omega
      · dsimp only
        refine hold.trans ?_
        have := List.perm_cons_erase hj
        refine (List.Perm.append_right _ (this.append_right _)).trans ?_
        simp only [List.cons_append, List.append_assoc, List.nil_append]
        rw [← List.append_assoc, ← List.append_assoc]
        exact (List.perm_middle).symm
      · dsimp only
        split
        · rename_i hw
          refine (woken.append_right [j]).trans ?_
          simp only [List.filter_append, List.filter_cons, hw, if_true, List.filter_nil, List.append_assoc]
          exact List.Perm.append_left _ List.perm_append_comm
        · rename_i hw
          refine woken.trans ?_
          simp [List.filter_append, List.filter_cons, hw]
    · cases he
  | exec j =>
    simp only [Worker.step] at he
    split at he
    · rename_i hj
      simp only [Res.ok.injEq] at he; subst he
      obtain ⟨lim, nq, nw, refs, freed, cap, alive, all, hold, fifo, woken⟩ := h
      have hl := List.length_erase_of_mem hj
      have hp := List.length_pos_of_mem hj
      have hm : (s.running ++ s.done).Perm (s.running.erase j ++ (s.done ++ [j])) := by
        refine ((List.perm_cons_erase hj).append_right _).trans ?_
        rw [← List.append_assoc]
        exact (List.perm_append_comm (l₁ := [j]))
      refine ⟨lim, nq, ?_, ?_, freed, cap, alive, all, ?_, fifo, woken.trans (hm.filter _)⟩
      · dsimp only; rw [hl]; omega
      · dsimp only; rw [hl]; omega
      · dsimp only
        refine hold.trans ?_
        simp only [List.append_assoc]
        exact List.Perm.append_left _ hm
    · cases he
  | leave =>
    simp only [Worker.step] at he
    split at he
    · cases he
    · rename_i hi
      split at he
      · cases he
      · rename_i hf
        simp only [Res.ok.injEq] at he; subst he
        obtain ⟨lim, nq, nw, refs, freed, cap, alive, all, hold, fifo, woken⟩ := h
        refine ⟨lim, nq, nw, ?_, ?_, cap, alive, all, hold, fifo, woken⟩
        · simp only [releaseRef]; omega
        · simp only [releaseRef]
          split
          · rename_i h0; simp [h0]
          · rename_i h0; simp [h0, hf]
  | ref =>
    simp only [Worker.step] at he
    split at he
    · cases he
    · split at he
      · cases he
      · rename_i hf
        simp only [Res.ok.injEq] at he; subst he
        obtain ⟨lim, nq, nw, refs, freed, cap, alive, all, hold, fifo, woken⟩ := h
        refine ⟨lim, nq, nw, ?_, ?_, cap, alive, all, hold, fifo, woken⟩
        · dsimp only; push_cast; omega
        · dsimp only
          have hf' : s.freed = false := by simpa using hf
          rw [hf']
          constructor
          · intro h; cases h
          · intro h; exfalso; omega
  | release =>
    simp only [Worker.step] at he
    split at he
    · cases he
    · rename_i hi
      split at he
      · cases he
      · rename_i hf
        simp only [Res.ok.injEq] at he; subst he
        obtain ⟨lim, nq, nw, refs, freed, cap, alive, all, hold, fifo, woken⟩ := h
        refine ⟨lim, nq, nw, ?_, ?_, cap, alive, all, hold, fifo, woken⟩
        · simp only [releaseRef]; omega
        · simp only [releaseRef]
          split
          · rename_i h0; simp [h0]
          · rename_i h0; simp [h0, hf]

theorem inv_of_reachable {mw mq : Int} {s : St} (h : Reachable step (winit mw mq) s) : Inv mw mq s :=
  h.invariant (Inv.init mw mq) (fun _ _ _ h he => h.step he)

/-- **C28**, exactly once: the accepted jobs are at every moment exactly the queued ones, those being executed and those whose
callback has ended, each once. -/
theorem worker_exactly_once (mw mq : Int) (s : St) (h : Reachable step (winit mw mq) s) :
    s.accepted.Perm (s.queue ++ s.got ++ s.running ++ s.done) := by
  have i := inv_of_reachable h
  refine i.all.trans ((i.hold.append_left s.queue).trans ?_)
  simp [List.append_assoc]

/-- **C28**: at most `max_worker` jobs are being executed at any moment. -/
theorem worker_concurrency_bound (mw mq : Int) (s : St) (h : Reachable step (winit mw mq) s) :
    ((s.got ++ s.running).length : Int) ≤ max mw 0 := by
  have i := inv_of_reachable h
  have := i.nw
  have := i.cap
  rw [List.length_append]
  omega

/-- **C28**: while a job is queued a worker thread is alive and it can make a step: nothing is stuck in the queue
(with at least one worker allowed). -/
theorem worker_no_stuck_job (mw mq : Int) (hw : 1 ≤ mw) (s : St) (h : Reachable step (winit mw mq) s) (hq : s.queue ≠ []) :
    (∃ s', step s .take = .ok s') ∨ (∃ j s', step s (.notice j) = .ok s') ∨ (∃ j s', step s (.exec j) = .ok s') := by
  have i := inv_of_reachable h
  have ha := i.alive hw hq
  have hn := i.nw
  by_cases h0 : s.idle = 0
  · right
    cases hg : s.got with
    | cons j l => left; exact ⟨j, _, if_pos (by rw [hg]; simp)⟩
    | nil =>
      cases hr : s.running with
      | cons j l => right; exact ⟨j, _, if_pos (by rw [hr]; simp)⟩
      | nil => rw [hg, hr] at hn; simp at hn; omega
  · left
    have hf : s.freed = false := by
      cases e : s.freed with
      | false => rfl
      | true => have := i.freed.1 e; have := i.refs; omega
    cases hs : s.queue with
    | nil => exact absurd hs hq
    | cons j q => exact ⟨_, by simp only [step, h0, hf, hs, if_false]; rfl⟩

/-- the steps made by worker threads -/
def isWorker : Op → Bool
  | .take | .notice _ | .exec _ | .leave => true
  | _ => false

/-- what is left to do by the worker threads -/
def todo (s : St) : Nat := 3 * s.queue.length + 4 * s.got.length + 3 * s.running.length + 2 * s.idle + s.leaving

/-- **C28**, progress: every step of a worker thread brings the pool closer to the end; no schedule of worker threads
is longer than `todo`. -/
theorem worker_steps_terminate (s s' : St) (o : Op) (ho : isWorker o = true) (he : step s o = .ok s') : todo s' < todo s := by
  unfold todo
  cases o with
  | take =>
    simp only [step] at he
    split at he
    · cases he
    · split at he
      · cases he
      · split at he
        · simp only [Res.ok.injEq] at he; subst he; dsimp only; omega
        · rename_i j q hq
          simp only [Res.ok.injEq] at he; subst he
          rw [hq]; simp only [List.length_append, List.length_cons, List.length_nil]; omega
  | notice j =>
    simp only [step] at he
    split at he
    · rename_i hj
      simp only [Res.ok.injEq] at he; subst he
      have hl := List.length_erase_of_mem hj
      have hp := List.length_pos_of_mem hj
      simp only [List.length_append, List.length_cons, List.length_nil, hl]; omega
    · cases he
  | exec j =>
    simp only [step] at he
    split at he
    · rename_i hj
      simp only [Res.ok.injEq] at he; subst he
      have hl := List.length_erase_of_mem hj
      have hp := List.length_pos_of_mem hj
      simp only [hl]; omega
    · cases he
  | leave =>
    simp only [step] at he
    split at he
    · cases he
    · split at he
      · cases he
      · simp only [Res.ok.injEq] at he; subst he
        simp only [releaseRef]; omega
  | tryStart _ _ _ => cases ho
  | start _ _ => cases ho
  | ref => cases ho
  | release => cases ho

/-- **C28**: when the worker threads can make no further step, every accepted job has been executed exactly once, all callers
waiting for a job have been woken, no thread is left and only the users' references remain. -/
theorem worker_quiescent_all_done (mw mq : Int) (hw : 1 ≤ mw) (s : St) (h : Reachable step (winit mw mq) s)
    (hq : ∀ o s', isWorker o = true → step s o ≠ .ok s') :
    s.accepted.Perm s.done ∧ s.woken.Perm (s.accepted.filter Job.wait) ∧ s.queue = [] ∧ s.nworker = 0 ∧ s.refs = s.owners := by
  have i := inv_of_reachable h
  have hf : s.freed = true → s.idle = 0 ∧ s.leaving = 0 := by
    intro e; have := i.freed.1 e; have := i.refs; omega
  have h1 : s.idle = 0 := by
    rcases Nat.eq_zero_or_pos s.idle with e | e
    · exact e
    · exfalso
      have hfr : ¬ s.freed = true := fun e' => by have := hf e'; omega
      cases hs : s.queue with
      | nil => exact hq .take _ rfl (by simp only [step]; rw [if_neg (by omega), if_neg hfr, hs])
      | cons j q => exact hq .take _ rfl (by simp only [step]; rw [if_neg (by omega), if_neg hfr, hs])
  have h2 : s.got = [] := by
    cases hs : s.got with
    | nil => rfl
    | cons j q => exact absurd (if_pos (by rw [hs]; simp)) (hq (.notice j) _ rfl)
  have h3 : s.running = [] := by
    cases hs : s.running with
    | nil => rfl
    | cons j q => exact absurd (if_pos (by rw [hs]; simp)) (hq (.exec j) _ rfl)
  have h4 : s.leaving = 0 := by
    rcases Nat.eq_zero_or_pos s.leaving with e | e
    · exact e
    · exfalso
      have hfr : ¬ s.freed = true := fun e' => by have := hf e'; omega
      exact hq .leave _ rfl (by simp only [step]; rw [if_neg (by omega), if_neg hfr])
  have hn := i.nw
  have hr := i.refs
  rw [h1, h2, h3] at hn
  rw [h1, h2, h3, h4] at hr
  simp at hn hr
  have h5 : s.queue = [] := by
    cases hs : s.queue with
    | nil => rfl
    | cons j q => have := i.alive hw (by rw [hs]; simp); omega
  have ha := worker_exactly_once mw mq s h
  have hk := i.woken
  rw [h2, h3, h5] at ha
  rw [h3] at hk
  simp only [List.nil_append] at ha hk
  exact ⟨ha, hk.trans (ha.filter _).symm, h5, hn, hr⟩

/-- **C28**: a caller of the blocking `kasync_worker_start` is woken only after its job was taken off the queue, and once. -/
theorem worker_start_woken_once (mw mq : Int) (s : St) (h : Reachable step (winit mw mq) s) :
    s.woken.Perm ((s.running ++ s.done).filter Job.wait) := (inv_of_reachable h).woken

/-- **C28**, order: normal jobs are taken in the order of their submission: those taken, then those queued, are the accepted ones
in order; a high priority job goes in front of everything queued. -/
theorem worker_order (mw mq : Int) (s : St) (h : Reachable step (winit mw mq) s) :
    s.accepted.filter (fun j => !j.high) = s.taken.filter (fun j => !j.high) ++ s.queue.filter (fun j => !j.high) ∧
    (∀ id c s', step s (.tryStart id true c) = .ok s' → s'.refused = s.refused → s'.queue = ⟨id, false, true⟩ :: s.queue) := by
  refine ⟨(inv_of_reachable h).fifo, ?_⟩
  intro id c s' he hr
  simp only [step] at he
  split at he
  · cases he
  · split at he
    · cases he
    · split at he
      · simp only [Res.ok.injEq] at he; subst he
        have := congrArg List.length hr
        simp at this
      · simp only [addJob] at he
        split at he
        · simp only [Res.ok.injEq] at he; subst he; rfl
        · split at he
          · simp only [Res.ok.injEq] at he; subst he; rfl
          · cases he

/-- **C28**, limits: `kasync_worker_try_start` refuses a job exactly when a queue limit is set and more than that many jobs are
already queued; otherwise the job is accepted. -/
theorem worker_refuses_iff (mw mq : Int) (s s' : St) (h : Reachable step (winit mw mq) s) (id : Nat) (high c : Bool)
    (he : step s (.tryStart id high c) = .ok s') :
    (s'.refused = s.refused ++ [id] ∧ s'.accepted = s.accepted ∧ 0 < mq ∧ mq < s.queue.length) ∨
    (s'.refused = s.refused ∧ s'.accepted = s.accepted ++ [⟨id, false, high⟩] ∧ (mq ≤ 0 ∨ s.queue.length ≤ mq)) := by
  have i := inv_of_reachable h
  have hq := i.nq
  have hm := i.lim.2
  simp only [step] at he
  split at he
  · cases he
  · split at he
    · cases he
    · split at he
      · rename_i hc
        simp only [Res.ok.injEq] at he; subst he
        exact .inl ⟨rfl, rfl, by omega, by omega⟩
      · rename_i hc
        right
        simp only [addJob] at he
        split at he
        · simp only [Res.ok.injEq] at he; subst he; exact ⟨rfl, rfl, by omega⟩
        · split at he
          · simp only [Res.ok.injEq] at he; subst he; exact ⟨rfl, rfl, by omega⟩
          · cases he

/-- **C28**: `kasync_worker_start` is never refused: its job is queued behind the others, and the caller waits (until a thread takes the
job, `worker_start_woken_once`) exactly when the queue is longer than its limit. -/
theorem worker_start_accepts (mw mq : Int) (s s' : St) (h : Reachable step (winit mw mq) s) (id : Nat) (c : Bool)
    (he : step s (.start id c) = .ok s') :
    s'.refused = s.refused ∧ ∃ j : Job, j.id = id ∧ j.high = false ∧ (j.wait = true ↔ 0 < mq ∧ mq < s.queue.length) ∧
      s'.accepted = s.accepted ++ [j] ∧ s'.queue = s.queue ++ [j] ∧ s'.woken = s.woken := by
  have i := inv_of_reachable h
  have hq := i.nq
  have hm := i.lim.2
  simp only [step] at he
  split at he
  · cases he
  · split at he
    · cases he
    · rw [hq, hm] at he
      have key : ∀ j : Job, j.high = false → addJob s j c = .ok s' → s'.refused = s.refused ∧ s'.accepted = s.accepted ++ [j] ∧
          s'.queue = s.queue ++ [j] ∧ s'.woken = s.woken := by
        intro j hj ha
        simp only [addJob, hj, Bool.false_eq_true, if_false] at ha
        split at ha
        · cases ha; exact ⟨rfl, rfl, rfl, rfl⟩
        · split at ha
          · cases ha; exact ⟨rfl, rfl, rfl, rfl⟩
          · cases ha
      obtain ⟨a, b, d, e⟩ := key _ rfl he
      exact ⟨a, _, rfl, rfl, by simp, b, d, e⟩

/-- **C28**, memory: the pool is freed exactly when the last user reference and the last thread are gone; the only way to
undefined behaviour is a failing thread start. -/
theorem worker_freed_iff (mw mq : Int) (s : St) (h : Reachable step (winit mw mq) s) :
    (s.freed = true ↔ s.owners = 0 ∧ s.idle = 0 ∧ s.got = [] ∧ s.running = [] ∧ s.leaving = 0) ∧
    ∀ o, step s o = .ub → (∃ id hi, o = .tryStart id hi false) ∨ (∃ id, o = .start id false) := by
  have i := inv_of_reachable h
  have hr := i.refs
  have hfree : s.freed = true ↔ s.owners = 0 ∧ s.idle = 0 ∧ s.got = [] ∧ s.running = [] ∧ s.leaving = 0 := by
    rw [i.freed, ← List.length_eq_zero_iff, ← List.length_eq_zero_iff]
    omega
  refine ⟨hfree, ?_⟩
  intro o hu
  cases o with
  | tryStart id high c =>
    cases c with
    | false => exact .inl ⟨id, high, rfl⟩
    | true =>
      simp only [step] at hu
      split at hu
      · cases hu
      · split at hu
        · rename_i h0 hf; exact absurd (hfree.1 hf).1 h0
        · split at hu
          · cases hu
          · simp only [addJob, if_true] at hu
            split at hu <;> cases hu
  | start id c =>
    cases c with
    | false => exact .inr ⟨id, rfl⟩
    | true =>
      simp only [step] at hu
      split at hu
      · cases hu
      · split at hu
        · rename_i h0 hf; exact absurd (hfree.1 hf).1 h0
        · simp only [addJob, if_true] at hu
          split at hu <;> cases hu
  | take =>
    simp only [step] at hu
    split at hu
    · cases hu
    · split at hu
      · rename_i h0 hf; exact absurd (hfree.1 hf).2.1 h0
      · split at hu <;> cases hu
  | notice j => simp only [step] at hu; split at hu <;> cases hu
  | exec j => simp only [step] at hu; split at hu <;> cases hu
  | leave =>
    simp only [step] at hu
    split at hu
    · cases hu
    · split at hu
      · rename_i h0 hf; exact absurd (hfree.1 hf).2.2.2.2 h0
      · cases hu
  | ref =>
    simp only [step] at hu
    split at hu
    · cases hu
    · split at hu
      · rename_i h0 hf; exact absurd (hfree.1 hf).1 h0
      · cases hu
  | release =>
    simp only [step] at hu
    split at hu
    · cases hu
    · split at hu
      · rename_i h0 hf; exact absurd (hfree.1 hf).1 h0
      · cases hu

/-! ## Non-vacuity and findings -/

/-- two workers, five jobs (one high, one refused, one blocking), everything executed, pool freed -/
def demoOps : List Op :=
  [.tryStart 1 false true, .take, .tryStart 2 false true, .tryStart 4 true true, .tryStart 5 false true,
   .start 6 true, .take, .notice ⟨1, false, false⟩, .exec ⟨1, false, false⟩, .take, .notice ⟨4, false, true⟩, .exec ⟨4, false, true⟩,
   .notice ⟨2, false, false⟩, .exec ⟨2, false, false⟩, .take, .take, .notice ⟨6, true, false⟩,
   .release, .leave, .exec ⟨6, true, false⟩, .take, .leave]

example : (run step (winit 2 1) demoOps).map (fun s => (s.taken.map Job.id, s.refused, s.woken.map Job.id, s.freed)) =
    some ([1, 4, 2, 6], [5], [6], true) := by rfl

/-- **Finding (C28).** The queue limit is checked with `>`: with `max_queue = 1` two jobs may be queued. -/
theorem worker_limit_off_by_one :
    (run step (winit 1 1) [.tryStart 1 false true, .tryStart 2 false true]).map (fun s => s.queue.length) = some 2 := by rfl

/-- **Finding (C28).** If no thread can be started the code decrements the pointer `worker` and releases through it. -/
theorem worker_start_failure_ub : step (winit 1 0) (.tryStart 1 false false) = .ub := by rfl

/-- **Finding (C28).** With `max_worker = 0` jobs are accepted and never executed. -/
theorem worker_zero_max_never_runs :
    (run step (winit 0 0) [.tryStart 1 false true]).map (fun s => (s.queue.length, s.nworker, s.idle)) = some (1, 0, 0) := by rfl

end Kasync.Worker
