import Verif.Common

/-!
# Harvesting file completions (src/kepoll_selector.c:60-96, 150-165, 415-494)

The kernel side of `io_submit`/`io_getevents` and the loop of `result_aio_event`, for any number of files and operations.  A
completion is first put in the ring and then announced on the eventfd (Linux fs/aio.c, `aio_complete`), two separate steps.
The eventfd is level triggered.  The callbacks run between the steps of the loop, so new operations may be started there.

Simplification: `finished_aio -= r` is done when the events are fetched, not after their callbacks (nothing can see the difference).
-/

namespace Kasync.AioLoop

/-- MAXEVENT, src/kepoll_selector.c:22 -/
def maxEvent : Nat := 512

/-- One operation: its number, its file and, once it is completed, its result. -/
structure Ev where
  id : Nat
  file : Nat
  res : Int
  deriving Repr, DecidableEq

structure St where
  /-- `e[OP_READ]` of every file: the operation whose callback it holds -/
  slot : Nat → Nat := fun _ => 0
  /-- submitted, not completed: number and file -/
  inflight : List (Nat × Nat) := []
  /-- completion ring of the kernel -/
  ring : List Ev := []
  /-- completions in the ring that are not yet announced on the eventfd -/
  unsig : Nat := 0
  /-- the eventfd counter -/
  counter : Nat := 0
  /-- `finished_aio` while `result_aio_event` runs -/
  loop : Option Nat := none
  /-- `events[j..r)`: fetched, callback not yet called -/
  batch : List Ev := []
  -- ghosts
  next : Nat := 0
  accepted : List (Nat × Nat) := []
  completed : List (Nat × Int) := []
  /-- callbacks called: whose, with what -/
  told : List (Nat × Int) := []

inductive Op where
  /-- `aio_read`/`aio_write` on a file; `ok`: `io_submit` returned 1 -/
  | submit (file : Nat) (ok : Bool)
  /-- the kernel completes the `i`-th operation in flight -/
  | complete (i : Nat) (res : Int)
  /-- the kernel announces a completion -/
  | signal
  /-- `epoll_selector_select` finds the eventfd readable and calls `result_aio_event`, which reads the counter (70-75) -/
  | event
  /-- `io_getevents` returns `k` events (78-85) -/
  | fetch (k : Nat)
  /-- the callback of the next fetched event is called (86-89) -/
  | deliver
  /-- the `while` loop ends (77) -/
  | done
  deriving Repr, DecidableEq

def step (s : St) (op : Op) : Res St :=
  match op with
  -- epoll_selector_aio_write / aio_read, 433-449 and 468-492
  | .submit file ok =>
    let s1 := { s with slot := fun f => if f = file then s.next else s.slot f, next := s.next + 1 }
    .ok (if ok then { s1 with inflight := s.inflight ++ [(s.next, file)], accepted := s.accepted ++ [(s.next, file)] } else s1)
  | .complete i res =>
    match s.inflight[i]? with
    | some (id, file) => .ok { s with inflight := s.inflight.eraseIdx i, ring := s.ring ++ [⟨id, file, res⟩], unsig := s.unsig + 1,
                                      completed := s.completed ++ [(id, res)] }
    | none => .disabled
  | .signal => if s.unsig > 0 then .ok { s with unsig := s.unsig - 1, counter := s.counter + 1 } else .disabled
  | .event => if s.loop = none ∧ s.counter > 0 then .ok { s with loop := some s.counter, counter := 0 } else .disabled
  -- io_getevents(ctx, 1, min(finished_aio, MAXEVENT), events, 0): at least one event if there is one; 0 if there is none
  | .fetch k =>
    match s.loop with
    | some n =>
      if n > 0 ∧ s.batch = [] ∧ k ≤ n ∧ k ≤ maxEvent ∧ k ≤ s.ring.length ∧ (s.ring ≠ [] → k > 0) then
        .ok { s with loop := some (n - k), batch := s.ring.take k, ring := s.ring.drop k }
      else .disabled
    | none => .disabled
  -- aio_result, 60-63
  | .deliver =>
    match s.batch with
    | e :: l => .ok { s with batch := l, told := s.told ++ [(s.slot e.file, e.res)] }
    | [] => .disabled
  | .done => if s.loop = some 0 ∧ s.batch = [] then .ok { s with loop := none } else .disabled

/-- The rule for callers: one operation at a time on a file. -/
def Client (s : St) : Op → Prop
  | .submit file _ => ∀ id, (id, file) ∈ s.accepted → id ∈ s.told.map Prod.fst
  | _ => True

inductive Hist : St → Prop where
  | init : Hist {}
  | step {s s' : St} (op : Op) : Hist s → Client s op → step s op = .ok s' → Hist s'

def Ev.out (e : Ev) : Nat × Int := (e.id, e.res)

structure Inv (s : St) : Prop where
  len : s.ring.length = s.counter + s.unsig + s.loop.getD 0
  idle : s.loop = none → s.batch = []
  order : s.told ++ s.batch.map Ev.out ++ s.ring.map Ev.out = s.completed
  ids : (s.completed.map Prod.fst ++ s.inflight.map Prod.fst).Nodup
  lt : ∀ id, id ∈ s.completed.map Prod.fst ∨ id ∈ s.inflight.map Prod.fst → id < s.next
  acc : ∀ id, id ∈ s.accepted.map Prod.fst ↔ id ∈ s.completed.map Prod.fst ∨ id ∈ s.inflight.map Prod.fst
  accFun : ∀ id f f', (id, f) ∈ s.accepted → (id, f') ∈ s.accepted → f = f'
  file : (∀ e ∈ s.batch ++ s.ring, s.slot e.file = e.id ∧ (e.id, e.file) ∈ s.accepted) ∧
    ∀ p ∈ s.inflight, s.slot p.2 = p.1 ∧ p ∈ s.accepted

theorem eraseIdx_perm {α : Type} {l : List α} {i : Nat} {x : α} (h : l[i]? = some x) : l.Perm (x :: l.eraseIdx i) := by
  induction l generalizing i with
  | nil => cases h
  | cons y l ih =>
    cases i with
    | zero => simp only [List.getElem?_cons_zero, Option.some.injEq] at h; subst h; exact List.Perm.refl _
    | succ i =>
      rw [List.getElem?_cons_succ] at h
      rw [List.eraseIdx_cons_succ]
      exact (List.Perm.cons y (ih h)).trans (List.Perm.swap x y _)

theorem inv_init : Inv {} := by
  constructor <;> simp

theorem step_inv {s s' : St} {op : Op} (h : Inv s) (hc : Client s op) (he : step s op = .ok s') : Inv s' := by
  obtain ⟨h1, h2, h3, h4, h5, h6, h7, h8, h9⟩ := h
  have hout : ∀ l : List Ev, (l.map Ev.out).map Prod.fst = l.map Ev.id := by
    intro l; rw [List.map_map]; rfl
  have hcomp : s.completed.map Prod.fst = s.told.map Prod.fst ++ s.batch.map Ev.id ++ s.ring.map Ev.id := by
    rw [← h3, List.map_append, List.map_append, hout, hout]
  cases op <;> unfold step at he <;> dsimp only at he
  case submit file ok =>
    have hfree : (∀ e ∈ s.batch ++ s.ring, e.file ≠ file) ∧ ∀ p ∈ s.inflight, p.2 ≠ file := by
      have key : ∀ id, (id, file) ∈ s.accepted → id ∉ s.batch.map Ev.id ∧ id ∉ s.ring.map Ev.id ∧ id ∉ s.inflight.map Prod.fst := by
        intro id hm
        have ht := hc id hm
        rw [hcomp, List.append_assoc, List.append_assoc] at h4
        have := (List.nodup_append.1 h4).2.2 id ht
        refine ⟨fun hx => ?_, fun hx => ?_, fun hx => ?_⟩
        · exact this id (List.mem_append_left _ hx) rfl
        · exact this id (List.mem_append_right _ (List.mem_append_left _ hx)) rfl
        · exact this id (List.mem_append_right _ (List.mem_append_right _ hx)) rfl
      refine ⟨fun e hm hf => ?_, fun p hm hf => ?_⟩
      · have ha := (h8 e hm).2
        rw [hf] at ha
        obtain ⟨k1, k2, -⟩ := key _ ha
        rcases List.mem_append.1 hm with hm | hm
        · exact k1 (List.mem_map.2 ⟨e, hm, rfl⟩)
        · exact k2 (List.mem_map.2 ⟨e, hm, rfl⟩)
      · have ha := (h9 p hm).2
        have hp : p = (p.1, file) := by rw [← hf]
        rw [hp] at ha
        exact (key _ ha).2.2 (List.mem_map.2 ⟨p, hm, rfl⟩)
    have hs1 : Inv { s with slot := fun f => if f = file then s.next else s.slot f, next := s.next + 1 } := by
      refine ⟨h1, h2, h3, h4, fun id hi => Nat.lt_succ_of_lt (h5 id hi), h6, h7, fun e hm => ?_, fun p hm => ?_⟩
      · dsimp only; rw [if_neg (hfree.1 e hm)]; exact h8 e hm
      · dsimp only; rw [if_neg (hfree.2 p hm)]; exact h9 p hm
    cases ok <;> simp only [if_true, Bool.false_eq_true, if_false, Res.ok.injEq] at he <;> subst he
    · exact hs1
    · have hfr : s.next ∉ s.completed.map Prod.fst ∧ s.next ∉ s.inflight.map Prod.fst :=
        ⟨fun hx => Nat.lt_irrefl _ (h5 _ (Or.inl hx)), fun hx => Nat.lt_irrefl _ (h5 _ (Or.inr hx))⟩
      refine ⟨h1, h2, h3, ?_, ?_, ?_, ?_, fun e hm => ?_, fun p hm => ?_⟩
      · dsimp only
        rw [List.map_append, ← List.append_assoc, List.nodup_append]
        refine ⟨h4, by simp, fun a ha b hb => ?_⟩
        simp only [List.map_cons, List.map_nil, List.mem_singleton] at hb
        rintro rfl
        rcases List.mem_append.1 ha with ha | ha
        · exact hfr.1 (hb ▸ ha)
        · exact hfr.2 (hb ▸ ha)
      · intro id hi
        simp only [List.map_append, List.mem_append, List.map_cons, List.map_nil, List.mem_singleton] at hi
        rcases hi with hi | hi | hi
        · exact Nat.lt_succ_of_lt (h5 id (Or.inl hi))
        · exact Nat.lt_succ_of_lt (h5 id (Or.inr hi))
        · subst hi; exact Nat.lt_succ_self _
      · intro id
        simp only [List.map_append, List.mem_append, List.map_cons, List.map_nil, List.mem_singleton]
        rw [h6 id, or_assoc]
      · intro id f f' m1 m2
        simp only [List.mem_append, List.mem_singleton, Prod.mk.injEq] at m1 m2
        have : ∀ g, (id, g) ∈ s.accepted → id ≠ s.next := by
          rintro g hg rfl
          have := (h6 s.next).1 (List.mem_map.2 ⟨_, hg, rfl⟩)
          rcases this with x | x
          · exact hfr.1 x
          · exact hfr.2 x
        rcases m1 with m1 | m1 <;> rcases m2 with m2 | m2
        · exact h7 id f f' m1 m2
        · exact absurd m2.1 (this _ m1)
        · exact absurd m1.1 (this _ m2)
        · rw [m1.2, m2.2]
      · dsimp only
        rw [if_neg (hfree.1 e hm)]
        exact ⟨(h8 e hm).1, List.mem_append_left _ (h8 e hm).2⟩
      · rcases List.mem_append.1 hm with hm | hm
        · dsimp only
          rw [if_neg (hfree.2 p hm)]
          exact ⟨(h9 p hm).1, List.mem_append_left _ (h9 p hm).2⟩
        · have := List.mem_singleton.1 hm
          subst this
          refine ⟨by simp, List.mem_append_right _ hm⟩
  case complete i res =>
    split at he
    · rename_i id file hi
      simp only [Res.ok.injEq] at he; subst he
      have hm : (id, file) ∈ s.inflight := List.mem_of_getElem? hi
      have hperm := eraseIdx_perm hi
      have hperm' := hperm.map Prod.fst
      rw [List.map_cons] at hperm'
      refine ⟨?_, h2, ?_, ?_, ?_, ?_, h7, fun e hm' => ?_, fun p hp => ?_⟩
      · dsimp only; rw [List.length_append, h1]; simp only [List.length_cons, List.length_nil]; omega
      · dsimp only; rw [← h3]; simp [Ev.out]
      · dsimp only
        have : (s.completed.map Prod.fst ++ (id :: (s.inflight.eraseIdx i).map Prod.fst)).Nodup := by
          refine (List.Perm.nodup_iff ?_).1 h4
          exact List.Perm.append_left _ hperm'
        simpa using this
      · intro j hj
        apply h5
        simp only [List.map_append, List.mem_append, List.map_cons, List.map_nil, List.mem_singleton] at hj
        rcases hj with (hj | hj) | hj
        · exact Or.inl hj
        · subst hj; exact Or.inr (List.mem_map.2 ⟨_, hm, rfl⟩)
        · exact Or.inr (hperm'.mem_iff.2 (List.mem_cons_of_mem _ hj))
      · intro j
        rw [h6 j, hperm'.mem_iff, List.mem_cons]
        simp only [List.map_append, List.mem_append, List.map_cons, List.map_nil, List.mem_singleton]
        rw [or_assoc]
      · have : e ∈ s.batch ++ s.ring ∨ e = ⟨id, file, res⟩ := by
          simp only [List.mem_append, List.mem_singleton] at hm' ⊢
          rcases hm' with h | h | h
          · exact Or.inl (Or.inl h)
          · exact Or.inl (Or.inr h)
          · exact Or.inr h
        rcases this with h | rfl
        · exact h8 e h
        · exact h9 _ hm
      · exact h9 p (hperm.mem_iff.2 (List.mem_cons_of_mem _ hp))
    · cases he
  case signal =>
    split at he
    · simp only [Res.ok.injEq] at he; subst he
      refine ⟨?_, h2, h3, h4, h5, h6, h7, h8, h9⟩
      dsimp only; omega
    · cases he
  case event =>
    split at he
    · rename_i hh
      simp only [Res.ok.injEq] at he; subst he
      refine ⟨?_, (fun e => by cases e), h3, h4, h5, h6, h7, h8, h9⟩
      rw [hh.1] at h1
      simp only [Option.getD_some, Option.getD_none] at *
      omega
    · cases he
  case fetch k =>
    split at he
    · rename_i n hn
      split at he
      · rename_i hh
        obtain ⟨k1, k2, k3, k4, k5, k6⟩ := hh
        simp only [Res.ok.injEq] at he; subst he
        refine ⟨?_, (fun e => by cases e), ?_, h4, h5, h6, h7, ?_, h9⟩
        · rw [hn] at h1
          simp only [Option.getD_some, List.length_drop] at *
          omega
        · dsimp only
          rw [← h3, k2, List.map_nil, List.append_nil, List.append_assoc, ← List.map_append, List.take_append_drop]
        · dsimp only
          rw [List.take_append_drop]
          intro e hm
          exact h8 e (List.mem_append_right _ hm)
      · cases he
    · cases he
  case deliver =>
    split at he
    · rename_i e l hb
      simp only [Res.ok.injEq] at he; subst he
      have hs := (h8 e (by rw [hb]; simp)).1
      refine ⟨h1, ?_, ?_, h4, h5, h6, h7, fun e' hm => ?_, h9⟩
      · intro hl
        have := h2 hl
        rw [hb] at this; cases this
      · dsimp only
        rw [← h3, hb, hs]
        simp [Ev.out]
      · apply h8
        rw [hb]
        exact List.mem_cons_of_mem _ hm
    · cases he
  case done =>
    split at he
    · rename_i hh
      simp only [Res.ok.injEq] at he; subst he
      refine ⟨?_, fun _ => hh.2, h3, h4, h5, h6, h7, h8, h9⟩
      rw [hh.1] at h1; exact h1
    · cases he

theorem Hist.inv {s : St} (h : Hist s) : Inv s := by
  induction h with
  | init => exact inv_init
  | step op _ hc he ih => exact step_inv ih hc he

/-! ## Properties (C43) -/

/-- Nobody is told twice, everybody who is told had an operation accepted, and is told the result the kernel gave it; the callbacks come
in the order of completion. -/
theorem aio_told_exactly_once {s : St} (h : Hist s) :
    (s.told.map Prod.fst).Nodup ∧ s.told <+: s.completed ∧ (∀ id ∈ s.told.map Prod.fst, id ∈ s.accepted.map Prod.fst) ∧
    (s.completed.map Prod.fst).Nodup := by
  obtain ⟨-, -, h3, h4, -, h6, -, -⟩ := h.inv
  have hp : s.told <+: s.completed := ⟨_, by rw [← List.append_assoc]; exact h3⟩
  have hc := (List.nodup_append.1 h4).1
  refine ⟨?_, hp, fun id hi => (h6 id).2 (Or.inl ?_), hc⟩
  · exact (hp.map Prod.fst).sublist.nodup hc
  · exact (hp.map Prod.fst).subset hi

/-- An operation that was accepted is told, or the kernel still works on it, or its completion is on the way: nothing is lost. -/
theorem aio_none_lost {s : St} (h : Hist s) {id : Nat} (hi : id ∈ s.accepted.map Prod.fst) :
    id ∈ s.told.map Prod.fst ∨ id ∈ s.inflight.map Prod.fst ∨ id ∈ (s.batch ++ s.ring).map Ev.id := by
  obtain ⟨-, -, h3, -, -, h6, -, -⟩ := h.inv
  rcases (h6 id).1 hi with h | h
  · rw [← h3] at h
    simp only [List.map_append, List.mem_append, List.map_map] at h ⊢
    rcases h with (h | h) | h
    · exact Or.inl h
    · exact Or.inr (Or.inr (Or.inl h))
    · exact Or.inr (Or.inr (Or.inr h))
  · exact Or.inr (Or.inl h)

/-- The loop of `result_aio_event` never spins: while it still expects completions there is one in the ring. -/
theorem aio_loop_never_spins {s : St} (h : Hist s) {n : Nat} (hn : s.loop = some n) (hp : 0 < n) : s.ring ≠ [] := by
  have := h.inv.len
  rw [hn] at this
  simp only [Option.getD_some] at this
  intro e
  rw [e] at this
  simp at this
  omega

/-- The moves of the selector and the kernel that bring a completion to its callback. -/
def Progress : Op → Prop
  | .signal | .event | .fetch _ | .deliver | .done => True
  | _ => False

/-- How many such moves can still be made without a new completion. -/
def rank (s : St) : Nat :=
  3 * s.unsig + 2 * s.counter + (if s.loop = none then 0 else 1) + 2 * s.ring.length + s.batch.length

/-- As long as a completed operation has not been told, the kernel or the selector can move... -/
theorem aio_progress {s : St} (h : Hist s) (hu : s.told ≠ s.completed) : ∃ op s', Progress op ∧ step s op = .ok s' := by
  obtain ⟨h1, h2, h3, -, -, -, -, -⟩ := h.inv
  cases hb : s.batch with
  | cons e l => exact ⟨.deliver, { s with batch := l, told := s.told ++ [(s.slot e.file, e.res)] }, trivial, by simp only [step, hb]⟩
  | nil =>
    cases hl : s.loop with
    | some n =>
      rcases Nat.eq_zero_or_pos n with rfl | hp
      · exact ⟨.done, { s with loop := none }, trivial, by simp only [step, hl, hb, and_self, if_true]⟩
      · have hr := aio_loop_never_spins h hl hp
        have hlen : 0 < s.ring.length := List.length_pos_iff.2 hr
        refine ⟨.fetch 1, { s with loop := some (n - 1), batch := s.ring.take 1, ring := s.ring.drop 1 }, trivial, ?_⟩
        simp only [step, hl]
        rw [if_pos ⟨hp, hb, hp, by decide, hlen, fun _ => Nat.one_pos⟩]
    | none =>
      by_cases hc : s.counter > 0
      · exact ⟨.event, { s with loop := some s.counter, counter := 0 }, trivial, by simp only [step, hl, hc, and_self, if_true]⟩
      · by_cases hg : s.unsig > 0
        · exact ⟨.signal, { s with unsig := s.unsig - 1, counter := s.counter + 1 }, trivial, by simp only [step, hg, if_true]⟩
        · exfalso
          rw [hl] at h1
          simp only [Option.getD_none] at h1
          have : s.ring = [] := List.length_eq_zero_iff.1 (by omega)
          apply hu
          rw [← h3, hb, this]; simp

/-- ... and every such move brings them closer: the number of moves until everything is told is bounded by `rank`, whatever they are
(unless new completions or new requests come in between). -/
theorem aio_rank_decreases {s s' : St} {op : Op} (h : Hist s) (hp : Progress op) (he : step s op = .ok s') : rank s' < rank s := by
  cases op <;> (try exact False.elim hp) <;> unfold step at he <;> dsimp only at he
  case signal =>
    split at he
    · simp only [Res.ok.injEq] at he; subst he; unfold rank; dsimp only; omega
    · cases he
  case event =>
    split at he
    · rename_i hh
      simp only [Res.ok.injEq] at he; subst he
      simp only [rank, hh.1, if_true, reduceCtorEq, if_false]; omega
    · cases he
  case fetch k =>
    split at he
    · rename_i n hn
      split at he
      · rename_i hh
        obtain ⟨k1, k2, k3, k4, k5, k6⟩ := hh
        have := k6 (aio_loop_never_spins h hn k1)
        simp only [Res.ok.injEq] at he; subst he
        simp only [rank, hn, reduceCtorEq, if_false, k2, List.length_nil, List.length_take, List.length_drop]; omega
      · cases he
    · cases he
  case deliver =>
    split at he
    · rename_i e l hb
      simp only [Res.ok.injEq] at he; subst he
      simp only [rank, hb, List.length_cons]; omega
    · cases he
  case done =>
    split at he
    · rename_i hh
      simp only [Res.ok.injEq] at he; subst he
      simp only [rank, hh.1, reduceCtorEq, if_false, if_true]; omega
    · cases he

/-! ## The hypotheses can be met -/

def runs (s : St) : List Op → Option St := run step s

/-- Two files; the second operation completes first; a new operation on it is started from the callback, while the loop runs. -/
def demoOps : List Op :=
  [.submit 7 true, .submit 8 true, .complete 1 20, .signal, .event, .complete 0 10, .fetch 1, .deliver, .submit 8 true, .done, .signal, .event, .fetch 1,
   .deliver, .done]

example : (runs {} demoOps).map (fun s => (s.told, s.completed, s.inflight, s.counter)) =
    some ([(1, 20), (0, 10)], [(1, 20), (0, 10)], [(2, 8)], 0) := by rfl

def ruleB (s : St) : Op → Bool
  | .submit file _ => s.accepted.all (fun p => p.2 != file || (s.told.map Prod.fst).contains p.1)
  | _ => true

def ruleRun (s : St) : List Op → Option St
  | [] => some s
  | op :: l => if ruleB s op then match step s op with
    | .ok s' => ruleRun s' l
    | _ => none
  else none

theorem hist_of_ruleRun {s t : St} {l : List Op} (h : Hist s) (hr : ruleRun s l = some t) : Hist t := by
  induction l generalizing s with
  | nil => simp only [ruleRun, Option.some.injEq] at hr; subst hr; exact h
  | cons op l ih =>
    unfold ruleRun at hr
    split at hr
    · rename_i hb
      split at hr
      · rename_i he
        refine ih (.step op h ?_ he) hr
        cases op with
        | submit file ok =>
          intro id hm
          simp only [ruleB, List.all_eq_true] at hb
          have := hb _ hm
          simpa using this
        | _ => exact trivial
      · cases hr
    · cases hr

example : ∃ s, Hist s ∧ s.told ≠ s.completed ∧ s.loop = some 1 := by
  refine have e : ruleRun {} (demoOps.take 6) = some _ := rfl; ⟨_, hist_of_ruleRun .init e, by decide, rfl⟩

example : ∃ s, Hist s ∧ s.told = [(1, 20), (0, 10)] := by
  refine have e : ruleRun {} demoOps = some _ := rfl; ⟨_, hist_of_ruleRun .init e, rfl⟩

/-! ## Finding -/

/-- Two operations at once on one file (say a read and a write by two fibers): both completions run the callback of the second, so the
first fiber is never woken and the second one twice. -/
theorem aio_two_operations_on_a_file :
    (runs {} [.submit 7 true, .submit 7 true, .complete 0 10, .complete 0 20, .signal, .signal, .event, .fetch 2, .deliver, .deliver, .done]).map
      (fun s => (s.completed, s.told)) = some ([(0, 10), (1, 20)], [(1, 10), (1, 20)]) := by rfl

end Kasync.AioLoop
